import Verif.Spec.Cartoon
import Verif.Proofs.Num
import Verif.Proofs.Dtypes
import Mathlib.Tactic.NormNum
import Mathlib.Tactic.Linarith
import Mathlib.Order.Interval.Finset.Nat
import Mathlib.Algebra.BigOperators.Group.Finset.Piecewise
import Mathlib.Data.Nat.Cast.Basic
import Mathlib.Algebra.BigOperators.Ring.Finset
import Mathlib.Algebra.Order.BigOperators.Group.Finset
/-! Lemmas for C125. -/
namespace Imgaug.Cartoon
open Imgaug Imgaug.Props

theorem mirror_inside {n : Nat} {i : Int} (h0 : 0 ≤ i) (h1 : i < n) : mirror n i = i.toNat := by
  unfold mirror
  by_cases hn : n ≤ 1
  · rw [if_pos hn]; omega
  · rw [if_neg hn]
    have : i % (2 * ((n : Int) - 1)) = i := Int.emod_eq_of_lt h0 (by omega)
    simp only [this, if_pos h1]

theorem mirror_lt {n : Nat} (hn : 0 < n) (i : Int) : mirror n i < n := by
  unfold mirror
  by_cases h1 : n ≤ 1
  · rw [if_pos h1]; omega
  · rw [if_neg h1]
    have a := Int.emod_nonneg i (show (2 * ((n : Int) - 1)) ≠ 0 by omega)
    have b := Int.emod_lt_of_pos i (show 0 < (2 * ((n : Int) - 1)) by omega)
    simp only
    split_ifs <;> omega

theorem counts_inner {h w r y x : Nat} {f : Gray} (hf : Edges f) (hi : Inner h w r y x) : counts h w (2 * r + 1) f y x = around f r y x := by
  obtain ⟨h1, h2, h3, h4⟩ := hi
  have half : (2 * r + 1) / 2 = r := by omega
  unfold counts around
  rw [half, Finset.card_filter, Finset.sum_product]
  rw [Nat.cast_sum]
  simp only [Nat.cast_sum, Nat.cast_ite, Nat.cast_one, Nat.cast_zero]
  have sh : ∀ (a : Nat), r ≤ a → ∀ F : Nat → ℚ, ∑ p ∈ Finset.Icc (a - r) (a + r), F p = ∑ i ∈ Finset.range (2 * r + 1), F (a + i - r) := by
    intro a ha F
    refine (Finset.sum_bij (fun i _ => a + i - r) ?_ ?_ ?_ ?_).symm
    · intro i hi; rw [Finset.mem_range] at hi; rw [Finset.mem_Icc]; omega
    · intro i hi j hj e; simp only [Finset.mem_range] at hi hj; omega
    · intro b hb; rw [Finset.mem_Icc] at hb; exact ⟨b + r - a, by rw [Finset.mem_range]; omega, by omega⟩
    · intro i hi; rfl
  rw [sh y h1]
  refine Finset.sum_congr rfl (fun i hi => ?_)
  rw [sh x h3]
  refine Finset.sum_congr rfl (fun j hj => ?_)
  rw [Finset.mem_range] at hi hj
  rw [mirror_inside (by omega) (by omega), mirror_inside (by omega) (by omega)]
  have e1 : ((y : Int) + i - r).toNat = y + i - r := by omega
  have e2 : ((x : Int) + j - r).toNat = x + j - r := by omega
  rw [e1, e2]
  rcases hf (y + i - r) (x + j - r) with e | e <;> simp [e]

theorem binary_edges (f : Gray) : Edges (binary f) := by
  intro y x; unfold binary; split_ifs <;> simp

theorem suppress_edges {h w size : Nat} {t : ℚ} {inv : Bool} {f : Gray} (hf : Edges f) : Edges (suppress h w size t inv f) := by
  intro y x
  unfold suppress
  split_ifs
  · exact .inl rfl
  · exact hf y x
  · exact .inl rfl
  · exact hf y x

theorem edges_edges (h w : Nat) (s : Bool) (raw : Gray) : Edges (edges h w s raw) := by
  unfold edges
  split_ifs
  · exact suppress_edges (suppress_edges (binary_edges raw))
  · exact binary_edges raw

theorem blend_px {f : Rgb} {e : Gray} (hf : Bytes f) (he : Edges e) (y x k : Nat) : blend f e y x k = if e y x = 255 then 0 else f y x k := by
  unfold blend
  obtain ⟨b0, b1⟩ := hf y x k
  rcases he y x with h | h
  · have : (f y x k : ℚ) * (1 - (e y x : ℚ) / 255) = ((f y x k : Int) : ℚ) := by rw [h]; norm_num
    rw [this, npRound_int, if_neg (by omega)]
    unfold clipI
    omega
  · have : (f y x k : ℚ) * (1 - (e y x : ℚ) / 255) = ((0 : Int) : ℚ) := by rw [h]; norm_num
    rw [this, npRound_int, if_pos h]
    rfl

theorem segment_bytes {L : Lib} (hL : L.Sane) (k seg : ℚ) (h w : Nat) (f : Rgb) (hf : Bytes f) : Bytes (segment L k seg h w f) := by
  have hb : Bytes (blur3 L (blurSize k) h w f) := by
    unfold blur3
    split_ifs
    · exact hf
    · exact hL.median _ _ _ _ hf
  unfold segment
  simp only
  split_ifs
  · exact hb
  · exact hL.meanShift _ _ _ _ _ hb

theorem blend_bytes (f : Rgb) (e : Gray) : Bytes (blend f e) := by
  intro y x k
  unfold blend clipI
  omega

theorem sat_byte (v : Int) (q : ℚ) : 0 ≤ sat v q ∧ sat v q ≤ 255 := by
  unfold sat pyInt
  have h0 : (0 : ℚ) ≤ max 0 (min 255 (v * q)) := le_max_left _ _
  have h1 : max 0 (min 255 (v * q)) ≤ (255 : ℚ) := max_le (by norm_num) (min_le_left _ _)
  rw [if_neg (not_lt.2 h0)]
  refine ⟨Int.floor_nonneg.2 h0, ?_⟩
  have : (⌊max 0 (min 255 (v * q))⌋ : ℚ) ≤ 255 := le_trans (Int.floor_le _) h1
  exact_mod_cast this

end Imgaug.Cartoon
