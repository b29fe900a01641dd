import Verif.Props.Interp
/-! Helper lemmas for Props/Interp2.lean. -/
namespace Imgaug.Props
open Imgaug Imgaug.Spec

theorem euclid_lerp (a b : Pt) (s t : ℚ) : euclid (lerp a b s) (lerp a b t) = |((t - s : ℚ) : ℝ)| * euclid a b := by
  unfold euclid lerp
  rw [← Real.sqrt_sq_eq_abs, ← Real.sqrt_mul (sq_nonneg _)]
  congr 1
  push_cast
  ring

/-- The number of inserted points keeps the distance of neighbours below twice the maximum. -/
theorem steps_gap (d mx : ℝ) (hd : 0 ≤ d) (hm : 0 < mx) :
    d / (((truncInt (d / mx - 1)).toNat : ℝ) + 1) < 2 * mx := by
  have hq : 0 ≤ d / mx := div_nonneg hd hm.le
  have hdq : d = d / mx * mx := by field_simp
  generalize d / mx = q at hq hdq
  unfold truncInt
  split
  · rename_i h
    have h0 : 0 ≤ ⌊-(q - 1)⌋ := by rw [Int.le_floor]; push_cast; linarith
    rw [show (-⌊-(q - 1)⌋).toNat = 0 by omega]
    rw [hdq]; push_cast; rw [zero_add, div_one]
    nlinarith
  · rename_i h
    rw [Int.floor_sub_one]
    have hq1 : 1 ≤ q := by linarith
    have h1 : 1 ≤ ⌊q⌋ := by rw [Int.le_floor]; exact_mod_cast hq1
    have h2 : (1 : ℝ) ≤ ⌊q⌋ := by exact_mod_cast h1
    have h3 := Int.lt_floor_add_one q
    have h4 : (((⌊q⌋ - 1).toNat : ℕ) : ℝ) = ⌊q⌋ - 1 := by
      have : (((⌊q⌋ - 1).toNat : ℕ) : ℤ) = ⌊q⌋ - 1 := by omega
      exact_mod_cast this
    rw [h4, sub_add_cancel, div_lt_iff₀ (by linarith), hdq]
    nlinarith

theorem pair_eq_toNat (a b : Pt) (n : Int) : interpolatePointPair a b n = interpolatePointPair a b (n.toNat : Int) := by
  unfold interpolatePointPair
  by_cases h : n < 1
  · rw [if_pos h, if_pos (by omega)]
  · have : ((n.toNat : Int)) = n := by omega
    rw [this]

theorem pair_isChain (a b : Pt) (m : Nat) (D : ℝ) (h : euclid a b / ((m : ℝ) + 1) < D) :
    List.IsChain (fun p q => euclid p q < D) (a :: interpolatePointPair a b m ++ [b]) := by
  have e : a :: interpolatePointPair a b m ++ [b] = (List.range (m + 2)).map (fun (i : Nat) => lerp a b ((i : ℚ) / ((m : ℚ) + 1))) := by
    apply List.ext_getElem?
    intro i
    rw [List.getElem?_map]
    have hl : (a :: interpolatePointPair a b m).length = m + 1 := by simp [pair_length]
    rcases Nat.lt_trichotomy i (m + 1) with h1 | h1 | h1
    · rw [List.getElem?_append_left (by omega), pair_get _ _ _ _ (by omega), List.getElem?_range (by omega)]; rfl
    · subst h1
      rw [List.getElem?_append_right (by omega), hl, Nat.sub_self, List.getElem?_range (by omega)]
      have : ((m + 1 : ℕ) : ℚ) / ((m : ℚ) + 1) = 1 := by push_cast; exact div_self (by positivity)
      simp only [List.getElem?_cons_zero, Option.map_some, lerp, this]; simp
    · rw [List.getElem?_eq_none (by simp [pair_length]; omega), List.getElem?_eq_none (by simp; omega)]; rfl
  rw [e, List.isChain_iff_getElem]
  intro i hi
  simp only [List.getElem_map, List.getElem_range, euclid_lerp]
  have : (((((i + 1 : ℕ) : ℚ) / ((m : ℚ) + 1) - (i : ℚ) / ((m : ℚ) + 1) : ℚ)) : ℝ) = 1 / ((m : ℝ) + 1) := by
    push_cast; field_simp; ring
  rw [this, abs_of_pos (by positivity)]
  rw [one_div, ← div_eq_inv_mul]
  exact h

theorem edges_isChain {R : Pt → Pt → Prop} (f : Pt → Pt → List Pt)
    (hf : ∀ a b, List.IsChain R (a :: f a b ++ [b])) (l : List Pt) :
    List.IsChain R (interpolateEdges f l ++ l.getLast?.toList) := by
  induction l with
  | nil => simp [interpolateEdges]
  | cons a l ih =>
    cases l with
    | nil => simp [interpolateEdges]
    | cons b l =>
      simp only [interpolateEdges, List.append_assoc]
      have hb : ∃ t, interpolateEdges f (b :: l) ++ (a :: b :: l).getLast?.toList = b :: t := by
        cases l with
        | nil => exact ⟨[], by simp [interpolateEdges]⟩
        | cons c l => exact ⟨f b c ++ interpolateEdges f (c :: l) ++ (a :: b :: c :: l).getLast?.toList, by simp only [interpolateEdges, List.cons_append]⟩
      have hlast : (a :: b :: l).getLast? = (b :: l).getLast? := by simp [List.getLast?_cons]
      obtain ⟨t, ht⟩ := hb
      rw [hlast] at ht ⊢
      rw [ht] at ih ⊢
      exact List.isChain_split.2 ⟨hf a b, ih⟩

theorem edges_sublist (f : Pt → Pt → List Pt) (l : List Pt) : l.dropLast.Sublist (interpolateEdges f l) := by
  induction l with
  | nil => simp
  | cons a l ih =>
    cases l with
    | nil => simp
    | cons b l =>
      simp only [interpolateEdges, List.dropLast_cons_cons, List.cons_append]
      exact List.Sublist.cons_cons a (ih.trans (List.sublist_append_right _ _))

end Imgaug.Props
