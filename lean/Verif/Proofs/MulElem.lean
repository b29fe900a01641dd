import Verif.Spec.MulElem
import Verif.Proofs.AddMul
import Verif.Proofs.Resize
/-! Helper lemmas for the elementwise product. -/
namespace Imgaug.MulElem
open Imgaug Imgaug.Dtypes Imgaug.Resize
open Imgaug.AddMul (promote gated saturate fitted targetMul)

theorem pick_lt (b a i : Nat) (h : b = a) (hi' : i < a) : pick b i = i := by
  unfold pick; split <;> omega

theorem fits_self (a b : Nat) (h : b = a) : fits a b = true := by simp [fits, h]

theorem spread_some (img m : Im) (c : Nat) (hc : img.c = some c) (hm : Matches img m) :
    ∃ f, spread img m = some f ∧ ∀ y x k, In img y x k → f y x k = factor m y x k := by
  obtain ⟨h1, h2, h3⟩ := hm
  obtain ⟨c', hc'⟩ : ∃ c', m.c = some c' := by
    rcases h3 with h | h
    · exact ⟨1, h⟩
    · exact ⟨c, by rw [h, hc]⟩
  have hf : fits c c' = true := by
    rw [hc, hc'] at h3
    simp only [Option.some.injEq] at h3
    unfold fits
    rcases h3 with rfl | rfl <;> simp
  have hs : spread img m = some (fun y x k => m.px (pick m.h y) (pick m.w x) (pick c' k)) := by
    simp only [spread, hc, hc', fits_self _ _ h1, fits_self _ _ h2, hf, Bool.and_self, if_true]
  refine ⟨_, hs, ?_⟩
  rintro y x k ⟨a1, a2, a3⟩
  rw [pick_lt _ _ _ h1 a1, pick_lt _ _ _ h2 a2]
  simp only [factor, hc', Option.some.injEq, pick]
  split <;> rfl

theorem spread_two (img m : Im) (hc : img.c = none) (hm : m.c = none) (h1 : m.h = img.h) (h2 : m.w = img.w) :
    ∃ f, spread img m = some f ∧ ∀ y x k, In img y x k → f y x k = m.px y x k := by
  refine ⟨fun y x k => m.px (pick m.h y) (pick m.w x) k, ?_, ?_⟩
  · simp only [spread, hc, hm, fits_self _ _ h1, fits_self _ _ h2, Bool.and_self, if_true]
  · rintro y x k ⟨a1, a2, a3⟩
    simp only
    rw [pick_lt _ _ _ h1 a1, pick_lt _ _ _ h2 a2]

theorem tiled_matches (img m : Im) (c : Nat) (hc : img.c = some c) (hm : Matches img m) : Matches img (tiled c m) := by
  obtain ⟨h1, h2, h3⟩ := hm
  unfold tiled
  split
  · exact ⟨h1, h2, Or.inr hc.symm⟩
  · exact ⟨h1, h2, h3⟩

theorem tiled_factor (c : Nat) (m : Im) (y x k : Nat) : factor (tiled c m) y x k = factor m y x k := by
  unfold tiled factor
  split_ifs <;> rfl

theorem prepared_matches (img m : Im) (hm : Matches img m) : Matches img (prepared img m) := by
  obtain ⟨h1, h2, h3⟩ := hm
  refine ⟨h1, h2, ?_⟩
  simp only [prepared]
  split_ifs with h
  · exact Or.inl rfl
  · exact h3

theorem prepared_factor (img m : Im) (hm : m.c ≠ none) (y x k : Nat) :
    factor (prepared img m) y x k = converted m.dt (factor m y x k) := by
  have e : (prepared img m).c = m.c := by simp [prepared, hm]
  unfold factor
  rw [e]
  split_ifs <;> simp [prepared, hm]

/-- Multipliers that the conversion for uint8 images keeps. -/
theorem converted_id (d : DType) (v : ℚ) (hv : Holds d v)
    (h : d.kind = .f ∨ d.kind = .b ∨ (d.kind = .i ∧ -2147483648 ≤ v ∧ v ≤ 2147483647) ∨ (d.kind = .u ∧ v ≤ 255)) : converted d v = v := by
  rcases h with h | h | ⟨h, a, b⟩ | ⟨h, b⟩
  · simp [converted, h]
  · simp [converted, h]
  · obtain ⟨n, rfl⟩ := hv.2.2 (by rw [h]; decide)
    simp only [converted, h]
    refine astype_int _ n ?_ ?_
    · have : lo ⟨.i, 4⟩ = -2147483648 := by decide +kernel
      rw [this]; exact_mod_cast a
    · have : hi ⟨.i, 4⟩ = 2147483647 := by decide +kernel
      rw [this]; exact_mod_cast b
  · obtain ⟨n, rfl⟩ := hv.2.2 (by rw [h]; decide)
    simp only [converted, h]
    refine astype_int _ n ?_ ?_
    · have e : lo d = 0 := by simp [lo, h]
      have e' : lo ⟨.u, 1⟩ = 0 := by decide +kernel
      have := hv.1
      rw [e] at this
      rw [e']; exact_mod_cast this
    · have : hi ⟨.u, 1⟩ = 255 := by decide +kernel
      rw [this]; exact_mod_cast b

theorem target_eq (d vd : DType) : target d vd = targetMul d vd := rfl

/-- One component of the product for the other dtypes. -/
theorem component_eq (d vd : DType) (hd : d ∈ gated) (hv : vd ∈ all) (hne : d ≠ ⟨.u, 1⟩) (hb : vd.kind ≠ .b) (hcl : clippable vd = true)
    (v x : ℚ) (hvd : Holds d v) (hx : Holds vd x) (hx1 : (lo (target d vd) : ℚ) ≤ x) (hx2 : x ≤ hi (target d vd))
    (hr1 : (lo (promote d (target d vd)) : ℚ) ≤ v * x) (hr2 : v * x ≤ hi (promote d (target d vd))) :
    component d (target d vd) v x = fitted d (v * x) := by
  have hT : targetMul d vd ∈ all := (AddMul.mul_target_mem d vd hd hv).mpr (fun h => hb h.1)
  have hn := AddMul.nice_mul d vd hd hv hne hT hcl
  have := AddMul.op_component (· * ·) (fun m n => ⟨m * n, by push_cast; rfl⟩) d (target d vd) (AddMul.gated_all d hd) hn v x hvd hx1 hx2
    (fun h => hx.2.2 h) hr1 hr2
  rw [component, this]
  rfl

/-- Products of numbers in two ranges. -/
theorem mul_bounds (a b c d v x : ℚ) (h1 : a ≤ v) (h2 : v ≤ b) (h3 : c ≤ x) (h4 : x ≤ d) (L H : ℚ)
    (p1 : L ≤ a * c) (p2 : L ≤ a * d) (p3 : L ≤ b * c) (p4 : L ≤ b * d) (q1 : a * c ≤ H) (q2 : a * d ≤ H) (q3 : b * c ≤ H) (q4 : b * d ≤ H) :
    L ≤ v * x ∧ v * x ≤ H := by
  -- linear in `v` for fixed `x`, so between the values at the ends
  have lin : ∀ M, a * x ≤ M → b * x ≤ M → v * x ≤ M := by
    intro M ha hb
    rcases le_total 0 x with h | h
    · exact le_trans (mul_le_mul_of_nonneg_right h2 h) hb
    · exact le_trans (mul_le_mul_of_nonpos_right h1 h) ha
  have lin' : ∀ M, M ≤ a * x → M ≤ b * x → M ≤ v * x := by
    intro M ha hb
    rcases le_total 0 x with h | h
    · exact le_trans ha (mul_le_mul_of_nonneg_right h1 h)
    · exact le_trans hb (mul_le_mul_of_nonpos_right h2 h)
  have e1 : ∀ (t M : ℚ), t * c ≤ M → t * d ≤ M → t * x ≤ M := by
    intro t M ha hb
    rcases le_total 0 t with h | h
    · exact le_trans (mul_le_mul_of_nonneg_left h4 h) hb
    · exact le_trans (mul_le_mul_of_nonpos_left h3 h) ha
  have e2 : ∀ (t M : ℚ), M ≤ t * c → M ≤ t * d → M ≤ t * x := by
    intro t M ha hb
    rcases le_total 0 t with h | h
    · exact le_trans ha (mul_le_mul_of_nonneg_left h3 h)
    · exact le_trans hb (mul_le_mul_of_nonpos_left h4 h)
  exact ⟨lin' L (e2 a L p1 p2) (e2 b L p3 p4), lin H (e1 a H q1 q2) (e1 b H q3 q4)⟩

/-- The promoted dtype has room for all products, unless image and multipliers are both signed or both unsigned integers, or floats. -/
theorem room (d vd : DType) (hd : d ∈ gated) (hv : vd ∈ all) (hne : d ≠ ⟨.u, 1⟩) (hb : vd.kind ≠ .b) (hk : d.kind ≠ vd.kind) (hf : d.kind ≠ .f)
    (hf2 : vd.kind ≠ .f) :
    lo (promote d (target d vd)) ≤ lo d * lo (target d vd) ∧ lo (promote d (target d vd)) ≤ lo d * hi (target d vd) ∧
    lo (promote d (target d vd)) ≤ hi d * lo (target d vd) ∧ lo (promote d (target d vd)) ≤ hi d * hi (target d vd) ∧
    lo d * lo (target d vd) ≤ hi (promote d (target d vd)) ∧ lo d * hi (target d vd) ≤ hi (promote d (target d vd)) ∧
    hi d * lo (target d vd) ≤ hi (promote d (target d vd)) ∧ hi d * hi (target d vd) ≤ hi (promote d (target d vd)) := by
  revert hf2 hf hk hb hne; revert hv; revert vd; revert hd; revert d; decide +kernel

/-- The promoted dtype can hold what the image can hold, and with float multipliers all that float16 can hold. -/
theorem wide (d vd : DType) (hd : d ∈ gated) (hv : vd ∈ all) (hne : d ≠ ⟨.u, 1⟩) (hb : vd.kind ≠ .b) :
    lo (promote d (target d vd)) ≤ lo d ∧ hi d ≤ hi (promote d (target d vd)) ∧
    (vd.kind = .f → lo (promote d (target d vd)) ≤ -65504 ∧ 65504 ≤ hi (promote d (target d vd))) := by
  revert hb hne; revert hv; revert vd; revert hd; revert d; decide +kernel

end Imgaug.MulElem
