import Verif.Model.KpImage
import Verif.Proofs.Num
/-! Helper lemmas for Props/KpImage.lean. -/
namespace Imgaug.Props
open Imgaug

theorem argmax_eq (n : Nat) (f : Nat → Nat) (j : Nat) (hj : j < n) (hmax : ∀ i < n, f i ≤ f j) (hfirst : ∀ i < j, f i < f j) :
    argmaxFirst ((List.range n).map f) = some j := by
  have hm : ((List.range n).map f).max? = some (f j) := by
    rw [List.max?_eq_some_iff]
    refine ⟨List.mem_map.2 ⟨j, List.mem_range.2 hj, rfl⟩, ?_⟩
    intro b hb
    obtain ⟨i, hi, rfl⟩ := List.mem_map.1 hb
    exact hmax i (List.mem_range.1 hi)
  unfold argmaxFirst
  rw [hm]
  simp only [Option.map_some, Option.some.injEq]
  rw [List.findIdx_eq (by simpa using hj)]
  simp
  intro i hi
  exact (hfirst i hi).ne

theorem flat_index {h w y x : Nat} (hy : y < h) (hx : x < w) :
    y * w + x < h * w ∧ (y * w + x) / w = y ∧ (y * w + x) % w = x := by
  have hw : 0 < w := by omega
  refine ⟨?_, ?_, ?_⟩
  · calc y * w + x < y * w + w := by omega
      _ = (y + 1) * w := by ring
      _ ≤ h * w := Nat.mul_le_mul_right _ hy
  · rw [Nat.mul_comm, Nat.mul_add_div hw, Nat.div_eq_of_lt hx, Nat.add_zero]
  · rw [Nat.mul_comm, Nat.mul_add_mod, Nat.mod_eq_of_lt hx]

/-- A channel whose largest value appears first (in reading order) at `(y, x)` is read as the centre of that pixel. -/
theorem fromChannel_eq {h w : Nat} (t : Nat) (img : Nat → Nat → Nat) (y x : Nat) (hy : y < h) (hx : x < w)
    (hmax : ∀ v < h, ∀ u < w, img v u ≤ img y x)
    (hfirst : ∀ v < h, ∀ u < w, v < y ∨ (v = y ∧ u < x) → img v u < img y x) (ht : t ≤ img y x) :
    fromChannel h w t img = some (some ⟨(x : ℚ) + 1 / 2, (y : ℚ) + 1 / 2⟩) := by
  obtain ⟨h1, h2, h3⟩ := flat_index hy hx
  have hw : 0 < w := by omega
  have dv : ∀ i, i < h * w → i / w < h := fun i hi => Nat.div_lt_of_lt_mul (by rwa [Nat.mul_comm])
  have := argmax_eq (h * w) (fun i => img (i / w) (i % w)) (y * w + x) h1
    (by intro i hi; simp only [h2, h3]; exact hmax _ (dv i hi) _ (Nat.mod_lt _ hw))
    (by
      intro i hi
      simp only [h2, h3]
      refine hfirst _ (dv i (by omega)) _ (Nat.mod_lt _ hw) ?_
      have e := Nat.div_add_mod i w
      by_contra hc
      push Not at hc
      obtain ⟨c1, c2⟩ := hc
      rcases Nat.lt_or_ge y (i / w) with hlt | hge
      · have : (y + 1) * w ≤ i / w * w := Nat.mul_le_mul_right _ hlt
        have e2 : i / w * w = w * (i / w) := Nat.mul_comm _ _
        have e3 : (y + 1) * w = y * w + w := by ring
        omega
      · have hyy : i / w = y := by omega
        have := c2 hyy
        rw [hyy, Nat.mul_comm] at e
        omega)
  unfold fromChannel flatten
  rw [this]
  simp only [Option.map_some, h2, h3]
  rw [if_pos ht]

theorem argmax_zero (n : Nat) (hn : 0 < n) (f : Nat → Nat) (hz : ∀ i < n, f i = 0) :
    argmaxFirst ((List.range n).map f) = some 0 :=
  argmax_eq n f 0 hn (by intro i hi; rw [hz i hi]; omega) (by intro i hi; omega)

theorem argmin_spec (n : Nat) (hn : 0 < n) (f : Nat → ℚ) :
    ∃ j < n, argminFirst ((List.range n).map f) = some j ∧ (∀ i < n, f j ≤ f i) ∧ ∀ i < j, f j < f i := by
  have hne : (List.range n).map f ≠ [] := by simp; omega
  obtain ⟨m, hm⟩ := Option.ne_none_iff_exists'.1 (mt List.min?_eq_none_iff.1 hne)
  obtain ⟨hmem, hle⟩ := List.min?_eq_some_iff.1 hm
  have hj : ((List.range n).map f).findIdx (· == m) < ((List.range n).map f).length := by
    rw [List.findIdx_lt_length]; exact ⟨m, hmem, by simp⟩
  have hjn : ((List.range n).map f).findIdx (· == m) < n := by simpa using hj
  have hfj : f (((List.range n).map f).findIdx (· == m)) = m := by
    have := List.findIdx_getElem (p := fun x => x == m) (xs := (List.range n).map f) (w := hj)
    simpa using this
  refine ⟨_, hjn, by unfold argminFirst; rw [hm]; rfl, ?_, ?_⟩
  · intro i hi; rw [hfj]; exact hle _ (List.mem_map.2 ⟨i, List.mem_range.2 hi, rfl⟩)
  · intro i hi
    have hne := List.not_of_lt_findIdx hi
    simp at hne
    rw [hfj]
    exact lt_of_le_of_ne (hle _ (List.mem_map.2 ⟨i, List.mem_range.2 (by omega), rfl⟩)) (Ne.symm hne)

end Imgaug.Props
