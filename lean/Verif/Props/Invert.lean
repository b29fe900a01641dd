import Verif.Proofs.Invert
/-! Inversion of images. -/
namespace Imgaug.Invert
open Imgaug Imgaug.Dtypes

/-- C65: the result of a call depends on its arguments only, whatever calls came before it and filled the shared cache of tables. -/
theorem invert_history (before : List (DType × Args × List Nat × List ℚ)) :
    calls [] before = before.map (fun c => (invert [] c.1 c.2.1 c.2.2.1 c.2.2.2).1) := by
  suffices h : ∀ c : Cache, Good c → calls c before = before.map (fun c => (invert [] c.1 c.2.1 c.2.2.1 c.2.2.2).1) from
    h [] (by intro p hp; simp at hp)
  induction before with
  | nil => intro c _; rfl
  | cons x l ih =>
    intro c hc
    obtain ⟨d, a, shape, vals⟩ := x
    have hg := invert_good c hc d a shape vals
    rw [calls, ih _ hg.2, hg.1]
    rfl

/-- C65: a nonempty image is accepted exactly if the range is acceptable for its dtype; an empty one is returned as it is. -/
theorem invert_accepts (d : DType) (hd : d ∈ all) (a : Args) (shape : List Nat) (vals : List ℚ) (hv : ∀ v ∈ vals, Holds d v) :
    (vals = [] → (invert [] d a shape vals).1 = some []) ∧
    (vals ≠ [] → ((invert [] d a shape vals).1.isSome = true ↔ Acceptable d a)) := by
  constructor
  · rintro rfl; rfl
  · intro hne
    rw [invert, if_neg (by rwa [List.length_eq_zero_iff])]
    rw [← accepted_iff d hd a]
    simp only
    by_cases hacc : accepted d (lower d a) (upper d a) = true
    · have ha := (accepted_iff d hd a).mp hacc
      rw [show (accepted d (a.minV.getD (lo d)) (a.maxV.getD (hi d))) = true from hacc]
      simp only [hacc, if_true, iff_true]
      split
      · rename_i hu
        subst hu
        rw [invertUint8]
        split
        · rfl
        · have hg := getTable_good [] (by intro p hp; simp at hp) (a.minV.getD (lo ⟨.u, 1⟩)) (a.maxV.getD (hi ⟨.u, 1⟩)) a.threshold a.above
          simp only [hg.1]
          rw [lookup_all _ _ _ _ (fun v => ((table (a.minV.getD (lo ⟨.u, 1⟩)) (a.maxV.getD (hi ⟨.u, 1⟩)) a.threshold a.above)[(pyInt v).toNat]?).getD 0) vals hv]
          · rfl
          · intro n hn _
            have hl := table_length (a.minV.getD (lo ⟨.u, 1⟩)) (a.maxV.getD (hi ⟨.u, 1⟩)) a.threshold a.above
            have e : (pyInt (n : ℚ)).toNat = n := by
              have := pyInt_intCast (n : Int)
              push_cast at this
              rw [this]; rfl
            simp only [e]
            rw [List.getElem?_eq_getElem (by omega)]
            rfl
      · cases a.threshold with
        | none =>
          simp only
          rw [mapM_some (g := fun v => (invertOther d (lower d a) (upper d a) v).getD 0)]
          · rfl
          · intro v _; exact other_some d hd a ha v
        | some t =>
          simp only
          rw [mapM_some (g := fun v => if (if a.above then decide (v ≥ t) else decide (v < t)) then (invertOther d (lower d a) (upper d a) v).getD 0 else v)]
          · rfl
          · intro v _
            have := other_some d hd a ha v
            simp only [lower, upper] at this ⊢
            rw [this]; rfl
    · have hacc' : ¬ accepted d (a.minV.getD (lo d)) (a.maxV.getD (hi d)) = true := hacc
      simp [hacc, hacc']

/-- C65: for all dtypes but floats, components inside of the range are mirrored at its middle. Missing for floats: see `invert_mirror_float`. -/
theorem invert_mirror (d : DType) (hd : d ∈ all) (hk : d.kind ≠ .f) (a : Args) (hf : Fits d a) (ha : Acceptable d a) (shape : List Nat)
    (ht : a.threshold = none) (vals : List ℚ) (hv : ∀ v ∈ vals, Holds d v) (hr : ∀ v ∈ vals, lower d a ≤ v ∧ v ≤ upper d a) :
    (invert [] d a shape vals).1 = some (vals.map (fun v => lower d a + upper d a - v)) := by
  rw [invert_none [] (by intro p hp; simp at hp) d hd a hf ha shape ht vals hv]
  refine congrArg some (List.map_congr_left ?_)
  intro v hm
  rcases inv1_mid d hd a ha v (hv v hm) (hr v hm).1 (hr v hm).2 with h | h
  · exact h
  · exact absurd h.1 hk

/-- C65: for floats, components inside of the range are mirrored at its middle, up to `1e-8`. -/
theorem invert_mirror_float (d : DType) (hd : d ∈ all) (a : Args) (hf : Fits d a) (ha : Acceptable d a) (shape : List Nat)
    (ht : a.threshold = none) (vals : List ℚ) (hv : ∀ v ∈ vals, Holds d v) (hr : ∀ v ∈ vals, lower d a ≤ v ∧ v ≤ upper d a) :
    ∃ r, (invert [] d a shape vals).1 = some r ∧
      List.Forall₂ (fun v w => |w - (lower d a + upper d a - v)| ≤ 1 / 100000000) vals r := by
  refine ⟨_, invert_none [] (by intro p hp; simp at hp) d hd a hf ha shape ht vals hv, ?_⟩
  rw [List.forall₂_map_right_iff]
  apply List.forall₂_same.mpr
  intro v hm
  rcases inv1_mid d hd a ha v (hv v hm) (hr v hm).1 (hr v hm).2 with h | ⟨_, h1, h2⟩
  · rw [h, mirror, sub_self, abs_zero]; norm_num
  · rw [h2, show -v - (lower d a + upper d a - v) = -(lower d a + upper d a) by ring, abs_neg]; exact h1

/-- C65: with a symmetric range of floats which is not quite symmetric the mirroring is not exact. -/
theorem invert_mirror_float_not_exact :
    ¬ ∀ (a : Args) (v : ℚ), Acceptable ⟨.f, 4⟩ a → a.threshold = none → Holds ⟨.f, 4⟩ v → lower ⟨.f, 4⟩ a ≤ v → v ≤ upper ⟨.f, 4⟩ a →
      (invert [] ⟨.f, 4⟩ a [1] [v]).1 = some [lower ⟨.f, 4⟩ a + upper ⟨.f, 4⟩ a - v] := by
  intro h
  have h1 := h ⟨some 0, some (1 / 200000000), none, true⟩ 0 (by
    unfold Acceptable lower upper; decide +kernel) rfl (by unfold Holds; refine ⟨by decide +kernel, by decide +kernel, ?_⟩; intro h; exact absurd rfl h)
    (by decide +kernel) (by decide +kernel)
  revert h1
  decide +kernel

/-- C65: inverting twice gives back components that are inside of the range, for every dtype. -/
theorem invert_twice (d : DType) (hd : d ∈ all) (a : Args) (hf : Fits d a) (ha : Acceptable d a) (shape : List Nat)
    (ht : a.threshold = none) (vals : List ℚ) (hv : ∀ v ∈ vals, Holds d v) (hr : ∀ v ∈ vals, lower d a ≤ v ∧ v ≤ upper d a) :
    ∃ r, (invert [] d a shape vals).1 = some r ∧ (∀ w ∈ r, Holds d w) ∧ (invert [] d a shape r).1 = some vals := by
  have g : Good [] := by intro p hp; simp at hp
  have hw : ∀ w ∈ vals.map (inv1 d (lower d a) (upper d a)), Holds d w := by
    intro w hw
    obtain ⟨v, hm, rfl⟩ := List.mem_map.mp hw
    exact inv1_holds d hd a hf ha v (hv v hm) (hr v hm).1 (hr v hm).2
  refine ⟨_, invert_none [] g d hd a hf ha shape ht vals hv, hw, ?_⟩
  rw [invert_none [] g d hd a hf ha shape ht _ hw, List.map_map]
  refine congrArg some ?_
  conv_rhs => rw [← List.map_id vals]
  refine List.map_congr_left ?_
  intro v hm
  have hv1 := hv v hm
  have hr1 := hr v hm
  have hw1 := hw _ (List.mem_map_of_mem hm)
  simp only [Function.comp_apply, id_eq]
  rcases inv1_mid d hd a ha v hv1 hr1.1 hr1.2 with h | ⟨hk, h1, h2⟩
  · have hr2 : lower d a ≤ inv1 d (lower d a) (upper d a) v ∧ inv1 d (lower d a) (upper d a) v ≤ upper d a := by
      rw [h, mirror]; constructor <;> linarith [hr1.1, hr1.2]
    rcases inv1_mid d hd a ha _ hw1 hr2.1 hr2.2 with h' | ⟨hk, h1, h2⟩
    · rw [h', h, mirror, mirror]; ring
    · have e : inv1 d (lower d a) (upper d a) v = -v := by
        rw [inv1, if_neg (by rintro rfl; simp at hk), invertOther, hk]
        simp only
        rw [if_pos (by rw [show upper d a - -1 * lower d a = lower d a + upper d a by ring]; exact h1)]
        simp
      rw [h2, e]; ring
  · rw [h2]
    rw [inv1, if_neg (by rintro rfl; simp at hk), invertOther, hk]
    simp only
    rw [if_pos (by rw [show upper d a - -1 * lower d a = lower d a + upper d a by ring]; exact h1)]
    simp

/-- C65: with a threshold, exactly the components on the chosen side of it are inverted, and they are inverted as without threshold; the
others are unchanged. Missing: thresholds of uint8 images that are not natural numbers, for which it is false (`invert_threshold_fraction`,
`invert_threshold_negative`). -/
theorem invert_threshold_partial (d : DType) (hd : d ∈ all) (a : Args) (hf : Fits d a) (ha : Acceptable d a) (shape : List Nat)
    (t : ℚ) (ht : a.threshold = some t) (hu : d = ⟨.u, 1⟩ → ∃ k : Nat, t = k) (vals : List ℚ) (hv : ∀ v ∈ vals, Holds d v) :
    ∃ r inv, (invert [] d a shape vals).1 = some r ∧ (invert [] d { a with threshold := none } shape vals).1 = some inv ∧
      r.length = vals.length ∧ inv.length = vals.length ∧
      ∀ (n : Nat) (v : ℚ), vals[n]? = some v → r[n]? = if (a.above = true ↔ t ≤ v) then inv[n]? else some v := by
  have g : Good [] := by intro p hp; simp at hp
  refine ⟨_, _, invert_some [] g d hd a ha shape t ht hu vals hv,
    invert_none [] g d hd { a with threshold := none } hf ha shape rfl vals hv, by simp, by simp, ?_⟩
  intro n v hn
  simp only [List.getElem?_map, hn, Option.map_some]
  split <;> simp_all [lower, upper]

/-- C65: for uint8 images a fractional threshold is truncated: 127 is inverted above a threshold of 127.5. -/
theorem invert_threshold_fraction :
    (invert [] ⟨.u, 1⟩ ⟨none, none, some (255 / 2), true⟩ [1] [127]).1 = some [128] ∧
    (invert [] ⟨.u, 2⟩ ⟨none, none, some (255 / 2), true⟩ [1] [127]).1 = some [127] := by decide +kernel

/-- C65: for uint8 images a negative threshold counts from the top of the range: 100 is not inverted above a threshold of -5. -/
theorem invert_threshold_negative :
    (invert [] ⟨.u, 1⟩ ⟨none, none, some (-5), true⟩ [1] [100]).1 = some [100] ∧
    (invert [] ⟨.u, 2⟩ ⟨none, none, some (-5), true⟩ [1] [100]).1 = some [65435] := by decide +kernel

/-- C65: solarization inverts the components at or above the threshold within the range of the dtype and leaves the others unchanged. -/
theorem solarize_spec (d : DType) (hd : d ∈ all) (hk : d.kind ≠ .f) (shape : List Nat) (t : ℚ) (hu : d = ⟨.u, 1⟩ → ∃ k : Nat, t = k)
    (vals : List ℚ) (hv : ∀ v ∈ vals, Holds d v) :
    (solarize [] d t shape vals).1 = some (vals.map (fun v => if t ≤ v then lo d + hi d - v else v)) := by
  have ha : Acceptable d ⟨none, none, some t, true⟩ := by
    refine ⟨le_refl _, le_refl _, ?_, Or.inl ⟨rfl, rfl⟩⟩
    have : ∀ d ∈ all, lo d < hi d := by decide +kernel
    have h : ((lo d : Int) : ℚ) < hi d := by exact_mod_cast this d hd
    exact h
  rw [solarize, invert_some [] (by intro p hp; simp at hp) d hd _ ha shape t rfl hu vals hv]
  refine congrArg some (List.map_congr_left ?_)
  intro v hm
  by_cases h : t ≤ v
  · simp only [h, if_true]
    rcases inv1_mid d hd _ ha v (hv v hm) (hv v hm).1 (hv v hm).2.1 with h' | h'
    · rw [h']; rfl
    · exact absurd h'.1 hk
  · simp [h]

/-- C65: unsigned components, also those outside of the range, end inside of the range. Missing: signed integers and floats, for which it is
false (`invert_range_int`, `invert_range_float`). -/
theorem invert_range_partial (d : DType) (hd : d ∈ all) (hk : d.kind = .u) (a : Args) (hf : Fits d a) (ha : Acceptable d a) (shape : List Nat)
    (ht : a.threshold = none) (vals : List ℚ) (hv : ∀ v ∈ vals, Holds d v) :
    ∃ r, (invert [] d a shape vals).1 = some r ∧ r.length = vals.length ∧ ∀ w ∈ r, lower d a ≤ w ∧ w ≤ upper d a := by
  refine ⟨_, invert_none [] (by intro p hp; simp at hp) d hd a hf ha shape ht vals hv, by simp, ?_⟩
  intro w hw
  obtain ⟨v, hm, rfl⟩ := List.mem_map.mp hw
  have h3 := ha.2.2.1
  rw [inv1]
  split
  · exact clip_range (le_of_lt h3)
  · rw [invertOther, hk]
    simp only
    split
    · rename_i h
      have := hv v hm
      have hlo : lo d = 0 := by rw [lo, hk]
      obtain ⟨h1, h2, _⟩ := this
      rw [hlo] at h1
      push_cast at h1
      rw [h.1, h.2]
      simp only [Option.getD_some]
      constructor <;> linarith
    · simp only [Option.getD_some, byDistance, hk]
      obtain ⟨h1, h2⟩ := clip_range (v := v) (le_of_lt h3)
      rw [abs_of_nonneg (by linarith)]
      simp only [reduceCtorEq, if_false]
      constructor <;> linarith

/-- C65: an int8 component outside of a symmetric range stays outside of it. -/
theorem invert_range_int : (invert [] ⟨.i, 1⟩ ⟨some (-11), some 10, none, true⟩ [1] [50]).1 = some [-51] := by decide +kernel

/-- C65: a float component outside of a symmetric range stays outside of it. -/
theorem invert_range_float : (invert [] ⟨.f, 4⟩ ⟨some (-1), some 1, none, true⟩ [1] [5]).1 = some [-5] := by decide +kernel

/-- C65: components below the range are inverted differently for uint8 and for uint16, and the uint8 inversion is not antitone. -/
theorem invert_below_range :
    (invert [] ⟨.u, 1⟩ ⟨some 50, some 100, none, true⟩ [3] [0, 50, 100]).1 = some [50, 100, 50] ∧
    (invert [] ⟨.u, 2⟩ ⟨some 50, some 100, none, true⟩ [3] [0, 50, 100]).1 = some [100, 100, 50] := by decide +kernel

/-- C65: the result does not depend on the shape, which decides whether `cv2.subtract` or a lookup table is used. -/
theorem invert_shape (d : DType) (hd : d ∈ all) (a : Args) (hf : Fits d a) (ha : Acceptable d a) (s1 s2 : List Nat)
    (ht : a.threshold = none) (vals : List ℚ) (hv : ∀ v ∈ vals, Holds d v) :
    (invert [] d a s1 vals).1 = (invert [] d a s2 vals).1 := by
  have g : Good [] := by intro p hp; simp at hp
  rw [invert_none [] g d hd a hf ha s1 ht vals hv, invert_none [] g d hd a hf ha s2 ht vals hv]

/- The hypotheses are met: int8 and uint8 with a range of their own, with and without threshold. -/
example : Acceptable ⟨.i, 1⟩ ⟨some (-20), some 30, none, true⟩ ∧ Fits ⟨.i, 1⟩ ⟨some (-20), some 30, none, true⟩ ∧
    Holds ⟨.i, 1⟩ (-7) ∧ lower ⟨.i, 1⟩ ⟨some (-20), some 30, none, true⟩ ≤ -7 := by
  refine ⟨by unfold Acceptable lower upper; decide +kernel, fun _ => ⟨⟨-20, by simp [lower]⟩, ⟨30, by simp [upper]⟩⟩, ⟨by decide +kernel, by decide +kernel, fun _ => ⟨-7, by norm_num⟩⟩, by decide +kernel⟩
example : (invert [] ⟨.i, 1⟩ ⟨some (-20), some 30, none, true⟩ [2] [-7, 30]).1 = some [17, -20] := by decide +kernel
example : (invert [] ⟨.u, 1⟩ ⟨some 10, some 200, some 100, false⟩ [2] [20, 100]).1 = some [190, 100] := by decide +kernel
example : Acceptable ⟨.u, 1⟩ ⟨some 10, some 200, some 100, false⟩ := by unfold Acceptable lower upper; decide +kernel
example : (invert [] ⟨.f, 8⟩ ⟨some 0, some 1, none, true⟩ [1] [0]).1 = none := by decide +kernel
example : (solarize [] ⟨.i, 2⟩ 10 [3] [9, 10, -4]).1 = some [9, -11, -4] := by decide +kernel

end Imgaug.Invert
