import Verif.Proofs.Lut
/-! Lookup tables. -/
namespace Imgaug.Lut
open Imgaug

/-- C64: every component is replaced by the entry of the table for its value and its channel, whatever the number of channels. -/
theorem lut_pixel (i : Img) (t : Table) (hu : i.uint8 = true) (ht : t.Fits i.channels) :
    ∃ r, applyLut i t = some r ∧ SameShape r i ∧ r.uint8 = true ∧
      ∀ y x k, y < i.h → x < i.w → k < i.channels → r.px y x k = t.entry (i.px y x k) k := by
  by_cases he : i.empty = true
  · refine ⟨i, by simp [applyLut, applyStep, he], ⟨rfl, rfl, rfl, rfl⟩, hu, ?_⟩
    intro y x k hy hx hk
    simp only [Img.empty, Bool.or_eq_true, beq_iff_eq, Bool.and_eq_true, Bool.not_eq_true'] at he
    rcases he with (h | h) | h
    · omega
    · omega
    · simp [Img.channels, h] at hk
  rw [Bool.not_eq_true] at he
  by_cases hc : i.channels ≤ 512
  · exact ⟨_, (step_small _ i t he hc).1 hu ht, ⟨rfl, rfl, rfl, rfl⟩, hu, fun _ _ _ _ _ _ => rfl⟩
  · obtain ⟨hf, hch⟩ := channels_flat (not_le.mp hc)
    obtain ⟨n, hn⟩ := Option.isSome_iff_exists.mp ((normTable_some _ t).mpr ht)
    obtain ⟨h1, h2⟩ := normTable_fn _ t n hn
    have ne : i.h ≠ 0 ∧ i.w ≠ 0 := by
      simp only [Img.empty, Bool.or_eq_false_iff, beq_eq_false_iff_ne] at he
      exact he.1
    have hr : ∀ g ∈ List.range ((i.channels + 511) / 512),
        applyStep (fun _ _ => none) (sliceImg i (g * 512) (g * 512 + 512))
          (.three 1 256 (min (g * 512 + 512) i.c - g * 512) (fun _ v k => n.fn v (g * 512 + k)))
        = some (expected (sliceImg i (g * 512) (g * 512 + 512)) (fun v k => n.fn v (g * 512 + k))) := by
      intro g hg
      have hg' := List.mem_range.mp hg
      have hch2 : (sliceImg i (g * 512) (g * 512 + 512)).channels = min (g * 512 + 512) i.c - g * 512 := by
        simp [Img.channels, sliceImg, hf]
      have hpos : 0 < min (g * 512 + 512) i.c - g * 512 := by omega
      refine (step_small _ _ _ ?_ ?_).1 hu ?_
      · simp [Img.empty, sliceImg, ne.1, ne.2]
        omega
      · rw [hch2]; omega
      · rw [hch2]; exact ⟨rfl, rfl, rfl⟩
    obtain ⟨r, e, r0, r1, r2, r3, r4, r5⟩ := concat_groups i n.fn ((i.channels + 511) / 512) (by omega) 0 (by omega) (by omega)
    refine ⟨r, ?_, ⟨r1, r2, r3, by omega⟩, r0.trans hu, ?_⟩
    · simp only [applyLut]
      rw [applyStep]
      simp only [he, Bool.false_eq_true, if_false, hn, Option.bind_some, if_pos (not_le.mp hc), gt_iff_lt]
      rw [mapM_some_map _ _ _ hr, Option.bind_some, List.range_eq_range']
      exact e
    · intro y x k _ _ hk
      rw [r5 y x k (by omega), h1]
      simp

/-- C64: a nonempty image is accepted only if it is uint8 and the table fits; an empty one is returned as it is. -/
theorem lut_accepts (i : Img) (t : Table) :
    (i.empty = true → applyLut i t = some i) ∧
    (i.empty = false → ((applyLut i t).isSome = true ↔ i.uint8 = true ∧ t.Fits i.channels)) := by
  constructor
  · intro he
    simp [applyLut, applyStep, he]
  · intro he
    constructor
    · intro h
      by_cases hc : i.channels ≤ 512
      · exact (step_small _ i t he hc).2 h
      · obtain ⟨hf, hch⟩ := channels_flat (not_le.mp hc)
        simp only [applyLut] at h
        rw [applyStep] at h
        simp only [he, Bool.false_eq_true, if_false, if_pos (not_le.mp hc), gt_iff_lt] at h
        cases hn : normTable i.channels t with
        | none => rw [hn] at h; cases h
        | some n =>
          refine ⟨?_, (normTable_some _ t).mp (by rw [hn]; rfl)⟩
          rw [hn, Option.bind_some] at h
          have ne : i.h ≠ 0 ∧ i.w ≠ 0 := by
            simp only [Img.empty, Bool.or_eq_false_iff, beq_eq_false_iff_ne] at he
            exact he.1
          have hpos : 0 < (i.channels + 511) / 512 := by omega
          obtain ⟨m, hm⟩ : ∃ m, (i.channels + 511) / 512 = m + 1 := ⟨_, (Nat.succ_pred_eq_of_pos hpos).symm⟩
          rw [hm, List.range_succ_eq_map, List.mapM_cons] at h
          obtain ⟨r, hr⟩ := Option.isSome_iff_exists.mp h
          simp only [Option.bind_eq_bind, Option.bind_eq_some_iff, Option.pure_def] at hr
          obtain ⟨l, ⟨a, ha, -⟩, -⟩ := hr
          exact ((step_small (fun _ _ => none) (sliceImg i (0 * 512) (0 * 512 + 512)) _
            (by simp [Img.empty, sliceImg, ne.1, ne.2]; omega) (by simp [Img.channels, sliceImg, hf])).2 (by rw [ha]; rfl)).1
    · rintro ⟨hu, hf⟩
      obtain ⟨r, hr, -⟩ := lut_pixel i t hu hf
      rw [hr]; rfl

/-- C64: the recursion ends after one step: whatever further recursive calls did, the result would be the same. -/
theorem lut_recursion (rec : Img → Table → Option Img) (i : Img) (t : Table) : applyStep (applyStep rec) i t = applyLut i t := by
  by_cases he : i.empty = true
  · simp [applyLut, applyStep, he]
  rw [Bool.not_eq_true] at he
  by_cases hc : i.channels ≤ 512
  · simp only [applyLut]
    rw [applyStep, applyStep]
    simp only [he, Bool.false_eq_true, if_false, gt_iff_lt, if_neg (not_lt.mpr hc)]
  · obtain ⟨hf, hch⟩ := channels_flat (not_le.mp hc)
    simp only [applyLut]
    rw [applyStep, applyStep]
    simp only [he, Bool.false_eq_true, if_false, gt_iff_lt, if_pos (not_le.mp hc)]
    congr 1
    funext n
    congr 1
    congr 1
    funext g
    have hch2 : (sliceImg i (g * 512) (g * 512 + 512)).channels ≤ 512 := by
      simp only [Img.channels, sliceImg, hf, Bool.false_eq_true, if_false]; omega
    rw [applyStep, applyStep]
    simp only [gt_iff_lt, if_neg (not_lt.mpr hch2)]

/-! The hypotheses can be met: 1000 channels, processed in two groups. -/

example : ∃ r, applyLut ⟨true, false, 2, 3, 1000, fun y x k => (y + x + k) % 256⟩ (.two 256 1000 (fun v k => (v + k) % 256)) = some r ∧
    r.px 1 2 700 = 123 ∧ r.px 0 0 0 = 0 := by
  obtain ⟨r, h1, h2, -, h3⟩ := lut_pixel ⟨true, false, 2, 3, 1000, fun y x k => (y + x + k) % 256⟩ (.two 256 1000 (fun v k => (v + k) % 256)) rfl
    ⟨rfl, rfl⟩
  exact ⟨r, h1, by rw [h3 1 2 700 (by simp) (by simp) (by simp [Img.channels])]; rfl, by rw [h3 0 0 0 (by simp) (by simp) (by simp [Img.channels])]; rfl⟩

example : applyLut ⟨true, true, 1, 1, 1, fun _ _ _ => 7⟩ (.list [256, 256] (fun _ v => v)) = none := rfl

end Imgaug.Lut
