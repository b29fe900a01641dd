import Verif.Proofs.Equalize
import Verif.Proofs.Dtypes
/-! Property C81: histogram equalisation and autocontrast. -/
namespace Imgaug.Equalize.Props
open Imgaug Imgaug.Equalize

/-- C81: the own table of `equalize` for a channel with the histogram `h`: with `step = (pixels darker than 255) // 255`, value `v` goes to
`(step // 2 + pixels darker than v) // step`, at most 255. It is the identity if all pixels have the same value or if fewer than 255 pixels are
darker than 255. -/
theorem equalize_table (h : Hist) (v : Nat) :
    ((∃ a, ∀ u < 256, u ≠ a → h u = 0) → table h v = v) ∧
    (((List.range 255).map h).sum < 255 → table h v = v) ∧
    (∀ a b step, a < 256 → b < 256 → a ≠ b → h a ≠ 0 → h b ≠ 0 → 0 < step → step = ((List.range 255).map h).sum / 255 →
      table h v = min ((step / 2 + ((List.range v).map h).sum) / step) 255) := by
  refine ⟨?_, ?_, ?_⟩
  · rintro ⟨a, ha⟩
    rw [table, if_pos]
    rw [occurring]
    have hsub : ∀ l : List Nat, l.Nodup → (∀ u ∈ l, u < 256) → (l.filter (fun v => h v != 0)).length ≤ 1 := by
      intro l hn hl
      by_contra hc
      have hn2 : (l.filter (fun v => h v != 0)).Nodup := hn.filter _
      have key : ∀ u ∈ l.filter (fun v => h v != 0), u = a := by
        intro u hu
        obtain ⟨h1, h2⟩ := List.mem_filter.1 hu
        by_contra hne
        simp [ha u (hl u h1) hne] at h2
      have h0 := key _ (List.getElem_mem (show 0 < (l.filter (fun v => h v != 0)).length by omega))
      have h1 := key _ (List.getElem_mem (show 1 < (l.filter (fun v => h v != 0)).length by omega))
      have := (List.Nodup.getElem_inj_iff hn2).1 (h0.trans h1.symm)
      omega
    exact hsub _ List.nodup_range (by simp)
  · intro hs
    rw [table]
    split
    · rfl
    · exact if_pos (Nat.div_eq_of_lt hs)
  · intro a b step ha hb hab h1 h2 h0 hs
    rw [table, if_neg]
    · have hs' : step = below h 255 / 255 := hs
      simp only
      rw [← hs', if_neg (by omega)]
      rfl
    · rw [occurring, not_le]
      by_contra hc
      have ma : a ∈ (List.range 256).filter (fun v => h v != 0) := List.mem_filter.2 ⟨by simpa using ha, by simpa using h1⟩
      have mb : b ∈ (List.range 256).filter (fun v => h v != 0) := List.mem_filter.2 ⟨by simpa using hb, by simpa using h2⟩
      generalize (List.range 256).filter (fun v => h v != 0) = l at hc ma mb
      match l, hc with
      | [], _ => simp at ma
      | [x], _ => simp at ma mb; exact hab (ma.trans mb.symm)
      | x :: y :: t, hc => simp at hc

/-- C81: brighter values stay at least as bright, and results are values of uint8. -/
theorem equalize_monotone (h : Hist) (u v : Nat) (huv : u ≤ v) (hv : v ≤ 255) : table h u ≤ table h v ∧ table h v ≤ 255 := by
  rw [table, table]
  split
  · omega
  · simp only
    split
    · omega
    · have := below_mono h huv
      have := Nat.div_le_div_right (c := below h 255 / 255) (show below h 255 / 255 / 2 + below h u ≤ below h 255 / 255 / 2 + below h v by omega)
      omega

/-- C81 (partial): the own table is that of `PIL.ImageOps.equalize` for channels in which the value 255 occurs. Missing: other channels, for
which it is false, see `equalize_not_pil`. -/
theorem equalize_like_pil_partial (h : Hist) (h255 : h 255 ≠ 0) (v : Nat) : table h v = pilTable h v := by
  rw [table, pilTable]
  simp only
  rw [occurring_eq, last_filter h h255]
  rfl

/-- C81 is false (the function is documented to be identical to that of PIL): PIL ignores the brightest value that occurs when it determines the
step, imgaug ignores the value 255. With 510 pixels of value 0 and 510 of value 1, PIL maps 1 to 255 and imgaug to 128. So images below 64*64*3
components, which go through PIL, and larger ones are treated differently. -/
theorem equalize_not_pil :
    ∃ h : Hist, h 0 = 510 ∧ h 1 = 510 ∧ (∀ v, 1 < v → h v = 0) ∧ pilTable h 1 = 255 ∧ table h 1 = 128 := by
  refine ⟨fun v => if v ≤ 1 then 510 else 0, rfl, rfl, fun v hv => if_neg (by omega), by decide +kernel, by decide +kernel⟩

/-- C81: the histogram of a channel: for every value the number of pixels that have it and at which the mask, if there is one, is not 0. -/
theorem histogram (im : Lut.Img) (mask : Option Mask) (k v : Nat) :
    hist im mask k v = ((Finset.range im.h ×ˢ Finset.range im.w).filter (fun p =>
      im.px p.1 p.2 k = v ∧ ∀ m, mask = some m → m.px p.1 p.2 ≠ 0)).card := by
  rw [Finset.card_filter, Finset.sum_product, hist, ← List.sum_toFinset _ List.nodup_range, List.toFinset_range]
  refine Finset.sum_congr rfl (fun y _ => ?_)
  rw [← Finset.card_filter, ← List.toFinset_range, ← List.toFinset_card_of_nodup (List.nodup_range.filter _)]
  congr 1
  ext x
  cases mask <;> simp

example : hist ⟨true, true, 1, 3, 0, fun _ x _ => x / 2⟩ (some ⟨2, true, 1, 3, fun _ x => x⟩) 0 0 = 1 := by decide

/-- C81: an image with 1 or 3 channels: every component is mapped by a table that depends on the histogram of its channel only (with a
mask: of the pixels where the mask is not 0); shape and dtype are kept. The table is PIL's for images with 3 channels and fewer than 4096
components. -/
theorem equalize_px (pil : Hist → Nat → Nat) (im : Lut.Img) (mask : Option Mask) (hu : im.uint8 = true) (hc : im.channels = 1 ∨ im.channels = 3)
    (hmask : ∀ m, mask = some m → m.ndim = 2 ∧ m.uint8 = true ∧ m.h = im.h ∧ m.w = im.w) :
    ∃ r, equalizeIn pil im mask = some r ∧ Lut.SameShape r im ∧ r.uint8 = true ∧
      ∀ y x k, y < im.h → x < im.w → k < im.channels →
        r.px y x k = (if im.channels = 3 ∧ im.h * im.w * 3 < 4096 then pil else table) (hist im mask k) (im.px y x k) := by
  have hm : maskOk mask = true := by
    cases mask with
    | none => rfl
    | some m => simp [maskOk, (hmask m rfl).1, (hmask m rfl).2.1]
  have hf : maskFits im mask = true := by
    cases mask with
    | none => rfl
    | some m => simp [maskFits, (hmask m rfl).2.2.1, (hmask m rfl).2.2.2]
  have e : equalizeIn pil im mask = few pil im mask := by rw [equalizeIn, if_neg (by omega)]
  rw [e, few, if_neg (by simp [hu]), if_neg (by simp [hm])]
  by_cases h0 : size im = 0
  · rw [if_pos h0]
    refine ⟨im, rfl, ⟨rfl, rfl, rfl, rfl⟩, hu, fun y x k hy hx hk => ?_⟩
    exfalso
    rw [size] at h0
    have := Nat.mul_pos (Nat.mul_pos (show 0 < im.h by omega) (show 0 < im.w by omega)) (show 0 < im.channels by omega)
    omega
  · rw [if_neg h0]
    by_cases h3 : im.channels = 3 ∧ size im < usePilBelow
    · have h3' : im.channels = 3 ∧ im.h * im.w * 3 < 4096 := by
        refine ⟨h3.1, ?_⟩
        have := h3.2
        rwa [size, h3.1, usePilBelow] at this
      rw [if_pos h3, viaPil, if_pos hf]
      refine ⟨_, rfl, ⟨rfl, rfl, rfl, rfl⟩, hu, fun y x k _ _ _ => ?_⟩
      rw [if_pos h3']
    · have h3' : ¬ (im.channels = 3 ∧ im.h * im.w * 3 < 4096) := by
        rintro ⟨a, b⟩
        exact h3 ⟨a, by rw [size, a, usePilBelow]; omega⟩
      rw [if_neg h3, noPil, if_pos hf]
      obtain ⟨r, hr, hs, hru, hp⟩ := Lut.lut_pixel im (.three 1 256 im.channels (fun _ v k => table (hist im mask k) v)) hu ⟨rfl, rfl, rfl⟩
      refine ⟨r, hr, hs, hru, fun y x k hy hx hk => ?_⟩
      rw [hp y x k hy hx hk, if_neg h3']
      rfl

/-- C81: an image with another number of channels: every channel is equalised on its own, by the own table. -/
theorem equalize_channels (pil : Hist → Nat → Nat) (im : Lut.Img) (mask : Option Mask) (hu : im.uint8 = true) (hfl : im.flat = false)
    (h0 : im.c ≠ 0) (h1 : im.c ≠ 1) (h3 : im.c ≠ 3) :
    ∃ r, equalizeIn pil im mask = some r ∧ Lut.SameShape r im ∧ r.uint8 = true ∧
      ∀ y x k, y < im.h → x < im.w → k < im.c → r.px y x k = table (hist im none k) (im.px y x k) := by
  have hch : im.channels = im.c := by rw [Lut.Img.channels, hfl]; rfl
  rw [equalizeIn, if_pos (by omega), if_neg h0]
  have hone : ∀ c, ∃ r, few pil (Contrast.channel im c) none = some r ∧
      ∀ y x, y < im.h → x < im.w → r.px y x 0 = table (hist im none c) (im.px y x c) := by
    intro c
    obtain ⟨r, hr, -, -, hp⟩ := equalize_px pil (Contrast.channel im c) none hu (Or.inl rfl) (by simp)
    refine ⟨r, ?_, fun y x hy hx => ?_⟩
    · rw [equalizeIn, if_neg (by simp [Contrast.channel, Lut.Img.channels])] at hr
      exact hr
    · have := hp y x 0 hy hx (by simp [Contrast.channel, Lut.Img.channels])
      rw [this, if_neg (by simp [Contrast.channel, Lut.Img.channels])]
      rfl
  choose f hf hp using hone
  have hm : (List.range im.c).mapM (fun c => few pil (Contrast.channel im c) none) = some ((List.range im.c).map f) := by
    exact Lut.mapM_some_map _ _ _ (fun c _ => hf c)
  rw [hm]
  refine ⟨_, rfl, ⟨rfl, rfl, rfl, rfl⟩, hu, fun y x k hy hx hk => ?_⟩
  simp only
  rw [List.getD_eq_getElem?_getD, List.getElem?_map, List.getElem?_range hk]
  simp only [Option.map_some, Option.getD_some]
  exact hp k y x hy hx

/-- C81 is false (`mask`: "if given, only the pixels selected by the mask are included in the analysis"): for images whose number of channels is
neither 1 nor 3 the mask is ignored, whatever it is. -/
theorem equalize_mask_ignored (pil : Hist → Nat → Nat) (im : Lut.Img) (h1 : im.channels ≠ 1) (h3 : im.channels ≠ 3) (m1 m2 : Option Mask) :
    equalizeIn pil im m1 = equalizeIn pil im m2 ∧ equalize pil im m1 = equalize pil im m2 := by
  have : equalizeIn pil im m1 = equalizeIn pil im m2 := by
    unfold equalizeIn
    have hc : im.channels ≠ 1 ∧ im.channels ≠ 3 := ⟨h1, h3⟩
    simp only [if_pos hc]
  refine ⟨this, ?_⟩
  rw [equalize, equalize, this]

/-- C81: when `equalize` and `equalize_` raise. The former never does for images without components, the latter does for images without
channels. -/
theorem equalize_accepts (pil : Hist → Nat → Nat) (im : Lut.Img) (mask : Option Mask) :
    (size im = 0 → equalize pil im mask = some im) ∧
    (im.channels = 0 → equalizeIn pil im mask = none) ∧
    (size im ≠ 0 → ((equalize pil im mask).isSome = true ↔
      im.uint8 = true ∧ ((im.channels = 1 ∨ im.channels = 3) →
        ∀ m, mask = some m → m.ndim = 2 ∧ m.uint8 = true ∧ m.h = im.h ∧ m.w = im.w))) := by
  have hmask : (∀ m, mask = some m → m.ndim = 2 ∧ m.uint8 = true ∧ m.h = im.h ∧ m.w = im.w) ↔ maskOk mask = true ∧ maskFits im mask = true := by
    cases mask with
    | none => simp [maskOk, maskFits]
    | some m => simp [maskOk, maskFits, and_assoc]
  rw [hmask]
  refine ⟨fun h => by rw [equalize, if_pos h], fun h => ?_, fun h => ?_⟩
  · rw [equalizeIn, if_pos (by omega), if_pos]
    rw [Lut.Img.channels] at h
    split at h
    · omega
    · exact h
  · rw [equalize, if_neg h]
    have hpos : im.channels ≠ 0 := by
      intro h0
      rw [size, h0, Nat.mul_zero] at h
      exact h rfl
    by_cases hc : im.channels = 1 ∨ im.channels = 3
    · constructor
      · intro hs
        rw [equalizeIn, if_neg (by omega), few] at hs
        by_cases hu : im.uint8 = false
        · simp [hu] at hs
        rw [if_neg hu] at hs
        by_cases hm : maskOk mask = false
        · simp [hm] at hs
        rw [if_neg hm, if_neg h] at hs
        refine ⟨by simpa using hu, fun _ => ⟨by simpa using hm, ?_⟩⟩
        by_contra hf
        rw [viaPil, noPil, if_neg hf, if_neg hf, ite_self] at hs
        simp at hs
      · rintro ⟨hu, hm⟩
        obtain ⟨r, hr, -⟩ := equalize_px pil im mask hu hc (hmask.2 (hm hc))
        rw [hr]; rfl
    · have hfl : im.flat = false := by
        by_contra hq
        rw [Bool.not_eq_false] at hq
        exact hc (Or.inl (by rw [Lut.Img.channels, hq]; rfl))
      have hch : im.channels = im.c := by rw [Lut.Img.channels, hfl]; rfl
      constructor
      · intro hs
        refine ⟨?_, fun h => absurd h hc⟩
        by_contra hu
        rw [Bool.not_eq_true] at hu
        rw [equalizeIn, if_pos (by omega), if_neg (by omega)] at hs
        rw [Option.isSome_map] at hs
        obtain ⟨l, hl⟩ := Option.isSome_iff_exists.1 hs
        obtain ⟨o, -, ho⟩ := Dtypes.mapM_nth _ _ _ hl 0 0 (List.getElem?_range (by omega))
        rw [few, if_pos (by simp [Contrast.channel, hu])] at ho
        simp at ho
      · rintro ⟨hu, -⟩
        obtain ⟨r, hr, -⟩ := equalize_channels pil im mask hu hfl (by omega) (by omega) (by omega)
        rw [hr]; rfl

/-- C81 (partial): `equalize`, which is not meant to work in-place, leaves its input unchanged if that has at least 4096 components, or a number of
channels other than 1 and 3. Missing: smaller images, for which it is false, see `equalize_changes_input`. -/
theorem equalize_input_partial (pil : Hist → Nat → Nat) (owns : Bool) (im : Lut.Img) (mask : Option Mask)
    (h : 4096 ≤ im.h * im.w * im.channels ∨ (im.channels ≠ 1 ∧ im.channels ≠ 3)) : after pil owns im mask = im := by
  rw [after]
  split
  · rfl
  · rename_i h0
    rcases h with h | h
    · rw [if_pos]
      rw [size, usePilBelow]
      omega
    · split
      · rfl
      · rw [afterIn, if_pos h]

/-- C81 is false: `equalize` writes its result into its input for every image with 3 channels and fewer than 4096 components, and for every
image with 1 channel and fewer than 4096 components whose array owns its data; for example into an image of 16 by 16 pixels. -/
theorem equalize_changes_input (pil : Hist → Nat → Nat) :
    (∀ (owns : Bool) (im : Lut.Img) (mask : Option Mask), 0 < im.h * im.w → im.h * im.w * im.channels < 4096 →
      im.channels = 3 ∨ (im.channels = 1 ∧ owns = true) → ∀ r, equalize pil im mask = some r → after pil owns im mask = r) ∧
    ∃ im : Lut.Img, im.px 0 1 0 = 1 ∧ (after pil true im none).px 0 1 0 = 128 := by
  have main : ∀ (owns : Bool) (im : Lut.Img) (mask : Option Mask), 0 < im.h * im.w → im.h * im.w * im.channels < 4096 →
      im.channels = 3 ∨ (im.channels = 1 ∧ owns = true) → ∀ r, equalize pil im mask = some r → after pil owns im mask = r := by
    intro owns im mask hpos hsz hc r hr
    have h0 : size im ≠ 0 := by
      rw [size]
      have := Nat.mul_pos hpos (show 0 < im.channels by omega)
      omega
    rw [equalize, if_neg h0] at hr
    have hlt : ¬ size im ≥ usePilBelow := by rw [size, usePilBelow]; omega
    rw [after, if_neg h0, if_neg hlt, afterIn, if_neg (by omega), if_pos, hr]
    · rfl
    · rcases hc with h | h
      · exact Or.inl ⟨h, by omega⟩
      · exact Or.inr h.2
  refine ⟨main, ⟨true, true, 16, 16, 0, fun _ x _ => x % 2⟩, rfl, ?_⟩
  obtain ⟨r, hr, -, -, hp⟩ := equalize_px pil ⟨true, true, 16, 16, 0, fun _ x _ => x % 2⟩ none rfl (Or.inl rfl) (by simp)
  rw [main true _ none (by decide) (by decide) (Or.inr ⟨rfl, rfl⟩) r]
  · rw [hp 0 1 0 (by decide) (by decide) (by decide), if_neg (by decide)]
    decide +kernel
  · rw [equalize, if_neg (by decide), hr]

/-- C81: `Equalize` treats every image of a batch on its own, in order. -/
theorem equalize_batch (pil : Hist → Nat → Nat) (images r : List Lut.Img) (h : augment pil images = some r) (i : Nat) (im : Lut.Img)
    (hi : images[i]? = some im) : r.length = images.length ∧ ∃ o, r[i]? = some o ∧ equalizeIn pil im none = some o := by
  exact ⟨Dtypes.mapM_len _ _ _ h, Dtypes.mapM_nth _ _ _ h i im hi⟩

/-- C81: the ends that `autocontrast` finds without PIL: if `cut` pixels are to be ignored at both ends, the smallest value `lo` such that more than
`cut` pixels are at most as bright, and the largest value `hi` such that more than `cut` pixels are at least as bright. If there are no such
values with `lo < hi`, the channel is left unchanged. -/
theorem autocontrast_ends (cutoff : ℚ) (hc0 : 0 ≤ cutoff) (h : Nat → Int) (h0 : ∀ v, 0 ≤ h v) (cut : Int)
    (hcut : cut = ⌊((List.range 256).map h).sum * cutoff / 100⌋) (v : Nat) :
    (∀ lo hi, IsLow h cut lo → IsHigh h cut hi → lo < hi → stretchTable (noPilEnds cutoff h) v = stretch lo hi v) ∧
    ((∀ lo hi, IsLow h cut lo → IsHigh h cut hi → hi ≤ lo) → stretchTable (noPilEnds cutoff h) v = v) := by
  have hn := S_nonneg h0 256
  have hcut0 : 0 ≤ cut := by
    rw [hcut]
    apply Int.floor_nonneg.2
    have : (0 : ℚ) ≤ (((List.range 256).map h).sum : Int) := by exact_mod_cast hn
    positivity
  rw [noPilEnds]
  by_cases hz : cutoff = 0
  · have hc : cut = 0 := by rw [hcut, hz]; simp
    subst hc
    rw [if_pos hz]
    constructor
    · rintro lo hi ⟨l1, l2, l3⟩ ⟨r1, r2, r3⟩ hlt
      change 0 < S h (lo + 1) at l2
      change ∀ v < lo, S h (v + 1) ≤ 0 at l3
      change 0 < S h 256 - S h hi at r2
      change ∀ v < 256, hi < v → S h 256 - S h v ≤ 0 at r3
      rw [ends_eq (lo := lo) (hi := hi) l1 ?_ ?_ r1 ?_ ?_, stretchTable, if_neg (by simpa using hlt)]
      · have := S_succ h lo
        have h1 : S h lo ≤ 0 := by
          rcases Nat.eq_zero_or_pos lo with rfl | hp
          · rw [S_zero]
          · have := l3 (lo - 1) (by omega)
            rwa [show lo - 1 + 1 = lo by omega] at this
        omega
      · intro u hu
        have a := l3 u hu
        have b := S_succ h u
        have c := S_nonneg h0 u
        have d := h0 u
        omega
      · have := S_succ h hi
        rcases Nat.lt_or_ge (hi + 1) 256 with h1 | h1
        · have := r3 (hi + 1) h1 (by omega)
          omega
        · rw [show hi + 1 = 256 by omega] at this
          omega
      · intro u hu hlu
        have a := r3 u hu hlu
        have b := S_succ h u
        have c := S_mono h0 (show u + 1 ≤ 256 by omega)
        have d := h0 u
        omega
    · intro hno
      rw [stretchTable, if_pos]
      rcases low_or h 0 with ⟨lo, hlo⟩ | hT
      · refine ends_few lo (fun u hu hne => ?_)
        rcases Nat.lt_or_gt_of_ne hne with h1 | h1
        · have a : S h (u + 1) ≤ 0 := hlo.2.2 u h1
          have b := S_succ h u
          have c := S_nonneg h0 u
          have d := h0 u
          omega
        · by_contra hq
          have b := S_succ h u
          have c := S_mono h0 (show u + 1 ≤ 256 by omega)
          have d := h0 u
          obtain ⟨hi, hhi, hle⟩ := high_above (h := h) (cut := 0) (v := u) hu (by omega)
          have := hno lo hi hlo hhi
          omega
      · refine ends_few 0 (fun u hu _ => ?_)
        have a := S_mono h0 (show u + 1 ≤ 256 by omega)
        have b := S_succ h u
        have c := S_nonneg h0 u
        have d := h0 u
        omega
  · rw [if_neg hz, cutOf, ← hcut]
    constructor
    · intro lo hi hlo hhi hlt
      rw [cut_ends h0 hlo hhi hlt, stretchTable, if_neg (by simpa using hlt)]
    · intro hno
      rw [stretchTable, if_pos (cut_nothing h0 hcut0 hno)]

/-- C81: `autocontrast` finds the same table without PIL as with it, for every histogram, every cutoff of at least 0 and all ignored values; so
the result for a channel does not depend on the number of channels. -/
theorem autocontrast_like_pil (cutoff : ℚ) (hc0 : 0 ≤ cutoff) (ignore : List Nat) (h : Hist) (v : Nat) :
    contrastTable cutoff ignore h v = pilContrast cutoff ignore h v := by
  have hig : (fun (v : Nat) => if v ∈ ignore then 0 else (h v : Int)) = fun v => (ignored ignore h v : Int) := by
    funext v
    rw [ignored]
    split <;> rfl
  rw [contrastTable, pilContrast, hig, pilHist]
  generalize hg : (fun v => (ignored ignore h v : Int)) = g
  have h0 : ∀ v, 0 ≤ g v := by intro v; rw [← hg]; simp
  by_cases hz : cutoff = 0
  · rw [if_pos hz, noPilEnds, if_pos hz]
    have key : ∀ u < 256, g u = ((List.range 256).map g).getD u 0 := by
      intro u hu
      rw [List.getD_eq_getElem?_getD, List.getElem?_map, List.getElem?_range hu]
      rfl
    rw [ends_congr _ _ key]
  · rw [if_neg hz]
    have hcut0 : 0 ≤ ⌊(((List.range 256).map g).sum : ℚ) * cutoff / 100⌋ := by
      apply Int.floor_nonneg.2
      have : (0 : ℚ) ≤ (((List.range 256).map g).sum : Int) := by exact_mod_cast S_nonneg h0 256
      positivity
    obtain ⟨p1, p2⟩ := autocontrast_ends cutoff hc0 g h0 _ rfl v
    by_cases hex : ∃ lo hi, IsLow g ⌊(((List.range 256).map g).sum : ℚ) * cutoff / 100⌋ lo ∧
        IsHigh g ⌊(((List.range 256).map g).sum : ℚ) * cutoff / 100⌋ hi ∧ lo < hi
    · obtain ⟨lo, hi, hlo, hhi, hlt⟩ := hex
      rw [p1 lo hi hlo hhi hlt, pil_ends h0 hcut0 hlo hhi hlt, stretchTable, if_neg (by simpa using hlt)]
    · have hno : ∀ lo hi, IsLow g ⌊(((List.range 256).map g).sum : ℚ) * cutoff / 100⌋ lo →
          IsHigh g ⌊(((List.range 256).map g).sum : ℚ) * cutoff / 100⌋ hi → hi ≤ lo := by
        intro lo hi h1 h2
        by_contra hq
        exact hex ⟨lo, hi, h1, h2, by omega⟩
      rw [p2 hno, stretchTable, if_pos (pil_nothing h0 hcut0 hno)]

/-- C81 (partial): the stretching maps values up to `lo` to black, is monotone, and gives the exact value of the linear map, rounded down, or, if
that value is an integer, possibly one less. Missing: that `hi` becomes white, which is false, see `autocontrast_not_white`. -/
theorem autocontrast_stretch_partial (lo hi v : Nat) (h1 : lo < hi) (h2 : hi ≤ 255) (hv : v ≤ 255) :
    (v ≤ lo → stretch lo hi v = 0) ∧
    (∀ u ≤ v, stretch lo hi u ≤ stretch lo hi v) ∧
    stretch lo hi v ≤ 255 ∧
    ((stretch lo hi v : ℚ) ≤ exact lo hi v) ∧
    (exact lo hi v - 1 ≤ stretch lo hi v) ∧
    ((¬ ∃ n : Nat, exact lo hi v = n) → exact lo hi v - 1 < stretch lo hi v) := by
  have hlow : v ≤ lo → stretch lo hi v = 0 := stretch_low
  have main : stretch lo hi v = ⌊exact lo hi v⌋.toNat ∨ ((∃ n : Nat, exact lo hi v = n) ∧ stretch lo hi v + 1 = ⌊exact lo hi v⌋.toNat) := by
    have hd : (0 : ℚ) < (hi : ℚ) - lo := by
      have : (lo : ℚ) < hi := by exact_mod_cast h1
      linarith
    rcases Nat.lt_or_ge lo v with hlv | hlv
    · have he := stretch_err lo hi v h1 h2 hv
      have hx : (0 : ℚ) ≤ min (max (f64 (f64 (v * f64 (255 / ((hi : ℚ) - lo))) - f64 (lo * f64 (255 / ((hi : ℚ) - lo))))) 0) 255 :=
        le_min (le_max_right _ _) (by norm_num)
      -- the exact value as a fraction
      obtain ⟨m, q, hq, hq2, hm⟩ : ∃ m q : Nat, 0 < q ∧ q ≤ 255 ∧ exact lo hi v = (m : ℚ) / q := by
        rcases Nat.lt_or_ge hi v with hhv | hhv
        · refine ⟨255, 1, by norm_num, by norm_num, ?_⟩
          rw [exact, min_eq_right]
          · norm_num
          · apply le_max_of_le_left
            rw [le_div_iff₀ hd]
            have : (hi : ℚ) ≤ v := by exact_mod_cast hhv.le
            linarith
        · refine ⟨255 * (v - lo), hi - lo, by omega, by omega, ?_⟩
          have a1 : (lo : ℚ) ≤ v := by exact_mod_cast hlv.le
          have a2 : (v : ℚ) ≤ hi := by exact_mod_cast hhv
          rw [exact, max_eq_left (div_nonneg (by linarith) hd.le), min_eq_left (by rw [div_le_iff₀ hd]; linarith)]
          push_cast [Nat.cast_sub hlv.le, Nat.cast_sub h1.le]
          ring
      rw [hm] at he ⊢
      have hfl : ⌊(m : ℚ) / q⌋.toNat = m / q := by
        rw [Rat.floor_natCast_div_natCast]
        rfl
      rw [hfl]
      rcases floor_near hq hq2 he hx with h | ⟨h, h'⟩
      · exact Or.inl h
      · refine Or.inr ⟨⟨m / q, ?_⟩, h'⟩
        have := Nat.div_add_mod m q
        rw [h, Nat.add_zero] at this
        have hq' : (q : ℚ) ≠ 0 := by exact_mod_cast hq.ne'
        rw [div_eq_iff hq']
        rw [mul_comm]
        exact_mod_cast this.symm
    · left
      rw [hlow hlv]
      have : exact lo hi v = 0 := by
        rw [exact, max_eq_right]
        · norm_num
        · apply div_nonpos_of_nonpos_of_nonneg _ hd.le
          have : (v : ℚ) ≤ lo := by exact_mod_cast hlv
          linarith
      rw [this]
      simp
  have hx0 : 0 ≤ exact lo hi v := le_min (le_max_right _ _) (by norm_num)
  have hfn : 0 ≤ ⌊exact lo hi v⌋ := Int.floor_nonneg.2 hx0
  have hcast : ((⌊exact lo hi v⌋.toNat : Nat) : ℚ) = (⌊exact lo hi v⌋ : ℚ) := by
    exact_mod_cast congrArg (Int.cast : Int → ℚ) (Int.toNat_of_nonneg hfn)
  have f1 := Int.floor_le (exact lo hi v)
  have f2 := Int.lt_floor_add_one (exact lo hi v)
  refine ⟨hlow, fun u hu => stretch_mono lo hi hu, stretch_le lo hi v, ?_, ?_, ?_⟩
  · rcases main with h | ⟨-, h⟩
    · rw [h, hcast]; exact f1
    · have : ((stretch lo hi v + 1 : Nat) : ℚ) = (⌊exact lo hi v⌋.toNat : Nat) := by exact_mod_cast h
      push_cast at this
      rw [hcast] at this
      linarith
  · rcases main with h | ⟨⟨n, hn⟩, h⟩
    · rw [h, hcast]; linarith
    · rw [hn] at h ⊢
      rw [show (n : ℚ) = ((n : Int) : ℚ) by norm_num, Int.floor_intCast] at h
      have : n = stretch lo hi v + 1 := by omega
      rw [this]; push_cast; linarith
  · intro hno
    rcases main with h | ⟨h', -⟩
    · rw [h, hcast]; linarith
    · exact absurd h' hno

/-- C81: values of at least `hi` become 254 or 255. -/
theorem autocontrast_bright (lo hi v : Nat) (h1 : lo < hi) (h2 : hi ≤ 255) (hv : v ≤ 255) (h : hi ≤ v) :
    stretch lo hi v = 254 ∨ stretch lo hi v = 255 := by
  obtain ⟨-, -, a, -, b, -⟩ := autocontrast_stretch_partial lo hi v h1 h2 hv
  have hd : (0 : ℚ) < (hi : ℚ) - lo := by
    have : (lo : ℚ) < hi := by exact_mod_cast h1
    linarith
  have e : exact lo hi v = 255 := by
    rw [exact, min_eq_right]
    apply le_max_of_le_left
    rw [le_div_iff₀ hd]
    have : (hi : ℚ) ≤ v := by exact_mod_cast h
    linarith
  rw [e] at b
  have : ((254 : Nat) : ℚ) ≤ (stretch lo hi v : Nat) := by push_cast; linarith
  have : 254 ≤ stretch lo hi v := by exact_mod_cast this
  omega

/-- C81 is false (the lightest value is documented to become white): if the darkest value is 0 and the lightest one 25, the lightest becomes 254,
because the products are rounded in float64 and then truncated. -/
theorem autocontrast_not_white : stretch 0 25 25 = 254 := by
  have e1 : f64 (255 / (((25 : Nat) : ℚ) - (0 : Nat))) = 5742089524897382 * 2 ^ (-49 : Int) := by
    have h : f64 (255 / (((25 : Nat) : ℚ) - (0 : Nat))) = ((5742089524897382 : Int) : ℚ) * 2 ^ ((3 : Int) - (((53 : Nat) : Int) - 1)) := by
      apply flt_eq
      · norm_num
      · norm_num
      · apply Props.npRound_unique
        · norm_num
    rw [h]
    norm_num
  have e2 : f64 (((25 : Nat) : ℚ) * (5742089524897382 * 2 ^ (-49 : Int))) = 8972014882652159 * 2 ^ (-45 : Int) := by
    have h : f64 (((25 : Nat) : ℚ) * (5742089524897382 * 2 ^ (-49 : Int))) =
        ((8972014882652159 : Int) : ℚ) * 2 ^ ((7 : Int) - (((53 : Nat) : Int) - 1)) := by
      apply flt_eq
      · norm_num
      · norm_num
      · apply Props.npRound_unique
        · norm_num
    rw [h]
    norm_num
  have e3 : f64 (((0 : Nat) : ℚ) * (5742089524897382 * 2 ^ (-49 : Int))) = 0 := by
    rw [Nat.cast_zero, zero_mul]; exact flt_zero 53
  have e4 : f64 (8972014882652159 * 2 ^ (-45 : Int)) = 8972014882652159 * 2 ^ (-45 : Int) := by
    have := flt_exact (p := 53) 8972014882652159 (-45) (by norm_num)
    exact_mod_cast this
  rw [stretch, e1, e2, e3, sub_zero, e4]
  have : ⌊min (max ((8972014882652159 : ℚ) * 2 ^ (-45 : Int)) 0) 255⌋ = 254 := by
    rw [Int.floor_eq_iff]
    norm_num
  rw [this]
  rfl

/-- C81: `autocontrast` on images: shape and dtype are kept, every component is mapped by the table of its channel (with PIL doing what it is
known to do, see `pilContrast`, the result does not depend on whether PIL is used). -/
theorem autocontrast_px (cutoff : ℚ) (hc0 : 0 ≤ cutoff) (ignore : List Nat) (im : Lut.Img) (hu : im.uint8 = true) :
    ∃ r, autocontrast (pilContrast cutoff ignore) cutoff ignore im = some r ∧ Lut.SameShape r im ∧ r.uint8 = true ∧
      ∀ y x k, y < im.h → x < im.w → k < im.channels → r.px y x k = contrastTable cutoff ignore (hist im none k) (im.px y x k) := by
  rw [autocontrast, if_neg (by simp [hu])]
  by_cases he : im.empty = true
  · rw [if_pos he]
    refine ⟨im, rfl, ⟨rfl, rfl, rfl, rfl⟩, hu, fun y x k hy hx hk => ?_⟩
    exfalso
    simp only [Lut.Img.empty, Bool.or_eq_true, beq_iff_eq, Bool.and_eq_true, Bool.not_eq_true'] at he
    rcases he with (h | h) | h
    · omega
    · omega
    · rw [Lut.Img.channels, h.1] at hk
      simp [h.2] at hk
  · rw [if_neg he]
    split
    · exact ⟨_, rfl, ⟨rfl, rfl, rfl, rfl⟩, hu, fun y x k _ _ _ => (autocontrast_like_pil cutoff hc0 ignore _ _).symm⟩
    · exact ⟨_, rfl, ⟨rfl, rfl, rfl, rfl⟩, hu, fun y x k _ _ _ => rfl⟩

/-- C81: `autocontrast` accepts uint8 images only. -/
theorem autocontrast_accepts (pil : Hist → Nat → Nat) (cutoff : ℚ) (ignore : List Nat) (im : Lut.Img) :
    (autocontrast pil cutoff ignore im).isSome = true ↔ im.uint8 = true := by
  rw [autocontrast]
  cases im.uint8
  · simp
  · simp only [Bool.true_eq_false, if_false, iff_true]
    split
    · rfl
    · split <;> rfl

/- The hypotheses are met: a histogram with two values, one with a cutoff. -/
example : table (fun v => if v = 3 then 300 else if v = 200 then 400 else 0) 200 = 150 := by decide +kernel
example : pilTable (fun v => if v = 3 then 300 else if v = 200 then 400 else 0) 200 = 255 := by decide +kernel
example : let h : Nat → Int := fun v => if v = 3 then 10 else if v = 90 then 30 else if v = 200 then 60 else 0
    IsLow h 15 90 ∧ IsHigh h 15 200 := by
  refine ⟨⟨by decide, by decide +kernel, by decide +kernel⟩, ⟨by decide, by decide +kernel, by decide +kernel⟩⟩
example : noPilEnds 15 (fun v => if v = 3 then 10 else if v = 90 then 30 else if v = 200 then 60 else 0) = (90, 200) := by decide +kernel

end Imgaug.Equalize.Props
