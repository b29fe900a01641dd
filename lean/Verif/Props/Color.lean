import Verif.Proofs.Color
/-! Property C82: changing the colour space. -/
namespace Imgaug.Color.Props
open Imgaug Imgaug.Dtypes Imgaug.Color

/-- C82: what is accepted: images without pixels, and otherwise uint8 images of shape (H,W,3) in any colour space but grayscale. -/
theorem change_accepts (cv : Cv) (im : Img) (t f : Space) :
    (∃ o, change cv im t f = some o) ↔
      im.h = 0 ∨ im.w = 0 ∨ (im.dt = ⟨.u, 1⟩ ∧ im.flat = false ∧ im.c = 3 ∧ f ≠ .gray) := by
  unfold change
  by_cases h0 : im.h = 0 ∨ im.w = 0
  · rw [if_pos h0]
    constructor
    · intro _; tauto
    · intro _; exact ⟨_, rfl⟩
  rw [if_neg h0]
  by_cases h1 : im.dt = ⟨.u, 1⟩
  · by_cases h2 : f = .gray
    · rw [if_neg (not_not.2 h1), if_pos h2]
      constructor
      · rintro ⟨o, ho⟩; simp at ho
      · tauto
    · by_cases h3 : im.flat = true
      · rw [if_neg (not_not.2 h1), if_neg h2, if_pos h3]
        constructor
        · rintro ⟨o, ho⟩; simp at ho
        · rw [h3]; simp only [Bool.true_eq_false, false_and, and_false, or_false]; tauto
      · by_cases h4 : im.c = 3
        · rw [if_neg (not_not.2 h1), if_neg h2, if_neg h3, if_neg (not_not.2 h4)]
          constructor
          · intro _; exact Or.inr (Or.inr ⟨h1, by simpa using h3, h4, h2⟩)
          · intro _; split <;> exact ⟨_, rfl⟩
        · rw [if_neg (not_not.2 h1), if_neg h2, if_neg h3, if_pos h4]
          constructor
          · rintro ⟨o, ho⟩; simp at ho
          · tauto
  · rw [if_pos h1]
    constructor
    · rintro ⟨o, ho⟩; simp at ho
    · tauto

/-- C82: every pixel is converted, by cv2's conversion between the two colour spaces if one of them is RGB or BGR, and via RGB otherwise. The
image keeps its size, dtype and number of channels. -/
theorem change_px (cv : Cv) (im : Img) (t f : Space) (hc : im.Colour) (hg : f ≠ .gray) :
    ∃ o, change cv im t f = some o ∧ o.result.px = im.px.map (converted cv f t) ∧
      o.result.h = im.h ∧ o.result.w = im.w ∧ o.result.c = 3 ∧ o.result.flat = false ∧ o.result.dt = ⟨.u, 1⟩ := by
  refine ⟨_, change_some cv im t f hc hg, ?_⟩
  obtain ⟨h1, h2, h3, -⟩ := hc
  by_cases hne : f = t
  · rw [if_pos hne]
    refine ⟨?_, rfl, rfl, h3, h2, h1⟩
    have : im.px.map (converted cv f t) = im.px.map id := List.map_congr_left (fun p _ => by rw [converted, if_pos hne]; rfl)
    rw [this, List.map_id]
  · rw [if_neg hne]
    refine ⟨convert_result cv im t f hne hg, ?_⟩
    rw [convert_shape]
    exact ⟨rfl, rfl, h3, h2, h1⟩

/-- C82: an image without pixels is returned as it is, whatever its dtype and the colour spaces. -/
theorem change_empty (cv : Cv) (im : Img) (t f : Space) (h : im.h = 0 ∨ im.w = 0) : change cv im t f = some ⟨im, im⟩ := by
  rw [change, if_pos h]

/-- C82: a grayscale image has three equal channels. -/
theorem gray_channels (cv : Cv) (im : Img) (f : Space) (hc : im.Colour) (hg : f ≠ .gray) :
    ∃ o, change cv im .gray f = some o ∧ ∀ p ∈ o.result.px, p.1 = p.2.1 ∧ p.2.1 = p.2.2 := by
  obtain ⟨o, ho, hp, -⟩ := change_px cv im .gray f hc hg
  refine ⟨o, ho, ?_⟩
  rw [hp]
  intro p hp
  obtain ⟨q, -, rfl⟩ := List.mem_map.1 hp
  rw [converted, if_neg hg, if_pos rfl]
  split <;> exact ⟨rfl, rfl⟩

/-- C82: what the call does to the array that it is given. An array that does not own its memory, such as an image in an array of images, or a
flipped image, is unchanged. Otherwise it holds the result, except for grayscale: then it is unchanged if the image is in RGB or BGR, and it is
left in RGB if the image is in another colour space. -/
theorem change_argument (cv : Cv) (im : Img) (t f : Space) (hc : im.Colour) (hg : f ≠ .gray) :
    ∃ o, change cv im t f = some o ∧ o.arg =
      { im with px := if im.owned = false ∨ f = t ∨ (t = .gray ∧ f.Basic) then im.px
          else if t = .gray then im.px.map (converted cv f .rgb) else o.result.px } := by
  refine ⟨_, change_some cv im t f hc hg, ?_⟩
  by_cases hne : f = t
  · rw [if_pos hne, if_pos (Or.inr (Or.inl hne))]
  rw [if_neg hne]
  by_cases hcond : im.owned = false ∨ f = t ∨ (t = .gray ∧ f.Basic)
  · rw [if_pos hcond]
    exact convert_arg_same cv im t f hne hg hcond
  · rw [if_neg hcond]
    exact convert_arg_changed cv im t f hne hg hcond

/-- C82: with colour spaces whose conversions undo each other on the pixels of an image (as those between RGB and BGR), changing the colour space
and changing it back gives the image. -/
theorem change_back (cv : Cv) (im : Img) (t f : Space) (hcv : cv.Bytes) (hc : im.Colour) (hg : f ≠ .gray) (ht : t ≠ .gray)
    (hinv : ∀ p ∈ im.px, converted cv t f (converted cv f t p) = p) :
    ∃ o o', change cv im t f = some o ∧ change cv o.result f t = some o' ∧ o'.result.px = im.px := by
  obtain ⟨o, ho, hp, h1, h2, h3, h4, h5⟩ := change_px cv im t f hc hg
  have hc' : o.result.Colour := by
    obtain ⟨-, -, -, c4, c5, c6, c7⟩ := hc
    refine ⟨h5, h4, h3, by omega, by omega, by rw [hp, List.length_map, c6, h1, h2], ?_⟩
    rw [hp]
    intro q hq
    obtain ⟨p, hp, rfl⟩ := List.mem_map.1 hq
    exact converted_bytes cv hcv f t p (c7 p hp)
  obtain ⟨o', ho', hp', -⟩ := change_px cv o.result f t hc' ht
  refine ⟨o, o', ho, ho', ?_⟩
  rw [hp', hp, List.map_map]
  conv_rhs => rw [← List.map_id im.px]
  exact List.map_congr_left hinv

/-- C82: many images: one colour space for all of them, or a list with one for each image. Each image is changed on its own, so that every image
must be acceptable on its own. -/
theorem changes_each (cv : Cv) (array : Bool) (images r : List Img) (t f : Arg) (h : changes cv array images t f = some r) :
    ∃ ts fs, validate images.length t = some ts ∧ validate images.length f = some fs ∧ ts.length = images.length ∧
      fs.length = images.length ∧ r.length = images.length ∧
      ∀ (i : Nat) im st sf, images[i]? = some im → ts[i]? = some st → fs[i]? = some sf →
        ∃ o im', change cv im st sf = some o ∧ r[i]? = some im' ∧ im'.px = o.result.px ∧ im'.h = o.result.h ∧ im'.w = o.result.w ∧
          im'.dt = o.result.dt := by
  have hv : ∀ (n : Nat) (a : Arg) (l : List Space), validate n a = some l → l.length = n := by
    intro n a l hl
    cases a with
    | one s => simp only [validate, Option.some.injEq] at hl; rw [← hl, List.length_replicate]
    | many l' =>
      simp only [validate] at hl
      split at hl
      · rename_i hn; simp only [Option.some.injEq] at hl; rw [← hl, hn]
      · simp at hl
  unfold changes at h
  obtain ⟨ts, hts, h⟩ := Option.bind_eq_some_iff.1 h
  obtain ⟨fs, hfs, h⟩ := Option.bind_eq_some_iff.1 h
  have l1 := hv _ _ _ hts
  have l2 := hv _ _ _ hfs
  refine ⟨ts, fs, hts, hfs, l1, l2, ?_, ?_⟩
  · have := mapM_len _ _ _ h
    rw [this, List.length_zip, List.length_zip]; omega
  · intro i im st sf hi hst hsf
    have hz : (images.zip (ts.zip fs))[i]? = some (im, st, sf) := by
      rw [List.getElem?_zip_eq_some]
      exact ⟨hi, by rw [List.getElem?_zip_eq_some]; exact ⟨hst, hsf⟩⟩
    obtain ⟨b, hb, hch⟩ := mapM_nth _ _ _ h i _ hz
    obtain ⟨o, ho, hs⟩ := Option.map_eq_some_iff.1 hch
    refine ⟨o, b, ho, hb, ?_⟩
    rw [← hs, store]
    split <;> exact ⟨rfl, rfl, rfl, rfl⟩

/-- C82: a list of colour spaces of another length than the list of images is rejected. -/
theorem changes_length (cv : Cv) (array : Bool) (images : List Img) (t f : Arg) (l : List Space) (h : l.length ≠ images.length)
    (ha : t = .many l ∨ f = .many l) : changes cv array images t f = none := by
  unfold changes
  have hn : validate images.length (.many l) = none := by rw [validate, if_neg h]
  rcases ha with rfl | rfl
  · rw [hn]; rfl
  · rw [hn]
    cases validate images.length t <;> rfl

/-- C82 (partial): `ChangeColorspace`, and so `Grayscale`, where the converted image does not overwrite the image: for images that do not own their
memory, such as those in an array of images, and for grayscale and images in RGB or BGR. Every component is then the documented mixture of the
converted and of the original one. Missing: all other images, see `alpha_ignored`. -/
theorem colorspace_faded_partial (cv : Cv) (hcv : cv.Bytes) (f t : Space) (im : Img) (hc : im.Colour) (hg : f ≠ .gray) (alpha : ℚ)
    (h0 : 0 ≤ alpha) (h1 : alpha ≤ 1) (hm : im.owned = false ∨ (t = .gray ∧ f.Basic)) :
    changeOne cv f alpha t im =
      some (⟨.u, 1⟩, List.zipWith (faded alpha) (comps (im.px.map (converted cv f t))) (comps im.px)) := by
  have hdt := hc.1
  unfold changeOne
  by_cases hs : alpha ≤ 1 / 1000 ∨ f = t
  · rw [if_pos hs, hdt, toBlend_vals]
    congr 2
    have hl : (comps (im.px.map (converted cv f t))).length = (comps im.px).length := by
      rw [comps_length, comps_length, List.length_map]
    refine (zipWith_right _ _ _ hl (fun i x y hx hy => ?_)).symm
    rcases hs with hs | hs
    · rw [faded, if_neg (by intro h; linarith), if_pos hs]
    · have he : im.px.map (converted cv f t) = im.px := map_same cv im.px f t hs
      rw [he, hy] at hx
      obtain rfl := Option.some.inj hx
      exact faded_same alpha y (comps_nat _ y (List.mem_of_getElem? hy))
  · rw [if_neg hs]
    have hne : f ≠ t := fun h => hs (Or.inr h)
    rw [change_some cv im t f hc hg, if_neg hne]
    simp only [Option.bind_some]
    have harg : (convert cv im t f).arg = im := by
      rw [convert_arg_same cv im t f hne hg (by tauto)]
    obtain ⟨o, ho, h2, h3⟩ := blend_faded (convert cv im t f).result (convert cv im t f).arg
      (convert_colour cv hcv im t f hc hne hg) (by rw [harg]; exact hc) (by rw [harg, convert_shape]) (by rw [harg, convert_shape]) alpha h0 h1
    rw [ho, Option.map_some, h2, h3, harg, convert_result cv im t f hne hg]

/-- C82 is false for images that own their memory, as those in lists of images do, and colour spaces other than grayscale: `alpha` is ignored (unless
it is at most 0.001), as the converted image overwrites the original one before they are mixed. The result is the converted image. -/
theorem alpha_ignored (cv : Cv) (hcv : cv.Bytes) (f t : Space) (im : Img) (hc : im.Colour) (hg : f ≠ .gray) (alpha : ℚ)
    (h0 : 1 / 1000 < alpha) (h1 : alpha ≤ 1) (hm : im.owned = true) (ht : t ≠ .gray) :
    changeOne cv f alpha t im = some (⟨.u, 1⟩, comps (im.px.map (converted cv f t))) := by
  have hdt := hc.1
  unfold changeOne
  by_cases hs : alpha ≤ 1 / 1000 ∨ f = t
  · rw [if_pos hs, hdt, toBlend_vals]
    rcases hs with hs | hs
    · exact absurd h0 (not_lt.2 hs)
    · rw [map_same cv im.px f t hs]
  · rw [if_neg hs]
    have hne : f ≠ t := fun h => hs (Or.inr h)
    rw [change_some cv im t f hc hg, if_neg hne]
    simp only [Option.bind_some]
    have harg := convert_arg_changed cv im t f hne hg (by simp [hm, hne, ht])
    rw [if_neg ht] at harg
    have hca : (convert cv im t f).arg.Colour := by
      obtain ⟨c1, c2, c3, c4, c5, c6, c7⟩ := convert_colour cv hcv im t f hc hne hg
      rw [convert_shape] at c1 c2 c3 c4 c5 c6
      rw [harg]
      exact ⟨c1, c2, c3, c4, c5, c6, c7⟩
    obtain ⟨o, ho, h2, h3⟩ := blend_faded (convert cv im t f).result (convert cv im t f).arg
      (convert_colour cv hcv im t f hc hne hg) hca (by rw [harg, convert_shape]) (by rw [harg, convert_shape]) alpha (by linarith) h1
    rw [ho, Option.map_some, h2, h3, harg, convert_result cv im t f hne hg]
    congr 2
    refine zipWith_right _ _ _ rfl (fun i x y hx hy => ?_)
    rw [hy] at hx
    obtain rfl := Option.some.inj hx
    exact faded_same alpha y (comps_nat _ y (List.mem_of_getElem? hy))

/-- C82 is false for grayscale and images that own their memory and are in none of RGB and BGR: the gray values are mixed with the RGB values
of the image, not with its own values. -/
theorem grayscale_mixes_rgb (cv : Cv) (hcv : cv.Bytes) (f : Space) (im : Img) (hc : im.Colour) (hg : f ≠ .gray) (alpha : ℚ)
    (h0 : 1 / 1000 < alpha) (h1 : alpha ≤ 1) (hm : im.owned = true) (hb : ¬ f.Basic) :
    changeOne cv f alpha .gray im = some (⟨.u, 1⟩,
      List.zipWith (faded alpha) (comps (im.px.map (converted cv f .gray))) (comps (im.px.map (converted cv f .rgb)))) := by
  unfold changeOne
  rw [if_neg (fun h => h.elim (fun h => by linarith) hg)]
  rw [change_some cv im .gray f hc hg, if_neg hg]
  simp only [Option.bind_some]
  have harg := convert_arg_changed cv im .gray f hg hg (by simp [hm, hg, hb])
  rw [if_pos rfl] at harg
  have hca : (convert cv im .gray f).arg.Colour := by
    obtain ⟨c1, c2, c3, c4, c5, c6, c7⟩ := hc
    rw [harg]
    refine ⟨c1, c2, c3, c4, c5, by simpa using c6, ?_⟩
    intro q hq
    obtain ⟨p, hp, rfl⟩ := List.mem_map.1 hq
    exact converted_bytes cv hcv f .rgb p (c7 p hp)
  obtain ⟨o, ho, h2, h3⟩ := blend_faded (convert cv im .gray f).result (convert cv im .gray f).arg
    (convert_colour cv hcv im .gray f hc hg hg) hca (by rw [harg, convert_shape]) (by rw [harg, convert_shape]) alpha (by linarith) h1
  rw [ho, Option.map_some, h2, h3, harg, convert_result cv im .gray f hg hg]

/-- C82 is false: `ChangeColorspace` with `alpha = 0.5` gives different results for the same image in a list and in an array. -/
theorem alpha_list_array :
    changeOne swap .rgb (1 / 2) .bgr (dot true) = some (⟨.u, 1⟩, [0, 100, 200]) ∧
    changeOne swap .rgb (1 / 2) .bgr (dot false) = some (⟨.u, 1⟩, [100, 100, 100]) := by
  constructor <;> decide +kernel

/-- C82: `ChangeColorspace` on many images treats each on its own; it cannot be made for images in grayscale. -/
theorem colorspace_batch (cv : Cv) (f : Space) (rows : List (Img × ℚ × Space)) (r : List (DType × List ℚ))
    (h : changeColorspace cv f rows = some r) :
    f ≠ .gray ∧ r.length = rows.length ∧ ∀ (i : Nat) (row : Img × ℚ × Space), rows[i]? = some row →
      ∃ out, r[i]? = some out ∧ changeOne cv f row.2.1 row.2.2 row.1 = some out := by
  unfold changeColorspace at h
  split at h
  · simp at h
  rename_i hg
  exact ⟨hg, mapM_len _ _ _ h, fun i row hi => mapM_nth _ _ _ h i row hi⟩

/-- C82: `Grayscale` changes every image to grayscale, with its own `alpha`. -/
theorem grayscale_batch (cv : Cv) (f : Space) (rows : List (Img × ℚ)) (r : List (DType × List ℚ)) (h : grayscale cv f rows = some r) :
    f ≠ .gray ∧ r.length = rows.length ∧ ∀ (i : Nat) (im : Img) (alpha : ℚ), rows[i]? = some (im, alpha) →
      ∃ out, r[i]? = some out ∧ changeOne cv f alpha .gray im = some out := by
  obtain ⟨h1, h2, h3⟩ := colorspace_batch cv f _ r h
  refine ⟨h1, by rw [h2, List.length_map], fun i im alpha hi => ?_⟩
  exact h3 i (im, alpha, .gray) (by rw [List.getElem?_map, hi]; rfl)

/-- C82: `Grayscale` with `alpha` at least 0.999 makes every pixel gray, with the gray value of the pixel; up to 0.001 it changes nothing. -/
theorem grayscale_full (cv : Cv) (hcv : cv.Bytes) (f : Space) (im : Img) (hc : im.Colour) (hg : f ≠ .gray) (alpha : ℚ)
    (h0 : 0 ≤ alpha) (h1 : alpha ≤ 1) :
    (999 / 1000 ≤ alpha → changeOne cv f alpha .gray im = some (⟨.u, 1⟩, comps (im.px.map (converted cv f .gray)))) ∧
    (alpha ≤ 1 / 1000 → changeOne cv f alpha .gray im = some (⟨.u, 1⟩, comps im.px)) := by
  constructor
  · intro ha
    have key : ∀ l' : List Px, l'.length = im.px.length →
        List.zipWith (faded alpha) (comps (im.px.map (converted cv f .gray))) (comps l') = comps (im.px.map (converted cv f .gray)) := by
      intro l' hl
      refine List.ext_getElem? (fun i => ?_)
      have hll : (comps (im.px.map (converted cv f .gray))).length = (comps l').length := by
        rw [comps_length, comps_length, List.length_map, hl]
      rw [List.getElem?_zipWith]
      by_cases hi : i < (comps l').length
      · rw [List.getElem?_eq_getElem hi, List.getElem?_eq_getElem (by omega)]
        simp only [faded, if_pos ha]
      · rw [List.getElem?_eq_none (by omega)]
    by_cases hm : im.owned = false ∨ (Space.gray = .gray ∧ f.Basic)
    · rw [colorspace_faded_partial cv hcv f .gray im hc hg alpha h0 h1 hm, key _ rfl]
    · have ho : im.owned = true := by
        by_contra h; exact hm (Or.inl (by simpa using h))
      have hb : ¬ f.Basic := fun h => hm (Or.inr ⟨rfl, h⟩)
      rw [grayscale_mixes_rgb cv hcv f im hc hg alpha (by linarith) h1 ho hb, key _ (by simp)]
  · intro ha
    rw [changeOne, if_pos (Or.inl ha), hc.1, toBlend_vals]

/-- The hypotheses of the theorems above are met. -/
example : swap.Bytes ∧ (dot true).Colour ∧ (dot false).Colour ∧ (∃ o, change swap (dot true) .bgr .rgb = some o ∧ o.arg.px = [(0, 100, 200)]) ∧
    (∀ p ∈ (dot true).px, converted swap .bgr .rgb (converted swap .rgb .bgr p) = p) :=
  ⟨swap_bytes, dot_colour _, dot_colour _, ⟨_, rfl, rfl⟩, by decide⟩

end Imgaug.Color.Props
