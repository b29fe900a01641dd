import Verif.Proofs.Hue
import Verif.Props.Color
import Mathlib.Tactic.IntervalCases
/-! Property C83: augmenting in another colour space. -/
namespace Imgaug.Hue.Props
open Imgaug Imgaug.Dtypes Imgaug.Color Imgaug.Color.Props Imgaug.Hue

/-- C83: adding to the hue: a value of [-255,255] is the angle of [-180,180] without its fractional digits. The computation with float32 is exact in
that sense. -/
theorem hue_shift (v : Int) (h0 : -255 ≤ v) (h1 : v ≤ 255) : hueShift v = (v * 180).tdiv 255 ∧ -180 ≤ hueShift v ∧ hueShift v ≤ 180 := by
  rw [hueShift_eq v h0 h1]
  exact ⟨rfl, angle_bounds v h0 h1⟩

/-- C83: hues remain angles: subtracting what was added restores each hue, and 255 or -255 turn once around. -/
theorem hue_turns (h : Nat) (hh : h < 180) (v : Int) (h0 : -255 ≤ v) (h1 : v ≤ 255) :
    turned h (hueShift v) < 180 ∧ turned (turned h (hueShift v)) (hueShift (-v)) = h ∧ turned h (hueShift 255) = h ∧
      turned h (hueShift (-255)) = h := by
  rw [hueShift_eq v h0 h1, hueShift_eq (-v) (by omega) (by omega), hueShift_eq 255 (by omega) (by omega),
    hueShift_eq (-255) (by omega) (by omega)]
  have hn : angle (-v) = -angle v := by unfold angle; rw [neg_mul, Int.neg_tdiv]
  have e1 : angle 255 = 180 := by decide
  have e2 : angle (-255) = -180 := by decide
  rw [hn, e1, e2]
  unfold turned
  omega

/-- C83: the two implementations agree: that with lookup tables, and that with numpy. -/
theorem backends_agree (hue sat : Int) (h : InRange (hue, sat)) (l : List Px) : transformCv2 hue sat l = some (transformNumpy hue sat l) :=
  cv2_numpy hue sat h.1 h.2.1 h.2.2.1 h.2.2.2 l

/-- C83: `AddToHueAndSaturation`: every image is converted to HSV, the sampled values are added to hue and saturation, where the hue is an angle and the
saturation is limited to bytes, the value remains, and the image is converted back. It succeeds for images in any colour space but grayscale. -/
theorem add_px (cv : Cv) (hcv : cv.Bytes) (backend : Bool) (f : Space) (hg : f ≠ .gray) (s : Samples) (array : Bool) (images : List Img)
    (hne : images ≠ []) (hc : ∀ im ∈ images, im.Colour) (hf : s.Fits images.length) (hr : ∀ i < images.length, InRange (s.at i)) :
    ∃ r, addBatch cv backend f s array (some images) = some (some r) ∧ r.length = images.length ∧
      ∀ (i : Nat) im, images[i]? = some im → ∃ im', r[i]? = some im' ∧ im'.h = im.h ∧ im'.w = im.w ∧ im'.dt = ⟨.u, 1⟩ ∧
        im'.px = im.px.map (fun p => converted cv .hsv f (shifted (s.at i).1 (s.at i).2 (converted cv f .hsv p))) := by
  have hch : ∃ hsv, changes cv array images (.one .hsv) (.one f) = some hsv ∧ hsv.length = images.length ∧
      ∀ (i : Nat) im, images[i]? = some im → ∃ im', hsv[i]? = some im' ∧ im'.Colour ∧ im'.px = im.px.map (converted cv f .hsv) ∧
        im'.h = im.h ∧ im'.w = im.w := changes_one cv hcv array images .hsv f hg hc
  obtain ⟨hsv, e1, l1, g1⟩ := hch
  have hd : ∃ d, drawn images.length s = some d := by
    cases s with
    | each a b => exact ⟨_, rfl⟩
    | both values perChannel =>
      cases values with
      | nil =>
        have := hf.1
        simp only [List.length_nil] at this
        exact absurd (List.length_eq_zero_iff.1 this.symm) hne
      | cons v vs =>
        have h0 := hr 0 (List.length_pos_iff.2 hne)
        simp only [InRange, Samples.at, List.getD_cons_zero] at h0
        exact ⟨_, by rw [drawn]; exact if_pos ⟨h0.1, h0.2.1⟩⟩
  obtain ⟨d, hd⟩ := hd
  obtain ⟨l2, g2⟩ := drawn_at _ s d hf hd
  have hall : ∀ p ∈ hsv.zip d, ∃ q, (addOne cv backend f p.1 p.2).map (store array) = some q := by
    intro p hp
    obtain ⟨i, hi⟩ := List.mem_iff_getElem?.1 hp
    obtain ⟨h1, h2⟩ := List.getElem?_zip_eq_some.1 hi
    have hlt : i < images.length := by
      have := (List.getElem?_eq_some_iff.1 h1).1; omega
    obtain ⟨im', k1, k2, -⟩ := g1 i _ (List.getElem?_eq_getElem hlt)
    rw [h1] at k1
    obtain rfl := Option.some.inj k1
    rw [g2 i hlt] at h2
    have h2 := Option.some.inj h2
    obtain ⟨q, hq, -⟩ := add_one cv hcv backend f p.1 k2 (s.at i) (hr i hlt)
    rw [← h2]
    exact ⟨_, by rw [hq]; rfl⟩
  obtain ⟨r, hr'⟩ := mapM_all _ _ hall
  refine ⟨r, ?_, ?_, ?_⟩
  · simp only [addBatch, e1, hd, Option.bind_some]
    rw [hr']; rfl
  · rw [mapM_len _ _ _ hr', List.length_zip, l1, l2, Nat.min_self]
  · intro i im hi
    have hlt : i < images.length := (List.getElem?_eq_some_iff.1 hi).1
    obtain ⟨im', k1, k2, k3, k4, k5⟩ := g1 i im hi
    have hz : (hsv.zip d)[i]? = some (im', (hueShift (s.at i).1, (s.at i).2)) := List.getElem?_zip_eq_some.2 ⟨k1, g2 i hlt⟩
    obtain ⟨b, hb, hbe⟩ := mapM_nth _ _ _ hr' i _ hz
    obtain ⟨q, hq, q1, q2, q3, q4⟩ := add_one cv hcv backend f im' k2 (s.at i) (hr i hlt)
    dsimp only at hbe
    rw [hq, Option.map_some] at hbe
    obtain rfl := Option.some.inj hbe
    refine ⟨_, hb, ?_, ?_, ?_, ?_⟩
    · unfold store; split <;> simp [q1, k4]
    · unfold store; split <;> simp [q2, k5]
    · unfold store; split <;> simp [q3]
    · have : (store array q).px = q.px := by unfold store; split <;> rfl
      rw [this, q4, k3, List.map_map]; rfl

/-- C83 is false if a value is out of range and the parameter is a custom one: only the value for the hue of the first image is checked. A
saturation increased by 256 becomes 0, as the lookup table has an unused row, where it should be at most 255. -/
theorem saturation_256 (h s v : Nat) : transformCv2 0 256 [(h, s, v)] = some [(h % 180, 0, v)] ∧ limited ((s : Int) + 256) = 255 := by
  constructor
  · have h1 : rowAt 0 = some 255 := by decide
    have h2 : rowAt 256 = some 511 := by decide
    simp only [transformCv2, h1, h2, Option.bind_some, Option.map_some, List.map_cons, List.map_nil, hueRow, satRow]
    rw [if_pos (by omega), if_neg (by omega)]
    have : (((h : Int) + (((255 : Nat) : Int) - 255)) % 180).toNat = h % 180 := by omega
    rw [this]
  · unfold limited
    rw [if_neg (by omega), if_pos (by omega)]

/-- C83 is false if a value is out of range and the parameter is a custom one: negative indices of the table count from its end, so that a
saturation decreased by 257 becomes 255 where it should become 0. -/
theorem saturation_minus_257 (h s v : Nat) (hs : s ≤ 255) :
    transformCv2 0 (-257) [(h, s, v)] = some [(h % 180, 255, v)] ∧ limited ((s : Int) - 257) = 0 := by
  constructor
  · have h1 : rowAt 0 = some 255 := by decide
    have h2 : rowAt (-257) = some 510 := by decide
    simp only [transformCv2, h1, h2, Option.bind_some, Option.map_some, List.map_cons, List.map_nil, hueRow, satRow]
    rw [if_pos (by omega), if_pos (by omega)]
    have e : (((h : Int) + (((255 : Nat) : Int) - 255)) % 180).toNat = h % 180 := by omega
    have e2 : clipSat ((s : Int) + (((510 : Nat) : Int) - 255)) = 255 := by
      unfold clipSat
      omega
    rw [e, e2]
  · unfold limited
    rw [if_pos (by omega)]

/-- C83 is false for an empty list of images: with `value` the augmenter raises, with `value_hue` and `value_saturation` it does not. -/
theorem add_no_images (cv : Cv) (backend : Bool) (f : Space) (array : Bool) :
    addBatch cv backend f (.both [] []) array (some []) = none ∧ addBatch cv backend f (.each (some []) (some [])) array (some []) = some (some []) :=
  ⟨rfl, rfl⟩

/-- C83: `WithHueAndSaturation`: the scale of the hue for the children, and back. Going back takes the hue as an angle: 255 more is no change. -/
theorem hue_scale : (∀ h ≤ 255, hueUp h = ((h * 255 / 180 : Nat) : Int)) ∧ (∀ a : Int, hueDown a = (a % 255).toNat * 180 / 255) ∧
    (∀ a : Int, hueDown a < 180) ∧ ∀ a k : Int, hueDown (a + 255 * k) = hueDown a := by
  refine ⟨hueUp_eq, hueDown_eq, fun a => ?_, fun a k => ?_⟩
  · rw [hueDown_eq]; omega
  · rw [hueDown_eq, hueDown_eq, Int.add_mul_emod_self_left]

/-- C83 is false for `WithHueAndSaturation`: children that change nothing decrease the hue by one, unless it is a multiple of 12. -/
theorem hue_drifts (h : Nat) (hh : h < 180) : hueDown (hueUp h) = if 12 ∣ h then h else h - 1 := by
  rw [hueUp_eq h (by omega), hueDown_eq, show (((h * 255 / 180 : Nat) : Int) % 255).toNat = h * 255 / 180 by omega]
  obtain ⟨a, r, hr, rfl⟩ : ∃ a r, r < 12 ∧ h = 12 * a + r := ⟨h / 12, h % 12, by omega, by omega⟩
  split_ifs with hd
  · have : r = 0 := by omega
    omega
  · interval_cases r <;> omega

/-- C83 is false for `WithHueAndSaturation`: repeated, with children that change nothing, every hue drifts down to a multiple of 12, and remains
there. -/
theorem hue_drifts_down (h : Nat) (hh : h < 180) (n : Nat) (hn : h % 12 ≤ n) : (fun x => hueDown (hueUp x))^[n] h = h / 12 * 12 := by
  induction n generalizing h with
  | zero => simp only [Function.iterate_zero, id]; omega
  | succ n ih =>
    rw [Function.iterate_succ_apply]
    have := hue_drifts h hh
    by_cases hd : 12 ∣ h
    · rw [if_pos hd] at this
      rw [this, ih h hh (by omega)]
    · rw [if_neg hd] at this
      rw [this, ih (h - 1) (by omega) (by omega)]
      omega

/-- C83 (partial): `WithHueAndSaturation`: the children get the hue, scaled, and the saturation of each image in HSV; what they return is scaled
back to an angle, and limited to bytes, the value remains, and the image is converted back. Missing: children that change nothing do not leave the
hue as it is, see `hue_drifts`. -/
theorem with_hue_saturation_partial (cv : Cv) (hcv : cv.Bytes) (f : Space) (hg : f ≠ .gray) (children : List HS → Option (List HS)) (array : Bool)
    (images : List Img) (hc : ∀ im ∈ images, im.Colour) :
    ∃ given : List HS, given.length = images.length ∧
      (∀ (i : Nat) im, images[i]? = some im → given[i]? = some ⟨im.h, im.w,
        im.px.map (fun p => ((((converted cv f .hsv p).1 * 255 / 180 : Nat) : Int), ((converted cv f .hsv p).2.1 : Int)))⟩) ∧
      ∀ back, children given = some back → back.length = images.length →
        (∀ (i : Nat) im b, images[i]? = some im → back[i]? = some b → b.h = im.h ∧ b.w = im.w ∧ b.px.length = im.px.length) →
        ∃ r, withHS cv f children array (some images) = some (some r) ∧ r.length = images.length ∧
          ∀ (i : Nat) im b, images[i]? = some im → back[i]? = some b → ∃ im', r[i]? = some im' ∧ im'.h = im.h ∧ im'.w = im.w ∧
            im'.px = List.zipWith (fun q p => converted cv .hsv f ((q.1 % 255).toNat * 180 / 255, limited q.2, (converted cv f .hsv p).2.2))
              b.px im.px := by
  obtain ⟨hsv, e1, l1, g1⟩ := changes_one cv hcv array images .hsv f hg hc
  refine ⟨hsv.map toHS, by rw [List.length_map, l1], ?_, ?_⟩
  · intro i im hi
    obtain ⟨im', k1, k2, k3, k4, k5⟩ := g1 i im hi
    rw [List.getElem?_map, k1, Option.map_some]
    unfold toHS
    rw [k4, k5, k3, List.map_map]
    congr 2
    refine List.map_congr_left (fun p hp => ?_)
    simp only [Function.comp]
    rw [hueUp_eq]
    exact (k2.2.2.2.2.2.2 _ (by rw [k3]; exact List.mem_map_of_mem hp)).1
  · intro back hback hlen hsz
    have hall : ∀ p ∈ back.zip hsv, ∃ q, fromHS p.1 p.2 = some q := by
      intro p hp
      obtain ⟨i, hi⟩ := List.mem_iff_getElem?.1 hp
      obtain ⟨h1, h2⟩ := List.getElem?_zip_eq_some.1 hi
      have hlt : i < images.length := by
        have := (List.getElem?_eq_some_iff.1 h2).1; omega
      obtain ⟨im', k1, k2, k3, k4, k5⟩ := g1 i _ (List.getElem?_eq_getElem hlt)
      rw [h2] at k1
      obtain rfl := Option.some.inj k1
      obtain ⟨s1, s2, -⟩ := hsz i _ _ (List.getElem?_eq_getElem hlt) h1
      exact ⟨_, if_pos ⟨by rw [s1, k4], by rw [s2, k5]⟩⟩
    obtain ⟨out, hout⟩ := mapM_all _ _ hall
    have hol : out.length = images.length := by rw [mapM_len _ _ _ hout, List.length_zip, hlen, l1, Nat.min_self]
    have hget : ∀ (i : Nat) im b, images[i]? = some im → back[i]? = some b → ∃ o, out[i]? = some o ∧ o.Colour ∧ o.h = im.h ∧ o.w = im.w ∧
        o.px = List.zipWith (fun q p => ((q.1 % 255).toNat * 180 / 255, limited q.2, (converted cv f .hsv p).2.2)) b.px im.px := by
      intro i im b hi hb
      obtain ⟨im', k1, k2, k3, k4, k5⟩ := g1 i im hi
      obtain ⟨s1, s2, s3⟩ := hsz i im b hi hb
      obtain ⟨o, ho, hoe⟩ := mapM_nth _ _ _ hout i (b, im') (List.getElem?_zip_eq_some.2 ⟨hb, k1⟩)
      dsimp only at hoe
      rw [fromHS, if_pos ⟨by rw [s1, k4], by rw [s2, k5]⟩] at hoe
      obtain rfl := Option.some.inj hoe
      refine ⟨_, ho, ?_, k4, k5, ?_⟩
      · obtain ⟨c1, c2, c3, c4, c5, c6, c7⟩ := k2
        have c6' : im'.px.length = im.px.length := by rw [k3, List.length_map]
        refine ⟨rfl, rfl, rfl, c4, c5, ?_, ?_⟩
        · rw [List.length_map, List.length_zip, s3, ← c6', Nat.min_self, c6]
        · intro q hq
          obtain ⟨p, hp, rfl⟩ := List.mem_map.1 hq
          refine ⟨?_, ?_, ?_⟩
          · dsimp only; rw [hueDown_eq]; omega
          · dsimp only; unfold clipSat; omega
          · exact (c7 _ (List.of_mem_zip hp).2).2.2
      · dsimp only
        rw [k3, List.zip_map_right, List.map_map, List.map_zip_eq_zipWith]
        congr 1
        funext q p
        simp only [Function.comp, Function.curry, Prod.map, id]
        rw [hueDown_eq, clipSat_eq]
    have hcol : ∀ o ∈ out, o.Colour := by
      intro o ho
      obtain ⟨i, hi⟩ := List.mem_iff_getElem?.1 ho
      have hlt : i < images.length := by
        have := (List.getElem?_eq_some_iff.1 hi).1; omega
      obtain ⟨o', ho', hc', -⟩ := hget i _ _ (List.getElem?_eq_getElem hlt) (List.getElem?_eq_getElem (by omega : i < back.length))
      rw [hi] at ho'
      obtain rfl := Option.some.inj ho'
      exact hc'
    obtain ⟨r, hr, rl, rg⟩ := changes_one cv hcv array out f .hsv (by decide) hcol
    refine ⟨r, ?_, by rw [rl, hol], ?_⟩
    · simp only [withHS, e1, Option.bind_some, hback]
      rw [if_pos (by omega), hout, Option.bind_some, hr, Option.map_some]
    · intro i im b hi hb
      obtain ⟨o, o1, o2, o3, o4, o5⟩ := hget i im b hi hb
      obtain ⟨im', k1, k2, k3, k4, k5⟩ := rg i o o1
      refine ⟨im', k1, by rw [k4, o3], by rw [k5, o4], ?_⟩
      rw [k3, o5, List.map_zipWith]

/-- C83: `WithColorspace`: the children get each image in the new colour space, and each image they return is converted back. They may return other
images, also of other sizes and in another number. -/
theorem with_colorspace (cv : Cv) (hcv : cv.Bytes) (t f : Space) (ht : t ≠ .gray) (hg : f ≠ .gray)
    (children : Bool → List Img → Option (Bool × List Img)) (array : Bool) (images : List Img) (hc : ∀ im ∈ images, im.Colour) :
    ∃ given : List Img, given.length = images.length ∧
      (∀ (i : Nat) im, images[i]? = some im → ∃ g, given[i]? = some g ∧ g.h = im.h ∧ g.w = im.w ∧ g.px = im.px.map (converted cv f t)) ∧
      ∀ array' back, children array given = some (array', back) → (∀ im ∈ back, im.Colour) →
        ∃ r, withColorspace cv t f children array (some images) = some (some r) ∧ r.length = back.length ∧
          ∀ (i : Nat) b, back[i]? = some b → ∃ im', r[i]? = some im' ∧ im'.h = b.h ∧ im'.w = b.w ∧ im'.px = b.px.map (converted cv t f) := by
  obtain ⟨given, e1, l1, g1⟩ := changes_one cv hcv array images t f hg hc
  refine ⟨given, l1, ?_, ?_⟩
  · intro i im hi
    obtain ⟨im', k1, k2, k3, k4, k5⟩ := g1 i im hi
    exact ⟨im', k1, k4, k5, k3⟩
  · intro array' back hb hcb
    obtain ⟨r, hr, rl, rg⟩ := changes_one cv hcv array' back f t ht hcb
    refine ⟨r, ?_, rl, ?_⟩
    · simp only [withColorspace, e1, Option.bind_some, hb, hr, Option.map_some]
    · intro i b hib
      obtain ⟨im', k1, k2, k3, k4, k5⟩ := rg i b hib
      exact ⟨im', k1, k4, k5, k3⟩

/-- C83: `WithColorspace` with children that change nothing changes nothing, if the conversions undo each other on the pixels of the images. -/
theorem with_colorspace_nothing (cv : Cv) (hcv : cv.Bytes) (t f : Space) (ht : t ≠ .gray) (hg : f ≠ .gray) (array : Bool) (images : List Img)
    (hc : ∀ im ∈ images, im.Colour) (hinv : ∀ im ∈ images, ∀ p ∈ im.px, converted cv t f (converted cv f t p) = p) :
    ∃ r, withColorspace cv t f (fun a l => some (a, l)) array (some images) = some (some r) ∧ r.map Img.px = images.map Img.px := by
  obtain ⟨given, e1, l1, g1⟩ := changes_one cv hcv array images t f hg hc
  have hcb : ∀ im ∈ given, im.Colour := by
    intro im him
    obtain ⟨i, hi⟩ := List.mem_iff_getElem?.1 him
    have hlt : i < images.length := by
      have := (List.getElem?_eq_some_iff.1 hi).1; omega
    obtain ⟨im', k1, k2, -⟩ := g1 i _ (List.getElem?_eq_getElem hlt)
    rw [hi] at k1
    obtain rfl := Option.some.inj k1
    exact k2
  obtain ⟨r, hr, rl, rg⟩ := changes_one cv hcv array given f t ht hcb
  refine ⟨r, ?_, ?_⟩
  · simp only [withColorspace, e1, Option.bind_some, hr, Option.map_some]
  · refine List.ext_getElem? (fun i => ?_)
    rw [List.getElem?_map, List.getElem?_map]
    by_cases hi : i < images.length
    · obtain ⟨im', k1, k2, k3, -⟩ := g1 i _ (List.getElem?_eq_getElem hi)
      obtain ⟨im'', m1, m2, m3, -⟩ := rg i im' k1
      rw [m1, List.getElem?_eq_getElem hi]
      simp only [Option.map_some, Option.some.injEq]
      rw [m3, k3, List.map_map]
      conv_rhs => rw [← List.map_id (images[i]).px]
      exact List.map_congr_left (hinv _ (List.getElem_mem hi))
    · rw [List.getElem?_eq_none (by omega), List.getElem?_eq_none (by omega)]

/-- C83: `WithColorspace` without images does nothing, and it raises with grayscale as new colour space, if the children return an image with pixels. -/
theorem with_colorspace_gray (cv : Cv) (f : Space) (children : Bool → List Img → Option (Bool × List Img)) (array : Bool) :
    withColorspace cv .gray f children array none = some none ∧
    ∀ images, (∀ given array' back, children array given = some (array', back) → ∃ im ∈ back, 0 < im.h ∧ 0 < im.w) →
      withColorspace cv .gray f children array (some images) = none := by
  refine ⟨rfl, fun images hch => ?_⟩
  simp only [withColorspace]
  cases h1 : changes cv array images (.one .gray) (.one f) with
  | none => rfl
  | some given =>
    rw [Option.bind_some]
    cases h2 : children array given with
    | none => rfl
    | some q =>
      obtain ⟨array', back⟩ := q
      rw [Option.bind_some]
      obtain ⟨im, him, hp⟩ := hch given array' back h2
      cases h3 : changes cv array' back (.one f) (.one .gray) with
      | none => rfl
      | some r =>
        exfalso
        obtain ⟨ts, fs, v1, v2, l1, l2, l3, hget⟩ := changes_each cv array' back r _ _ h3
        simp only [validate, Option.some.injEq] at v1 v2
        obtain ⟨i, hi⟩ := List.mem_iff_getElem?.1 him
        have hlt := (List.getElem?_eq_some_iff.1 hi).1
        obtain ⟨o, im', ho, -⟩ := hget i im f .gray hi (by rw [← v1, List.getElem?_replicate, if_pos hlt])
          (by rw [← v2, List.getElem?_replicate, if_pos hlt])
        have := (change_accepts cv im f .gray).1 ⟨o, ho⟩
        rcases this with h | h | h
        · omega
        · omega
        · exact h.2.2.2 rfl

/-- C83: `WithBrightnessChannels`: each image is converted to its sampled colour space, the children get its brightness channel, the brightness
they return replaces that of the image, its other components remain, and it is converted back. -/
theorem with_brightness (cv : Cv) (hcv : cv.Bytes) (f : Space) (hg : f ≠ .gray) (spaces : List Space) (hs : ∀ s ∈ spaces, HasBrightness s)
    (children : List Chan → Option (List Chan)) (array : Bool) (images : List Img) (hl : spaces.length = images.length)
    (hc : ∀ im ∈ images, im.Colour) :
    ∃ given : List Chan, given.length = images.length ∧
      (∀ (i : Nat) im s, images[i]? = some im → spaces[i]? = some s →
        given[i]? = some ⟨im.h, im.w, 1, im.px.map (fun p => brightness s (converted cv f s p))⟩) ∧
      ∀ back, children given = some back → back.length = images.length →
        (∀ (i : Nat) im b, images[i]? = some im → back[i]? = some b →
          b.h = im.h ∧ b.w = im.w ∧ b.c = 1 ∧ b.vals.length = im.px.length ∧ ∀ v ∈ b.vals, v ≤ 255) →
        ∃ r, withBrightness cv f spaces children array images = some r ∧ r.length = images.length ∧
          ∀ (i : Nat) im b s, images[i]? = some im → back[i]? = some b → spaces[i]? = some s →
            ∃ im', r[i]? = some im' ∧ im'.h = im.h ∧ im'.w = im.w ∧
              im'.px = List.zipWith (fun p v => converted cv s f (withValue s (converted cv f s p) v)) im.px b.vals := by
  have hsg : Space.gray ∉ spaces := by
    intro h
    rcases hs _ h with h | h | h | h | h | h <;> exact absurd h (by decide)
  obtain ⟨cvt, e1, l1, g1⟩ := changes_many cv hcv array images (.many spaces) (.one f) spaces (List.replicate images.length f)
    (by rw [validate, if_pos hl]) rfl hl (by simp) (by intro h; exact hg (List.eq_of_mem_replicate h).symm) hc
  have g1' : ∀ (i : Nat) im s, images[i]? = some im → spaces[i]? = some s → ∃ im', cvt[i]? = some im' ∧ im'.Colour ∧
      im'.px = im.px.map (converted cv f s) ∧ im'.h = im.h ∧ im'.w = im.w := by
    intro i im s hi hsi
    have hlt : i < images.length := (List.getElem?_eq_some_iff.1 hi).1
    exact g1 i im s f hi hsi (by rw [List.getElem?_replicate, if_pos hlt])
  have hext : ∀ p ∈ cvt.zip spaces, extract p.1 p.2 = some (⟨p.1.h, p.1.w, 1, p.1.px.map (brightness p.2)⟩ : Chan) := by
    intro p hp
    obtain ⟨k, k1, k2, -⟩ := channel_facts p.2 (hs _ (List.of_mem_zip hp).2)
    unfold extract
    rw [k1, Option.map_some]
    congr 2
    exact List.map_congr_left (fun q _ => k2 q)
  have hm : (cvt.zip spaces).mapM (fun p => extract p.1 p.2) =
      some ((cvt.zip spaces).map (fun p => (⟨p.1.h, p.1.w, 1, p.1.px.map (brightness p.2)⟩ : Chan))) := mapM_some _ _ _ hext
  refine ⟨(cvt.zip spaces).map (fun p => (⟨p.1.h, p.1.w, 1, p.1.px.map (brightness p.2)⟩ : Chan)), ?_, ?_, ?_⟩
  rotate_left
  rotate_left
  · intro back hback hbl hsz
    have hins : ∀ p ∈ back.zip (cvt.zip spaces), putBack p.1 p.2.1 p.2.2 =
        some { p.2.1 with px := List.zipWith (withValue p.2.2) p.2.1.px p.1.vals } := by
      intro p hp
      obtain ⟨i, hi⟩ := List.mem_iff_getElem?.1 hp
      obtain ⟨h1, h2⟩ := List.getElem?_zip_eq_some.1 hi
      obtain ⟨h3, h4⟩ := List.getElem?_zip_eq_some.1 h2
      have hlt : i < images.length := by
        have := (List.getElem?_eq_some_iff.1 h1).1; omega
      obtain ⟨im', k1, k2, k3, k4, k5⟩ := g1' i _ _ (List.getElem?_eq_getElem hlt) h4
      rw [h3] at k1
      obtain rfl := Option.some.inj k1
      obtain ⟨s1, s2, s3, s4, -⟩ := hsz i _ _ (List.getElem?_eq_getElem hlt) h1
      exact insert_same p.1 p.2.1 p.2.2 (hs _ (List.mem_of_getElem? h4)) k2 (by rw [s1, k4]) (by rw [s2, k5]) s3 (by rw [s4, k3, List.length_map])
    have hm2 := mapM_some _ _ _ hins
    generalize hdone : (back.zip (cvt.zip spaces)).map (fun p => { p.2.1 with px := List.zipWith (withValue p.2.2) p.2.1.px p.1.vals }) = done at hm2
    have hdl : done.length = images.length := by
      rw [← hdone, List.length_map, List.length_zip, List.length_zip]; omega
    have hdget : ∀ (i : Nat) im b s, images[i]? = some im → back[i]? = some b → spaces[i]? = some s → ∃ d, done[i]? = some d ∧ d.Colour ∧
        d.h = im.h ∧ d.w = im.w ∧ d.px = List.zipWith (fun p v => withValue s (converted cv f s p) v) im.px b.vals := by
      intro i im b s hi hb hsi
      obtain ⟨im', k1, k2, k3, k4, k5⟩ := g1' i im s hi hsi
      obtain ⟨s1, s2, s3, s4, s5⟩ := hsz i im b hi hb
      refine ⟨{ im' with px := List.zipWith (withValue s) im'.px b.vals }, ?_, ?_, k4, k5, ?_⟩
      · rw [← hdone, List.getElem?_map, (List.getElem?_zip_eq_some (z := (b, im', s))).2 ⟨hb, (List.getElem?_zip_eq_some (z := (im', s))).2 ⟨k1, hsi⟩⟩]
        rfl
      · obtain ⟨c1, c2, c3, c4, c5, c6, c7⟩ := k2
        have c6' : im'.px.length = im.px.length := by rw [k3, List.length_map]
        refine ⟨c1, c2, c3, c4, c5, ?_, ?_⟩
        · show (List.zipWith _ _ _).length = _
          rw [List.length_zipWith, s4, ← c6', Nat.min_self, c6]
        · intro q hq
          obtain ⟨j, hj⟩ := List.mem_iff_getElem?.1 hq
          dsimp only at hj
          rw [List.getElem?_zipWith] at hj
          cases hp : im'.px[j]? with
          | none => rw [hp] at hj; simp at hj
          | some p =>
            cases hv : b.vals[j]? with
            | none => rw [hp, hv] at hj; simp at hj
            | some v =>
              rw [hp, hv] at hj
              simp only [Option.some.injEq] at hj
              subst hj
              obtain ⟨b1, b2, b3⟩ := c7 p (List.mem_of_getElem? hp)
              have hv' := s5 v (List.mem_of_getElem? hv)
              cases s <;> exact ⟨by first | exact hv' | exact b1, by first | exact hv' | exact b2, by first | exact hv' | exact b3⟩
      · dsimp only
        rw [k3, List.zipWith_map_left]
    have hdc : ∀ d ∈ done, d.Colour := by
      intro d hd
      obtain ⟨i, hi⟩ := List.mem_iff_getElem?.1 hd
      have hlt : i < images.length := by
        have := (List.getElem?_eq_some_iff.1 hi).1; omega
      obtain ⟨d', h1, h2, -⟩ := hdget i _ _ _ (List.getElem?_eq_getElem hlt) (List.getElem?_eq_getElem (by omega : i < back.length))
        (List.getElem?_eq_getElem (by omega : i < spaces.length))
      rw [hi] at h1
      obtain rfl := Option.some.inj h1
      exact h2
    obtain ⟨r, hr, rl, rg⟩ := changes_many cv hcv array done (.one f) (.many spaces) (List.replicate done.length f) spaces rfl
      (by rw [validate, if_pos (by omega)]) (by simp) (by omega) hsg hdc
    refine ⟨r, ?_, by omega, ?_⟩
    · have hdrop : done ++ cvt.drop done.length = done := by rw [List.drop_eq_nil_of_le (by omega), List.append_nil]
      simp only [withBrightness, e1, Option.bind_some]
      rw [hm, Option.bind_some, hback, Option.bind_some, hm2, Option.bind_some, hdrop, hr]
    · intro i im b s hi hb hsi
      obtain ⟨d, d1, d2, d3, d4, d5⟩ := hdget i im b s hi hb hsi
      have hlt : i < done.length := (List.getElem?_eq_some_iff.1 d1).1
      obtain ⟨im', k1, k2, k3, k4, k5⟩ := rg i d f s d1 (by rw [List.getElem?_replicate, if_pos hlt]) hsi
      refine ⟨im', k1, by rw [k4, d3], by rw [k5, d4], ?_⟩
      rw [k3, d5, List.map_zipWith]
  · rw [List.length_map, List.length_zip]; omega
  · intro i im s hi hsi
    obtain ⟨im', k1, k2, k3, k4, k5⟩ := g1' i im s hi hsi
    rw [List.getElem?_map, (List.getElem?_zip_eq_some (z := (im', s))).2 ⟨k1, hsi⟩]
    simp only [Option.map_some, k3, k4, k5, List.map_map]
    rfl

/-- C83 is false for children of `WithBrightnessChannels` that change the size: an image of one pixel is accepted, and its value becomes the brightness
of every pixel. -/
theorem brightness_broadcasts (im : Img) (v : Nat) :
    putBack ⟨1, 1, 1, [v]⟩ im .hsv = some { im with px := im.px.map (fun p => (p.1, p.2.1, v)) } := by
  have hk : channelId .hsv = some 2 := rfl
  unfold putBack
  rw [hk, Option.bind_some, if_pos ⟨Or.inr rfl, Or.inr rfl, rfl⟩]
  congr 2
  refine List.ext_getElem? (fun i => ?_)
  rw [List.getElem?_map, List.getElem?_zipIdx, List.getElem?_map]
  cases im.px[i]? with
  | none => rfl
  | some p =>
    simp only [Option.map_some, Option.some.injEq]
    simp [Chan.at, Px.set]

/-- C83: other sizes are rejected. -/
theorem brightness_rejects (ch : Chan) (im : Img) (s : Space)
    (h : (ch.h ≠ im.h ∧ ch.h ≠ 1) ∨ (ch.w ≠ im.w ∧ ch.w ≠ 1) ∨ ch.c ≠ 1) : putBack ch im s = none := by
  unfold putBack
  cases channelId s with
  | none => rfl
  | some k => rw [Option.bind_some, if_neg (by tauto)]

/-- The hypotheses of the theorems above are met. -/
example : swap.Bytes ∧ (dot true).Colour ∧ (Samples.both [(10, -300 / 2)] [1]).Fits 1 ∧ InRange ((Samples.both [(10, -300 / 2)] [1]).at 0) ∧
    (Samples.both [(10, -300 / 2)] [1]).at 0 = (10, -150) ∧ HasBrightness .lab ∧
    (∀ p ∈ (dot true).px, converted swap .bgr .rgb (converted swap .rgb .bgr p) = p) :=
  ⟨swap_bytes, dot_colour _, ⟨rfl, rfl⟩, by unfold InRange; decide +kernel, by decide +kernel, by unfold HasBrightness; decide, by decide⟩

end Imgaug.Hue.Props
