import Verif.Proofs.Cartoon
/-! C125: the cartoon style. -/
namespace Imgaug.Cartoon.Props
open Imgaug Imgaug.Props Imgaug.Cartoon

/-- Filters that change little: Canny marks bright pixels, everything else is left as it is. -/
def demoLib : Lib where
  median3 _ _ _ f := f
  median1 _ _ _ f := f
  meanShift _ _ _ _ f := f
  canny t _ _ g y x := if t < g y x then 255 else 0
  laplace _ _ f := f
  percentile _ _ _ _ := 1
  gray f y x := f y x 0
  toHsv f := f
  fromHsv f := f

def demoImg : Img := ⟨true, 3, 9, 9, 3, fun y x k => if y = 4 then 240 else 10 * x + k⟩

example : demoLib.Sane := ⟨fun _ _ _ _ h => h, fun _ _ _ _ _ h => h, fun _ h => h, fun _ h => h⟩

/-- C125: `stylize_cartoon` accepts an image if and only if it is uint8 and has the shape (H,W,3), provided that the prevalence of edges is
positive; the result has the same shape and dtype, and values of uint8 images. -/
theorem accepts (L : Lib) (hL : L.Sane) (im : Img) (k seg s e : ℚ) (sup : Bool) (he : 0 < e) :
    ((stylize L im k seg s e sup).isSome ↔ im.uint8 = true ∧ im.dims = 3 ∧ im.c = 3) ∧
    ∀ r, stylize L im k seg s e sup = some r → r.uint8 = im.uint8 ∧ r.dims = im.dims ∧ r.h = im.h ∧ r.w = im.w ∧ r.c = im.c ∧ Bytes r.px := by
  have raw : ∀ g, (edgesRaw L e im.h im.w g).isSome := by
    intro g
    have h1 : (cannyThresh e).isSome := by simp [cannyThresh, he.ne']
    have h2 : (percent e).isSome := by
      unfold percent
      have : 0 ≤ pyInt (90 * (1 / e)) := by
        have : (0 : ℚ) ≤ 90 * (1 / e) := by positivity
        unfold pyInt; rw [if_neg (by linarith)]; exact Int.floor_nonneg.2 this
      rw [if_neg he.ne', if_neg (by omega)]
      rfl
    unfold edgesRaw
    split_ifs
    · simpa using h1
    · simpa using h2
  constructor
  · unfold stylize
    by_cases hu : im.uint8 = false
    · simp [hu]
    · by_cases hc : im.dims = 3 ∧ im.c = 3
      · rw [if_neg hu, if_pos hc]
        simp only [Option.isSome_map, raw, true_iff]
        exact ⟨by simpa using hu, hc⟩
      · rw [if_neg hu, if_neg hc]
        simp only [Option.isSome_none, Bool.false_eq_true, false_iff]
        exact fun h => hc h.2
  · intro r h
    unfold stylize at h
    split_ifs at h
    obtain ⟨g, _, rfl⟩ := Option.map_eq_some_iff.1 h
    refine ⟨rfl, rfl, rfl, rfl, rfl, ?_⟩
    simp only
    unfold saturate
    split_ifs
    · exact blend_bytes _ _
    · refine hL.fromHsv _ ?_
      have hb := hL.toHsv _ (blend_bytes (segment L k seg im.h im.w im.px) (edges im.h im.w sup g))
      intro y x c
      simp only
      split_ifs
      · exact sat_byte _ _
      · exact hb y x c

example : (stylize demoLib demoImg 1 1 1 1 true).isSome :=
  ((accepts demoLib ⟨fun _ _ _ _ h => h, fun _ _ _ _ _ h => h, fun _ h => h, fun _ h => h⟩ demoImg 1 1 1 1 true (by norm_num)).1).2 ⟨rfl, rfl, rfl⟩

/-- C125 is false for a prevalence of edges of zero, which `Cartoon` accepts: every image is an error. -/
theorem no_edges_rejected (L : Lib) (im : Img) (k seg s : ℚ) (sup : Bool) : stylize L im k seg s 0 sup = none := by
  have e : ∀ h w g, edgesRaw L 0 h w g = none := by intro h w g; simp [edgesRaw, cannyThresh, percent]
  unfold stylize
  simp [e]

/-- C125: with a saturation of (nearly) 1, the result is black at the edges, and elsewhere the blurred and segmented image. -/
theorem edges_black (L : Lib) (hL : L.Sane) (im r : Img) (k seg s e : ℚ) (sup : Bool) (hb : Bytes im.px) (hs : |s - 1| ≤ 1 / 100)
    (h : stylize L im k seg s e sup = some r) :
    ∃ raw, edgesRaw L e im.h im.w (segment L k seg im.h im.w im.px) = some raw ∧
      ∀ y x c, r.px y x c = if edges im.h im.w sup raw y x = 255 then 0 else segment L k seg im.h im.w im.px y x c := by
  unfold stylize at h
  split_ifs at h
  obtain ⟨raw, hr, rfl⟩ := Option.map_eq_some_iff.1 h
  refine ⟨raw, hr, ?_⟩
  intro y x c
  have hs' : max s 0 = s := max_eq_left (by have := abs_le.1 hs; linarith [this.1])
  simp only [saturate, hs']
  rw [if_pos (by linarith)]
  exact blend_px (segment_bytes hL _ _ _ _ _ hb) (edges_edges _ _ _ _) y x c

example : (stylize demoLib demoImg 1 0 1 1 false).map (fun r => (r.px 4 4 0, r.px 3 4 0)) = some (0, 40) := by decide +kernel

/-- C125: the median blur uses the kernel size, rounded, at least 1, and the next odd number if it is even; sizes that round to at most 1
do not blur. The mean shift is left out if the size of the segments is not positive. -/
theorem blur_size (L : Lib) (k seg : ℚ) (h w : Nat) (f : Rgb) :
    (oddSize (blurSize k) % 2 = 1 ∧ npRound k ≤ oddSize (blurSize k) ∧ 1 ≤ oddSize (blurSize k) ∧ (1 ≤ npRound k → oddSize (blurSize k) ≤ npRound k + 1)) ∧
    (npRound k ≤ 1 → seg ≤ 0 → segment L k seg h w f = f) ∧
    (2 ≤ npRound k → seg ≤ 0 → segment L k seg h w f = L.median3 (oddSize (blurSize k)) h w f) ∧
    (npRound k ≤ 1 → 0 < seg → segment L k seg h w f = L.meanShift (radii h w seg).1 (radii h w seg).2 h w f) ∧
    (2 ≤ npRound k → 0 < seg →
      segment L k seg h w f = L.meanShift (radii h w seg).1 (radii h w seg).2 h w (L.median3 (oddSize (blurSize k)) h w f)) := by
  have ho : ∀ n : Int, oddSize n % 2 = 1 ∧ n ≤ oddSize n ∧ oddSize n ≤ n + 1 ∧ (oddSize n = n ∨ n % 2 = 0) := by
    intro n; unfold oddSize; split_ifs <;> omega
  have b1 : blurSize k = max (npRound k) 1 := rfl
  obtain ⟨o1, o2, o3, o4⟩ := ho (blurSize k)
  have lo : npRound k ≤ 1 → oddSize (blurSize k) ≤ 1 := by intro hk; omega
  have hi : 2 ≤ npRound k → ¬ oddSize (blurSize k) ≤ 1 := by intro hk; omega
  refine ⟨⟨o1, by omega, by omega, by omega⟩, ?_, ?_, ?_, ?_⟩
  · intro hk hs
    unfold segment blur3
    simp only [if_pos (lo hk), if_pos (show max seg 0 ≤ 0 from max_le hs le_rfl)]
  · intro hk hs
    unfold segment blur3
    simp only [if_neg (hi hk), if_pos (show max seg 0 ≤ 0 from max_le hs le_rfl)]
  · intro hk hs
    unfold segment blur3
    simp only [if_pos (lo hk), max_eq_left hs.le, if_neg (not_le.2 hs)]
  · intro hk hs
    unfold segment blur3
    simp only [if_neg (hi hk), max_eq_left hs.le, if_neg (not_le.2 hs)]

/-- C125: the radii of the segmentation grow with the size of the segments, and are larger for images with a side of 400 pixels or more. -/
theorem radii_grow (h w h' w' : Nat) (a b : ℚ) (h0 : 0 ≤ a) (hab : a ≤ b) (hb : 400 ≤ h' ∨ 400 ≤ w') :
    (radii h w a).1 ≤ (radii h w b).1 ∧ (radii h w a).2 ≤ (radii h w b).2 ∧ (radii h w a).1 ≤ (radii h' w' a).1 ∧ (radii h w a).2 ≤ (radii h' w' a).2 ∧
    (h < 400 → w < 400 → radii h w 1 = (10, 20)) ∧ radii h' w' 1 = (15, 40) := by
  have hl : ¬ small h' w' := by unfold small; omega
  have mono : ∀ p q : ℚ, 0 ≤ p → p ≤ q → pyInt p ≤ pyInt q := by
    intro p q hp hpq
    unfold pyInt
    rw [if_neg (not_lt.2 hp), if_neg (not_lt.2 (hp.trans hpq))]
    exact Int.floor_le_floor hpq
  have ev : pyInt (10 * 1) = 10 ∧ pyInt (20 * 1) = 20 ∧ pyInt (15 * 1) = 15 ∧ pyInt (40 * 1) = 40 := by decide +kernel
  unfold radii
  rw [if_neg hl, if_neg hl]
  by_cases hs : small h w
  · simp only [if_pos hs]
    exact ⟨mono _ _ (by linarith) (by linarith), mono _ _ (by linarith) (by linarith), mono _ _ (by linarith) (by linarith),
      mono _ _ (by linarith) (by linarith), fun _ _ => by rw [ev.1, ev.2.1], by rw [ev.2.2.1, ev.2.2.2]⟩
  · simp only [if_neg hs]
    exact ⟨mono _ _ (by linarith) (by linarith), mono _ _ (by linarith) (by linarith), le_rfl, le_rfl,
      fun a b => absurd (show small h w by unfold small; omega) hs,
      by rw [ev.2.2.1, ev.2.2.2]⟩

example : (radii 100 100 (1 / 2)).1 ≤ (radii 500 100 (1 / 2)).1 := (radii_grow 100 100 500 100 (1 / 2) 1 (by norm_num) (by norm_num) (by decide)).2.2.1

/-- C125: a higher prevalence of edges never means a higher threshold, for both kinds of edges; the thresholds are in the interval [0, 254]
and the percentiles in the interval [0, 99]. -/
theorem more_edges (a b : ℚ) (h0 : 0 < a) (hab : a ≤ b) :
    (∃ s t, cannyThresh a = some s ∧ cannyThresh b = some t ∧ t ≤ s ∧ 0 ≤ t ∧ s ≤ 254) ∧
    (∃ s t, percent a = some s ∧ percent b = some t ∧ t ≤ s ∧ 0 ≤ t ∧ s ≤ 99) := by
  have hb : 0 < b := lt_of_lt_of_le h0 hab
  have hinv : 1 / b ≤ 1 / a := one_div_le_one_div_of_le h0 hab
  have hbp : (0 : ℚ) ≤ 1 / b := by positivity
  have key : ∀ n : ℚ, 0 ≤ n → pyInt (n * (1 / b)) ≤ pyInt (n * (1 / a)) ∧ 0 ≤ pyInt (n * (1 / b)) := by
    intro n hn
    have p1 : 0 ≤ n * (1 / b) := mul_nonneg hn hbp
    have p2 : n * (1 / b) ≤ n * (1 / a) := mul_le_mul_of_nonneg_left hinv hn
    unfold pyInt
    rw [if_neg (not_lt.2 p1), if_neg (not_lt.2 (p1.trans p2))]
    exact ⟨Int.floor_le_floor p2, Int.floor_nonneg.2 p1⟩
  obtain ⟨c1, c2⟩ := key 200 (by norm_num)
  obtain ⟨d1, d2⟩ := key 90 (by norm_num)
  constructor
  · refine ⟨_, _, by rw [cannyThresh, if_neg h0.ne'], by rw [cannyThresh, if_neg hb.ne'], ?_, ?_, ?_⟩ <;> omega
  · refine ⟨min (pyInt (90 * (1 / a))) 99, min (pyInt (90 * (1 / b))) 99, ?_, ?_, ?_, ?_, ?_⟩
    · rw [percent, if_neg h0.ne', if_neg (by omega)]
    · rw [percent, if_neg hb.ne', if_neg (by omega)]
    · omega
    · omega
    · omega

/-- C125: edges are pixels with raw values above 100. The suppression of blobs only ever removes edges. -/
theorem suppression_removes (h w : Nat) (sup : Bool) (raw : Gray) (y x : Nat) (he : edges h w sup raw y x = 255) : raw y x > 100 ∧
    (edges h w false raw y x = 255) := by
  have hb : ∀ y x, binary raw y x = 255 → raw y x > 100 := by
    intro y x h
    unfold binary at h
    by_contra hc
    rw [if_neg hc] at h
    omega
  have hs : ∀ (size : Nat) (t : ℚ) (inv : Bool) (f : Gray) (y x : Nat), suppress h w size t inv f y x = 255 → f y x = 255 := by
    intro size t inv f y x h
    unfold suppress at h
    split_ifs at h <;> first | omega | exact h
  have hf : binary raw y x = 255 := by
    unfold edges at he
    split_ifs at he
    · exact hs _ _ _ _ _ _ (hs _ _ _ _ _ _ he)
    · exact he
  exact ⟨hb y x hf, by simpa [edges] using hf⟩

/-- C125: away from the borders, a pixel is an edge in the end if and only if it is an edge, at most 7 of the 9 pixels around it are edges,
and at least 3 of the 25 pixels around it are still edges after that. -/
theorem blobs (h w : Nat) (raw : Gray) (y x : Nat) (hi : Inner h w 2 y x) :
    edges h w true raw y x = 255 ↔
      raw y x > 100 ∧ around (binary raw) 1 y x ≤ 7 ∧
      3 ≤ around (suppress h w 3 8 false (binary raw)) 2 y x := by
  have h1 : Inner h w 1 y x := by unfold Inner at *; omega
  have e1 := counts_inner (binary_edges raw) h1
  have e2 := counts_inner (suppress_edges (h := h) (w := w) (size := 3) (t := 8) (inv := false) (binary_edges raw)) hi
  norm_num at e1 e2
  have hb : binary raw y x = 255 ↔ raw y x > 100 := by unfold binary; split_ifs <;> omega
  simp only [edges, if_true]
  generalize hS : suppress h w 3 8 false (binary raw) = S at e2
  have hS' : S y x = 255 ↔ raw y x > 100 ∧ around (binary raw) 1 y x ≤ 7 := by
    rw [← hS, ← hb]
    unfold suppress
    simp only [Bool.false_eq_true, if_false, e1]
    by_cases hc : ((around (binary raw) 1 y x : Nat) : ℚ) ≥ 8
    · rw [if_pos hc]
      have : 8 ≤ around (binary raw) 1 y x := by exact_mod_cast hc
      constructor
      · intro h; omega
      · intro h; omega
    · rw [if_neg hc]
      have : around (binary raw) 1 y x < 8 := by
        have := not_le.1 hc
        exact_mod_cast this
      constructor
      · intro h; exact ⟨h, by omega⟩
      · intro h; exact h.1
  unfold suppress
  simp only [if_true, e2]
  by_cases hc : ((around S 2 y x : Nat) : ℚ) < 3
  · rw [if_pos hc]
    have : around S 2 y x < 3 := by exact_mod_cast hc
    constructor
    · intro h; omega
    · intro h; omega
  · rw [if_neg hc]
    have : 3 ≤ around S 2 y x := by
      have := not_lt.1 hc
      exact_mod_cast this
    rw [hS']
    constructor
    · intro h; exact ⟨h.1, h.2, this⟩
    · intro h; exact ⟨h.1, h.2.1⟩

/-- C125 is false for the comment in the code, "5x5 size with <=3 edge pixels": three edge pixels in a row that are alone are not suppressed. -/
theorem three_pixels_stay : ∃ raw : Gray, (∀ y x, raw y x > 100 ↔ y = 4 ∧ 3 ≤ x ∧ x ≤ 5) ∧ edges 9 9 true raw 4 4 = 255 := by
  refine ⟨fun y x => if y = 4 ∧ 3 ≤ x ∧ x ≤ 5 then 255 else 0, ?_, by decide +kernel⟩
  intro y x
  simp only
  split_ifs with h <;> simp [h]

/-- C125: the saturation of a pixel is multiplied by the factor, without the decimals, and at most 255. It never decreases if the factor is at
least 1, never increases if it is at most 1, is 0 for the factor 0, and larger factors never mean less. -/
theorem saturation (v : Int) (a b : ℚ) (h0 : 0 ≤ v) (h1 : v ≤ 255) (ha : 0 ≤ a) (hab : a ≤ b) :
    sat v a ≤ sat v b ∧ (1 ≤ a → v ≤ sat v a) ∧ (a ≤ 1 → sat v a ≤ v) ∧ sat v 0 = 0 ∧ (v * a ≤ 255 → sat v a = ⌊v * a⌋) := by
  have hv : (0 : ℚ) ≤ v := by exact_mod_cast h0
  have hv1 : (v : ℚ) ≤ 255 := by exact_mod_cast h1
  have form : ∀ q : ℚ, 0 ≤ q → sat v q = ⌊min 255 ((v : ℚ) * q)⌋ := by
    intro q hq
    unfold sat pyInt
    have : (0 : ℚ) ≤ min 255 (v * q) := le_min (by norm_num) (mul_nonneg hv hq)
    rw [max_eq_right this, if_neg (not_lt.2 this)]
  rw [form a ha, form b (ha.trans hab), form 0 le_rfl]
  refine ⟨Int.floor_le_floor (min_le_min_left _ (mul_le_mul_of_nonneg_left hab hv)), ?_, ?_, ?_, ?_⟩
  · intro h
    exact Int.le_floor.2 (le_min hv1 (by nlinarith))
  · intro h
    have : (⌊min 255 ((v : ℚ) * a)⌋ : ℚ) ≤ v := le_trans (Int.floor_le _) (le_trans (min_le_right _ _) (by nlinarith))
    exact_mod_cast this
  · rw [mul_zero, min_eq_right (by norm_num)]; exact Int.floor_zero
  · intro h; rw [min_eq_right h]

example : sat 100 (3 / 2) = 150 := by decide +kernel

/-- C125: for a saturation that is not near 1 (negative ones count as 0), the result is what comes back from the colourspace HSV, where the
second channel has been multiplied and the others are as they were. -/
theorem saturation_used (L : Lib) (f : Rgb) (s : ℚ) (hs : 1 / 100 + 1 / 100000 < |s - 1|) :
    ∃ g : Rgb, saturate L s f = L.fromHsv g ∧ ∀ y x, g y x 1 = sat (L.toHsv f y x 1) s ∧ ∀ k, k ≠ 1 → g y x k = L.toHsv f y x k := by
  unfold saturate
  rw [if_neg (not_le.2 hs)]
  exact ⟨_, rfl, fun y x => ⟨by simp, fun k hk => by simp [hk]⟩⟩

/-- C125: `Cartoon` styles every image by its own four samples, with suppression of blobs, and keeps the number and the order of images. -/
theorem batch (L : Lib) (ims rs : List Img) (ks segs sats es : List ℚ) (h : augment L ims ks segs sats es = some rs) :
    rs.length = ims.length ∧ ∀ (i : Nat) (im : Img), ims[i]? = some im → ∃ k seg s e r, ks[i]? = some k ∧ segs[i]? = some seg ∧ sats[i]? = some s ∧
      es[i]? = some e ∧ rs[i]? = some r ∧ stylize L im k seg s e true = some r := by
  unfold augment at h
  have hlen := Dtypes.mapM_len _ _ _ h
  rw [List.length_range] at hlen
  refine ⟨hlen, ?_⟩
  intro i im hi
  have hlt : i < ims.length := (List.getElem?_eq_some_iff.1 hi).1
  obtain ⟨r, hr, hf⟩ := Dtypes.mapM_nth _ _ _ h i i (List.getElem?_range hlt)
  simp only [hi, Option.bind_eq_bind, Option.bind_some, Option.bind_eq_some_iff] at hf
  obtain ⟨k, hk, seg, hseg, s, hs, e, he, hst⟩ := hf
  exact ⟨k, seg, s, e, r, hk, hseg, hs, he, hr, hst⟩

example : (augment demoLib [demoImg, demoImg] [1, 3] [0, 1] [1, 2] [1, 2]).isSome := by decide +kernel

/-- C125: images with both sides below 400 pixels get their edges from Canny, all others from the squared Laplacian: it is divided by its
percentile, clipped, rounded to uint8 and filtered by a median of size 3, and what is below 50 is removed. -/
theorem edge_detectors (L : Lib) (e : ℚ) (h w : Nat) (f : Rgb) :
    (h < 400 → w < 400 → edgesRaw L e h w f = (cannyThresh e).map (fun t => L.canny t h w (L.gray f))) ∧
    (400 ≤ h ∨ 400 ≤ w → ∀ r, edgesRaw L e h w f = some r → ∃ (p : Int) (q : Nat → Nat → ℚ) (u : Gray), percent e = some p ∧
      (∀ y x, q y x = L.laplace h w (fun y x => (L.gray f y x : ℚ) / 255) y x ^ 2) ∧
      (∀ y x, 0 ≤ u y x ∧ u y x ≤ 255 ∧ (0 < L.percentile p h w q →
        |(u y x : ℚ) - 255 * (min (q y x) (L.percentile p h w q) / L.percentile p h w q)| ≤ 1 / 2)) ∧
      ∀ y x, (L.median1 3 h w u y x < 50 → r y x = 0) ∧ (50 ≤ L.median1 3 h w u y x → r y x = L.median1 3 h w u y x)) := by
  constructor
  · intro a b
    unfold edgesRaw
    rw [if_pos (by unfold small; omega)]
  · intro a r hr
    unfold edgesRaw at hr
    rw [if_neg (by unfold small; omega)] at hr
    obtain ⟨p, hp, rfl⟩ := Option.map_eq_some_iff.1 hr
    refine ⟨p, fun y x => |L.laplace h w (fun y x => (L.gray f y x : ℚ) / 255) y x| ^ 2,
      fun y x => clipI (npRound (min (max (|L.laplace h w (fun y x => (L.gray f y x : ℚ) / 255) y x| ^ 2) 0)
        (L.percentile p h w fun y x => |L.laplace h w (fun y x => (L.gray f y x : ℚ) / 255) y x| ^ 2) /
        (L.percentile p h w fun y x => |L.laplace h w (fun y x => (L.gray f y x : ℚ) / 255) y x| ^ 2) * 255)) 0 255,
      hp, fun y x => sq_abs _, ?_, ?_⟩
    · intro y x
      beta_reduce
      set v := L.percentile p h w fun y x => |L.laplace h w (fun y x => (L.gray f y x : ℚ) / 255) y x| ^ 2
      have hq : (0 : ℚ) ≤ |L.laplace h w (fun y x => (L.gray f y x : ℚ) / 255) y x| ^ 2 := by positivity
      set q := |L.laplace h w (fun y x => (L.gray f y x : ℚ) / 255) y x| ^ 2
      refine ⟨by unfold clipI; omega, by unfold clipI; omega, ?_⟩
      intro hv
      rw [max_eq_left hq]
      have h0 : 0 ≤ min q v / v * 255 := by positivity
      have h1 : min q v / v * 255 ≤ 255 := by
        have : min q v / v ≤ 1 := (div_le_one hv).2 (min_le_right _ _)
        linarith
      have d := npRound_dist (min q v / v * 255)
      have n0 : 0 ≤ npRound (min q v / v * 255) := npRound_nonneg h0
      have n1 : npRound (min q v / v * 255) ≤ 255 := npRound_le (by exact_mod_cast h1)
      rw [show clipI (npRound (min q v / v * 255)) 0 255 = npRound (min q v / v * 255) by unfold clipI; omega, mul_comm 255]
      exact d
    · intro y x
      show _ ∧ _
      unfold laplaceEdges blur1
      simp only [show ¬ oddSize 3 ≤ 1 by decide, if_false]
      exact ⟨fun h => if_pos h, fun h => if_neg (not_lt.2 h)⟩

example : (edgesRaw demoLib 1 500 3 (fun _ _ _ => 200)).isSome := by decide +kernel

end Imgaug.Cartoon.Props
