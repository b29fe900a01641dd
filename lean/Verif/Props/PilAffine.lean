import Verif.Proofs.PilAffine
/-! Properties of `pillike.Affine` (C117). -/
namespace Imgaug.PilAffine
open Imgaug Imgaug.Affine Imgaug.Dtypes Classical

/-- C117: a pixel of the result shows the content that the transformation moves to the middle of this pixel: relative to the centre, content is
scaled, then translated, then sheared, then rotated. If that content lies outside of the image, the pixel has the fill color. -/
theorem content_moved {ink : Ink} {im r : Draw.Img} {v : Args} (hr : Regular v im) (h : warp ink im v = some r) (y x ch : Nat) (hy : y < im.h) (hx : x < im.w)
    (hch : ch < im.c) (u : ℝ × ℝ) (hu : moved v im u = middle ((x : ℝ), (y : ℝ))) :
    (Inside im u → r.px y x ch = pixelAt im u ch) ∧ (¬ Inside im u → ∃ k, ink im.c v.fill.toPil = some k ∧ r.px y x ch = k ch) := by
  obtain ⟨-, ⟨he, -⟩ | ⟨-, -, n, k, n1, n2, n3, rfl⟩⟩ := warp_some h
  · omega
  · have := n2 u _ (by rw [forward_moved v im hr, hu])
    obtain ⟨t1, t2⟩ := transform_px (k := k) (im := im) n1 y x ch u this
    exact ⟨t1, fun g => ⟨k, n3, t2 g⟩⟩

example : Regular demoArgs demo ∧ (∃ r, warp demoInk demo demoArgs = some r) ∧ moved demoArgs demo (13 / 4, 3 / 2) = middle ((4 : ℕ), (1 : ℕ)) ∧
    Inside demo (13 / 4, 3 / 2) := by
  refine ⟨demo_regular, ?_, ?_, ?_⟩
  · obtain ⟨n, n1, -⟩ := inv_spec (forward_spec demoArgs (demo.w * demoArgs.centerX) (demo.h * demoArgs.centerY)).1 (det_forward demoArgs _ _).ne'
    unfold warp
    rw [n1]
    simp [demo, demoInk, demoArgs, Fill.toPil]
  · ext <;> norm_num [moved, demoArgs, demo, centre, scaled, sheared, rotated, rad, middle]
  · refine ⟨?_, ?_, ?_, ?_⟩ <;> norm_num [demo]

/-- C117: to every place exactly one place of the plane is moved, so that the rule above decides every pixel. -/
theorem one_source {im : Draw.Img} {v : Args} (hr : Regular v im) (w : ℝ × ℝ) : ∃! u, moved v im u = w := by
  have a := (forward_spec v (im.w * v.centerX) (im.h * v.centerY)).1
  have d := (det_forward v (im.w * v.centerX) (im.h * v.centerY)).ne'
  obtain ⟨u, hu⟩ := inv_right a d w
  obtain ⟨n, -, -, hn⟩ := inv_spec a d
  refine ⟨u, by show moved v im u = w; rw [← forward_moved v im hr]; exact hu, fun u' hu' => ?_⟩
  rw [← hn u w hu, ← hn u' w (by rw [forward_moved v im hr]; exact hu')]

/-- C117: the result has the size, the channels and the dtype of the image, and empty images are returned as they are. -/
theorem shape_kept {ink : Ink} {im r : Draw.Img} {v : Args} (h : warp ink im v = some r) :
    SameShape im r ∧ (im.h = 0 ∨ im.w = 0 ∨ im.c = 0 → r = im) := by
  obtain ⟨-, ⟨-, rfl⟩ | ⟨he, -, n, k, -, -, -, rfl⟩⟩ := warp_some h
  · exact ⟨⟨rfl, rfl, rfl, rfl, rfl⟩, fun _ => rfl⟩
  · exact ⟨⟨rfl, rfl, rfl, rfl, rfl⟩, fun g => absurd g he⟩

/-- C117: an exception is raised exactly for dtypes other than `uint8`, for other than 1, 3 or 4 channels, and for fill colors that do not fit;
the matrix can always be inverted. -/
theorem when_warp_fails (ink : Ink) (im : Draw.Img) (v : Args) :
    warp ink im v = none ↔ ¬ Accepted im ∨ (im.h ≠ 0 ∧ im.w ≠ 0 ∧ im.c ≠ 0 ∧ ink im.c v.fill.toPil = none) := by
  unfold Accepted warp
  by_cases hd : im.dt = ⟨.u, 1⟩
  · rw [if_neg (not_not.2 hd)]
    by_cases he : im.h = 0 ∨ im.w = 0 ∨ im.c = 0
    · rw [if_pos he]
      simp only [reduceCtorEq, hd, he, true_or, and_self, not_true_eq_false, false_or, false_iff]
      omega
    · rw [if_neg he]
      by_cases hc : im.c = 1 ∨ im.c = 3 ∨ im.c = 4
      · rw [if_neg (not_not.2 hc)]
        obtain ⟨n, n1, -⟩ := inv_spec (forward_spec v (im.w * v.centerX) (im.h * v.centerY)).1 (det_forward v _ _).ne'
        rw [n1, Option.bind_some, Option.map_eq_none_iff]
        constructor
        · intro h
          exact Or.inr ⟨by tauto, by tauto, by tauto, h⟩
        · rintro (h | h)
          · exact absurd ⟨hd, Or.inr hc⟩ h
          · exact h.2.2.2
      · rw [if_pos hc]
        simp [hd, he, hc]
  · rw [if_pos hd]
    simp [hd]

/-- C117: with a translation by whole pixels and no scaling, shearing or rotation, the content is shifted; positive values shift to the right and to
the bottom. Without translation too the image stays as it is. -/
theorem shifted {ink : Ink} {im r : Draw.Img} {v : Args} (i j : Int) (h : warp ink im v = some r) (hs : v.scaleX = 1 ∧ v.scaleY = 1)
    (ht : v.translateX = i ∧ v.translateY = j) (hn : v.rotate = 0 ∧ v.shearX = 0 ∧ v.shearY = 0) (hc : |(centre v im).1| ≠ 1 / 10000)
    (y x ch : Nat) (hy : y < im.h) (hx : x < im.w) (hch : ch < im.c) :
    (∀ y' x' : Nat, y' < im.h → x' < im.w → (y : Int) = y' + j → (x : Int) = x' + i → r.px y x ch = im.px y' x' ch) ∧
    ((¬ ∃ y' x' : Nat, y' < im.h ∧ x' < im.w ∧ (y : Int) = y' + j ∧ (x : Int) = x' + i) →
      ∃ k, ink im.c v.fill.toPil = some k ∧ r.px y x ch = k ch) := by
  have hi : (i : ℝ) ≠ 1 / 10000 := by
    intro e
    have : (0 : ℝ) < i := by rw [e]; norm_num
    have h1 : (1 : ℝ) ≤ i := by exact_mod_cast (Int.cast_pos.1 this : 0 < i)
    rw [e] at h1
    norm_num at h1
  have hr : Regular v im := by
    refine ⟨by rw [hs.1]; norm_num, by rw [hs.2]; norm_num, Or.inl hs, by rw [hn.1]; norm_num [rad], by rw [hn.2.1]; norm_num [rad], by rw [ht.1]; exact hi, hc⟩
  have hu : moved v im ((x : ℝ) - i + 1 / 2, (y : ℝ) - j + 1 / 2) = middle ((x : ℝ), (y : ℝ)) := by
    unfold moved
    rw [hs.1, hs.2, ht.1, ht.2, hn.1, hn.2.1, hn.2.2]
    have : rad 0 = 0 := by simp [rad]
    rw [this]
    ext
    · simp [scaled, sheared, rotated, middle]; ring
    · simp [scaled, sheared, rotated, middle]; ring
  obtain ⟨c1, c2⟩ := content_moved hr h y x ch hy hx hch _ hu
  have f1 : ⌊(x : ℝ) - i + 1 / 2⌋ = (x : ℤ) - i := by
    rw [Int.floor_eq_iff]; push_cast; constructor <;> linarith
  have f2 : ⌊(y : ℝ) - j + 1 / 2⌋ = (y : ℤ) - j := by
    rw [Int.floor_eq_iff]; push_cast; constructor <;> linarith
  have ins : Inside im ((x : ℝ) - i + 1 / 2, (y : ℝ) - j + 1 / 2) → 0 ≤ (x : ℤ) - i ∧ (x : ℤ) - i < im.w ∧ 0 ≤ (y : ℤ) - j ∧ (y : ℤ) - j < im.h := by
    rintro ⟨a, b, c, d⟩
    simp only at a b c d
    rw [← f1, ← f2]
    refine ⟨Int.floor_nonneg.2 a, Int.floor_lt.2 (by exact_mod_cast b), Int.floor_nonneg.2 c, Int.floor_lt.2 (by exact_mod_cast d)⟩
  constructor
  · intro y' x' hy' hx' ey ex
    have ex' : (x : ℝ) - i = x' := by
      have : (x : ℝ) = x' + i := by exact_mod_cast ex
      linarith
    have ey' : (y : ℝ) - j = y' := by
      have : (y : ℝ) = y' + j := by exact_mod_cast ey
      linarith
    rw [c1]
    · unfold pixelAt
      simp only
      rw [f1, f2, ex, ey]
      congr 2 <;> simp
    · have w1 : (x' : ℝ) + 1 ≤ im.w := by exact_mod_cast hx'
      have w2 : (y' : ℝ) + 1 ≤ im.h := by exact_mod_cast hy'
      refine ⟨?_, ?_, ?_, ?_⟩ <;> simp only [ex', ey']
      · positivity
      · linarith
      · positivity
      · linarith
  · intro g
    refine c2 (fun hin => g ?_)
    obtain ⟨a, b, c, d⟩ := ins hin
    exact ⟨((y : ℤ) - j).toNat, ((x : ℤ) - i).toNat, by omega, by omega, by omega, by omega⟩

example : ∃ v : Args, v.scaleX = 1 ∧ v.scaleY = 1 ∧ v.translateX = (2 : Int) ∧ v.translateY = (0 : Int) ∧ v.rotate = 0 ∧ v.shearX = 0 ∧ v.shearY = 0 ∧
    |(centre v demo).1| ≠ 1 / 10000 ∧ ∃ r, warp demoInk demo v = some r := by
  refine ⟨⟨1, 1, 2, 0, 0, 0, 0, .one 7, 1 / 2, 1 / 2⟩, rfl, rfl, by norm_num, by norm_num, rfl, rfl, rfl, by norm_num [centre, demo], ?_⟩
  rw [← Option.ne_none_iff_exists']
  intro h
  rcases (when_warp_fails _ _ _).1 h with g | g
  · exact g ⟨rfl, Or.inr (by decide)⟩
  · simp [demoInk, demo, Fill.toPil] at g

/-- C117: without translation the centre of the transformation stays where it is. -/
theorem centre_fixed (v : Args) (im : Draw.Img) (h : v.translateX = 0 ∧ v.translateY = 0) : moved v im (centre v im) = centre v im := by
  unfold moved
  rw [h.1, h.2]
  ext <;> simp [scaled, sheared, rotated]

/-- C117 is false for the direction of the translation ("positive values translate the image towards the right"): translations are applied
before the rotation. With half a turn, the content goes to the left by a positive translation. -/
theorem translation_turned (ink : Ink) (im r r' : Draw.Img) (v : Args) (hi : im.h = 1 ∧ im.w = 3) (hc : v.centerX = 1 / 2 ∧ v.centerY = 1 / 2)
    (hs : v.scaleX = 1 ∧ v.scaleY = 1) (ht : v.translateX = 0 ∧ v.translateY = 0) (hn : v.rotate = 180 ∧ v.shearX = 0 ∧ v.shearY = 0)
    (h : warp ink im v = some r) (h' : warp ink im { v with translateX := 1 } = some r') (ch : Nat) (hch : ch < im.c) :
    (r.px 0 0 ch = im.px 0 2 ch ∧ r.px 0 1 ch = im.px 0 1 ch ∧ r.px 0 2 ch = im.px 0 0 ch) ∧
    (r'.px 0 0 ch = im.px 0 1 ch ∧ r'.px 0 1 ch = im.px 0 0 ch) := by
  obtain ⟨q1, q2⟩ := half_turn
  obtain ⟨q2, q3⟩ := abs_lt.1 q2
  have q0 := Real.sin_sq_add_cos_sq (rad 180)
  have q4 := Real.neg_one_le_cos (rad 180)
  have rz : rad 0 = 0 := by simp [rad]
  have rr : rad 180 ≠ 1 / 10000 := by norm_num [rad]
  have reg : ∀ t : ℝ, t ≠ 1 / 10000 → Regular { v with translateX := t } im := by
    intro t h
    refine ⟨by simp only; rw [hs.1]; norm_num, by simp only; rw [hs.2]; norm_num, Or.inl hs, by simp only; rw [hn.1]; exact rr,
      by simp only; rw [hn.2.1, rz]; norm_num, h, ?_⟩
    simp only [centre]
    rw [hi.2, hc.1]
    norm_num
  -- the place that is moved to the middle of pixel x
  have src : ∀ (t : ℝ) (x : ℕ), moved { v with translateX := t } im
      (Real.cos (rad 180) * (x - 1) - t + 3 / 2, -(Real.sin (rad 180) * (x - 1)) + 1 / 2) = middle ((x : ℝ), ((0 : ℕ) : ℝ)) := by
    intro t x
    unfold moved centre
    simp only
    rw [hs.1, hs.2, ht.2, hn.1, hn.2.1, hn.2.2, hc.1, hc.2, hi.1, hi.2, rz]
    ext
    · simp [scaled, sheared, rotated, middle]
      linear_combination ((x : ℝ) - 1) * q0
    · simp [scaled, sheared, rotated, middle]
      ring
  have go : ∀ (t : ℝ) (x z : ℕ) (s : Draw.Img), t ≠ 1 / 10000 → warp ink im { v with translateX := t } = some s → x < 3 → z < 3 →
      (z : ℝ) ≤ Real.cos (rad 180) * (x - 1) - t + 3 / 2 → Real.cos (rad 180) * (x - 1) - t + 3 / 2 < z + 1 →
      s.px 0 x ch = im.px 0 z ch := by
    intro t x z s h1 h2 hx hz h3 h4
    have hx2 : (x : ℝ) ≤ 2 := by exact_mod_cast (by omega : x ≤ 2)
    have hx0 : (0 : ℝ) ≤ x := by positivity
    have b1 : 0 ≤ -(Real.sin (rad 180) * ((x : ℝ) - 1)) + 1 / 2 := by nlinarith
    have b2 : -(Real.sin (rad 180) * ((x : ℝ) - 1)) + 1 / 2 < 1 := by nlinarith
    obtain ⟨c1, -⟩ := content_moved (reg t h1) h2 0 x ch (by omega) (by omega) hch _ (src t x)
    rw [c1]
    · unfold pixelAt
      have f1 : ⌊-(Real.sin (rad 180) * ((x : ℝ) - 1)) + 1 / 2⌋ = 0 := Int.floor_eq_iff.2 ⟨by simpa using b1, by simpa using b2⟩
      have f2 : ⌊Real.cos (rad 180) * ((x : ℝ) - 1) - t + 3 / 2⌋ = (z : ℤ) := Int.floor_eq_iff.2 ⟨by exact_mod_cast h3, by exact_mod_cast h4⟩
      simp only
      rw [f1, f2]
      rfl
    · have : (z : ℝ) + 1 ≤ 3 := by exact_mod_cast hz
      refine ⟨?_, ?_, ?_, ?_⟩
      · exact le_trans (by positivity) h3
      · simp only; rw [hi.2]; push_cast; linarith
      · exact b1
      · simp only; rw [hi.1]; simpa using b2
  have hv : { v with translateX := 0 } = v := by rw [← ht.1]
  refine ⟨⟨?_, ?_, ?_⟩, ?_, ?_⟩
  · exact go 0 0 2 r (by norm_num) (by rw [hv]; exact h) (by omega) (by omega) (by push_cast; linarith) (by push_cast; linarith)
  · exact go 0 1 1 r (by norm_num) (by rw [hv]; exact h) (by omega) (by omega) (by push_cast; linarith) (by push_cast; linarith)
  · exact go 0 2 0 r (by norm_num) (by rw [hv]; exact h) (by omega) (by omega) (by push_cast; linarith) (by push_cast; linarith)
  · exact go 1 0 1 r' (by norm_num) h' (by omega) (by omega) (by push_cast; linarith) (by push_cast; linarith)
  · exact go 1 1 0 r' (by norm_num) h' (by omega) (by omega) (by push_cast; linarith) (by push_cast; linarith)

/-- C117: scales below 0.0001 count as 0.0001. -/
theorem smallest_scale (ink : Ink) (im : Draw.Img) (v : Args) :
    warp ink im v = warp ink im { v with scaleX := max v.scaleX (1 / 10000), scaleY := max v.scaleY (1 / 10000) } := by
  unfold warp forward
  simp only [max_assoc, max_self]

variable {σ : Type}

/-- C117: in a batch, image `i` is warped with row `i` of the values that are drawn and with its own centre; the translation in fractions refers to
its own size. -/
theorem batch_rows (ink : Ink) (S : Samplers σ) (c : Conf) (b b' : Batch) (g : σ) (h : augment ink S c b g = some b') (l : List Draw.Img)
    (hl : b.images = some l) (hn : ∀ d n g, (S.pos d n g).1.length = n) : ∃ l', b'.images = some l' ∧ l'.length = l.length ∧ b'.others = [] ∧
      ∀ (i : Nat) (im : Draw.Img), l[i]? = some im → ∃ (row : AffineArgs.Row) (p : ℚ × ℚ) (r : Draw.Img) (v : Args),
        (AffineArgs.drawSamples S.num S.mode c.affine l.length g)[i]? = some row ∧
        (Positions.drawPositions S.pos c.center l.length (after S c.affine l.length g))[i]? = some p ∧
        l'[i]? = some r ∧ warp ink im v = some r ∧ v.fill = .many row.cval ∧
        v.scaleX = row.scaleX ∧ v.scaleY = row.scaleY ∧ v.rotate = row.rotate ∧ v.shearX = row.shearX ∧ v.shearY = row.shearY ∧
        (0 < im.h → 0 < im.w → (v.translateX, v.translateY) =
          (if c.affine.percent then ((row.translateX * im.w : ℝ), (row.translateY * im.h : ℝ)) else ((row.translateX : ℝ), (row.translateY : ℝ)))) ∧
        (v.centerX, v.centerY) = ((p.1 : ℝ), (p.2 : ℝ)) := by
  unfold augment at h
  by_cases ho : b.others = []
  · rw [if_neg (not_not.2 ho)] at h
    simp only [hl] at h
    obtain ⟨l', h1, rfl⟩ := Option.map_eq_some_iff.1 h
    have len1 : (AffineArgs.drawSamples S.num S.mode c.affine l.length g).length = l.length := by simp [AffineArgs.drawSamples]
    have len2 : (Positions.drawPositions S.pos c.center l.length (after S c.affine l.length g)).length = l.length := by
      unfold Positions.drawPositions
      split
      · simp [hn]
      · simp
    have len3 : (drawSamples S c l.length g).length = l.length := by simp [drawSamples, len1, len2]
    refine ⟨l', rfl, ?_, ho, fun i im him => ?_⟩
    · have := mapM_len _ _ _ h1
      rw [this, List.length_zip, len3, Nat.min_self]
    · have hi : i < l.length := (List.getElem?_eq_some_iff.1 him).1
      have g1 : (AffineArgs.drawSamples S.num S.mode c.affine l.length g)[i]? = some _ := List.getElem?_eq_getElem (by omega)
      have g2 : (Positions.drawPositions S.pos c.center l.length (after S c.affine l.length g))[i]? = some _ := List.getElem?_eq_getElem (by omega)
      have g3 := zip_getElem? _ _ i _ _ g1 g2
      obtain ⟨r, r1, r2⟩ := mapM_nth _ _ _ h1 i _ (zip_getElem? l _ i _ _ him g3)
      refine ⟨_, _, r, _, g1, g2, r1, r2, rfl, rfl, rfl, rfl, rfl, rfl, fun q1 q2 => ?_, rfl⟩
      have z1 : (im.w : ℝ) ≠ 0 := by positivity
      have z2 : (im.h : ℝ) ≠ 0 := by positivity
      cases hp : c.affine.percent
      · simp [argsFor, Samples.txPx, Samples.tyPx, AffineArgs.toSamples, shapeOf, z1, z2]
      · simp [argsFor, Samples.txPx, Samples.tyPx, AffineArgs.toSamples, shapeOf]
  · rw [if_pos ho] at h
    exact absurd h (by simp)

/-- C117: batches with anything else than images are rejected, and batches without anything stay as they are. -/
theorem only_images (ink : Ink) (S : Samplers σ) (c : Conf) (b : Batch) (g : σ) :
    (b.others ≠ [] → augment ink S c b g = none) ∧ (b.others = [] → b.images = none → augment ink S c b g = some b) := by
  constructor
  · intro h
    exact if_pos h
  · intro h h'
    unfold augment
    rw [if_neg (not_not.2 h), h']

/-- C117 is false for images with one channel: the augmenter always gives PIL a color with three components, for which PIL raises an exception. (The
function `warp_affine` handles these images, if the fill color is a number.) -/
theorem gray_images_fail (ink : Ink) (hink : LikePil ink) (S : Samplers σ) (c : Conf) (im : Draw.Img) (g : σ) (hs : 0 < im.h ∧ 0 < im.w) (hc : im.c = 1)
    (hn : ∀ d n g, (S.pos d n g).1.length = n) : augment ink S c ⟨some [im], []⟩ g = none := by
  cases h : augment ink S c ⟨some [im], []⟩ g with
  | none => rfl
  | some b' =>
    exfalso
    obtain ⟨l', -, -, -, hr⟩ := batch_rows ink S c _ b' g h [im] rfl hn
    obtain ⟨row, p, r, v, g1, -, -, g4, g5, -⟩ := hr 0 im rfl
    have hl : row.cval.length = 3 := by
      simp only [AffineArgs.drawSamples, List.length_singleton, List.range_one, List.map_cons, List.map_nil, List.length_cons, List.length_nil,
        zero_add] at g1
      rw [List.getElem?_cons_zero] at g1
      rw [← Option.some.inj g1]
      rfl
    have : warp ink im v = none := (when_warp_fails ink im v).2 (Or.inr ⟨by omega, by omega, by omega, by
      rw [g5, hc]
      exact hink.one _ (by simp [hl])⟩)
    rw [this] at g4
    exact absurd g4 (by simp)

/-- C117: `warp_affine` handles images with one channel, for every fill color that PIL accepts as a number. -/
theorem gray_images_warped (ink : Ink) (im : Draw.Img) (v : Args) (hd : im.dt = ⟨.u, 1⟩) (hc : im.c = 1) (z : Int) (hz : v.fill = .one z ∨ v.fill = .none)
    (hi : ∀ z, ink 1 (.int z) ≠ none) : ∃ r, warp ink im v = some r := by
  rw [← Option.ne_none_iff_exists']
  intro h
  rcases (when_warp_fails _ _ _).1 h with g | ⟨-, -, -, g⟩
  · exact g ⟨hd, Or.inr (Or.inl hc)⟩
  · rw [hc] at g
    rcases hz with e | e <;> rw [e] at g <;> exact hi _ g

/-- C117: images with three channels are handled, if the components of the fill color are from 0 to 255 after cutting their fractions; the pixels that
show nothing of the image get these components. -/
theorem rgb_images (ink : Ink) (hink : LikePil ink) (im : Draw.Img) (v : Args) (a b c : ℚ) (hd : im.dt = ⟨.u, 1⟩) (hc : im.c = 3) (hf : v.fill = .many [a, b, c])
    (hz : ∀ q ∈ [a, b, c], 0 ≤ q ∧ q < 256) : ∃ r, warp ink im v = some r ∧ (Regular v im → ∀ y x ch : Nat, y < im.h → x < im.w → ch < 3 → ∀ u,
      moved v im u = middle ((x : ℝ), (y : ℝ)) → ¬ Inside im u → r.px y x ch = ⌊[a, b, c].getD ch 0⌋) := by
  have hp : ∀ q : ℚ, 0 ≤ q → pyInt q = ⌊q⌋ := fun q h => by
    unfold pyInt
    exact if_neg (not_lt.2 h)
  obtain ⟨k, k1, k2⟩ := hink.rgb ([a, b, c].map pyInt) rfl (by
    intro z hz'
    obtain ⟨q, q1, rfl⟩ := List.mem_map.1 hz'
    obtain ⟨q2, q3⟩ := hz q q1
    rw [hp q q2]
    exact ⟨Int.floor_nonneg.2 q2, by
      have : ⌊q⌋ < 256 := Int.floor_lt.2 (by exact_mod_cast q3)
      omega⟩)
  have hne : warp ink im v ≠ none := by
    intro h
    rcases (when_warp_fails _ _ _).1 h with g | ⟨-, -, -, g⟩
    · exact g ⟨hd, Or.inr (Or.inr (Or.inl hc))⟩
    · rw [hc, hf] at g
      exact absurd (g.symm.trans k1) (by simp)
  obtain ⟨r, hr⟩ := Option.ne_none_iff_exists'.1 hne
  refine ⟨r, hr, fun reg y x ch hy hx hch u hu hin => ?_⟩
  obtain ⟨k', e1, e2⟩ := (content_moved reg hr y x ch hy hx (by omega) u hu).2 hin
  rw [hc, hf] at e1
  have : k' = k := Option.some.inj (e1.symm.trans k1)
  rw [e2, this, k2 ch hch]
  have h3 : ch = 0 ∨ ch = 1 ∨ ch = 2 := by omega
  rcases h3 with rfl | rfl | rfl
  · simp [hp a (hz a (by simp)).1]
  · simp [hp b (hz b (by simp)).1]
  · simp [hp c (hz c (by simp)).1]

/-- C117: the augmenter without arguments keeps images with three channels as they are. -/
theorem defaults_keep (ink : Ink) (hink : LikePil ink) (S : Samplers σ) (hS : ∀ q n g, (S.num (.det q) n g).1 = List.replicate n q.q)
    (hP : ∀ q n g, (S.pos (.det q) n g).1 = List.replicate n q) (hn : ∀ d n g, (S.pos d n g).1.length = n) (g : σ) (im : Draw.Img)
    (hd : im.dt = ⟨.u, 1⟩) (hc : im.c = 3) (hs : 0 < im.h ∧ 0 < im.w) :
    ∃ c, init ⟨.val (AffineArgs.float 1), .none, .none, some (AffineArgs.float 0), .val (AffineArgs.float 0), .val (AffineArgs.int 0),
        .tuple [.num (1 / 2), .num (1 / 2)]⟩ = some c ∧
      ∃ r, augment ink S c ⟨some [im], []⟩ g = some ⟨some [r], []⟩ ∧ SameShape im r ∧
        ∀ y x ch : Nat, y < im.h → x < im.w → ch < 3 → r.px y x ch = im.px y x ch := by
  have hinit : init ⟨.val (AffineArgs.float 1), .none, .none, some (AffineArgs.float 0), .val (AffineArgs.float 0), .val (AffineArgs.int 0),
      .tuple [.num (1 / 2), .num (1 / 2)]⟩ = some ⟨⟨.same (.det ⟨false, 1⟩), .same (.det ⟨true, 0⟩), false, .det ⟨false, 0⟩, .xOnly (.det ⟨false, 0⟩),
        .det ⟨true, 1⟩, .det ⟨true, 0⟩, .det "constant"⟩, .two (.det (1 / 2)) (.det (1 / 2))⟩ := by
    decide +kernel
  refine ⟨_, hinit, ?_⟩
  set v : Args := ⟨1, 1, 0, 0, 0, 0, 0, .many [0, 0, 0], 1 / 2, 1 / 2⟩ with hv
  obtain ⟨r, hr, -⟩ := rgb_images ink hink im v 0 0 0 hd hc rfl (by simp)
  refine ⟨r, ?_, (shape_kept hr).1, ?_⟩
  · unfold augment
    have e : drawSamples S ⟨⟨.same (.det ⟨false, 1⟩), .same (.det ⟨true, 0⟩), false, .det ⟨false, 0⟩, .xOnly (.det ⟨false, 0⟩),
        .det ⟨true, 1⟩, .det ⟨true, 0⟩, .det "constant"⟩, .two (.det (1 / 2)) (.det (1 / 2))⟩ 1 g =
        [(⟨1, 1, 0, 0, 0, 0, 0, [0, 0, 0], (S.mode (.det "constant") 1 (S.num (.det ⟨true, 0⟩) 3 (S.num (.det ⟨false, 0⟩) 1 (S.num (.det ⟨false, 0⟩) 1
          (S.num (.det ⟨true, 0⟩) 1 (S.num (.det ⟨false, 1⟩) 1 g).2).2).2).2).2).1.getD 0 "", 1⟩, (1 / 2, 1 / 2))] := by
      simp [drawSamples, AffineArgs.drawSamples, AffineArgs.drawAxes, AffineArgs.drawShear, AffineArgs.row3, Positions.drawPositions, hS, hP]
    have e' : argsFor false ⟨1, 1, 0, 0, 0, 0, 0, [0, 0, 0], (S.mode (.det "constant") 1 (S.num (.det ⟨true, 0⟩) 3 (S.num (.det ⟨false, 0⟩) 1 (S.num (.det ⟨false, 0⟩) 1
          (S.num (.det ⟨true, 0⟩) 1 (S.num (.det ⟨false, 1⟩) 1 g).2).2).2).2).2).1.getD 0 "", 1⟩ (1 / 2, 1 / 2) im = v := by
      simp [argsFor, hv, Samples.txPx, Samples.tyPx, AffineArgs.toSamples]
    rw [if_neg (by simp)]
    simp only [List.length_singleton, e, List.zip_cons_cons, List.zip_nil_right, List.mapM_cons, List.mapM_nil, e', hr]
    rfl
  · intro y x ch hy hx hch
    refine (shifted 0 0 hr ⟨rfl, rfl⟩ ⟨by simp [hv], by simp [hv]⟩ ⟨rfl, rfl, rfl⟩ ?_ y x ch hy hx (by omega)).1 y x hy hx (by simp) (by simp)
    have h1 : (1 : ℝ) ≤ im.w := by exact_mod_cast hs.2
    simp only [centre, hv]
    intro e'
    have := le_abs_self ((im.w : ℝ) * (1 / 2))
    linarith

example : LikePil demoInk := by
  constructor
  · intro l h
    simp [demoInk, h]
  · intro l h _
    exact ⟨_, if_pos h, fun ch _ => rfl⟩

/-- C117: without a fill colour the new pixels have the colour 0, a number as fill colour is used as it is, and the digits after the point of the values of a tuple
are dropped. -/
theorem fill_used (ink : Ink) (im : Draw.Img) (v w : Args) (hv : w = { v with fill := .one 0 }) (l : List ℚ) (k : List Int) (hk : k = l.map (fun q => if q < 0 then ⌈q⌉ else ⌊q⌋)) :
    warp ink im { v with fill := .none } = warp ink im w ∧
      (1 ≤ im.c → ∀ z col, ink im.c (.int z) = some col → ∀ r, warp ink im { v with fill := .one z } = some r → ∀ y x, im.h ≠ 0 → im.w ≠ 0 →
        (∃ ch, r.px y x ch ≠ col ch) → ∃ y' x', y' < im.h ∧ x' < im.w ∧ ∀ ch, r.px y x ch = im.px y' x' ch) ∧
      warp ink im { v with fill := .many l } = warp ink im { v with fill := .many (k.map (fun (z : Int) => (z : ℚ))) } := by
  subst hv
  refine ⟨rfl, ?_, ?_⟩
  · intro hc z col hcol r hr y x h1 h2 ⟨ch, hne⟩
    unfold warp at hr
    split at hr
    · simp at hr
    split at hr
    · omega
    split at hr
    · simp at hr
    simp only [Option.bind_eq_some_iff, Option.map_eq_some_iff, Fill.toPil, hcol] at hr
    obtain ⟨m, -, k, hk, rfl⟩ := hr
    obtain rfl := Option.some.inj hk
    simp only [transform] at hne ⊢
    split at hne
    · exact absurd rfl hne
    · rename_i hin
      refine ⟨_, _, ?_, ?_, fun ch => by rw [if_neg hin]⟩
      · have := Int.floor_nonneg.mpr (not_lt.mp fun h => hin (Or.inr (Or.inl h)))
        have : ¬ ((im.h : Int) ≤ _) := fun h => hin (Or.inr (Or.inr (Or.inr h)))
        omega
      · have := Int.floor_nonneg.mpr (not_lt.mp fun h => hin (Or.inl h))
        have : ¬ ((im.w : Int) ≤ _) := fun h => hin (Or.inr (Or.inr (Or.inl h)))
        omega
  · have e : (Fill.many l).toPil = (Fill.many (k.map (fun (z : Int) => (z : ℚ)))).toPil := by
      subst hk
      simp only [Fill.toPil, List.map_map]
      congr 1
      apply List.map_congr_left
      intro q _
      simp only [Function.comp]
      rw [pyInt_intCast]
      simp only [pyInt, Int.floor_neg, neg_neg]
    simp only [warp, forward]
    rw [e]

example : ([(-7 / 2 : ℚ), 7 / 2].map (fun q => if q < 0 then ⌈q⌉ else ⌊q⌋)) = [-3, 3] := by decide +kernel

/-- C117: the translation in percent of the image and the translation in pixels are accepted as by the other affine augmenter, each for what it is. -/
theorem arguments_passed (a : Init) (c : Conf) (h : init a = some c) :
    ∃ order mode b, AffineArgs.init ⟨a.scale, a.translatePercent, a.translatePx, a.rotate, a.shear, order, a.fillcolor, mode, b⟩ = some c.affine ∧
      order = .val (AffineArgs.int 1) ∧ mode = .str "constant" := by
  unfold init at h
  simp only [Option.bind_eq_some_iff, Option.map_eq_some_iff] at h
  obtain ⟨d, h1, p, -, rfl⟩ := h
  exact ⟨_, _, _, h1, rfl, rfl⟩

/-- C117: the samples of the center are drawn after those of the transformation, from the numbers that follow: with a generator that counts its numbers, the
center is drawn when one number per image and parameter has been used, three for the fill colour and two for parameters with an axis each. -/
theorem centre_drawn_last (S : Samplers Nat) (hS : ∀ d n g, (S.num d n g).2 = g + n) (hM : ∀ d n g, (S.mode d n g).2 = g + n) (c : Conf) (n g : Nat) :
    drawSamples S c n g = (AffineArgs.drawSamples S.num S.mode c.affine n g).zip (Positions.drawPositions S.pos c.center n
      (g + n * (9 + (axesOf c.affine.scale) + (axesOf c.affine.translate) + (axesOfShear c.affine.shear)))) := by
  unfold drawSamples
  congr 2
  unfold after AffineArgs.drawAxes AffineArgs.drawShear
  cases c.affine.scale <;> cases c.affine.translate <;> cases c.affine.shear <;> simp only [hS, hM, axesOf, axesOfShear] <;> ring

example : ∃ S : Samplers Nat, (∀ d n g, (S.num d n g).2 = g + n) ∧ ∀ d n g, (S.mode d n g).2 = g + n :=
  ⟨⟨fun _ n g => (List.replicate n 0, g + n), fun _ n g => (List.replicate n "", g + n), fun _ n g => (List.replicate n 0, g + n)⟩, fun _ _ _ => rfl, fun _ _ _ => rfl⟩

end Imgaug.PilAffine
