import Verif.Proofs.AffineBatch
/-! Property C110: `Affine` on batches. -/
namespace Imgaug.AffineBatch
open Imgaug Imgaug.Dtypes Imgaug.AffineArgs
open Imgaug.Affine hiding lo hi

variable {σ : Type}

/-- C110: an array is accepted iff it has no pixels or its dtype is one of those listed for the backend and the mode is known. -/
theorem backend_dtypes (cv sk : Lib) (b : Backend) (hb : b ≠ .other) (a : Arr) (hd : a.dt ∈ all) (m : M3) (order : ℚ) (mode : String) (cval : List ℚ)
    (out : Shape) :
    (warp cv sk b a m order mode cval out).isSome = true ↔ a.empty ∨ (Supported b order a.dt ∧ mode ∈ modes) := by
  by_cases he : a.empty
  · simp [warp, he]
  · obtain ⟨t1, t2, t3, t4, t5, t6⟩ := tables a.dt hd
    unfold warp
    rw [if_neg he]
    extract_lets b1 b2
    have hb2 : b2 = true ↔ ¬ (if order = 0 then a.dt ∈ cvOrder0 else a.dt ∈ cvOrderNot0) := by
      simp only [b2]
      split <;> simp
    clear_value b1 b2
    simp only [he, false_or]
    have hcv := warpCv_isSome cv a m (cval.map (fun v => if a.dt.kind = .f then v else (pyInt v : ℚ))) mode order out
    have hsk := warpSk_isSome sk a m (max (min (cval.getD 0 0) (hi a.dt)) (lo a.dt)) mode order out
    generalize warpCv cv a m (cval.map (fun v => if a.dt.kind = .f then v else (pyInt v : ℚ))) mode order out = W at *
    generalize warpSk sk a m (max (min (cval.getD 0 0) (hi a.dt)) (lo a.dt)) mode order out = V at *
    unfold Supported
    generalize (a.dt ∈ cvOrder0) = A at *
    generalize (a.dt ∈ cvOrderNot0) = B at *
    generalize (a.dt ∈ [(⟨.u, 4⟩ : DType), ⟨.u, 8⟩, ⟨.i, 8⟩, ⟨.f, 16⟩]) = C at *
    generalize (a.dt ∈ [(⟨.u, 8⟩ : DType), ⟨.i, 8⟩, ⟨.f, 16⟩]) = D at *
    generalize (a.dt ∈ [(⟨.b, 1⟩ : DType), ⟨.u, 1⟩, ⟨.u, 2⟩, ⟨.u, 4⟩, ⟨.i, 1⟩, ⟨.i, 2⟩, ⟨.i, 4⟩, ⟨.f, 2⟩, ⟨.f, 4⟩, ⟨.f, 8⟩]) = E at *
    generalize (a.dt ∈ [(⟨.b, 1⟩ : DType), ⟨.u, 1⟩, ⟨.u, 2⟩, ⟨.i, 1⟩, ⟨.i, 2⟩, ⟨.f, 2⟩, ⟨.f, 4⟩, ⟨.f, 8⟩]) = F at *
    generalize (mode ∈ modes) = G at *
    generalize (a.dt = ⟨.i, 4⟩) = I at *
    clear hd he
    cases b with
    | other => exact absurd rfl hb
    | skimage => grind
    | cv2 => grind
    | auto => grind

example : (⟨.u, 4⟩ : DType) ∈ all ∧ Supported .auto 1 ⟨.u, 4⟩ ∧ ¬ Supported .cv2 1 ⟨.i, 4⟩ ∧ Supported .cv2 0 ⟨.i, 4⟩ := by
  refine ⟨by decide, ?_, ?_, ?_⟩ <;> simp [Supported]

/-- C110: an image keeps its dtype and its number of channels, and without `fit_output` its size; its pixels are values of the dtype. -/
theorem dtypes_and_sizes {cv sk : Lib} (hl : LibsOk cv sk) (b : Backend) (fit percent : Bool) (img : Shape) (r : Row) (a a' : Arr) (hv : a.Valid)
    (h : arrStep cv sk b fit percent img r a = some a') :
    a'.dt = a.dt ∧ a'.chans.length = a.chans.length ∧ (fit = false → a'.h = a.h ∧ a'.w = a.w) ∧ a'.Valid := by
  unfold arrStep at h
  simp only at h
  split at h
  · simp only [Option.some.injEq] at h
    subst h
    exact ⟨rfl, rfl, fun _ => ⟨rfl, rfl⟩, hv⟩
  · by_cases he : a.empty
    · simp only [warp, if_pos he, Option.some.injEq] at h
      subst h
      exact ⟨rfl, rfl, fun _ => ⟨rfl, rfl⟩, hv⟩
    · obtain ⟨lib, outd, src, post, ord, fill, hlib, hdone⟩ := warp_done hl b a a' hv.1 he _ _ _ _ _ h
      refine ⟨hdone.dt, hdone.chans, fun hf => ?_, valid_of_done hlib hv hdone⟩
      subst hf
      have : (toMatrix (toSamples percent r) a.shape img false (1 / 2)).2 = a.shape := by
        unfold toMatrix
        split
        · rfl
        · simp
      rw [hdone.h, hdone.w, this]
      exact ⟨rfl, rfl⟩

/-- C110: with interpolation order 0, every pixel of the new image was already a pixel of the same channel of the image; the only others are, in mode
`constant`, fill values: one of the values of `cval`, made a value of the dtype. -/
theorem order0_copies {cv sk : Lib} (hl : LibsOk cv sk) (b : Backend) (fit percent : Bool) (img : Shape) (r : Row) (a a' : Arr) (hv : a.Valid)
    (h0 : r.order = 0) (hc : ∀ v ∈ r.cval, (lo a.dt : ℚ) ≤ v ∧ v ≤ hi a.dt) (h : arrStep cv sk b fit percent img r a = some a') (c x' y' : Nat) (v : ℚ)
    (hat : a'.at c x' y' = some v) :
    (∃ x y, a.at c x y = some v) ∨
    (r.mode = "constant" ∧ ∃ k, (k = 0 ∨ (k = c ∧ a.chans.length ≤ 3)) ∧ FillOf a.dt (r.cval.getD k 0) v) := by
  unfold arrStep at h
  simp only at h
  split at h
  · simp only [Option.some.injEq] at h
    subst h
    exact Or.inl ⟨x', y', hat⟩
  · by_cases he : a.empty
    · simp only [warp, if_pos he, Option.some.injEq] at h
      subst h
      exact Or.inl ⟨x', y', hat⟩
    · obtain ⟨lib, outd, src, post, ord, fill, hlib, hdone⟩ := warp_done hl b a a' hv.1 he _ _ _ _ _ h
      exact (copies_of_done hlib hv he hdone h0 hc c x' y' v hat).symm

example : LibsOk (spots id) (spots (fun _ => ⟨.f, 8⟩)) := ⟨spots_ok _, spots_ok _⟩

example : (⟨⟨.u, 1⟩, 2, 3, [fun y x => (y * 3 + x : ℕ), fun _ _ => 200]⟩ : Arr).Valid := by
  refine ⟨by decide, ?_⟩
  intro ch hch x y hx hy
  have hu : ∀ n : Nat, n < 256 → Holds ⟨.u, 1⟩ (n : ℚ) := by
    intro n hn
    refine ⟨?_, ?_, fun _ => ⟨n, by simp⟩⟩
    · have : lo ⟨.u, 1⟩ = 0 := by decide
      rw [this]
      positivity
    · have : hi ⟨.u, 1⟩ = 255 := by decide
      rw [this]
      exact_mod_cast (by omega : n ≤ 255)
  simp only [List.mem_cons, List.not_mem_nil, or_false] at hch
  simp only at hx hy
  rcases hch with rfl | rfl
  · exact hu _ (by omega)
  · have := hu 200 (by omega)
    exact_mod_cast this

/-- C110: heatmaps stay between 0 and 1. -/
theorem heatmaps_in_range (cv sk : Lib) (b : Backend) (fit percent : Bool) (r : Row) (m m' : Maps)
    (hm : ∀ c x y v, m.arr.at c x y = some v → 0 ≤ v ∧ v ≤ 1) (h : mapStep cv sk b fit percent 3 true r m = some m') (c x y : Nat) (v : ℚ)
    (hat : m'.arr.at c x y = some v) : 0 ≤ v ∧ v ≤ 1 := by
  unfold mapStep at h
  simp only [Option.map_eq_some_iff] at h
  obtain ⟨a, -, h2⟩ := h
  split at h2
  · subst h2
    exact hm c x y v hat
  · subst h2
    rw [at_some] at hat
    obtain ⟨-, -, ch, h3, h4⟩ := hat
    simp only [ge_iff_le, le_refl, and_self, if_true, List.getElem?_map, Option.map_eq_some_iff] at h3
    obtain ⟨ch', -, rfl⟩ := h3
    rw [← h4]
    exact ⟨le_max_left _ _, max_le (by norm_num) (min_le_left _ _)⟩

/-- C110: segmentation maps get no new classes, only background (0) where the image is filled. -/
theorem segmaps_no_new {cv sk : Lib} (hl : LibsOk cv sk) (b : Backend) (fit percent : Bool) (r : Row) (m m' : Maps) (hd : m.arr.dt = ⟨.i, 4⟩)
    (hv : m.arr.Valid) (h : mapStep cv sk b fit percent 0 false r m = some m') (c x' y' : Nat) (v : ℚ) (hat : m'.arr.at c x' y' = some v) :
    v = 0 ∨ ∃ x y, m.arr.at c x y = some v := by
  unfold mapStep at h
  simp only [Option.map_eq_some_iff] at h
  obtain ⟨a, h1, h2⟩ := h
  split at h2
  · subst h2
    exact Or.inr ⟨x', y', hat⟩
  · subst h2
    simp only [Bool.false_eq_true, and_false, if_false] at hat
    have hz := holds_zero m.arr.dt
    rcases order0_copies hl b fit percent m.shape _ m.arr a hv rfl (by intro v hv; simp only [List.mem_singleton] at hv; subst hv; exact ⟨hz.1, hz.2.1⟩)
      h1 c x' y' v hat with h | ⟨-, k, -, hf⟩
    · exact Or.inr h
    · left
      have h0 : ([0] : List ℚ).getD k 0 = 0 := by
        cases k with
        | zero => rfl
        | succ k => rfl
      simp only [h0] at hf
      rw [hd] at hf
      simp only [FillOf] at hf
      have e2 : npRound 0 = 0 := by decide +kernel
      rw [pyInt_zero, e2] at hf
      simpa using hf

/-- C110 (partial): an image (or a map of the size of its image) shows its content moved by the documented transformation: rotated, scaled and
sheared around the centre, then translated. Missing: images of more than 1000 pixels, of which the last ones may be moved by a whole pixel
although the matrix is considered to be the identity, and samples that are left out (`Regular`). -/
theorem image_moved_partial {cv sk : Lib} (hl : LibsOk cv sk) (b : Backend) (percent : Bool) (img : Shape) (r : Row) (a a' : Arr) (hv : a.Valid)
    (hs : img.h = a.h ∧ img.w = a.w) (hu : Usual (toSamples percent r) img) (h : arrStep cv sk b false percent img r a = some a') :
    a.MovedBy (transform (toSamples percent r) img) a' := by
  obtain ⟨hw, hh, hz, hr, s1, s2⟩ := hu
  intro c x y x' y' v hat hx' hy' hT
  have hM : (toMatrix (toSamples percent r) a.shape img false (1 / 2)).1 = (toMatrix (toSamples percent r) img img false (1 / 2)).1 := by
    obtain ⟨ih, iw, ic⟩ := img
    simp only at hs
    obtain ⟨rfl, rfl⟩ := hs
    unfold toMatrix
    rw [if_neg hz, if_neg hz]
    rfl
  rw [← affine_documented_partial _ img hz hr, affine_coords_follow_pixels _ img hz] at hT
  have hT' : (toMatrix (toSamples percent r) img img false (1 / 2)).1.apply ((x : ℝ), (y : ℝ)) = ((x' : ℝ), (y' : ℝ)) := by
    unfold middle at hT
    simp only [Prod.mk.injEq, add_left_inj] at hT
    exact Prod.ext hT.1 hT.2
  have hxy := (at_some a c x y v).mp hat
  unfold arrStep at h
  simp only at h
  rw [hM] at h
  split at h
  · rename_i hid
    simp only [Option.some.injEq] at h
    subst h
    obtain ⟨rfl, rfl⟩ := same_pixel (aff_toMatrix _ _ _ _ (Or.inr rfl)) hid 0 le_rfl (by norm_num) x y x' y' (by omega) (by omega) (by simpa using hT')
    exact hat
  · by_cases he : a.empty
    · exfalso
      rcases he with he | he | he
      · omega
      · omega
      · obtain ⟨-, -, ch, h3, -⟩ := hxy
        simp [he] at h3
    · obtain ⟨lib, outd, src, post, ord, fill, hlib, hdone⟩ := warp_done hl b a a' hv.1 he _ _ _ _ _ h
      refine moved_of_done hlib hv hdone ?_ c x y x' y' v hat hx' hy' hT'
      rw [affine_injective _ _ _ hz _ (Or.inr rfl)]
      exact ⟨s1, s2⟩

/-- C110 (partial): points of annotations that are in the middle of pixels are moved with these pixels. Missing: as above. -/
theorem points_moved_partial (percent : Bool) (r : Row) (o : OnImage) (hu : Usual (toSamples percent r) o.shape) :
    (coordRow false percent r o).shape = o.shape ∧ (coordRow false percent r o).items.length = o.items.length ∧
    ∀ (i : Nat) (l l' : List (ℝ × ℝ)), o.items[i]? = some l → (coordRow false percent r o).items[i]? = some l' →
      PointsMovedBy (transform (toSamples percent r) o.shape) o.shape l l' := by
  obtain ⟨hw, hh, hz, hr, -, -⟩ := hu
  refine ⟨?_, by simp [coordRow], ?_⟩
  · unfold coordRow coordsStep toMatrix
    simp [if_neg hz]
  · intro i l l' h1 h2
    simp only [coordRow, List.getElem?_map, h1, Option.map_some, Option.some.injEq] at h2
    subst h2
    unfold coordsStep
    simp only
    split
    · rename_i hid
      refine ⟨by simp, fun j x y x' y' hx hy hj hT => ?_⟩
      rw [List.getElem?_map, hj, Option.map_some, affine_documented_partial _ _ hz hr, hT]
    · rename_i hid
      refine ⟨rfl, fun j x y x' y' hx hy hj hT => ?_⟩
      have hid' : (toMatrix (toSamples percent r) o.shape o.shape false 0).1.isIdentity := by
        by_contra hc
        refine hid ⟨hc, ?_⟩
        rintro (h | h)
        · exact hz (Or.inl h)
        · exact hz (Or.inr (Or.inl h))
      rw [← affine_documented_partial _ _ hz hr] at hT
      unfold middle at hT
      obtain ⟨rfl, rfl⟩ := same_pixel (aff_toMatrix _ _ _ _ (Or.inl rfl)) hid' (1 / 2) (by norm_num) (by norm_num) x y x' y' (by omega) (by omega) hT
      exact hj

/-- C110 (partial): bounding boxes become the smallest boxes with their moved content. Missing: as above, and transformations that move nothing by a
pixel, after which boxes may be kept. -/
theorem boxes_moved_partial (percent : Bool) (r : Row) (o : Boxes) (hu : Usual (toSamples percent r) o.shape)
    (hn : Noticeable (transform (toSamples percent r) o.shape)) :
    (boxRow false percent r o).shape = o.shape ∧ (boxRow false percent r o).boxes.length = o.boxes.length ∧
    ∀ (i : Nat) (b b' : ℝ × ℝ × ℝ × ℝ), o.boxes[i]? = some b → (boxRow false percent r o).boxes[i]? = some b' → b.1 ≤ b.2.2.1 → b.2.1 ≤ b.2.2.2 →
      BoxMovedBy (transform (toSamples percent r) o.shape) b b' := by
  obtain ⟨-, -, hz, hr, -, -⟩ := hu
  have hid : ¬ (toMatrix (toSamples percent r) o.shape o.shape false 0).1.isIdentity := by
    intro hid
    obtain ⟨u, u1, u2, u3⟩ := hn
    obtain ⟨n1, n2⟩ := near_identity (aff_toMatrix _ _ _ _ (Or.inl rfl)) hid u 1000 (by norm_num) u1 u2
    rw [affine_documented_partial _ _ hz hr] at n1 n2
    rcases u3 with u3 | u3
    · exact absurd (u3.trans n1) (by norm_num)
    · exact absurd (u3.trans n2) (by norm_num)
  have hz' : ¬ (o.shape.h = 0 ∨ o.shape.w = 0) := by
    rintro (h | h)
    · exact hz (Or.inl h)
    · exact hz (Or.inr (Or.inl h))
  unfold boxRow
  simp only [if_pos (And.intro hid hz')]
  refine ⟨?_, by simp, ?_⟩
  · unfold toMatrix
    simp [if_neg hz]
  · intro i b b' h1 h2 hx hy
    rw [List.getElem?_map, h1, Option.map_some, Option.some.injEq] at h2
    subst h2
    obtain ⟨k1, k2⟩ := affine_box (toSamples percent r) o.shape hz b.1 b.2.1 b.2.2.1 b.2.2.2 hx hy
    simp only [affine_documented_partial _ _ hz hr] at k1 k2
    exact ⟨k1, k2⟩

/-- A row of samples: translation by one pixel to the right and two to the bottom, with scales 2 and 1. -/
example : let p := toSamples false ⟨2, 1, 1, 2, 0, 0, 0, [0, 0, 0], "constant", 1⟩
    Usual p ⟨4, 4, some 3⟩ ∧ Noticeable (transform p ⟨4, 4, some 3⟩) ∧
    transform p ⟨4, 4, some 3⟩ (middle ((1 : ℕ), (1 : ℕ))) = (2, 7 / 2) ∧ transform p ⟨4, 4, some 3⟩ (5 / 2, 3 / 2) = (4, 7 / 2) := by
  have ht : ∀ x y : ℝ, transform (toSamples false ⟨2, 1, 1, 2, 0, 0, 0, [0, 0, 0], "constant", 1⟩) ⟨4, 4, some 3⟩ (x, y) = (2 * (x - 2) + 3, y + 2) := by
    intro x y
    simp [transform, linear, rotated, scaled, sheared, shift, toSamples]
    constructor <;> ring
  refine ⟨⟨by norm_num, by norm_num, by norm_num [Shape.hasZero], ⟨Or.inr (Or.inl ?_), ?_, ?_, ?_⟩, by norm_num [toSamples], by norm_num [toSamples]⟩,
    ⟨(0, 0), by norm_num, by norm_num, Or.inl ?_⟩, ?_, ?_⟩
  · norm_num [toSamples]
  · norm_num [toSamples]
  · norm_num [toSamples]
  · norm_num [toSamples, shift]
  · rw [ht]; norm_num
  · unfold middle; rw [ht]; norm_num
  · rw [ht]; norm_num

/-- C110 (partial): in a batch, every row has its own values, which the arguments stand for, and image, keypoints, polygons, line strings and
bounding boxes of a row are moved by the same transformation with these values (and so are heatmaps and segmentation maps of the size of the image).
Missing: `fit_output` (see `batch_fitted_partial`), and what is said at the other partial theorems. -/
theorem batch_moved_partial {cv sk : Lib} (hl : LibsOk cv sk) (P : Values ℚ) (Q : Values String) (args : Args) (hn : args.nothing = false)
    (hf : args.Filled) (c : Conf) (hi : init args = some c) (S : Sampler σ Params.Handled ℚ) (hS : Ok (Supports P) S)
    (M : Sampler σ ModeDist String) (hM : Ok (ModeDist.Supports Q) M) (n : Nat) (g : σ) (b r : Batch) (hb : b.Rows n)
    (h : augment cv sk S M args.backend false c n g b = some r) :
    ∃ rows : List Row, rows.length = n ∧ (∀ x ∈ rows, Requested P Q args x) ∧ (c.percent = true ↔ args.translatePercent ≠ .none) ∧
      Column (fun x a a' => a.Valid → Usual (toSamples c.percent x) a.shape →
        a.MovedBy (transform (toSamples c.percent x) a.shape) a' ∧ a'.h = a.h ∧ a'.w = a.w) rows b.images r.images ∧
      Column (fun x m m' => m.arr.Valid → m.shape.h = m.arr.h ∧ m.shape.w = m.arr.w → Usual (toSamples c.percent x) m.shape →
        m.arr.MovedBy (transform (toSamples c.percent x) m.shape) m'.arr ∧ m'.shape = m.shape) rows b.segmaps r.segmaps ∧
      Column (fun x m m' => m.arr.Valid → (∀ c x y v, m.arr.at c x y = some v → 0 ≤ v ∧ v ≤ 1) → m.shape.h = m.arr.h ∧ m.shape.w = m.arr.w →
        Usual (toSamples c.percent x) m.shape →
        m.arr.MovedBy (transform (toSamples c.percent x) m.shape) m'.arr ∧ m'.shape = m.shape) rows b.heatmaps r.heatmaps ∧
      (∀ old new, (old, new) ∈ [(b.kps, r.kps), (b.polys, r.polys), (b.lines, r.lines)] →
        Column (fun x o o' => Usual (toSamples c.percent x) o.shape → o'.shape = o.shape ∧ o'.items.length = o.items.length ∧
          ∀ (i : Nat) (l l' : List (ℝ × ℝ)), o.items[i]? = some l → o'.items[i]? = some l' →
            PointsMovedBy (transform (toSamples c.percent x) o.shape) o.shape l l') rows old new) ∧
      Column (fun x o o' => Usual (toSamples c.percent x) o.shape → Noticeable (transform (toSamples c.percent x) o.shape) →
        o'.shape = o.shape ∧ o'.boxes.length = o.boxes.length ∧
          ∀ (i : Nat) (q q' : ℝ × ℝ × ℝ × ℝ), o.boxes[i]? = some q → o'.boxes[i]? = some q' → q.1 ≤ q.2.2.1 → q.2.1 ≤ q.2.2.2 →
            BoxMovedBy (transform (toSamples c.percent x) o.shape) q q') rows b.boxes r.boxes := by
  obtain ⟨r1, r2, r3⟩ := affine_requested_partial P Q args hn hf c hi S hS M hM n g
  unfold augment at h
  simp only [Option.bind_eq_bind, Option.bind_eq_some_iff, Option.pure_def, Option.some.injEq] at h
  generalize drawSamples S M c n g = rows at *
  obtain ⟨images, h1, heatmaps, h2, segmaps, h3, rfl⟩ := h
  have hmap : ∀ (order : ℚ) (heat : Bool) (x : Row) (m m' : Maps), (order ≥ 3 ∧ heat = true → ∀ c x y v, m.arr.at c x y = some v → 0 ≤ v ∧ v ≤ 1) →
      mapStep cv sk args.backend false c.percent order heat x m = some m' →
      m.arr.Valid → m.shape.h = m.arr.h ∧ m.shape.w = m.arr.w → Usual (toSamples c.percent x) m.shape →
        m.arr.MovedBy (transform (toSamples c.percent x) m.shape) m'.arr ∧ m'.shape = m.shape := by
    intro order heat x m m' h01 hm hv hs hu
    unfold mapStep at hm
    simp only [Option.map_eq_some_iff, if_neg hu.notEmpty, Bool.false_eq_true, if_false] at hm
    obtain ⟨a, ha, rfl⟩ := hm
    refine ⟨?_, rfl⟩
    have hmv := image_moved_partial hl args.backend c.percent m.shape { x with order := order, mode := "constant", cval := [0] } m.arr a hv hs hu ha
    simp only
    split
    · rename_i hheat
      intro k x1 y1 x2 y2 v hat hx hy hT
      have := hmv k x1 y1 x2 y2 v hat hx hy hT
      rw [at_some] at this ⊢
      obtain ⟨q1, q2, ch, q3, q4⟩ := this
      refine ⟨q1, q2, _, by simp only [List.getElem?_map, q3, Option.map_some]; rfl, ?_⟩
      obtain ⟨z1, z2⟩ := h01 hheat k x1 y1 v hat
      simp only [q4, min_eq_right z2, max_eq_right z1]
    · exact hmv
  refine ⟨rows, r1, r2, r3, ?_, ?_, ?_, ?_, ?_⟩
  · refine column_mono (col_spec _ _ _ _ h1 (fun l hl' => by rw [hb.images l hl', r1])) ?_
    intro x _ a a' ha hv hu
    have hsz := dtypes_and_sizes hl args.backend false c.percent a.shape x a a' hv ha
    exact ⟨image_moved_partial hl args.backend c.percent a.shape x a a' hv ⟨rfl, rfl⟩ hu ha, hsz.2.2.1 rfl⟩
  · refine column_mono (col_spec _ _ _ _ h3 (fun l hl' => by rw [hb.segmaps l hl', r1])) ?_
    intro x _ m m' hm hv hs hu
    exact hmap 0 false x m m' (by simp) hm hv hs hu
  · refine column_mono (col_spec _ _ _ _ h2 (fun l hl' => by rw [hb.heatmaps l hl', r1])) ?_
    intro x _ m m' hm hv h01 hs hu
    exact hmap 3 true x m m' (fun _ => h01) hm hv hs hu
  · have hc : ∀ old : Option (List OnImage), (∀ l, old = some l → l.length = n) →
        Column (fun x o o' => Usual (toSamples c.percent x) o.shape → o'.shape = o.shape ∧ o'.items.length = o.items.length ∧
          ∀ (i : Nat) (l l' : List (ℝ × ℝ)), o.items[i]? = some l → o'.items[i]? = some l' →
            PointsMovedBy (transform (toSamples c.percent x) o.shape) o.shape l l') rows old (col' (coordRow false c.percent) rows old) := by
      intro old ho
      refine column_mono (col'_spec _ _ _ (fun l hl' => by rw [ho l hl', r1])) ?_
      intro x _ o o' hx hu
      subst hx
      exact points_moved_partial c.percent x o hu
    intro old new hm
    simp only [List.mem_cons, Prod.mk.injEq, List.not_mem_nil, or_false] at hm
    rcases hm with ⟨rfl, rfl⟩ | ⟨rfl, rfl⟩ | ⟨rfl, rfl⟩
    · exact hc _ hb.kps
    · exact hc _ hb.polys
    · exact hc _ hb.lines
  · refine column_mono (col'_spec _ _ _ (fun l hl' => by rw [hb.boxes l hl', r1])) ?_
    intro x _ o o' hx hu hno
    subst hx
    exact boxes_moved_partial c.percent x o hu hno

/-- C110: where cv2 fills, images of at most three channels get one value of `cval` per channel, other images get the first value in all channels. -/
theorem fill_values (cv sk : Lib) (m : M3) (chans : List Chan) (c : Nat) (hc : c < chans.length) (v0 v1 v2 : Nat)
    (hfill : ∀ (f : ℚ) (ch : Chan), cv ⟨m, 1, 1, 1, "constant", f⟩ ⟨.u, 1⟩ 1 1 ch 0 0 = f) :
    (warp cv sk .auto ⟨⟨.u, 1⟩, 1, 1, chans⟩ m 1 "constant" [(v0 : ℚ), v1, v2] ⟨1, 1, none⟩).bind (fun r => r.at c 0 0) =
      some (if chans.length ≤ 3 then ([(v0 : ℚ), v1, v2].getD c 0) else v0) := by
  have he : ¬ (⟨⟨.u, 1⟩, 1, 1, chans⟩ : Arr).empty := by
    simp only [Arr.empty, one_ne_zero, false_or]
    rintro rfl
    simp at hc
  have hp : ∀ n : Nat, pyInt (n : ℚ) = n := fun n => pyInt_intCast n
  unfold warp
  rw [if_neg he]
  by_cases hl : chans.length ≤ 3
  · simp [cvOrderNot0, warpCv, modes, Arr.at, List.getElem?_eq_getElem hc, cvDtype, cvFlag, hfill, hp, hl]
  · simp [cvOrderNot0, warpCv, modes, Arr.at, List.getElem?_eq_getElem hc, cvDtype, cvFlag, hfill, hp, hl]

/-- C110 is false for fill values that do not depend on the backend: a fill value of 0.6 becomes 0 with cv2 and 1 with skimage. -/
theorem fill_depends_on_backend (cv sk : Lib) (m : M3) (ch : Chan)
    (hcv : ∀ f : ℚ, cv ⟨m, 1, 1, 0, "constant", f⟩ ⟨.u, 1⟩ 1 1 ch 0 0 = f) (hsk : ∀ f : ℚ, sk ⟨m, 1, 1, 0, "constant", f⟩ ⟨.u, 1⟩ 1 1 ch 0 0 = f) :
    (warp cv sk .cv2 ⟨⟨.u, 1⟩, 1, 1, [ch]⟩ m 0 "constant" [3 / 5, 3 / 5, 3 / 5] ⟨1, 1, none⟩).bind (fun r => r.at 0 0 0) = some 0 ∧
    (warp cv sk .skimage ⟨⟨.u, 1⟩, 1, 1, [ch]⟩ m 0 "constant" [3 / 5, 3 / 5, 3 / 5] ⟨1, 1, none⟩).bind (fun r => r.at 0 0 0) = some 1 := by
  have e1 : pyInt (3 / 5) = 0 := by decide +kernel
  have e2 : changeDtype ⟨.f, 8⟩ ⟨.u, 1⟩ true (3 / 5) = some 1 := by decide +kernel
  have e3 : (max (min (3 / 5) (hi ⟨.u, 1⟩ : ℚ)) (lo ⟨.u, 1⟩ : ℚ)) = 3 / 5 := by decide +kernel
  constructor
  · unfold warp
    rw [if_neg (by simp [Arr.empty])]
    simp [cvOrder0, warpCv, modes, Arr.at, cvDtype, cvFlag, hcv, e1]
  · unfold warp
    rw [if_neg (by simp [Arr.empty])]
    simp [warpSk, modes, Arr.at, hsk, e2, e3]

end Imgaug.AffineBatch
