import Verif.Proofs.CropBatch
import Verif.Props.CropArgs
/-! C121: cropping and padding the rows of a batch. -/
namespace Imgaug.CropBatch
open Imgaug Imgaug.Dtypes Imgaug.Size Imgaug.Pad

/-- An image of 3 rows and 4 columns. -/
def demoImg : Draw.Img := ⟨⟨.u, 1⟩, 3, 4, 2, false, fun y x ch => 10 * y + x + 100 * ch⟩

/-- A batch of two rows with all kinds of annotations. -/
def demoBatch : Batch :=
  ⟨some (.array [demoImg, demoImg]),
    some [⟨⟨⟨.f, 4⟩, 3, 4, 1, false, fun y _ _ => y / 4⟩, ⟨3, 4⟩⟩, ⟨⟨⟨.f, 4⟩, 3, 4, 1, false, fun _ _ _ => 1⟩, ⟨3, 4⟩⟩], none,
    some [⟨[[⟨1, 2⟩]], ⟨3, 4⟩⟩, ⟨[], ⟨3, 4⟩⟩], some [⟨[(0, 1, 3, 2)], ⟨3, 4⟩⟩, ⟨[], ⟨3, 4⟩⟩], none,
    some [⟨[[⟨0, 0⟩, ⟨3, 1⟩, ⟨1, 1⟩]], ⟨3, 4⟩⟩, ⟨[[]], ⟨3, 4⟩⟩]⟩

/-- Samplers that draw the amounts 1, -1, 2, -2, ..., the mode "edge" and then "constant", and the value 300. -/
def demoSamplers : Samplers Nat :=
  ⟨fun _ n g => ((List.range n).map (fun k => (if (k + g) % 2 = 0 then (1 : ℚ) else -1)), g + 1),
    fun _ n g => ((List.range n).map (fun k => if k % 2 = 0 then Mode.edge else .constant), g), fun _ n g => (List.replicate n 300, g)⟩

/-- The augmenter. -/
def demoConf (keep : Bool) : Conf :=
  ⟨(.px, .each (.det 1) (.det 1) (.det 1) (.det 1)), true, keep, .choice [.edge, .constant], .det ⟨true, 300⟩, some .constant, some .constant, some 0, some 0⟩

/-- A library that pads with zeros, and one that resizes. -/
def demoResizer : Resizer := fun a h w => { a with h := h, w := w }

theorem demo_consistent : Consistent demoBatch [⟨3, 4⟩, ⟨3, 4⟩] := by
  refine ⟨by simp, Or.inl rfl, ?_, ?_, ?_, ?_, ?_, ?_, ?_, ?_⟩ <;> simp [HasShapes, demoBatch, demoImg, Images.rows]

theorem demoSamplers_ok : demoSamplers.Ok := by
  refine ⟨?_, ?_, ?_⟩ <;> simp [demoSamplers]

/-- C121: in a batch of which the columns agree about the shapes of the rows, each row is cropped and padded as a whole: there is one rectangle of pixels that
is kept, with at least one pixel, and one amount of padding per side, and the image, its maps, keypoints, bounding boxes, polygons and line strings all follow
it, whether the size is to be kept or not. The image is padded with a mode and a value of those drawn for the batch, the maps with their own if they have any. -/
theorem rows_follow {σ : Type} (np : Np) (ri rh rg : Resizer) (S : Samplers σ) (hS : S.Ok) (c : Conf) (b b' : Batch) (g : σ) (sh : List Shape)
    (hb : Consistent b sh) (h1 : ∀ s ∈ sh, 1 ≤ s.h ∧ 1 ≤ s.w) (ho : ∀ l, b.boxes = some l → ∀ o ∈ l, o.Ordered)
    (h : augment np ri rh rg S c b g = some b') (i : Nat) (s : Shape) (hs : sh[i]? = some s) :
    ∃ (p : Plan) (m : Mode) (v : ℚ) (g1 g2 : σ), p.Fits s ∧ m ∈ (S.mode c.mode sh.length g1).1 ∧ v ∈ (S.cval c.cval sh.length g2).1 ∧
      ColFollows (p.ArrFollows c.keep ri m v) i (b.images.map Images.rows) (b'.images.map Images.rows) ∧
      ColFollows (p.MapFollows c.keep rh (c.modeHeat.getD m) (c.cvalHeat.getD v)) i b.heatmaps b'.heatmaps ∧
      ColFollows (p.MapFollows c.keep rg (c.modeSeg.getD m) (c.cvalSeg.getD v)) i b.segmaps b'.segmaps ∧
      ColFollows (p.ItemsFollow c.keep) i b.kps b'.kps ∧ ColFollows (fun o o' => p.BoxesFollow c.keep o o' ∧ o'.Ordered) i b.boxes b'.boxes ∧
      ColFollows (p.ItemsFollow c.keep) i b.polys b'.polys ∧ ColFollows (p.ItemsFollow c.keep) i b.lines b'.lines := by
  obtain ⟨rows, images, e1, e2, e3, e4, e5, e6, e7, e8, e9⟩ := augment_cols hb h
  obtain ⟨hl, hrows⟩ := drawRows_nth hS e1
  obtain ⟨t, m, v, g1, g2, hr, hm, hv⟩ := hrows i s hs
  obtain ⟨hh, hw⟩ := h1 s (List.mem_of_getElem? hs)
  set r : Row := ⟨croppings s t, paddings t, m, v⟩ with hrd
  have hg : r.Good := ⟨croppings_nonneg s t hh hw, paddings_nonneg t⟩
  obtain ⟨-, -, c1, -, c2, c3, c4, c5, c6, c7⟩ := hb
  have him : b'.images.map Images.rows = images := by
    rw [e3]
    cases hbi : b.images with
    | none =>
      rw [hbi] at e2
      simp only [Option.map_none, col] at e2
      injection e2
    | some o =>
      rw [hbi] at e2
      simp only [Option.map_some, col, Option.map_eq_some_iff] at e2
      obtain ⟨l, -, rfl⟩ := e2
      simp [collect_rows]
  refine ⟨planOf s r, m, v, g1, g2, plan_fits s r hg hh hw, hm, hv, ?_, ?_, ?_, ?_, ?_, ?_, ?_⟩
  · rw [him]
    refine (col_nth e2 i r hr (hasShapes_len c1 hl)).mono ?_
    intro l a a' hl ha hf
    obtain rfl := hasShapes_nth c1 hl ha hs
    exact arrStep_follows hf hg hh hw
  · refine (col_nth e4 i r hr (hasShapes_len c2 hl)).mono ?_
    intro l a a' hl ha hf
    obtain rfl := hasShapes_nth c2 hl ha hs
    exact mapStep_follows hf hg hh hw
  · refine (col_nth e5 i r hr (hasShapes_len c3 hl)).mono ?_
    intro l a a' hl ha hf
    obtain rfl := hasShapes_nth c3 hl ha hs
    exact mapStep_follows hf hg hh hw
  · refine (col_nth e6 i r hr (hasShapes_len c4 hl)).mono ?_
    intro l a a' hl ha hf
    obtain rfl := hasShapes_nth c4 hl ha hs
    obtain ⟨o', e, f⟩ := itemsStep_eq c.keep r a hg hh hw
    obtain rfl : o' = a' := Option.some.inj (e.symm.trans hf)
    exact f
  · refine (col_nth e7 i r hr (hasShapes_len c5 hl)).mono ?_
    intro l a a' hl ha hf
    obtain rfl := hasShapes_nth c5 hl ha hs
    obtain ⟨o', e, f⟩ := boxesStep_eq c.keep r a hg hh hw (ho l hl a (List.mem_of_getElem? ha))
    obtain rfl : o' = a' := Option.some.inj (e.symm.trans hf)
    exact f
  · refine (col_nth e8 i r hr (hasShapes_len c6 hl)).mono ?_
    intro l a a' hl ha hf
    obtain rfl := hasShapes_nth c6 hl ha hs
    obtain ⟨o', e, f⟩ := itemsStep_eq c.keep r a hg hh hw
    obtain rfl : o' = a' := Option.some.inj (e.symm.trans hf)
    exact f
  · refine (col_nth e9 i r hr (hasShapes_len c7 hl)).mono ?_
    intro l a a' hl ha hf
    obtain rfl := hasShapes_nth c7 hl ha hs
    obtain ⟨o', e, f⟩ := itemsStep_eq c.keep r a hg hh hw
    obtain rfl : o' = a' := Option.some.inj (e.symm.trans hf)
    exact f

set_option synthInstance.maxSize 2000 in
set_option synthInstance.maxHeartbeats 200000 in
example : demoSamplers.Ok ∧ Consistent demoBatch [⟨3, 4⟩, ⟨3, 4⟩] ∧
    (augment demoNp demoResizer demoResizer demoResizer demoSamplers (demoConf false) demoBatch 0).map (fun b =>
      b.images.map (fun l => l.rows.map (fun a => (a.h, a.w, a.px 0 0 0, a.px 0 1 0)))) = some (some [(5, 2, 1, 2), (1, 6, 255, 10)]) ∧
    (augment demoNp demoResizer demoResizer demoResizer demoSamplers (demoConf false) demoBatch 0).map (fun b =>
      b.kps.map (fun l => l.map (fun o => (o.shape, o.items.map (fun l => l.map (fun q => (q.x, q.y))))))) =
        some (some [(⟨5, 2⟩, [[(0, 3)]]), (⟨1, 6⟩, [])]) ∧
    (augment demoNp demoResizer demoResizer demoResizer demoSamplers (demoConf false) demoBatch 0).map (fun b =>
      b.boxes.map (fun l => l.map Boxes.boxes)) = some (some [[(-1, 2, 2, 3)], []]) :=
  ⟨demoSamplers_ok, demo_consistent, by decide +kernel, by decide +kernel, by decide +kernel⟩

/-- C121: what is kept of an image and what is added to it is what `px` or `percent` ask for. -/
theorem as_requested {σ : Type} (np : Np) (ri rh rg : Resizer) (P : CropArgs.Values) (S : Samplers σ) (hS : S.Ok) (hP : CropArgs.Ok P S.sides)
    (px percent : CropArgs.Arg) (mode : ModeArg) (cval : Params.Handled) (keep independently : Bool) (c : Conf)
    (hc : init px percent mode cval keep independently = some c) (b b' : Batch) (g : σ) (sh : List Shape) (hb : Consistent b sh)
    (h1 : ∀ s ∈ sh, 1 ≤ s.h ∧ 1 ≤ s.w) (h : augment np ri rh rg S c b g = some b') (i : Nat) (s : Shape) (hs : sh[i]? = some s) :
    ∃ (p : Plan) (t : Trbl) (m : Mode) (v : ℚ), p.Fits s ∧ CropArgs.Requested P (CropArgs.interval (-1 / 10) (1 / 10)) px percent s t ∧
      CropArgs.Fits s t ⟨p.y1, s.w - p.x2, s.h - p.y2, p.x1⟩ p.pad ∧
      ColFollows (p.ArrFollows keep ri m v) i (b.images.map Images.rows) (b'.images.map Images.rows) ∧
      ColFollows (p.ItemsFollow keep) i b.kps b'.kps := by
  obtain ⟨ms, f1, f2⟩ := Option.bind_eq_some_iff.mp hc
  obtain ⟨md, f3, rfl⟩ := Option.map_eq_some_iff.mp f2
  obtain ⟨rows, images, e1, e2, e3, -, -, e6, -⟩ := augment_cols hb h
  obtain ⟨hl, hrows⟩ := drawRows_nth hS e1
  obtain ⟨t, m, v, g1, g2, hr, hm, hv⟩ := hrows i s hs
  obtain ⟨l, q1, q2⟩ := drawRows_pairs e1
  obtain ⟨-, q3⟩ := CropArgs.amounts_requested P S.sides hP independently px percent ms f1 sh g l q1
  obtain ⟨t', q4, q5⟩ := q3 i s _ _ hs (q2 i _ hr)
  obtain ⟨hh, hw⟩ := h1 s (List.mem_of_getElem? hs)
  set r : Row := ⟨croppings s t, paddings t, m, v⟩ with hrd
  have hg : r.Good := ⟨croppings_nonneg s t hh hw, paddings_nonneg t⟩
  have hx : cropXyxy s r.crop = ⟨r.crop.left, r.crop.top, s.w - r.crop.right, s.h - r.crop.bottom⟩ :=
    crop_exact s r.crop hg.1 (by have := q5.rows; simp only [hrd] at *; omega) (by have := q5.columns; simp only [hrd] at *; omega)
  have hcf := crop_facts s r.crop hg.1 hh hw
  rw [hx] at hcf
  simp only at hcf
  have hpl : (⟨(planOf s r).y1, s.w - (planOf s r).x2, s.h - (planOf s r).y2, (planOf s r).x1⟩ : Trbl) = r.crop := by
    simp only [planOf, hx]
    obtain ⟨a1, a2, a3, a4⟩ : ∃ a b c d, a = r.crop.top ∧ b = r.crop.right ∧ c = r.crop.bottom ∧ d = r.crop.left := ⟨_, _, _, _, rfl, rfl, rfl, rfl⟩
    rw [show r.crop = ⟨r.crop.top, r.crop.right, r.crop.bottom, r.crop.left⟩ from rfl]
    simp only [Trbl.mk.injEq]
    omega
  obtain ⟨-, -, c1, -, c2, c3, c4, -⟩ := hb
  have him : b'.images.map Images.rows = images := by
    rw [e3]
    cases hbi : b.images with
    | none =>
      rw [hbi] at e2
      simp only [Option.map_none, col] at e2
      injection e2
    | some o =>
      rw [hbi] at e2
      simp only [Option.map_some, col, Option.map_eq_some_iff] at e2
      obtain ⟨l, -, rfl⟩ := e2
      simp [collect_rows]
  refine ⟨planOf s r, t', m, v, plan_fits s r hg hh hw, q4, ?_, ?_, ?_⟩
  · rw [hpl]; exact q5
  · rw [him]
    refine (col_nth e2 i r hr (hasShapes_len c1 hl)).mono ?_
    intro l a a' hl ha hf
    obtain rfl := hasShapes_nth c1 hl ha hs
    exact arrStep_follows hf hg hh hw
  · refine (col_nth e6 i r hr (hasShapes_len c4 hl)).mono ?_
    intro l a a' hl ha hf
    obtain rfl := hasShapes_nth c4 hl ha hs
    obtain ⟨o', e, f⟩ := itemsStep_eq keep r a hg hh hw
    obtain rfl : o' = a' := Option.some.inj (e.symm.trans hf)
    exact f

example : init (.atom (.int 1)) .none (.str "edge") (.det ⟨true, 0⟩) true true ≠ none := by decide +kernel

/-- C121: an augmenter made with `px` or `percent` handles each batch of which the columns agree about the shapes of the rows, and of which no image or map is
empty, if no parameter for `px` yields a value that is not an integer and only the modes "constant", "edge", "reflect" and "symmetric" are drawn. -/
theorem always_handled {σ : Type} (np : Np) (ri rh rg : Resizer) (P : CropArgs.Values) (S : Samplers σ) (hS : S.Ok) (hP : CropArgs.Ok P S.sides)
    (px percent : CropArgs.Arg) (mode : ModeArg) (cval : Params.Handled) (keep independently : Bool) (c : Conf)
    (hc : init px percent mode cval keep independently = some c) (hpx : px = .none ∨ ∀ i u, P i u → ∃ z : Int, u = z)
    (hm : ∀ n g m, m ∈ (S.mode c.mode n g).1 → m ∈ [Mode.constant, .edge, .reflect, .symmetric])
    (b : Batch) (g : σ) (sh : List Shape) (hb : Consistent b sh) (h1 : ∀ s ∈ sh, 1 ≤ s.h ∧ 1 ≤ s.w)
    (hi : ∀ l, b.images = some l → ∀ a ∈ l.rows, WellFormed a)
    (ha : ∀ l, b.heatmaps = some l → ∀ o ∈ l, WellFormed o.arr) (hs : ∀ l, b.segmaps = some l → ∀ o ∈ l, WellFormed o.arr) :
    ∃ b', augment np ri rh rg S c b g = some b' := by
  obtain ⟨ms, e1, e2⟩ := Option.bind_eq_some_iff.mp hc
  obtain ⟨md, e3, rfl⟩ := Option.map_eq_some_iff.mp e2
  have hd := CropArgs.always_drawn P S.sides hP independently px percent ms (Or.inl e1) hpx sh g
  obtain ⟨l, hl⟩ := Option.ne_none_iff_exists'.mp hd
  set c : Conf := ⟨ms, independently, keep, md, cval, some .constant, some .constant, some 0, some 0⟩ with hcd
  obtain ⟨rows, hr⟩ : ∃ rows, drawRows S c sh g = some rows := by
    simp only [drawRows, hcd, hl, Option.map_some]
    exact ⟨_, rfl⟩
  obtain ⟨hlen, hrows⟩ := drawRows_nth hS hr
  have key : ∀ {α : Type} (f : α → Shape) (x : Option (List α)), HasShapes f x sh → ∀ l, x = some l → ∀ p ∈ l.zip rows,
      p.1 ∈ l ∧ p.2.Good ∧ 1 ≤ (f p.1).h ∧ 1 ≤ (f p.1).w ∧ p.2.mode ∈ [Mode.constant, .edge, .reflect, .symmetric] := by
    intro α f x hx l hxl p hp
    obtain ⟨i, hi⟩ := List.mem_iff_getElem?.mp hp
    rw [List.getElem?_zip_eq_some] at hi
    have hsi : sh[i]? = some (f p.1) := by rw [← hx l hxl, List.getElem?_map, hi.1]; rfl
    obtain ⟨t, m, v, g1, g2, hr', hm', -⟩ := hrows i _ hsi
    rw [hi.2] at hr'
    obtain ⟨hh, hw⟩ := h1 _ (List.mem_of_getElem? hsi)
    obtain e := Option.some.inj hr'
    rw [e]
    exact ⟨List.mem_of_getElem? hi.1, ⟨croppings_nonneg _ t hh hw, paddings_nonneg t⟩, hh, hw, hm _ _ _ hm'⟩
  have hmap : ∀ rs (x : Option (List MapOn)), HasShapes MapOn.shape x sh → (∀ l, x = some l → ∀ o ∈ l, WellFormed o.arr) →
      ∃ y, col (mapStep np rs keep (some .constant) (some 0)) rows x = some y := by
    intro rs x hx hwf
    apply col_some
    intro l hl p hp
    obtain ⟨k1, ⟨k2, k2'⟩, k3, k4, -⟩ := key _ x hx l hl p hp
    obtain ⟨cp, f1, f2⟩ := projectSizeChanges_nonneg p.2.crop p.1.shape ⟨p.1.arr.h, p.1.arr.w⟩ k2 k3 k4
    obtain ⟨pp, f3, f4⟩ := projectSizeChanges_nonneg p.2.pad p.1.shape ⟨p.1.arr.h, p.1.arr.w⟩ k2' k3 k4
    obtain ⟨r, f5⟩ := pads np (cropImg p.1.arr (preventZeroTrbl p.1.arr.h p.1.arr.w cp)) pp .constant (.one 0) f4 (by simp) (hwf l hl _ k1) trivial
    simp only [mapStep, f1, f3, Option.getD_some, f5, Option.map_some]
    exact ⟨_, rfl⟩
  have hit : ∀ (x : Option (List OnImage)), HasShapes OnImage.shape x sh → ∃ y, col (itemsStep keep) rows x = some y := by
    intro x hx
    apply col_some
    intro l hl p hp
    obtain ⟨k1, k2, k3, k4, -⟩ := key _ x hx l hl p hp
    obtain ⟨o', e, -⟩ := itemsStep_eq keep p.2 p.1 k2 k3 k4
    exact ⟨o', e⟩
  have hb0 := hb
  obtain ⟨hne, -, c1, -, c2, c3, c4, c5, c6, c7⟩ := hb
  obtain ⟨y1, f1⟩ : ∃ y, col (arrStep np ri keep) rows (b.images.map Images.rows) = some y := by
    apply col_some
    intro l hl p hp
    obtain ⟨k1, k2, k3, k4, k5⟩ := key _ _ c1 l hl p hp
    obtain ⟨o, ho, rfl⟩ := Option.map_eq_some_iff.mp hl
    obtain ⟨r, f5⟩ := pads np (cropImg p.1 p.2.crop) p.2.pad p.2.mode (.one p.2.cval) k2.2 k5 (hi o ho p.1 k1) trivial
    simp only [arrStep, f5, Option.map_some]
    exact ⟨_, rfl⟩
  obtain ⟨y2, f2⟩ := hmap rh b.heatmaps c2 ha
  obtain ⟨y3, f3⟩ := hmap rg b.segmaps c3 hs
  obtain ⟨y4, f4⟩ := hit b.kps c4
  obtain ⟨y5, f5⟩ : ∃ y, col (boxesStep keep) rows b.boxes = some y := by
    apply col_some
    intro l hl p hp
    obtain ⟨k1, k2, k3, k4, -⟩ := key _ _ c5 l hl p hp
    unfold boxesStep
    have : ∀ q ∈ p.1.boxes, (ptsStep keep p.2 p.1.shape (corners q)).bind around =
        some (((around ((corners q).map ((planOf p.1.shape p.2).place keep p.1.shape)))).getD (0, 0, 0, 0)) := by
      intro q _
      rw [ptsStep_eq keep p.2 p.1.shape _ k2 k3 k4]
      simp [corners, around]
    rw [mapM_some _ _ _ this]
    exact ⟨_, rfl⟩
  obtain ⟨y6, f6⟩ := hit b.polys c6
  obtain ⟨y7, f7⟩ := hit b.lines c7
  unfold augment
  rw [if_neg (by rw [nbRows_eq hb0]; intro e; exact hne (List.length_eq_zero_iff.mp e)), rowShapes_eq hb0]
  refine ⟨⟨b.images.bind (fun o => y1.map (collect keep o)), y2, y3, y4, y5, y6, y7⟩, ?_⟩
  simp only [Option.bind_eq_bind, Option.bind_some, hr]
  simp only [hcd, f1, f2, f3, f4, f5, f6, f7, Option.bind_some, Option.pure_def]

example : (⟨CropArgs.least, demoSamplers.mode, demoSamplers.cval⟩ : Samplers Nat).Ok ∧
    init (.atom (.int 1)) .none (.list ["edge", "constant"]) (.det ⟨true, 0⟩) false true ≠ none ∧
    (∀ d n g m, m ∈ (demoSamplers.mode d n g).1 → m ∈ [Mode.constant, .edge, .reflect, .symmetric]) ∧ WellFormed demoImg := by
  refine ⟨⟨CropArgs.least_ok.length, demoSamplers_ok.2.1, demoSamplers_ok.2.2⟩, by decide +kernel, ?_, by simp [WellFormed, demoImg]⟩
  intro d n g m hm
  simp only [demoSamplers, List.mem_map] at hm
  obtain ⟨k, -, rfl⟩ := hm
  split <;> simp

/-- C121: the pixels that are added to heatmaps and segmentation maps are 0, whatever mode and value the images are padded with. -/
theorem maps_padded_with_zeros {σ : Type} (np : Np) (ri rh rg : Resizer) (S : Samplers σ) (hS : S.Ok) (px percent : CropArgs.Arg) (mode : ModeArg)
    (cval : Params.Handled) (independently : Bool) (c : Conf) (hc : init px percent mode cval false independently = some c)
    (b b' : Batch) (g : σ) (sh : List Shape) (hb : Consistent b sh) (h1 : ∀ s ∈ sh, 1 ≤ s.h ∧ 1 ≤ s.w) (ho : ∀ l, b.boxes = some l → ∀ o ∈ l, o.Ordered)
    (h : augment np ri rh rg S c b g = some b') (l : List MapOn) (hl : b.heatmaps = some l ∨ b.segmaps = some l) (i : Nat) (o : MapOn) (hi : l[i]? = some o)
    (hsz : (⟨o.arr.h, o.arr.w⟩ : Shape) = o.shape) (hd : o.arr.dt ∈ all) (hw : WellFormed o.arr) :
    ∃ (p : Plan) (l' : List MapOn) (o' : MapOn), p.Fits o.shape ∧ (b'.heatmaps = some l' ∨ b'.segmaps = some l') ∧ l'[i]? = some o' ∧ p.Cut o.arr o'.arr ∧
      ∀ y x ch, y < o'.arr.h → x < o'.arr.w → ch < o.arr.c → p.New y x → o'.arr.px y x ch = 0 := by
  obtain ⟨ms, e1, e2⟩ := Option.bind_eq_some_iff.mp hc
  obtain ⟨md, e3, rfl⟩ := Option.map_eq_some_iff.mp e2
  have hs : sh[i]? = some o.shape := by
    rcases hl with hl | hl
    · rw [← hb.2.2.2.2.1 l hl, List.getElem?_map, hi]; rfl
    · rw [← hb.2.2.2.2.2.1 l hl, List.getElem?_map, hi]; rfl
  obtain ⟨p, m, v, g1, g2, hf, -, -, -, k1, k2, -⟩ := rows_follow np ri rh rg S hS _ b b' g sh hb h1 ho h i o.shape hs
  have fin : ∀ (rs : Resizer) (x' : Option (List MapOn)), ColFollows (p.MapFollows false rs .constant 0) i (some l) x' →
      ∃ (l' : List MapOn) (o' : MapOn), x' = some l' ∧ l'[i]? = some o' ∧ p.Cut o.arr o'.arr ∧
        ∀ y x ch, y < o'.arr.h → x < o'.arr.w → ch < o.arr.c → p.New y x → o'.arr.px y x ch = 0 := by
    intro rs x' hx
    cases x' with
    | none => exact absurd hx (by simp [ColFollows])
    | some l' =>
      obtain ⟨-, hx⟩ := hx
      obtain ⟨o', h2, -, h3⟩ := hx o hi
      obtain ⟨q, h4, h5, h6⟩ := h3.1 hsz
      simp only [Bool.false_eq_true, if_false] at h6
      subst h6
      refine ⟨l', o', rfl, h2, h4, ?_⟩
      intro y x ch hy hx hch hn
      exact stored_zero hd ((h5 hd hw y x hy hx hn).1 rfl ch hch)
  rcases hl with hl | hl
  · rw [hl] at k1
    obtain ⟨l', o', f1, f2, f3, f4⟩ := fin _ _ k1
    exact ⟨p, l', o', hf, Or.inl f1, f2, f3, f4⟩
  · rw [hl] at k2
    obtain ⟨l', o', f1, f2, f3, f4⟩ := fin _ _ k2
    exact ⟨p, l', o', hf, Or.inr f1, f2, f3, f4⟩

example : demoBatch.heatmaps.map (fun l => l.map (fun o => decide ((⟨o.arr.h, o.arr.w⟩ : Shape) = o.shape ∧ o.arr.dt ∈ all))) = some [true, true] ∧
    (augment demoNp demoResizer demoResizer demoResizer demoSamplers (demoConf false) demoBatch 0).map (fun b =>
      b.heatmaps.map (fun l => l.map (fun o => (o.arr.h, o.arr.w, o.arr.px 0 0 0, o.arr.px 2 0 0)))) = some (some [(5, 2, 0, 1 / 4), (1, 6, 0, 0)]) := by
  decide +kernel

/-- C121: images given as a list are returned as a list; images given as one array are returned as one array if the size is kept or all results have the same
shape, and as a list otherwise. -/
theorem array_or_list {σ : Type} (np : Np) (ri rh rg : Resizer) (S : Samplers σ) (hS : S.Ok) (c : Conf) (b b' : Batch) (g : σ) (sh : List Shape)
    (hb : Consistent b sh) (h : augment np ri rh rg S c b g = some b') (o : Images) (ho : b.images = some o) :
    ∃ o', b'.images = some o' ∧
      ((∃ l, o' = .array l) ↔ (∃ l, o = .array l) ∧ (c.keep = true ∨ ∀ a ∈ o'.rows, ∀ a' ∈ o'.rows, a.h = a'.h ∧ a.w = a'.w ∧ a.flat = a'.flat ∧
        (a.flat = false → a.c = a'.c))) := by
  obtain ⟨rows, images, e1, e2, e3, -⟩ := augment_cols hb h
  rw [ho] at e2 e3
  simp only [Option.map_some, col, Option.map_eq_some_iff] at e2
  obtain ⟨l, hl, rfl⟩ := e2
  simp only [Option.bind_some, Option.map_some] at e3
  refine ⟨_, e3, ?_⟩
  rw [collect_rows]
  have hne : l ≠ [] := by
    have h1 := mapM_len _ _ _ hl
    have h2 := (hasShapes_len hb.2.2.1 rfl) o.rows (by rw [ho]; rfl)
    have h3 := augment_rows_len hS e1
    rw [List.length_zip, h2, h3, min_self] at h1
    intro e
    rw [e] at h1
    exact hb.1 (List.length_eq_zero_iff.mp (by simpa using h1.symm))
  cases o with
  | list q => simp [collect]
  | array q =>
    simp only [collect, Bool.or_eq_true, oneShape_iff l hne]
    split
    · rename_i hk
      simp [hk]
    · rename_i hk
      simp [hk]

example : (augment demoNp demoResizer demoResizer demoResizer demoSamplers (demoConf false) demoBatch 0).map (fun b => b.images.map (fun o =>
    match o with
    | .array _ => true
    | .list _ => false)) = some (some false) ∧
    (augment demoNp demoResizer demoResizer demoResizer demoSamplers (demoConf true) demoBatch 0).map (fun b => b.images.map (fun o =>
    match o with
    | .array _ => true
    | .list _ => false)) = some (some true) := by decide +kernel

/-- C121: a batch of which the first column has no rows is returned as it is, whatever the others hold. -/
theorem no_rows {σ : Type} (np : Np) (ri rh rg : Resizer) (S : Samplers σ) (c : Conf) (b : Batch) (g : σ) (h : b.images = some (.list []) ∨ b.images = some (.array [])) :
    augment np ri rh rg S c b g = some b := by
  unfold augment
  rw [if_pos]
  rcases h with h | h <;> simp [nbRows, columns, h]

/-- The names of the modes. -/
def names : List String := ["constant", "edge", "linear_ramp", "maximum", "mean", "median", "minimum", "reflect", "symmetric", "wrap"]

/-- C121: as `pad_mode` exactly the ten names of modes, "ALL", lists of names and parameters are accepted. -/
theorem modes_accepted (a : ModeArg) :
    handlePadMode a ≠ none ↔ (∃ s, a = .str s ∧ (s = "ALL" ∨ s ∈ names)) ∨ (∃ l, a = .list l ∧ ∀ s ∈ l, s ∈ names) ∨ ∃ k, a = .par k := by
  cases a with
  | str s =>
    simp only [handlePadMode]
    split
    · rename_i h; simp [h]
    · rename_i h
      simp [h, named_iff, names]
  | list l => simp [handlePadMode, named_list, names]
  | par k => simp [handlePadMode]
  | other => simp [handlePadMode]

/-- C121: a name means its mode, a list the choice among the modes with these names, and "ALL" the choice among all ten, each listed once. -/
theorem modes_meant :
    names.map (fun s => handlePadMode (.str s)) = [Mode.constant, .edge, .linearRamp, .maximum, .mean, .median, .minimum, .reflect, .symmetric, .wrap].map
      (fun m => some (.det m)) ∧
    (∀ l, (∀ s ∈ l, s ∈ names) → ∃ q, handlePadMode (.list l) = some (.choice q) ∧ q.length = l.length ∧
      ∀ (i : Nat) (s : String), l[i]? = some s → ∃ m, q[i]? = some m ∧ handlePadMode (.str s) = some (.det m)) ∧
    ∃ q, handlePadMode (.str "ALL") = some (.choice q) ∧ q.Nodup ∧ q.length = 10 := by
  refine ⟨by decide +kernel, ?_, _, rfl, by decide +kernel, by decide +kernel⟩
  intro l hl
  have h1 := (modes_accepted (.list l)).mpr (Or.inr (Or.inl ⟨l, rfl, hl⟩))
  simp only [handlePadMode, ne_eq, Option.map_eq_none_iff] at h1
  obtain ⟨q, hq⟩ := Option.ne_none_iff_exists'.mp h1
  refine ⟨q, by simp [handlePadMode, hq], mapM_len _ _ _ hq, ?_⟩
  intro i s hs
  obtain ⟨m, e1, e2⟩ := mapM_nth _ _ _ hq i s hs
  refine ⟨m, e1, ?_⟩
  have hn : s ≠ "ALL" := by
    intro e
    rw [e] at e2
    have hA : named "ALL" = none := by decide +kernel
    rw [hA] at e2
    cases e2
  simp [handlePadMode, hn, e2]

end Imgaug.CropBatch
