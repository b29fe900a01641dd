import Verif.Model.AffineArgs
import Verif.Model.Dtypes
/-! Model of `Affine` on batches, with the choice of the backend and the treatment of dtypes, imgaug/augmenters/geometric.py 45-77, 167-327 and
1430-1571.

Simplifications. `cv2.warpAffine` and `skimage.transform.warp` are parameters that turn the pixels of a channel into new ones (which makes warping
all channels at once and one by one the same; a cval for each channel is part of the call); what they may do is said where it is assumed. The
latter yields float64 numbers. Rounding to float dtypes is not modelled. Arrays have three axes. Items of annotations are their points. Whether
images come as a list or as an array makes no difference here. -/
namespace Imgaug.AffineBatch
open Imgaug Imgaug.Dtypes Imgaug.Affine Imgaug.AffineArgs

/-- The pixels of a channel. -/
abbrev Chan := Nat → Nat → ℚ

/-- An array of height `h`, width `w` and the given channels. -/
structure Arr where
  dt : DType
  h : Nat
  w : Nat
  chans : List Chan

/-- `arr.shape`. -/
def Arr.shape (a : Arr) : Shape := ⟨a.h, a.w, some a.chans.length⟩

/-- `arr.size == 0`. -/
def Arr.empty (a : Arr) : Prop := a.h = 0 ∨ a.w = 0 ∨ a.chans = []

instance (a : Arr) : Decidable a.empty := by unfold Arr.empty; infer_instance

/-- A call of a library for one channel. `order` is the interpolation: for cv2 its flag, for skimage the degree. -/
structure Call where
  matrix : M3
  h : Nat
  w : Nat
  order : ℚ
  mode : String
  cval : ℚ

/-- `cv2.warpAffine` or `skimage.transform.warp`, on a channel of a dtype, height and width. -/
abbrev Lib := Call → DType → Nat → Nat → Chan → Chan

/-- `_WARP_AFF_VALID_DTYPES_CV2_ORDER_0` and `_WARP_AFF_VALID_DTYPES_CV2_ORDER_NOT_0`, geometric.py 45-50. -/
def cvOrder0 : List DType := [⟨.u, 1⟩, ⟨.u, 2⟩, ⟨.i, 1⟩, ⟨.i, 2⟩, ⟨.i, 4⟩, ⟨.f, 2⟩, ⟨.f, 4⟩, ⟨.f, 8⟩, ⟨.b, 1⟩]
def cvOrderNot0 : List DType := [⟨.u, 1⟩, ⟨.u, 2⟩, ⟨.i, 1⟩, ⟨.i, 2⟩, ⟨.f, 2⟩, ⟨.f, 4⟩, ⟨.f, 8⟩, ⟨.b, 1⟩]

/-- `_AFFINE_INTERPOLATION_ORDER_SKIMAGE_TO_CV2`, geometric.py 58-64: the flags nearest (0), linear (1) and cubic (2). -/
def cvFlag (order : ℚ) : ℚ :=
  if order = 0 then 0 else if order = 1 then 1 else if order = 2 ∨ order = 3 ∨ order = 4 then 2 else order

/-- The modes that both libraries know, geometric.py 73-79. Others raise an exception in the library. -/
def modes : List String := ["constant", "edge", "symmetric", "reflect", "wrap"]

/-- `_warp_affine_arr_skimage`, geometric.py 224-256. -/
noncomputable def warpSk (sk : Lib) (a : Arr) (m : M3) (cval : ℚ) (mode : String) (order : ℚ) (out : Shape) : Option Arr :=
  if a.dt ∈ [(⟨.u, 8⟩ : DType), ⟨.i, 8⟩, ⟨.f, 16⟩] ∨ mode ∉ modes then none
  else
    let src : DType := if a.dt.kind = .b ∧ order ≠ 0 then ⟨.f, 4⟩ else a.dt
    let post : Chan → Chan := fun ch =>
      if a.dt.kind = .b then fun y x => if ch y x > 1 / 2 then 1 else 0
      else fun y x => (changeDtype ⟨.f, 8⟩ a.dt true (ch y x)).getD 0
    some ⟨a.dt, out.h, out.w, a.chans.map (fun ch => post (sk ⟨m, out.h, out.w, order, mode, cval⟩ src a.h a.w ch))⟩

/-- The dtype in which cv2 gets an array, geometric.py 272-276. -/
def cvDtype (d : DType) (order : ℚ) : DType :=
  if d = ⟨.b, 1⟩ ∨ d = ⟨.f, 2⟩ then ⟨.f, 4⟩ else if d = ⟨.i, 1⟩ ∧ order ≠ 0 then ⟨.i, 2⟩ else d

/-- `_warp_affine_arr_cv2`, geometric.py 259-327. Missing values of a `borderValue` are zero. -/
noncomputable def warpCv (cv : Lib) (a : Arr) (m : M3) (cval : List ℚ) (mode : String) (order : ℚ) (out : Shape) : Option Arr :=
  if a.dt ∈ [(⟨.u, 4⟩ : DType), ⟨.u, 8⟩, ⟨.i, 8⟩, ⟨.f, 16⟩] ∨ (order ≠ 0 ∧ a.dt = ⟨.i, 4⟩) ∨ mode ∉ modes then none
  else
    let src := cvDtype a.dt order
    let post : Chan → Chan := fun ch =>
      if a.dt.kind = .b then fun y x => if ch y x > 1 / 2 then 1 else 0
      else if a.dt = ⟨.i, 1⟩ ∨ a.dt = ⟨.f, 2⟩ then fun y x => (changeDtype src a.dt true (ch y x)).getD 0
      else ch
    let fill : Nat → ℚ := fun c => if a.chans.length ≤ 3 then cval.getD c 0 else cval.getD 0 0
    some ⟨a.dt, out.h, out.w, a.chans.mapIdx (fun c ch => post (cv ⟨m, out.h, out.w, cvFlag order, mode, fill c⟩ src a.h a.w ch))⟩

/-- `_warp_affine_arr`, geometric.py 167-221, with several values as `cval`. -/
noncomputable def warp (cv sk : Lib) (b : Backend) (a : Arr) (m : M3) (order : ℚ) (mode : String) (cval : List ℚ) (out : Shape) : Option Arr :=
  if a.empty then some a
  else
    let badOrder : Bool := !(order == 0 || order == 1 || order == 3)
    let badDtype : Bool := !((if order = 0 then cvOrder0 else cvOrderNot0).contains a.dt)
    if b = .skimage ∨ (b = .auto ∧ (badOrder || badDtype) = true) then
      warpSk sk a m (max (min (cval.getD 0 0) (hi a.dt)) (lo a.dt)) mode order out
    else if badDtype = true then none
    else warpCv cv a m (cval.map (fun v => if a.dt.kind = .f then v else (pyInt v : ℚ))) mode order out

open Classical in
/-- One image in `_augment_images_by_samples`, geometric.py 1495-1512. -/
noncomputable def arrStep (cv sk : Lib) (b : Backend) (fit percent : Bool) (img : Shape) (r : Row) (a : Arr) : Option Arr :=
  let t := toMatrix (toSamples percent r) a.shape img fit (1 / 2)
  if t.1.isIdentity then some a else warp cv sk b a t.1 r.order r.mode r.cval t.2

/-- A heatmap or segmentation map with the shape of its image. -/
structure Maps where
  arr : Arr
  shape : Shape

open Classical in
/-- One map in `_augment_maps_by_samples`, geometric.py 1533-1570, with the values for maps from 1312-1317: `order` is 3 or 0. -/
noncomputable def mapStep (cv sk : Lib) (b : Backend) (fit percent : Bool) (order : ℚ) (heat : Bool) (r : Row) (m : Maps) : Option Maps :=
  (arrStep cv sk b fit percent m.shape { r with order := order, mode := "constant", cval := [0] } m.arr).map (fun a =>
    if m.shape.hasZero then m
    else
      let a := if order ≥ 3 ∧ heat then { a with chans := a.chans.map (fun (ch : Chan) => fun y x => max 0 (min 1 (ch y x))) } else a
      let s := if fit then (fit' (toMatrix (toSamples percent r) m.arr.shape m.shape fit (1 / 2)).1 m.shape) else m.shape
      ⟨a, s⟩)
where
  /-- The second part of `_compute_affine_warp_output_shape`. -/
  fit' (m : M3) (s : Shape) : Shape := (Affine.fit m s).2

/-- Keypoints, polygons or line strings: the points of the items. -/
structure OnImage where
  items : List (List (ℝ × ℝ))
  shape : Shape

/-- One row of annotations, geometric.py 1452-1476. -/
noncomputable def coordRow (fit percent : Bool) (r : Row) (o : OnImage) : OnImage :=
  ⟨o.items.map (fun pts => (coordsStep (toSamples percent r) o.shape fit pts).1), (coordsStep (toSamples percent r) o.shape fit []).2⟩

/-- Bounding boxes: left, top, right and bottom. -/
structure Boxes where
  boxes : List (ℝ × ℝ × ℝ × ℝ)
  shape : Shape

open Classical in
/-- One row of bounding boxes, geometric.py 1452-1476. -/
noncomputable def boxRow (fit percent : Bool) (r : Row) (o : Boxes) : Boxes :=
  let t := toMatrix (toSamples percent r) o.shape o.shape fit 0
  ⟨if ¬ t.1.isIdentity ∧ ¬ (o.shape.h = 0 ∨ o.shape.w = 0) then o.boxes.map (fun b => boxStep t.1 b.1 b.2.1 b.2.2.1 b.2.2.2) else o.boxes, t.2⟩

/-- A batch. -/
structure Batch where
  images : Option (List Arr)
  heatmaps : Option (List Maps)
  segmaps : Option (List Maps)
  kps : Option (List OnImage)
  boxes : Option (List Boxes)
  polys : Option (List OnImage)
  lines : Option (List OnImage)

/-- A step that may fail, on the rows of a column, with the samples of the rows. -/
def col {α β : Type} (f : Row → α → Option β) (rows : List Row) : Option (List α) → Option (Option (List β))
  | none => some none
  | some l => ((l.zip rows).mapM (fun p => f p.2 p.1)).map some

/-- A step that does not fail. -/
def col' {α β : Type} (f : Row → α → β) (rows : List Row) (x : Option (List α)) : Option (List β) :=
  x.map (fun l => (l.zip rows).map (fun p => f p.2 p.1))

variable {σ : Type}

/-- `Affine._augment_batch_`, geometric.py 1430-1478, for a batch of `n` rows. -/
noncomputable def augment (cv sk : Lib) (S : Sampler σ Params.Handled ℚ) (M : Sampler σ ModeDist String) (backend : Backend) (fit : Bool) (c : Conf)
    (n : Nat) (g : σ) (b : Batch) : Option Batch := do
  let rows := drawSamples S M c n g
  let images ← col (fun r a => arrStep cv sk backend fit c.percent a.shape r a) rows b.images
  let heatmaps ← col (mapStep cv sk backend fit c.percent 3 true) rows b.heatmaps
  let segmaps ← col (mapStep cv sk backend fit c.percent 0 false) rows b.segmaps
  return ⟨images, heatmaps, segmaps, col' (coordRow fit c.percent) rows b.kps, col' (boxRow fit c.percent) rows b.boxes,
    col' (coordRow fit c.percent) rows b.polys, col' (coordRow fit c.percent) rows b.lines⟩

end Imgaug.AffineBatch
