import Verif.Model.AffineArgs
import Verif.Model.KeepSize
import Verif.Model.Size2
/-! Model of the augmenter `Resize`, imgaug/augmenters/size.py 1279-1506.

Simplifications. As in `Model/Handle.lean`; other iterables than tuples are taken to be lists. The elements of a list of interpolations are all
names or all numbers. Prefetchers are not added. The generator is a state that a sampler advances (`duplicate(3)` gives three times the
same generator). Bounding boxes, polygons and line strings are handled by the code as keypoints (C94). Sizes below zero, which only a
user's parameter can yield, are rejected for all columns, not only for images. -/
namespace Imgaug.ResizeArgs
open Imgaug Imgaug.Params Imgaug.Resize Imgaug.KeepSize
open Imgaug.Size (SizeArg computeHeightWidth resizeMapSize)
open Imgaug.AffineArgs (Sampler)

/-- A value for a size: the string `"keep"`, the string `"keep-aspect-ratio"`, or something else. -/
inductive SVal where
  | keep
  | ratio
  | val (v : Val)
  deriving DecidableEq

/-- A dictionary: the values of the known keys, and whether there are other keys. -/
structure Dict where
  height : Option SVal
  width : Option SVal
  shorter : Option SVal
  longer : Option SVal
  others : Bool
  deriving DecidableEq

/-- The argument `size`. -/
inductive SArg where
  | one (v : SVal)
  | dict (d : Dict)
  deriving DecidableEq

/-- A parameter for a size: `Deterministic` of one of the strings, or a parameter for numbers. -/
inductive Dist where
  | keep
  | ratio
  | num (h : Handled)
  deriving DecidableEq

/-- `_handle_size_arg` for anything but a dictionary, size.py 1315-1319 and 1338-1371. `none` is an exception. -/
def sizeVal : SVal → Option Dist
  | .keep => some .keep
  | .ratio => none
  | .val (.atom (.num n)) => if 0 < n.q then some (.num (.det n)) else none
  | .val (.tuple l) =>
    match l.mapM asNum with
    | some [a, b] =>
      if 0 < a.q ∧ 0 < b.q then
        some (.num (if !a.isInt || !b.isInt then .uniform a b else .discreteUniform (pyInt a.q) (pyInt b.q)))
      else none
    | _ => none
  | .val (.iter []) => some .keep
  | .val (.iter l) =>
    match l.mapM asNum with
    | some ns =>
      if (ns.all (·.isInt) || ns.all (fun n => !n.isInt)) && ns.all (fun n => decide (0 < n.q)) then some (.num (.choice ns)) else none
    | none => none
  | .val (.atom (.par i)) => some (.num (.par i))
  | .val (.atom _) => none

/-- One entry of `_dict_to_size_tuple`, size.py 1300-1305. -/
def entry : SVal → Option Dist
  | .keep => some .keep
  | .ratio => some .ratio
  | v => sizeVal v

/-- `_dict_to_size_tuple`, size.py 1292-1306. -/
def entries (a b : SVal) : Option (Dist × Dist) :=
  if a = .ratio ∧ b = .ratio then none
  else (entry a).bind (fun x => (entry b).map (fun y => (x, y)))

/-- `self.size`: one parameter or a pair. -/
inductive Conf where
  | same (d : Dist)
  | each (a b : Dist)
  deriving DecidableEq

/-- `_handle_size_arg`, size.py 1291-1375: the parameters, and whether the order is shorter and longer side. -/
def sizeArg : SArg → Option (Conf × Bool)
  | .one v => (sizeVal v).map (fun d => (.same d, false))
  | .dict d =>
    if d.height.isNone && d.width.isNone && d.shorter.isNone && d.longer.isNone && !d.others then some (.same .keep, false)
    else if d.height.isSome || d.width.isSome then
      (entries (d.height.getD .keep) (d.width.getD .keep)).map (fun p => (.each p.1 p.2, false))
    else if d.shorter.isSome || d.longer.isSome then
      (entries (d.shorter.getD .keep) (d.longer.getD .keep)).map (fun p => (.each p.1 p.2, true))
    else none

/-- The argument `interpolation`. A name or number that is not one of the methods is `one none` or an element `none`. -/
inductive IArg where
  | all
  | one (i : Option Inter)
  | list (l : List (Option Inter))
  | par (id : Nat)
  | other
  deriving DecidableEq

/-- The parameter for the interpolation. -/
inductive IDist where
  | det (i : Option Inter)
  | choice (l : List (Option Inter))
  | par (id : Nat)
  deriving DecidableEq

/-- `_handle_interpolation_arg`, size.py 1378-1394. -/
def interArg : IArg → Option IDist
  | .all => some (.choice [some .nearest, some .linear, some .area, some .cubic])
  | .one i => some (.det i)
  | .list l => some (.choice l)
  | .par i => some (.par i)
  | .other => none

/-- The attributes of the augmenter. -/
structure Aug where
  size : Conf
  sl : Bool
  inter : IDist
  deriving DecidableEq

/-- The constructor, size.py 1279-1287. -/
def init (size : SArg) (inter : IArg) : Option Aug :=
  (sizeArg size).bind (fun s => (interArg inter).map (fun i => ⟨s.1, s.2, i⟩))

/-- What is drawn for a row: two sizes and a method. -/
structure Row where
  a : SizeArg
  b : SizeArg
  inter : Option Inter
  deriving DecidableEq

/-- `_draw_samples`, size.py 1493-1506. -/
def drawSamples (S : Sampler σ Dist SizeArg) (M : Sampler σ IDist (Option Inter)) (c : Aug) (n : Nat) (g : σ) : List Row :=
  let (as, bs, g) := match c.size with
    | .each x y => let (as, g) := S x n g; let (bs, g) := S y n g; (as, bs, g)
    | .same d => let (as, g) := S d n g; (as, as, g)
  let (ips, _) := M c.inter n g
  (List.range n).map (fun (i : Nat) => ⟨as.getD i .keep, bs.getD i .keep, ips.getD i none⟩)

/-- The shape that an image of a given shape gets, size.py 1439-1440, 1461-1462 and 1484-1486. -/
def newShape (sl : Bool) (s : Shape) (r : Row) : Option Shape :=
  (computeHeightWidth ⟨s.h, s.w⟩ r.a r.b sl).bind (fun hw => if 0 ≤ hw.1 ∧ 0 ≤ hw.2 then some ⟨hw.1.toNat, hw.2.toNat⟩ else none)

/-- The method that `imresize_single_image` uses, imgaug.py 1010-1055: what is not a method is rejected, but not if the size is kept or
something is empty, as then it is not looked at (here any method will do). -/
def method (ip : Option Inter) (im : Im) (h w : Nat) : Option Inter :=
  match ip with
  | some i => some i
  | none => if (h = im.h ∧ w = im.w) ∨ h = 0 ∨ w = 0 ∨ im.c = some 0 then some .nearest else none

/-- One image, size.py 1438-1443. -/
def imageStep (cv : Cv) (sl : Bool) (im : Im) (r : Row) : Option Im :=
  (newShape sl ⟨im.h, im.w⟩ r).bind (fun s =>
    (method r.inter im s.h s.w).bind (fun i => single cv (some i) (.tuple [.int s.h, .int s.w]) im))

/-- One map, size.py 1457-1475: heatmaps with the interpolation of the image, segmentation maps with nearest neighbours. -/
def mapStep (cv : Cv) (sl : Bool) (m : MapOn) (r : Row) : Option MapOn :=
  (newShape sl m.shape r).bind (fun s =>
    (resizeMapSize ⟨m.arr.h, m.arr.w⟩ ⟨m.shape.h, m.shape.w⟩ (s.h, s.w)).bind (fun hw =>
      (if m.heat then method r.inter m.arr hw.1.toNat hw.2.toNat else some .nearest).bind (fun i =>
        (resizeMap cv m i hw.1.toNat hw.2.toNat).map (fun m' => { m' with shape := s }))))

/-- The keypoints of one image, size.py 1483-1489. -/
def kpsStep (sl : Bool) (k : KPsOnImage) (r : Row) : Option KPsOnImage :=
  (newShape sl k.shape r).bind (fun s => k.on s)

/-- A column that may be missing; its rows get the samples of the same index. -/
def column {α : Type} (f : α → Row → Option α) (rows : List Row) : Option (List α) → Option (Option (List α))
  | none => some none
  | some l => ((l.zip rows).mapM (fun p => f p.1 p.2)).map some

/-- `_augment_batch_`, size.py 1397-1426; the images are put into one array as in `KeepSizeByResize`, size.py 1445-1450. -/
def augment (cv : Cv) (sl : Bool) (rows : List Row) (b : Batch) : Option Batch :=
  (column (imageStep cv sl) rows (b.images.map Prod.snd)).bind fun images =>
  (column (mapStep cv sl) rows b.heatmaps).bind fun heatmaps =>
  (column (mapStep cv sl) rows b.segmaps).bind fun segmaps =>
  (column (kpsStep sl) rows b.keypoints).bind fun keypoints =>
  some ⟨images.map (fun l => (stacked (b.images.any Prod.fst) l, l)), heatmaps, segmaps, keypoints⟩

end Imgaug.ResizeArgs
