import Verif.Model.Pad
import Verif.Model.CropArgs
import Verif.Model.Dropout
import Verif.Model.AffineArgs
/-! Model of `CropAndPad` on batches and of its argument `pad_mode`: imgaug/augmenters/size.py 48-168, 268-287, 1823-1853 and 1992-2160.

Simplifications. Shapes are height and width. Polygons, line strings and bounding boxes are the points that they consist of, each item treated on its own
(`convert_cbaois_to_kpsois` and its inverse are in `Model/Coords.lean`). Resizing for `keep_size` is a parameter. `pad_cval` is the parameter created from the
argument. Hooks, names and prefetching are left out. -/
namespace Imgaug.CropBatch
open Imgaug Imgaug.Dtypes Imgaug.Size Imgaug.Pad

/-- The argument `pad_mode`. -/
inductive ModeArg where
  | str (s : String)
  | list (l : List String)
  | par (id : Nat)
  | other

/-- The parameter created from it. -/
inductive ModeDist where
  | det (m : Mode)
  | choice (l : List Mode)
  | par (id : Nat)
  deriving DecidableEq

/-- `pad_modes_available`, size.py 269-271. -/
def available : List (String × Mode) :=
  [("constant", .constant), ("edge", .edge), ("linear_ramp", .linearRamp), ("maximum", .maximum), ("mean", .mean), ("median", .median), ("minimum", .minimum),
    ("reflect", .reflect), ("symmetric", .symmetric), ("wrap", .wrap)]

/-- The mode with a name. -/
def named (s : String) : Option Mode := available.lookup s

/-- `_handle_pad_mode_param`, size.py 268-287. `none` is an exception. `ia.ALL` is the string "ALL". -/
def handlePadMode : ModeArg → Option ModeDist
  | .str s => if s = "ALL" then some (.choice (available.map (fun p => p.2))) else (named s).map .det
  | .list l => (l.mapM named).map .choice
  | .par i => some (.par i)
  | .other => none

/-- `_crop_arr_`, size.py 70-73. -/
def cropImg (a : Draw.Img) (c : Trbl) : Draw.Img :=
  let b := cropXyxy ⟨a.h, a.w⟩ c
  { a with
    h := (b.y2 - b.y1).toNat
    w := (b.x2 - b.x1).toNat
    px := fun y x ch => a.px (b.y1.toNat + y) (b.x1.toNat + x) ch }

/-- `ia.imresize_single_image`, or the resizing of maps. -/
abbrev Resizer := Draw.Img → Nat → Nat → Draw.Img

/-- The attributes of the augmenter. -/
structure Conf where
  sides : CropArgs.Mode × CropArgs.Sides
  independently : Bool
  keep : Bool
  mode : ModeDist
  cval : Params.Handled
  modeHeat : Option Mode
  modeSeg : Option Mode
  cvalHeat : Option ℚ
  cvalSeg : Option ℚ

/-- `__init__`, size.py 1832-1853. -/
def init (px percent : CropArgs.Arg) (mode : ModeArg) (cval : Params.Handled) (keep independently : Bool) : Option Conf :=
  (CropArgs.cropAndPad px percent).bind (fun s => (handlePadMode mode).map (fun m =>
    ⟨s, independently, keep, m, cval, some .constant, some .constant, some 0, some 0⟩))

/-- The values for an image. -/
structure Row where
  crop : Trbl
  pad : Trbl
  mode : Mode
  cval : ℚ

/-- `_crop_and_pad_arr`, size.py 76-91. -/
def arrStep (np : Np) (rs : Resizer) (keep : Bool) (r : Row) (a : Draw.Img) : Option Draw.Img :=
  (Pad.pad np (cropImg a r.crop) r.pad r.mode (.one r.cval)).map (fun b => if keep then rs b a.h a.w else b)

/-- A heatmap or segmentation map and the shape of its image. -/
structure MapOn where
  arr : Draw.Img
  shape : Shape

/-- `_crop_and_pad_hms_or_segmaps_`, size.py 108-149, with the choice of mode and value in `_augment_maps_by_samples`, size.py 2049-2061. -/
def mapStep (np : Np) (rs : Resizer) (keep : Bool) (mode : Option Mode) (cval : Option ℚ) (r : Row) (m : MapOn) : Option MapOn :=
  match projectSizeChanges r.crop m.shape ⟨m.arr.h, m.arr.w⟩, projectSizeChanges r.pad m.shape ⟨m.arr.h, m.arr.w⟩ with
  | some cp, some pp =>
    (Pad.pad np (cropImg m.arr (preventZeroTrbl m.arr.h m.arr.w cp)) pp (mode.getD r.mode) (.one (cval.getD r.cval))).map (fun b =>
      if keep then ⟨rs b m.arr.h m.arr.w, m.shape⟩ else ⟨b, shapeAfter m.shape r.crop r.pad⟩)
  | _, _ => none

/-- Keypoints (items of one point), polygons or line strings. -/
structure OnImage where
  items : List (List Pt)
  shape : Shape

/-- The shape of the image afterwards, size.py 163-168. -/
def shapeOf (keep : Bool) (r : Row) (s : Shape) : Shape := if keep then s else shapeAfter s r.crop r.pad

/-- The points of an item, `_augment_keypoints_by_samples`, size.py 2066-2075. -/
def ptsStep (keep : Bool) (r : Row) (s : Shape) (l : List Pt) : Option (List Pt) :=
  (cropPadKps keep ⟨l, s⟩ r.crop r.pad).map (fun k => k.kps)

/-- A row of annotations. -/
def itemsStep (keep : Bool) (r : Row) (o : OnImage) : Option OnImage :=
  (o.items.mapM (ptsStep keep r o.shape)).map (fun l => ⟨l, shapeOf keep r o.shape⟩)

/-- Bounding boxes: left, top, right and bottom. -/
structure Boxes where
  boxes : List (ℚ × ℚ × ℚ × ℚ)
  shape : Shape

/-- The corners of a box as keypoints, bbs.py 1983-1996. -/
def corners (b : ℚ × ℚ × ℚ × ℚ) : List Pt := [⟨b.1, b.2.1⟩, ⟨b.2.2.1, b.2.1⟩, ⟨b.2.2.1, b.2.2.2⟩, ⟨b.1, b.2.2.2⟩]

/-- The box around four points, bbs.py 2022-2031. -/
def around (l : List Pt) : Option (ℚ × ℚ × ℚ × ℚ) :=
  match l with
  | [p, q, r, s] => some (min (min (min p.x q.x) r.x) s.x, min (min (min p.y q.y) r.y) s.y, max (max (max p.x q.x) r.x) s.x, max (max (max p.y q.y) r.y) s.y)
  | _ => none

/-- A row of bounding boxes. -/
def boxesStep (keep : Bool) (r : Row) (o : Boxes) : Option Boxes :=
  (o.boxes.mapM (fun b => (ptsStep keep r o.shape (corners b)).bind around)).map (fun l => ⟨l, shapeOf keep r o.shape⟩)

/-- Images: one array or a list of arrays. -/
inductive Images where
  | array (l : List Draw.Img)
  | list (l : List Draw.Img)

/-- The images. -/
def Images.rows : Images → List Draw.Img
  | .array l => l
  | .list l => l

/-- The shape of an image's array. -/
def dims (a : Draw.Img) : List Nat := if a.flat then [a.h, a.w] else [a.h, a.w, a.c]

/-- `len({image.shape for image in result}) == 1`, size.py 2038-2039. -/
def oneShape : List Draw.Img → Bool
  | [] => false
  | a :: t => t.all (fun b => dims b == dims a)

/-- The end of `_augment_images_by_samples`, size.py 2034-2040. -/
def collect (keep : Bool) (old : Images) (l : List Draw.Img) : Images :=
  match old with
  | .list _ => .list l
  | .array _ => if keep || oneShape l then .array l else .list l

/-- The columns of a batch. -/
structure Batch where
  images : Option Images
  heatmaps : Option (List MapOn)
  segmaps : Option (List MapOn)
  kps : Option (List OnImage)
  boxes : Option (List Boxes)
  polys : Option (List OnImage)
  lines : Option (List OnImage)

/-- The heights and widths in a column. -/
def cols {α : Type} (f : α → Shape) : Option (List α) → List (List Shape)
  | none => []
  | some l => [l.map f]

/-- What `get_rowwise_shapes`, batches.py 771-785, gets of the columns; columns without rows are left out, batches.py 38. -/
def columns (b : Batch) : List (Bool × List Shape) :=
  ((match b.images with
    | none => []
    | some (.array l) => [(true, l.map (fun a => (⟨a.h, a.w⟩ : Shape)))]
    | some (.list l) => [(false, l.map (fun a => (⟨a.h, a.w⟩ : Shape)))]) ++
  (cols MapOn.shape b.heatmaps ++ cols MapOn.shape b.segmaps ++ cols OnImage.shape b.kps ++ cols Boxes.shape b.boxes ++ cols OnImage.shape b.polys ++
    cols OnImage.shape b.lines).map (fun l => (false, l)))

/-- `nb_rows`, batches.py 711-717. -/
def nbRows (b : Batch) : Nat := ((columns b).head?.map (fun c => c.2.length)).getD 0

/-- A column for `get_rowwise_shapes`. -/
def toCol (c : Bool × List Shape) : Dropout.Col :=
  if c.1 then .array (match c.2 with
    | [] => []
    | s :: _ => [s.h, s.w])
  else .items (c.2.map (fun s => some [s.h, s.w]))

/-- Height and width of a row. -/
def toShape (s : Option (List Nat)) : Option Shape :=
  match s with
  | some [h, w] => some ⟨h, w⟩
  | _ => none

/-- The shapes of the rows, size.py 1993 and 2080-2083. -/
def rowShapes (b : Batch) : Option (List Shape) :=
  (Dropout.rowwiseShapes (nbRows b) (((columns b).filter (fun c => c.2 ≠ [])).map toCol)).mapM toShape

variable {σ : Type}

/-- The samplers of the three kinds of parameters. -/
structure Samplers (σ : Type) where
  sides : CropArgs.Sampler σ
  mode : ModeDist → Nat → σ → List Mode × σ
  cval : Params.Handled → Nat → σ → List ℚ × σ

/-- `_draw_samples`, size.py 2077-2160. -/
def drawRows (S : Samplers σ) (c : Conf) (shapes : List Shape) (g : σ) : Option (List Row) :=
  let g1 := (CropArgs.drawFours S.sides c.independently c.sides.2 shapes.length g).2
  let modes := S.mode c.mode shapes.length g1
  let cvals := S.cval c.cval shapes.length modes.2
  (CropArgs.drawSamples S.sides c.independently c.sides shapes g).map (fun l =>
    (l.zip (modes.1.zip cvals.1)).map (fun p => ⟨p.1.1, p.1.2, p.2.1, p.2.2⟩))

/-- A loop over the rows of a column, if there is one. -/
def col {α : Type} (f : Row → α → Option α) (rows : List Row) : Option (List α) → Option (Option (List α))
  | none => some none
  | some l => ((l.zip rows).mapM (fun p => f p.2 p.1)).map some

/-- `_augment_batch_`, size.py 1992-2022, called for batches with rows, meta.py 640. The resizers are for images, heatmaps and segmentation maps. -/
def augment (np : Np) (ri rh rg : Resizer) (S : Samplers σ) (c : Conf) (b : Batch) (g : σ) : Option Batch :=
  if nbRows b = 0 then some b
  else do
    let shapes ← rowShapes b
    let rows ← drawRows S c shapes g
    let images ← col (arrStep np ri c.keep) rows (b.images.map Images.rows)
    let heatmaps ← col (mapStep np rh c.keep c.modeHeat c.cvalHeat) rows b.heatmaps
    let segmaps ← col (mapStep np rg c.keep c.modeSeg c.cvalSeg) rows b.segmaps
    let kps ← col (itemsStep c.keep) rows b.kps
    let boxes ← col (boxesStep c.keep) rows b.boxes
    let polys ← col (itemsStep c.keep) rows b.polys
    let lines ← col (itemsStep c.keep) rows b.lines
    return ⟨b.images.bind (fun o => images.map (collect c.keep o)), heatmaps, segmaps, kps, boxes, polys, lines⟩

end Imgaug.CropBatch
