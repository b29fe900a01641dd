import Verif.Model.Recover
/-! Model of `Lambda`, `AssertLambda`, `RemoveCBAsByOutOfImageFraction` and `ClipCBAsToImagePlanes`, imgaug/augmenters/meta.py 4060-4549 and
5015-5213, with the conversion of annotations to keypoints, meta.py 1470-1706 and augmentables/utils.py 325-387.

Simplifications. Callbacks get no RNG, parents and hooks. They are functions; only the one for bounding boxes may change its arguments in
place (the objects it returns are either arguments or new ones that share no boxes with them). Polygons and line strings are both written as
`Polygon` (coordinates and label). shapely's part in the repair of polygons is the environment of `Recover`. -/
namespace Imgaug.Lambda
open Imgaug

/-- What a callback returns: something that cannot be iterated over, or items, `none` if they do not have the expected class. -/
inductive Ret (ω : Type) where
  | notIterable
  | items (l : List (Option ω))

/-- The two assertions on results, e.g. meta.py 4296-4305. -/
def check {ω : Type} : Ret ω → Option (List ω)
  | .notIterable => none
  | .items l => l.mapM id

/-- `_augment_keypoints`, meta.py 4291-4307; `_augment_heatmaps` (4258-4272) and `_augment_segmentation_maps` (4274-4289) are the same
for other classes. `none` is an assertion. -/
def plain {ω : Type} (f : Option (List ω → Ret ω)) (l : List ω) : Option (List ω) :=
  match f with
  | some f => check (f l)
  | none => some l

/-- The arguments `func_bounding_boxes`, `func_polygons`, `func_line_strings`: `"keypoints"`, `None` or a function. -/
inductive Func (φ : Type) where
  | keypoints
  | nothing
  | func (f : φ)

/-- `PolygonsOnImage`, polys.py 1430-1470, or `LineStringsOnImage`, lines.py 1665-1710. -/
structure RingsOnImage where
  rings : List Polygon
  shape : Shape
  deriving DecidableEq, Repr

/-- `to_keypoints_on_image`, polys.py 1992-2011 and lines.py 2221-2242. -/
def ringsToKps (r : RingsOnImage) : KPsOnImage := ⟨r.rings.flatMap (·.exterior), r.shape⟩

/-- The loop of polys.py 2043-2047 and lines.py 2274-2278. -/
def refillRings : List Polygon → List Pt → List Polygon
  | [], _ => []
  | p :: ps, l => { p with exterior := l.take p.exterior.length } :: refillRings ps (l.drop p.exterior.length)

/-- `invert_to_keypoints_on_image_`, polys.py 2013-2049 and lines.py 2244-2280. `none` is the assertion. -/
def ringsFromKps (r : RingsOnImage) (k : KPsOnImage) : Option RingsOnImage :=
  if k.kps.length = (r.rings.map (·.exterior.length)).sum then some ⟨refillRings r.rings k.kps, k.shape⟩ else none

/-- `BoundingBoxesOnImage.to_keypoints_on_image` as `KeypointsOnImage`. -/
def boxesToKps (b : BBsOnImage) : KPsOnImage := ⟨b.toKeypointsOnImage.1, b.toKeypointsOnImage.2⟩

def boxesFromKps (b : BBsOnImage) (k : KPsOnImage) : Option BBsOnImage := b.invertToKeypointsOnImage (k.kps, k.shape)

/-- `_apply_to_cbaois_as_keypoints`, meta.py 1677-1706 with utils.py 325-387: `zip` ends with the shorter list. -/
def asKeypoints {ω : Type} (toK : ω → KPsOnImage) (fromK : ω → KPsOnImage → Option ω) (f : Option (List KPsOnImage → Ret KPsOnImage))
    (l : List ω) : Option (List ω) :=
  match plain f (l.map toK) with
  | some ks => (l.zip ks).mapM (fun p => fromK p.1 p.2)
  | none => none

/-- `Lambda._augment_line_strings`, meta.py 4334-4353. -/
def lines (fk : Option (List KPsOnImage → Ret KPsOnImage)) (f : Func (List RingsOnImage → Ret RingsOnImage)) (l : List RingsOnImage) :
    Option (List RingsOnImage) :=
  match f with
  | .keypoints => asKeypoints ringsToKps ringsFromKps fk l
  | .nothing => some l
  | .func g => check (g l)

/-- `recover_psois_` for one image, polys.py 26-75. -/
def recoverOne (env : Recover.Env) (new old : RingsOnImage) : Option RingsOnImage :=
  ((new.rings.zip old.rings).mapM (fun p => (Recover.recoverFrom env p.1.exterior p.2.deepcopy).map (fun q =>
    { p.1 with exterior := q.exterior }))).map (fun ps => ⟨ps, new.shape⟩)

/-- `Lambda._augment_polygons`, meta.py 4309-4331, with `_apply_to_polygons_as_keypoints`, meta.py 1617-1675. -/
def polygons (env : Recover.Env) (fk : Option (List KPsOnImage → Ret KPsOnImage)) (f : Func (List RingsOnImage → Ret RingsOnImage))
    (l : List RingsOnImage) : Option (List RingsOnImage) :=
  match f with
  | .keypoints =>
    match asKeypoints ringsToKps ringsFromKps fk l with
    | some new => (new.zip l).mapM (fun p => recoverOne env p.1 p.2)
    | none => none
  | .nothing => some l
  | .func g => check (g l)

/-- A function for bounding boxes: what it makes of its arguments in place, and what it returns, arguments (by their index) or new
objects. -/
abbrev BoxFunc := List BBsOnImage → List BBsOnImage × Ret (Nat ⊕ BBsOnImage)

/-- meta.py 4377-4380. -/
def order (b : BB) : BB :=
  let b := if b.x1 > b.x2 then { b with x1 := b.x2, x2 := b.x1 } else b
  if b.y1 > b.y2 then { b with y1 := b.y2, y2 := b.y1 } else b

def resolve (args : List BBsOnImage) : Nat ⊕ BBsOnImage → Option BBsOnImage
  | .inl i => args[i]?
  | .inr b => some b

/-- `Lambda._augment_bounding_boxes`, meta.py 4356-4383. -/
def boxes (fk : Option (List KPsOnImage → Ret KPsOnImage)) (f : Func BoxFunc) (l : List BBsOnImage) : Option (List BBsOnImage) :=
  match f with
  | .keypoints => asKeypoints boxesToKps boxesFromKps fk l
  | .nothing => some l
  | .func g =>
    match check (g l).2 with
    | some out => out.mapM (resolve ((g l).1.map (fun b => { b with boxes := b.boxes.map order })))
    | none => none

/-- `_AssertLambdaCallback.__call__`, meta.py 4545-4549. -/
def assertion {ω : Type} (f : List ω → Bool) (l : List ω) : Option (List ω) := if f l then some l else none

/-- `AssertLambda` for a column, meta.py 4511-4534: no function, no check. -/
def assertLambda {ω : Type} (f : Option (List ω → Bool)) (l : List ω) : Option (List ω) :=
  match f with
  | some f => assertion f l
  | none => some l

/-- The columns of a batch; `none` if absent. Images, heatmaps and segmentation maps are in `rest`. -/
structure Cols (α : Type) where
  rest : α
  kps : Option (List KPsOnImage)
  bbs : Option (List BBsOnImage)
  polys : Option (List RingsOnImage)
  lines : Option (List RingsOnImage)

/-- `RemoveCBAsByOutOfImageFraction._augment_batch_`, meta.py 5115-5123. The fractions of polygons and line strings (shapely) are
parameters. -/
def removeFraction {α : Type} (polyFrac lineFrac : Polygon → Shape → ℚ) (fraction : ℚ) (b : Cols α) : Cols α :=
  { b with
    kps := b.kps.map (fun l => l.map (·.removeOutOfImageFraction fraction))
    bbs := b.bbs.map (fun l => l.map (·.removeOutOfImageFraction fraction))
    polys := b.polys.map (fun l => l.map (fun r => { r with rings := r.rings.filter (fun p => decide (polyFrac p r.shape < fraction)) }))
    lines := b.lines.map (fun l => l.map (fun r => { r with rings := r.rings.filter (fun p => decide (lineFrac p r.shape < fraction)) })) }

/-- `ClipCBAsToImagePlanes._augment_batch_`, meta.py 5201-5208. The clipping of polygons and line strings is a parameter. `none` is
the assertion on the size of the image. -/
def clipPlanes {α : Type} (polyClip lineClip : Polygon → Shape → List Polygon) (b : Cols α) : Option (Cols α) :=
  let bbs : Option (Option (List BBsOnImage)) := match b.bbs with
    | none => some none
    | some l => (l.mapM (fun (x : BBsOnImage) => x.clipOutOfImage)).map some
  bbs.map (fun bbs => { b with
    kps := b.kps.map (fun l => l.map (·.clipOutOfImage))
    bbs := bbs
    polys := b.polys.map (fun l => l.map (fun r => { r with rings := r.rings.flatMap (fun p => polyClip p r.shape) }))
    lines := b.lines.map (fun l => l.map (fun r => { r with rings := r.rings.flatMap (fun p => lineClip p r.shape) })) })

end Imgaug.Lambda
