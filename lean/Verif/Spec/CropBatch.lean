import Verif.Model.CropBatch
import Verif.Spec.Pad
/-! What cropping and padding does to a row of a batch. -/
namespace Imgaug.CropBatch
open Imgaug Imgaug.Dtypes Imgaug.Size Imgaug.Pad

/-- The rows `y1` to `y2` and the columns `x1` to `x2` (without the last) of an image are kept, and the amounts are padded around them. -/
structure Plan where
  y1 : Nat
  y2 : Nat
  x1 : Nat
  x2 : Nat
  pad : Trbl

/-- At least one pixel is kept, and it is one of the image. -/
def Plan.Fits (p : Plan) (s : Shape) : Prop := p.y1 < p.y2 ∧ p.y2 ≤ s.h ∧ p.x1 < p.x2 ∧ p.x2 ≤ s.w ∧ NonNeg p.pad

/-- The size afterwards. -/
def Plan.size (p : Plan) : Shape := ⟨(p.pad.top + (p.y2 - p.y1) + p.pad.bottom).toNat, (p.pad.left + (p.x2 - p.x1) + p.pad.right).toNat⟩

/-- The array `b` is the array `a`, cropped and padded. -/
def Plan.Cut (p : Plan) (a b : Draw.Img) : Prop :=
  b.dt = a.dt ∧ b.c = a.c ∧ b.flat = a.flat ∧ (⟨b.h, b.w⟩ : Shape) = p.size ∧
    ∀ y x ch, p.y1 ≤ y → y < p.y2 → p.x1 ≤ x → x < p.x2 → ch < a.c →
      b.px (y - p.y1 + p.pad.top.toNat) (x - p.x1 + p.pad.left.toNat) ch = a.px y x ch

/-- A pixel of the result is not one of the kept ones. -/
def Plan.New (p : Plan) (y x : Nat) : Prop :=
  (y : Int) < p.pad.top ∨ p.pad.top + (p.y2 - p.y1) ≤ y ∨ (x : Int) < p.pad.left ∨ p.pad.left + (p.x2 - p.x1) ≤ x

/-- Where a point of the image is afterwards; if the size is kept, in the image that is resized to its old size. -/
def Plan.place (p : Plan) (keep : Bool) (s : Shape) (q : Pt) : Pt :=
  let x := q.x - p.x1 + p.pad.left
  let y := q.y - p.y1 + p.pad.top
  if keep then ⟨x / p.size.w * s.w, y / p.size.h * s.h⟩ else ⟨x, y⟩

/-- The shape afterwards. -/
def Plan.newShape (p : Plan) (keep : Bool) (s : Shape) : Shape := if keep then s else p.size

/-- Each pixel that is not one of the kept ones has the value, as stored in the dtype, if the mode is "constant", and shows the kept pixel that the mode says
if the mode is "edge", "reflect" or "symmetric". -/
def Plan.Border (p : Plan) (m : Mode) (v : ℚ) (a b : Draw.Img) : Prop :=
  ∀ y x, y < b.h → x < b.w → p.New y x →
    (m = .constant → ∀ ch < a.c, StoredAs a.dt v (b.px y x ch)) ∧
    (m ∈ [Mode.edge, .reflect, .symmetric] → ∃ j i, p.y1 + j < p.y2 ∧ p.x1 + i < p.x2 ∧ Shows m (p.y2 - p.y1) ((y : Int) - p.pad.top) j ∧
      Shows m (p.x2 - p.x1) ((x : Int) - p.pad.left) i ∧ ∀ ch < a.c, b.px y x ch = a.px (p.y1 + j) (p.x1 + i) ch)

/-- The array, cropped and padded with the mode and the value, and resized to its old size if this is to be kept. -/
def Plan.ArrFollows (p : Plan) (keep : Bool) (rs : Resizer) (m : Mode) (v : ℚ) (a a' : Draw.Img) : Prop :=
  ∃ b, p.Cut a b ∧ (a.dt ∈ all → WellFormed a → p.Border m v a b) ∧ a' = if keep then rs b a.h a.w else b

/-- A map: the shape of its image follows, and so does its array if it has the size of the image. If the size is kept, the array is resized to its own old
size, whatever the size of the image. -/
def Plan.MapFollows (p : Plan) (keep : Bool) (rs : Resizer) (m : Mode) (v : ℚ) (o o' : MapOn) : Prop :=
  o'.shape = p.newShape keep o.shape ∧ ((⟨o.arr.h, o.arr.w⟩ : Shape) = o.shape → p.ArrFollows keep rs m v o.arr o'.arr) ∧
    (keep = true → ∃ b, o'.arr = rs b o.arr.h o.arr.w)

/-- All points follow. -/
def Plan.ItemsFollow (p : Plan) (keep : Bool) (o o' : OnImage) : Prop :=
  o'.shape = p.newShape keep o.shape ∧ o'.items = o.items.map (fun l => l.map (p.place keep o.shape))

/-- The corners of the boxes follow. -/
def Plan.BoxesFollow (p : Plan) (keep : Bool) (o o' : Boxes) : Prop :=
  o'.shape = p.newShape keep o.shape ∧ o'.boxes = o.boxes.map (fun b =>
    ((p.place keep o.shape ⟨b.1, b.2.1⟩).x, (p.place keep o.shape ⟨b.1, b.2.1⟩).y,
      (p.place keep o.shape ⟨b.2.2.1, b.2.2.2⟩).x, (p.place keep o.shape ⟨b.2.2.1, b.2.2.2⟩).y))

/-- Left is not right of right, and top not below bottom. -/
def Boxes.Ordered (o : Boxes) : Prop := ∀ b ∈ o.boxes, b.1 ≤ b.2.2.1 ∧ b.2.1 ≤ b.2.2.2

/-- Row `i` of a column follows, and there are as many rows as before. A column that is missing is still missing. -/
def ColFollows {α : Type} (F : α → α → Prop) (i : Nat) (x y : Option (List α)) : Prop :=
  match x, y with
  | none, none => True
  | some l, some l' => l'.length = l.length ∧ ∀ a, l[i]? = some a → ∃ a', l'[i]? = some a' ∧ F a a'
  | _, _ => False

/-- The column has the shapes. -/
def HasShapes {α : Type} (f : α → Shape) (x : Option (List α)) (sh : List Shape) : Prop := ∀ l, x = some l → l.map f = sh

/-- Something is in the batch, and all its columns agree about the shapes of the rows. -/
def Consistent (b : Batch) (sh : List Shape) : Prop :=
  sh ≠ [] ∧ (b.images.isSome ∨ b.heatmaps.isSome ∨ b.segmaps.isSome ∨ b.kps.isSome ∨ b.boxes.isSome ∨ b.polys.isSome ∨ b.lines.isSome) ∧
    HasShapes (fun a : Draw.Img => (⟨a.h, a.w⟩ : Shape)) (b.images.map Images.rows) sh ∧
    (∀ l, b.images = some (.array l) → ∀ s ∈ sh, ∀ s' ∈ sh, s = s') ∧
    HasShapes MapOn.shape b.heatmaps sh ∧ HasShapes MapOn.shape b.segmaps sh ∧ HasShapes OnImage.shape b.kps sh ∧ HasShapes Boxes.shape b.boxes sh ∧
    HasShapes OnImage.shape b.polys sh ∧ HasShapes OnImage.shape b.lines sh

/-- As many samples as asked for. -/
def Samplers.Ok {σ : Type} (S : Samplers σ) : Prop :=
  (∀ d n g, (S.sides d n g).1.length = n) ∧ (∀ d n g, (S.mode d n g).1.length = n) ∧ ∀ d n g, (S.cval d n g).1.length = n

end Imgaug.CropBatch
