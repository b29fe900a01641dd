import Verif.Model.Img
import Verif.Model.Coords
/-! Model of imgaug/augmenters/flip.py: `fliplr`, `flipud`, `Fliplr` and `Flipud`.

Simplifications. `cv2.flip` is the same as the slicing variant. All columns of a batch have the same number of rows. -/
namespace Imgaug.Flip
open Imgaug
variable {α : Type}

/-- `fliplr`, flip.py 682-764: `arr[:, ::-1, ...]`. -/
def fliplr (a : Img α) : Img α := ⟨a.h, a.w, fun y x => a.px y (a.w - 1 - x)⟩

/-- `flipud`, flip.py 767-801: `arr[::-1, ...]`. -/
def flipud (a : Img α) : Img α := ⟨a.h, a.w, fun y x => a.px (a.h - 1 - y) x⟩

/-- Polygons or line strings on an image (their points). -/
structure PathsOnImage where
  paths : List (List Pt)
  shape : Shape
  deriving DecidableEq, Repr

/-- A batch: columns that are `none` are not set. -/
structure FBatch (α γ σ : Type) where
  images : Option (List (Img α))
  heatmaps : Option (List (Img γ))
  segmaps : Option (List (Img σ))
  keypoints : Option (List KPsOnImage)
  boxes : Option (List BBsOnImage)
  polygons : Option (List PathsOnImage)
  lines : Option (List PathsOnImage)

/-- `kp.x = width - float(kp.x)`, flip.py 899-901. -/
def lrPt (s : Shape) (p : Pt) : Pt := ⟨s.w - p.x, p.y⟩
/-- flip.py 1013-1015. -/
def udPt (s : Shape) (p : Pt) : Pt := ⟨p.x, s.h - p.y⟩

/-- flip.py 905-910. -/
def lrBB (s : Shape) (b : BB) : BB := { b with x1 := s.w - b.x2, x2 := s.w - b.x1 }
/-- flip.py 1019-1024. -/
def udBB (s : Shape) (b : BB) : BB := { b with y1 := s.h - b.y2, y2 := s.h - b.y1 }

/-- flip.py 897-901. -/
def lrKps (k : KPsOnImage) : KPsOnImage := { k with kps := k.kps.map (lrPt k.shape) }
def udKps (k : KPsOnImage) : KPsOnImage := { k with kps := k.kps.map (udPt k.shape) }
/-- flip.py 903-910. -/
def lrBBs (b : BBsOnImage) : BBsOnImage := { b with boxes := b.boxes.map (lrBB b.shape) }
def udBBs (b : BBsOnImage) : BBsOnImage := { b with boxes := b.boxes.map (udBB b.shape) }
/-- flip.py 912-926. -/
def lrPaths (p : PathsOnImage) : PathsOnImage := { p with paths := p.paths.map (fun l => l.map (lrPt p.shape)) }
def udPaths (p : PathsOnImage) : PathsOnImage := { p with paths := p.paths.map (fun l => l.map (udPt p.shape)) }

variable {γ σ : Type}

/-- The body of the loop of `Fliplr._augment_batch_` for row `i`, flip.py 886-926. -/
def lrRow (b : FBatch α γ σ) (i : Nat) : FBatch α γ σ where
  images := b.images.map (fun l => l.modify i fliplr)
  heatmaps := b.heatmaps.map (fun l => l.modify i fliplr)
  segmaps := b.segmaps.map (fun l => l.modify i fliplr)
  keypoints := b.keypoints.map (fun l => l.modify i lrKps)
  boxes := b.boxes.map (fun l => l.modify i lrBBs)
  polygons := b.polygons.map (fun l => l.modify i lrPaths)
  lines := b.lines.map (fun l => l.modify i lrPaths)

/-- The body of the loop of `Flipud._augment_batch_` for row `i`, flip.py 998-1040. -/
def udRow (b : FBatch α γ σ) (i : Nat) : FBatch α γ σ where
  images := b.images.map (fun l => l.modify i flipud)
  heatmaps := b.heatmaps.map (fun l => l.modify i flipud)
  segmaps := b.segmaps.map (fun l => l.modify i flipud)
  keypoints := b.keypoints.map (fun l => l.modify i udKps)
  boxes := b.boxes.map (fun l => l.modify i udBBs)
  polygons := b.polygons.map (fun l => l.modify i udPaths)
  lines := b.lines.map (fun l => l.modify i udPaths)

/-- `for i, sample in enumerate(samples): if sample >= 0.5: …`. -/
def loop {β : Type} (row : β → Nat → β) : List ℚ → Nat → β → β
  | [], _, b => b
  | s :: rest, i, b => loop row rest (i + 1) (if s ≥ 1 / 2 then row b i else b)

/-- `Fliplr._augment_batch_`, flip.py 880-928; `samples` are the samples of `p`. -/
def augmentLr (samples : List ℚ) (b : FBatch α γ σ) : FBatch α γ σ := loop lrRow samples 0 b

/-- `Flipud._augment_batch_`, flip.py 992-1042. -/
def augmentUd (samples : List ℚ) (b : FBatch α γ σ) : FBatch α γ σ := loop udRow samples 0 b

end Imgaug.Flip
