import Verif.Model.Jigsaw
import Verif.Model.Size2
import Verif.Model.AffineArgs
/-! Model of the augmenter `Jigsaw`, imgaug/augmenters/geometric.py 6021-6188, with the padding by `CenterPadToMultiplesOf`.

Simplifications. A batch is the list of its rows; a column that is missing is missing in every row. The shape that `get_rowwise_shapes` finds for
a row is given with the row. Pixels have any type. The resizing of maps (`resize` of heatmaps and segmentation maps) is a parameter, a function
of the array and the new size. The random numbers of the destinations are part of the samples, see `Model/Jigsaw.lean`. The generator is a state
that a sampler advances. -/
namespace Imgaug.JigsawBatch
open Imgaug Imgaug.Jigsaw Imgaug.Size Imgaug.Params
open Imgaug.AffineArgs (Sampler)

/-- `Jigsaw.__init__`, geometric.py 6029-6038: the parameters for rows, columns and steps. -/
def init (rows cols steps : Val) : Option (Handled × Handled × Handled) := do
  let r ← handleDiscrete rows (.interval (some 1) none) true true false
  let c ← handleDiscrete cols (.interval (some 1) none) true true false
  let s ← handleDiscrete steps (.interval (some 0) none) true true false
  return (r, c, s)

/-- The samples of a row. -/
structure Sample where
  rows : Nat
  cols : Nat
  maxSteps : Nat
  steps : Nat → Nat → Nat
  dirs : Nat → Nat → Nat → Fin 8

variable {σ : Type}

/-- The random steps and directions that `generate_jigsaw_destinations` draws, for a number of rows, of columns and of steps. -/
abbrev DrawDirs (σ : Type) := Nat → Nat → Nat → σ → ((Nat → Nat → Nat) × (Nat → Nat → Nat → Fin 8)) × σ

/-- The loop over the rows in `_draw_samples`, geometric.py 6122-6128. -/
def drawDests (D : DrawDirs σ) : List (Nat × Nat × Nat) → σ → List Sample
  | [], _ => []
  | (r, c, m) :: l, g =>
    let d := D r c m g
    ⟨r, c, m, d.1.1, d.1.2⟩ :: drawDests D l d.2

/-- `_draw_samples`, geometric.py 6114-6131. -/
def drawSamples (S : Sampler σ Handled ℚ) (D : DrawDirs σ) (c : Handled × Handled × Handled) (n : Nat) (g : σ) : List Sample :=
  let rows := S c.1 n g
  let cols := S c.2.1 n rows.2
  let steps := S c.2.2 n cols.2
  drawDests D ((List.range n).map (fun (i : Nat) =>
    ((pyInt (rows.1.getD i 0)).toNat, (pyInt (cols.1.getD i 0)).toNat, (pyInt (steps.1.getD i 0)).toNat))) steps.2

/-- The destinations. -/
def Sample.dest (s : Sample) : List Nat := generate s.rows s.cols s.maxSteps s.steps s.dirs

/-- The size to which `CenterPadToMultiplesOf(width_multiple=cols, height_multiple=rows)` pads a row of shape `s`,
geometric.py 6063-6067 and size.py 3551-3574. -/
def paddedSize (s : Shape) (rows cols : Nat) : Option (Int × Int) :=
  (paddingsMultiples s (some rows) (some cols)).map (newSizePad s)

/-- The amounts for something with image shape `t`, size.py 2788-2792. -/
def padsFor (hw : Int × Int) (t : Shape) : Trbl := fixedPaddings t (some hw.1) (some hw.2) (1 / 2) (1 / 2)

variable {α β γ : Type}

/-- A row of a batch. `others`: it has bounding boxes, polygons or line strings. -/
structure Row (α β γ : Type) where
  shape : Shape
  image : Option (Img α)
  heatmap : Option (Map β)
  segmap : Option (Map γ)
  kps : Option KPsOnImage
  others : Bool

/-- What a step does with something that may be missing. -/
def opt {δ : Type} (f : δ → Option δ) : Option δ → Option (Option δ)
  | none => some none
  | some x => (f x).map some

/-- The image of a row, geometric.py 6053-6075; `hw` is the size to pad to, if padding is allowed. -/
def imageStep (zero : α) (hw : Option (Int × Int)) (s : Sample) (a : Img α) : Option (Img α) :=
  (match hw with
    | some hw => cropPadArr (fun _ _ => zero) none a ⟨0, 0, 0, 0⟩ (padsFor hw ⟨a.h, a.w⟩)
    | none => some a).bind (fun b => Jigsaw.apply zero s.rows s.cols s.dest b)

/-- A map of a row: resized to the shape of the row, padded, shuffled and resized to the former size of the array,
geometric.py 6051, 6053-6084, 6109 and 6133-6183. -/
def mapStep (zero : α) (rs : Img α → Nat → Nat → Img α) (shape : Shape) (hw : Option (Int × Int)) (s : Sample) (m : Map α) : Option (Map α) :=
  let m1 : Map α := ⟨rs m.arr shape.h shape.w, m.shape⟩
  (match hw with
    | some hw => cropPadMap (fun _ _ => zero) none m1 ⟨0, 0, 0, 0⟩ (padsFor hw m1.shape)
    | none => some m1).bind (fun m2 =>
      (Jigsaw.apply zero s.rows s.cols s.dest m2.arr).map (fun b => ⟨rs b m.arr.h m.arr.w, m2.shape⟩))

/-- The keypoints of a row, geometric.py 6053-6071 and 6086-6092. -/
def kpsStep (hw : Option (Int × Int)) (s : Sample) (k : KPsOnImage) : Option KPsOnImage :=
  (match hw with
    | some hw => cropPadKps false k ⟨0, 0, 0, 0⟩ (padsFor hw k.shape)
    | none => some k).bind (fun k1 =>
      (applyCoords s.rows s.cols s.dest k1.shape k1.kps).map (fun ps => { k1 with kps := ps }))

/-- One row. `none` is an exception, also for other coordinate based augmentables, geometric.py 6094-6103. -/
def rowStep (zα : α) (zβ : β) (zγ : γ) (rsβ : Img β → Nat → Nat → Img β) (rsγ : Img γ → Nat → Nat → Img γ) (allowPad : Bool) (s : Sample)
    (r : Row α β γ) : Option (Row α β γ) :=
  (if allowPad then (paddedSize r.shape s.rows s.cols).map some else some none).bind fun hw =>
  (opt (imageStep zα hw s) r.image).bind fun image =>
  (opt (mapStep zβ rsβ r.shape hw s) r.heatmap).bind fun heatmap =>
  (opt (mapStep zγ rsγ r.shape hw s) r.segmap).bind fun segmap =>
  (opt (kpsStep hw s) r.kps).bind fun kps =>
  if r.others then none else some { r with image := image, heatmap := heatmap, segmap := segmap, kps := kps }

/-- `_augment_batch_`, geometric.py 6041-6111. -/
def augment (zα : α) (zβ : β) (zγ : γ) (rsβ : Img β → Nat → Nat → Img β) (rsγ : Img γ → Nat → Nat → Img γ) (allowPad : Bool)
    (samples : List Sample) (rows : List (Row α β γ)) : Option (List (Row α β γ)) :=
  (samples.zip rows).mapM (fun p => rowStep zα zβ zγ rsβ rsγ allowPad p.1 p.2)

end Imgaug.JigsawBatch
