import Verif.Model.Size2
/-! Model of the positions of `PadToFixedSize` and `CropToFixedSize` and of these augmenters on whole batches,
imgaug/augmenters/size.py 291-350, 2718-2895 and 3097-3240.

Simplifications. Numbers are exact rationals. A stochastic parameter is known by a number only; what is drawn from it is a parameter of the
model. What is written into the border is a parameter. Pad mode and colour, and the annotations other than keypoints and maps, are left
out; `RNG.duplicate` returns the same generator several times, so that its state is passed on. -/
namespace Imgaug.Positions
open Imgaug Imgaug.Size
variable {α : Type}

/-- An entry of a tuple given for `position`. -/
inductive Entry where
  | num (q : ℚ)
  | par (id : Nat)
  | other
  deriving DecidableEq

inductive XName where
  | left
  | center
  | right
  deriving DecidableEq

inductive YName where
  | top
  | center
  | bottom
  deriving DecidableEq

/-- The argument `position`: strings that are known, a parameter, a tuple, or anything else. -/
inductive Position where
  | uniform
  | normal
  | center
  | named (x : XName) (y : YName)
  | par (id : Nat)
  | tuple (l : List Entry)
  | other
  deriving DecidableEq

/-- The parameters that are created: `Uniform(0.0, 1.0)`, `Clip(Normal(…), 0.0, 1.0)`, `Deterministic`, or that of the user. -/
inductive Dist where
  | unif
  | clippedNormal
  | det (q : ℚ)
  | par (id : Nat)
  deriving DecidableEq

/-- `self.position`: a tuple of two parameters or one parameter. -/
inductive Handled where
  | two (x y : Dist)
  | joint (id : Nat)
  deriving DecidableEq

/-- `mapping`, size.py 307-308. -/
def xValue : XName → ℚ
  | .left => 0
  | .center => 1 / 2
  | .right => 1

def yValue : YName → ℚ
  | .top => 0
  | .center => 1 / 2
  | .bottom => 1

/-- The checks and the conversion of an entry of a tuple, size.py 320-336. -/
def entryDist : Entry → Option Dist
  | .num q => if q < 0 ∨ q > 1 then none else some (.det q)
  | .par i => some (.par i)
  | .other => none

/-- `_handle_position_parameter`, size.py 292-350. `none` is an exception. -/
def handlePosition : Position → Option Handled
  | .uniform => some (.two .unif .unif)
  | .normal => some (.two .clippedNormal .clippedNormal)
  | .center => some (.two (.det (1 / 2)) (.det (1 / 2)))
  | .named x y => some (.two (.det (xValue x)) (.det (yValue y)))
  | .par i => some (.joint i)
  | .tuple [a, b] => (entryDist a).bind (fun x => (entryDist b).map (fun y => .two x y))
  | .tuple _ => none
  | .other => none

/-- `draw_samples` with so many values, and the state of the generator. -/
abbrev Sampler (σ : Type) := Dist → Nat → σ → List ℚ × σ

/-- The positions `(x, y)` drawn for `n` rows, size.py 2857-2868 and 3220-3229. -/
def drawPositions {σ : Type} (S : Sampler σ) (h : Handled) (n : Nat) (g : σ) : List (ℚ × ℚ) :=
  match h with
  | .two x y => (S x n g).1.zip (S y n (S x n g).2).1
  | .joint i => (List.range n).map (fun (k : Nat) => ((S (.par i) (n * 2) g).1.getD (2 * k) 0, (S (.par i) (n * 2) g).1.getD (2 * k + 1) 0))

/-- A batch: images, maps (heatmaps or segmentation maps) and keypoints. -/
structure Batch (α : Type) where
  images : Option (List (Img α))
  maps : Option (List (Map α))
  keypoints : Option (List KPsOnImage)

/-- A loop over the rows of a column, if there is one. -/
def column {β γ : Type} (f : β → γ → Option β) (l : Option (List β)) (samples : List γ) : Option (Option (List β)) :=
  match l with
  | none => some none
  | some l => ((l.zip samples).mapM (fun p => f p.1 p.2)).map some

/-- The three columns. -/
def columns {γ : Type} (fi : Img α → γ → Option (Img α)) (fm : Map α → γ → Option (Map α)) (fk : KPsOnImage → γ → Option KPsOnImage)
    (b : Batch α) (samples : List γ) : Option (Batch α) :=
  (column fi b.images samples).bind (fun i => (column fm b.maps samples).bind (fun m => (column fk b.keypoints samples).map (fun k => ⟨i, m, k⟩)))

/-- `PadToFixedSize._augment_maps_by_samples`, size.py 2825-2851, for one map. -/
def padFixedMap (border : Nat → Nat → α) (m : Map α) (hMin wMin : Option Int) (px py : ℚ) : Option (Map α) :=
  cropPadMap border none m ⟨0, 0, 0, 0⟩ (fixedPaddings m.shape hMin wMin px py)

/-- `CropToFixedSize._augment_maps_by_samples`, size.py 3183-3195, for one map. -/
def cropFixedMap (border : Nat → Nat → α) (m : Map α) (hMax wMax : Option Int) (oy ox : ℚ) : Option (Map α) :=
  cropPadMap border none m (fixedCroppings m.shape hMax wMax oy ox) ⟨0, 0, 0, 0⟩

/-- `PadToFixedSize._augment_batch_` and `_draw_samples`, size.py 2750-2781 and 2853-2876, for a batch of `n` rows. -/
def padToFixedSize {σ : Type} (border : Nat → Nat → α) (S : Sampler σ) (h : Handled) (height width : Option Int) (n : Nat) (b : Batch α) (g : σ) :
    Option (Batch α) :=
  columns (fun a p => padFixedImg border a height width p.1 p.2) (fun m p => padFixedMap border m height width p.1 p.2)
    (fun k p => padFixedKps k height width p.1 p.2) b (drawPositions S h n g)

/-- `CropToFixedSize._augment_batch_` and `_draw_samples`, size.py 3115-3144 and 3216-3236. -/
def cropToFixedSize {σ : Type} (border : Nat → Nat → α) (S : Sampler σ) (h : Handled) (height width : Option Int) (n : Nat) (b : Batch α) (g : σ) :
    Option (Batch α) :=
  columns (fun a p => cropFixedImg border a height width p.2 p.1) (fun m p => cropFixedMap border m height width p.2 p.1)
    (fun k p => cropFixedKps k height width p.2 p.1) b ((drawPositions S h n g).map (fun p => (1 - p.1, 1 - p.2)))

end Imgaug.Positions
