import Verif.Model.Batch
/-! Model of `AssertShape`, imgaug/augmenters/meta.py 4555-4838.

Simplifications. A batch is represented by the `.shape` (for heatmaps and segmentation maps: the array shape) of every row of
every column, together with the row itself. Expected values of an invalid type and tuples of a wrong length are represented
by `bad`. -/
namespace Imgaug.AShape
open Imgaug

/-- One entry of the `shape` argument. -/
inductive Expected where
  /-- `None` -/
  | any
  /-- an integer -/
  | exactly (n : Int)
  /-- a tuple of two values -/
  | between (a b : Int)
  /-- a list -/
  | oneOf (l : List Int)
  /-- something else -/
  | bad
  deriving DecidableEq, Repr

/-- `_compare`, meta.py 4715-4741; `false` is an exception. -/
def compare (observed : Nat) : Expected → Bool
  | .any => true
  | .exactly n => (observed : Int) == n
  | .between a b => decide (a ≤ (observed : Int) ∧ (observed : Int) < b)
  | .oneOf l => l.any (fun v => (observed : Int) == v)
  | .bad => false

/-- The inner loop of `_check_shapes`, meta.py 4751-4753; a shape with too few entries raises an `IndexError`. -/
def checkDims : List Nat → List Expected → Bool
  | _, [] => true
  | [], _ :: _ => false
  | d :: ds, e :: es => compare d e && checkDims ds es

/-- `_check_shapes`, meta.py 4743-4753. -/
def checkShapes (shapes : List (List Nat)) (target : List Expected) : Bool :=
  match target with
  | [] => true
  | e :: es => compare shapes.length e && shapes.all (fun s => checkDims s es)

/-- A row of a column: its shape and what it is. -/
structure Row (ρ : Type) where
  shape : List Nat
  val : ρ
  deriving DecidableEq, Repr

/-- A batch: for each column its rows, `none` if the column is not set. -/
abbrev Rows (ρ : Type) := ColName → Option (List (Row ρ))

/-- The part of the `shape` argument that is compared with a column: all four entries for images, the first three for the
others, meta.py 4756-4838. -/
def target (shape : List Expected) : ColName → List Expected
  | .images => shape
  | _ => shape.take 3

/-- `AssertShape.__init__` and the augmentation of a batch by `Lambda`, meta.py 4683-4713 and 4253-4383: `checks` are the
`check_*` arguments. `none` is an exception. The callbacks return their argument. -/
def assertShape {ρ : Type} (shape : List Expected) (checks : ColName → Bool) (b : Rows ρ) : Option (Rows ρ) :=
  if shape.length = 4 ∧ ColName.all.all (fun c => !checks c || (match b c with
      | none => true
      | some rows => checkShapes (rows.map Row.shape) (target shape c))) = true
  then some b else none

end Imgaug.AShape
