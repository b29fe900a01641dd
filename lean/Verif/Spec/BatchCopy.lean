import Verif.Model.BatchCopy
/-! C137: what one sees of a column, and of which objects it consists. -/
namespace Imgaug.BatchCopy.Spec
open Imgaug.BatchCopy

/-- What one sees of a column, whatever the addresses are: nothing, a value, or a list of values. -/
inductive Seen (α : Type) where
  | nothing
  | one (v : α)
  | many (l : List (Obj α))

/-- What one sees of a column. -/
def seen {α} (h : Heap α) : Option Nat → Seen α
  | none => .nothing
  | some a => match h.mem a with
    | .leaf v => .one v
    | .list l => .many (l.map h.mem)

/-- The objects of which a column consists: itself and, for a list, its items. -/
def parts {α} (h : Heap α) : Option Nat → List Nat
  | none => []
  | some a => match h.mem a with
    | .leaf _ => [a]
    | .list l => a :: l

/-- The seven columns. -/
def columns : List (Cols → Option Nat) :=
  [Cols.images, Cols.heatmaps, Cols.segmaps, Cols.keypoints, Cols.boxes, Cols.polygons, Cols.lines]

/-- All objects of a column exist. -/
def Known {α} (h : Heap α) (o : Option Nat) : Prop := ∀ a ∈ parts h o, a < h.next

/-- `f` changes no existing objects but those of the batch it is given. Beyond that it may do anything, including the exchange of columns. -/
def InPlace {α} (f : InAug → Heap α → InAug × Heap α) : Prop :=
  ∀ i h, h.next ≤ (f i h).2.next ∧
    ∀ a, a < h.next → (∀ c ∈ columns, a ∉ parts h (c i.cols)) → (f i h).2.mem a = h.mem a

end Imgaug.BatchCopy.Spec
