import Mathlib.Data.List.Basic
/-! Model of the conversions and copies of batches: `Batch` and `_BatchInAugmentation`, imgaug/augmentables/batches.py 314-612 and 634-1088, with
`copy_augmentables` and `deepcopy_fast`, imgaug/augmentables/utils.py 10-38, and their use in `Augmenter.augment_batch_`, meta.py 586-672, and in `_generate_branch_outputs`, imgaug/augmenters/blend.py 408-436.

Simplifications. Memory is a map from addresses to objects. An object is a list of addresses or something else with a content of any kind (an array, or an
object such as `KeypointsOnImage` together with all that belongs to it, whose `deepcopy` copies everything); lists do not contain lists. -/
namespace Imgaug.BatchCopy

/-- An object in memory. -/
inductive Obj (α : Type) where
  | leaf (v : α)
  | list (l : List Nat)
  deriving DecidableEq, Repr

/-- The memory: the objects, and the first address that was never used. -/
structure Heap (α : Type) where
  mem : Nat → Obj α
  next : Nat

/-- Creation of an object. -/
def Heap.alloc {α} (h : Heap α) (o : Obj α) : Nat × Heap α :=
  (h.next, { mem := fun a => if a = h.next then o else h.mem a, next := h.next + 1 })

/-- `np.copy` or `deepcopy` of each item of a list, utils.py 14-20 and 29-30. -/
def copyItems {α} : List Nat → Heap α → List Nat × Heap α
  | [], h => ([], h)
  | a :: l, h =>
    let r := h.alloc (h.mem a)
    let s := copyItems l r.2
    (r.1 :: s.1, s.2)

/-- `copy_augmentables`, utils.py 10-20, and `deepcopy_fast` of something that is not `None`, utils.py 27-37. -/
def copy {α} (a : Nat) (h : Heap α) : Nat × Heap α :=
  match h.mem a with
  | .leaf v => h.alloc (.leaf v)
  | .list l =>
    let r := copyItems l h
    r.2.alloc (.list r.1)

/-- `_copy`, batches.py 444-448, and `deepcopy_fast`, utils.py 24-37: `None` is kept. -/
def copyOpt {α} : Option Nat → Heap α → Option Nat × Heap α
  | none, h => (none, h)
  | some a, h => let r := copy a h; (some r.1, r.2)

/-- The columns of a batch; `none` is `None`. -/
structure Cols where
  images : Option Nat
  heatmaps : Option Nat
  segmaps : Option Nat
  keypoints : Option Nat
  boxes : Option Nat
  polygons : Option Nat
  lines : Option Nat
  deriving DecidableEq, Repr

/-- `Batch`, batches.py 350-368: the columns `..._unaug` and `..._aug`, and `data`. -/
structure Batch where
  unaug : Cols
  aug : Cols
  data : Option Nat
  deriving DecidableEq, Repr

/-- `_BatchInAugmentation`, batches.py 670-681. -/
structure InAug where
  cols : Cols
  data : Option Nat
  deriving DecidableEq, Repr

/-- `Batch.to_batch_in_augmentation`, batches.py 433-458. -/
def toInAug {α} (b : Batch) (h : Heap α) : InAug × Heap α :=
  let r1 := copyOpt b.unaug.images h
  let r2 := copyOpt b.unaug.heatmaps r1.2
  let r3 := copyOpt b.unaug.segmaps r2.2
  let r4 := copyOpt b.unaug.keypoints r3.2
  let r5 := copyOpt b.unaug.boxes r4.2
  let r6 := copyOpt b.unaug.polygons r5.2
  let r7 := copyOpt b.unaug.lines r6.2
  (⟨⟨r1.1, r2.1, r3.1, r4.1, r5.1, r6.1, r7.1⟩, none⟩, r7.2)

/-- `Batch.fill_from_batch_in_augmentation_`, batches.py 460-486. -/
def fill (b : Batch) (i : InAug) : Batch :=
  { b with aug := ⟨i.cols.images, i.cols.heatmaps, i.cols.segmaps, i.cols.keypoints, i.cols.boxes, i.cols.polygons, i.cols.lines⟩ }

/-- `_BatchInAugmentation.to_batch`, batches.py 1031-1068. -/
def toBatch (i : InAug) (before : Batch) : Batch :=
  { unaug := ⟨before.unaug.images, before.unaug.heatmaps, before.unaug.segmaps, before.unaug.keypoints, before.unaug.boxes, before.unaug.polygons,
      before.unaug.lines⟩
    aug := ⟨i.cols.images, i.cols.heatmaps, i.cols.segmaps, i.cols.keypoints, i.cols.boxes, i.cols.polygons, i.cols.lines⟩
    data := before.data }

/-- `_BatchInAugmentation.deepcopy`, batches.py 1070-1088. -/
def deepcopyIn {α} (i : InAug) (h : Heap α) : InAug × Heap α :=
  let d := copyOpt i.data h
  let r1 := copyOpt i.cols.images d.2
  let r2 := copyOpt i.cols.heatmaps r1.2
  let r3 := copyOpt i.cols.segmaps r2.2
  let r4 := copyOpt i.cols.keypoints r3.2
  let r5 := copyOpt i.cols.boxes r4.2
  let r6 := copyOpt i.cols.polygons r5.2
  let r7 := copyOpt i.cols.lines r6.2
  (⟨⟨r1.1, r2.1, r3.1, r4.1, r5.1, r6.1, r7.1⟩, d.1⟩, r7.2)

/-- `augment_batch_` of a `Batch`, meta.py 598-600 and 669-672; `f` is everything done with the batch in between. -/
def augmentBatch {α} (f : InAug → Heap α → InAug × Heap α) (b : Batch) (h : Heap α) : Batch × Heap α :=
  let i := toInAug b h
  let j := f i.1 i.2
  (fill b j.1, j.2)

/-- `_generate_branch_outputs`, blend.py 408-436: the batches for the foreground and the background. `none` is a branch without augmenters. (Hooks are
left out.) -/
def branches {α} (fg bg : Option (InAug → Heap α → InAug × Heap α)) (i : InAug) (h : Heap α) : InAug × InAug × Heap α :=
  let r := match fg with
    | none => (i, h)
    | some f => let c := deepcopyIn i h; f c.1 c.2
  let s := match bg with
    | none => (i, r.2)
    | some g => let c := deepcopyIn i r.2; g c.1 c.2
  (r.1, s.1, s.2)

end Imgaug.BatchCopy
