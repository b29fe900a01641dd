/-! Model of `_BatchInAugmentation`, imgaug/augmentables/batches.py 614-981. -/
namespace Imgaug

/-- `_AUGMENTABLE_NAMES`, batches.py 11-14. -/
inductive ColName where
  | images | heatmaps | segmentationMaps | keypoints | boundingBoxes | polygons | lineStrings
  deriving DecidableEq, Repr

/-- All columns, in the order of `_AUGMENTABLE_NAMES`. -/
def ColName.all : List ColName :=
  [.images, .heatmaps, .segmentationMaps, .keypoints, .boundingBoxes, .polygons, .lineStrings]

/-- A column of a batch: a numpy array (only images; `kind` is shape and dtype of its rows) or a list. `ρ` is the type of
rows, `κ` the type of (shape, dtype) pairs. -/
inductive Col (ρ κ : Type) where
  | arr (kind : κ) (rows : List ρ)
  | lst (rows : List ρ)
  deriving DecidableEq, Repr

def Col.rows {ρ κ : Type} : Col ρ κ → List ρ
  | .arr _ r => r
  | .lst r => r

/-- A column of the same type with other rows. -/
def Col.withRows {ρ κ : Type} : Col ρ κ → List ρ → Col ρ κ
  | .arr k _, r => .arr k r
  | .lst _, r => .lst r

/-- `_BatchInAugmentation`, batches.py 670-681; `none` is Python's `None`. -/
structure Batch (ρ κ δ : Type) where
  col : ColName → Option (Col ρ κ)
  data : δ

namespace Batch
variable {ρ κ δ : Type}

/-- `nb_rows`, batches.py 699-717: length of the first column that is not `None`. -/
def nbRows (b : Batch ρ κ δ) : Nat :=
  match ColName.all.filterMap b.col with
  | [] => 0
  | c :: _ => c.rows.length

/-- `[rows[index] for index in indices]`; `none` is an `IndexError`. -/
def pickRows (rows : List ρ) (indices : List Nat) : Option (List ρ) := indices.mapM (fun (i : Nat) => rows[i]?)

/-- The treatment of one column in `subselect_rows_by_indices`, batches.py 805-813. -/
def subCol (indices : List Nat) : Option (Col ρ κ) → Option (Option (Col ρ κ))
  | none => some none
  | some c => (pickRows c.rows indices).map (fun r =>
      if r.length = 0 then none else some (c.withRows r))

/-- Reads a value for every column name; fails if one of them fails. -/
def traverse {α : Type} (f : ColName → Option α) : Option (ColName → α) := do
  let a ← f .images
  let b ← f .heatmaps
  let c ← f .segmentationMaps
  let d ← f .keypoints
  let e ← f .boundingBoxes
  let g ← f .polygons
  let h ← f .lineStrings
  return fun
    | .images => a | .heatmaps => b | .segmentationMaps => c | .keypoints => d | .boundingBoxes => e
    | .polygons => g | .lineStrings => h

/-- `subselect_rows_by_indices`, batches.py 787-816. Indices are non-negative. -/
def subselect (b : Batch ρ κ δ) (indices : List Nat) : Option (Batch ρ κ δ) :=
  (traverse (fun n => subCol indices (b.col n))).map (fun f => ⟨f, b.data⟩)

/-- `for ith_index, index in enumerate(indices): column[index] = column_sub[ith_index]`, batches.py 885-886. -/
def assignRows : List ρ → List Nat → List ρ → Option (List ρ)
  | rows, [], _ => some rows
  | _, _ :: _, [] => none
  | rows, i :: is, v :: vs => if i < rows.length then assignRows (rows.set i v) is vs else none

/-- The test of batches.py 862-875 whether all selected images fit into an array whose rows have shape and dtype `k`. -/
def sameKind [DecidableEq κ] (kindOf : ρ → κ) (k : κ) : Col ρ κ → Bool
  | .arr k' _ => decide (k' = k)
  | .lst r => r.all (fun v => decide (kindOf v = k))

/-- One column in `invert_subselect_rows_by_indices_`, batches.py 855-886. `kindOf` gives shape and dtype of an image.
Simplification: numpy would broadcast a subselection of length one in line 879; here it must have as many rows as there are
indices. -/
def invCol [DecidableEq κ] (kindOf : ρ → κ) (indices : List Nat) (col sub : Option (Col ρ κ)) : Option (Option (Col ρ κ)) :=
  match col, sub with
  | none, _ => some none
  | some c, none => some (some c)
  | some (.lst rows), some s => (assignRows rows indices s.rows).map (fun r => some (.lst r))
  | some (.arr k rows), some s =>
    if sameKind kindOf k s then
      if s.rows.length = indices.length then (assignRows rows indices s.rows).map (fun r => some (.arr k r)) else none
    else (assignRows rows indices s.rows).map (fun r => some (.lst r))

/-- `invert_subselect_rows_by_indices_`, batches.py 818-888. -/
def invSubselect [DecidableEq κ] (kindOf : ρ → κ) (b : Batch ρ κ δ) (indices : List Nat) (sub : Batch ρ κ δ) :
    Option (Batch ρ κ δ) :=
  (traverse (fun n => invCol kindOf indices (b.col n) (sub.col n))).map (fun f => ⟨f, b.data⟩)

/-- `_get_columns`, batches.py 29-40: columns that are not `None` and not empty. -/
def columns (b : Batch ρ κ δ) : List (ColName × Col ρ κ) :=
  ColName.all.filterMap (fun n => match b.col n with
    | some c => if c.rows.length > 0 then some (n, c) else none
    | none => none)

/-- `setattr(batch, name, value)`. -/
def setCol (b : Batch ρ κ δ) (n : ColName) (v : Option (Col ρ κ)) : Batch ρ κ δ :=
  { b with col := fun m => if m = n then v else b.col m }

/-- `apply_propagation_hooks_`, batches.py 915-954. `isProp` stands for `hooks.is_propagating(value, ...)`. -/
def applyHooks (isProp : Col ρ κ → Bool) (b : Batch ρ κ δ) : Batch ρ κ δ × List (ColName × Col ρ κ) :=
  let noned := b.columns.filter (fun (_, c) => !isProp c)
  (noned.foldl (fun b (n, _) => b.setCol n none) b, noned)

/-- `invert_apply_propagation_hooks_`, batches.py 956-981. -/
def invHooks (b : Batch ρ κ δ) (noned : List (ColName × Col ρ κ)) : Batch ρ κ δ :=
  noned.foldl (fun b (n, c) => b.setCol n (some c)) b

/-- The context manager `propagation_hooks_ctx`, batches.py 614-631, around a block that turns the batch into another one
(or raises; the batch object as left by the block is what `__exit__` restores). -/
def hooksCtx (isProp : Option (Col ρ κ → Bool)) (b : Batch ρ κ δ) (body : Batch ρ κ δ → Batch ρ κ δ) : Batch ρ κ δ :=
  match isProp with
  | none => body b
  | some p =>
    let (b', noned) := applyHooks p b
    invHooks (body b') noned

end Batch
end Imgaug
