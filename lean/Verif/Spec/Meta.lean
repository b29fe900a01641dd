import Verif.Model.Meta
import Mathlib.Data.List.Perm.Basic
/-! Vocabulary for the statements in Props/Meta.lean. -/
namespace Imgaug.Meta
open Imgaug
variable {G ρ κ δ : Type}

/-- All columns have `N` rows. -/
def Rect (N : Nat) (b : Batch ρ κ δ) : Prop := ∀ (n : ColName) (c : Col ρ κ), b.col n = some c → c.rows.length = N

/-- One row of a batch: an image and everything that belongs to it. -/
abbrev Row (ρ : Type) := ColName → Option ρ

/-- Row `j` of a batch, over all columns. -/
def rowAt (b : Batch ρ κ δ) (j : Nat) : Row ρ := fun n => (b.col n).bind (fun c => c.rows[j]?)

/-- The lengths of the columns (`none` for columns that are `None`). -/
def colLengths (b : Batch ρ κ δ) : ColName → Option Nat := fun n => (b.col n).map (fun c => c.rows.length)

/-- `b'` has the same columns and numbers of rows as `b`, and row `j` (in all columns together) changed from `x` to some `y`
with `R j x y`. -/
def Related (R : Nat → Row ρ → Row ρ → Prop) (b b' : Batch ρ κ δ) : Prop :=
  b'.data = b.data ∧ colLengths b' = colLengths b ∧ ∀ j : Nat, j < b.nbRows → R j (rowAt b j) (rowAt b' j)

/-- An augmenter that never fails on rectangular batches, keeps columns and numbers of rows, and changes each row from `x` to
some `y` with `R x y`. (Any augmenter that keeps the number of rows and columns acts by some `R`; with `R x y := y = f x` it is
an augmenter that treats all rows independently.) -/
def Acts (c : Runner G ρ κ δ) (R : Row ρ → Row ρ → Prop) : Prop :=
  ∀ (parents : List Nat) (w : World G) (b : Batch ρ κ δ), Rect b.nbRows b →
    ∃ (w' : World G) (b' : Batch ρ κ δ), c parents w b = some (w', b') ∧ Related (fun _ => R) b b'

/-- `x` becomes `y` by the augmenters with the given indices, one after the other, each exactly once. -/
def Chain {α : Type} (R : Nat → α → α → Prop) : List Nat → α → α → Prop
  | [], x, y => y = x
  | k :: ks, x, z => ∃ y : α, R k x y ∧ Chain R ks y z

/-- The random number generator produces values of the kind it promises: permutations, shuffles, and uniform integers in
the given range. -/
structure Env.Fair (env : Env G ρ κ δ) : Prop where
  permutation : ∀ (n : Nat) (g : G), (env.permutation n g).1.Perm (List.range n)
  shuffle : ∀ (row : List Bool) (g : G), (env.shuffle row g).1.Perm row
  uniform_length : ∀ (a b : Int) (n : Nat) (g : G), (env.uniform a b n g).1.length = n
  uniform_range : ∀ (a b : Int) (n : Nat) (g : G) (v : Int), v ∈ (env.uniform a b n g).1 → min a b ≤ v ∧ v ≤ max a b

/-- A count parameter gives one sample per row. -/
def Count.Sized (n : Count G) : Prop :=
  match n with
  | .param draw => ∀ (N : Nat) (g : G), (draw N g).1.length = N
  | _ => True

/-- What a user may expect as number of applied augmenters, for `len` children: `n` itself if `0 ≤ n ≤ len`. -/
def expected (n : Int) (len : Nat) : Nat := (max 0 (min n len)).toNat

/-- Function composition of augmenters, first to last. -/
def compose (parents : List Nat) : List (Runner G ρ κ δ) → World G → Batch ρ κ δ → Option (World G × Batch ρ κ δ)
  | [], w, b => some (w, b)
  | c :: cs, w, b => (c parents w b).bind (fun r => compose parents cs r.1 r.2)

/-- The batch in which the non-empty columns that are not accepted are `None`. -/
def without (accept : Col ρ κ → Bool) (b : Batch ρ κ δ) : Batch ρ κ δ :=
  { b with col := fun n => (b.col n).filter (fun c => c.rows.isEmpty || accept c) }

/-- `r`, but with the values that the non-empty columns that are not accepted have in `b`. -/
def putBack (accept : Col ρ κ → Bool) (b r : Batch ρ κ δ) : Batch ρ κ δ :=
  { r with col := fun n => if (b.col n).any (fun c => !c.rows.isEmpty && !accept c) then b.col n else r.col n }

/-- Hooks that only decide, i.e. do not change data before or after augmentation. -/
structure Hooks.Plain (h : Hooks ρ κ) : Prop where
  preprocess : ∀ (i : Nat) (parents : List Nat) (c : Col ρ κ), h.preprocess i parents c = c
  postprocess : ∀ (i : Nat) (parents : List Nat) (c : Col ρ κ), h.postprocess i parents c = c

/-- The id of an augmenter. -/
def Node.id : Node G ρ κ δ → Nat
  | .prim i _ => i
  | .seq i _ _ => i
  | .someOf i _ _ _ => i
  | .sometimes i _ _ _ => i

/-- Augmenters with children. -/
def Node.IsMeta : Node G ρ κ δ → Prop
  | .prim _ _ => False
  | _ => True

/-- The hooks without preprocessor and postprocessor. -/
def Hooks.deciding (h : Hooks ρ κ) : Hooks ρ κ := { h with preprocess := fun _ _ c => c, postprocess := fun _ _ c => c }

/-- The batch in which each non-empty column `c` is replaced by `f c`. -/
def onColumns (f : Col ρ κ → Col ρ κ) (b : Batch ρ κ δ) : Batch ρ κ δ :=
  { b with col := fun n => (b.col n).map (fun c => if c.rows = [] then c else f c) }

end Imgaug.Meta
