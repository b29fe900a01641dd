import Verif.Model.Batch
import Mathlib.Data.Rat.Defs
/-! Model of the augmenter framework in `imgaug/augmenters/meta.py`: `Augmenter.augment_batch_`, `Sequential`, `SomeOf`,
`OneOf` and `Sometimes`.

A world assigns a state to every random number generator object; several augmenters may use the same object (e.g. the global
one). Exceptions are `none`. Parameter prefetching is not part of this model (see Model/Prefetch.lean). -/
namespace Imgaug.Meta
open Imgaug

/-- States of all RNG objects. -/
abbrev World (G : Type) := Nat → G

/-- Changing the state of one RNG object. -/
def World.put {G : Type} (w : World G) (r : Nat) (g : G) : World G := fun i => if i = r then g else w i

/-- `augment_batch_` of some augmenter, with the ids of its parents as argument. -/
abbrev Runner (G ρ κ δ : Type) := List Nat → World G → Batch ρ κ δ → Option (World G × Batch ρ κ δ)

/-- `HooksImages`, imgaug.py 2140-2290. The functions get a column's value, the id of the augmenter and those of its parents
(the parents `None` of the topmost call are not distinguished from the empty list). -/
structure Hooks (ρ κ : Type) where
  preprocess : Nat → List Nat → Col ρ κ → Col ρ κ
  activated : Nat → List Nat → Bool → Col ρ κ → Bool
  propagates : Nat → List Nat → Col ρ κ → Bool
  postprocess : Nat → List Nat → Col ρ κ → Col ρ κ

/-- Everything that is not fixed by the framework. -/
structure Env (G ρ κ δ : Type) where
  /-- attribute `activated` -/
  activated : Nat → Bool
  /-- attribute `deterministic` -/
  deterministic : Nat → Bool
  /-- the RNG object used by an augmenter (attribute `random_state`) -/
  rngOf : Nat → Nat
  /-- `random_state.permutation(n)` -/
  permutation : Nat → G → List Nat × G
  /-- `random_state.shuffle(row)` -/
  shuffle : List Bool → G → List Bool × G
  /-- `DiscreteUniform(a, b).draw_samples((n,), random_state)` -/
  uniform : Int → Int → Nat → G → List Int × G
  /-- shape and dtype of an image -/
  kindOf : ρ → κ

variable {G ρ κ δ : Type}

/-- `nb_rows` seen as a test for emptiness, batches.py 684-696. -/
def isEmpty (b : Batch ρ κ δ) : Bool := b.nbRows == 0

/-- The loops over the columns that call `hooks.preprocess` and `hooks.postprocess`, meta.py 608-616 and 653-661: every
non-empty column is replaced. -/
def mapColumns (f : Col ρ κ → Col ρ κ) (b : Batch ρ κ δ) : Batch ρ κ δ :=
  b.columns.foldl (fun b x => b.setCol x.1 (some (f x.2))) b

/-- Setting the columns in `off` to `None`, meta.py 618-632. -/
def hide (off : List (ColName × Col ρ κ)) (b : Batch ρ κ δ) : Batch ρ κ δ :=
  off.foldl (fun b x => b.setCol x.1 none) b

/-- Giving them their value back, meta.py 649-651. -/
def unhide (off : List (ColName × Col ρ κ)) (b : Batch ρ κ δ) : Batch ρ κ δ :=
  off.foldl (fun b x => b.setCol x.1 (some x.2)) b

/-- The columns that are not augmented, meta.py 620-632. -/
def switchedOff (env : Env G ρ κ δ) (hooks : Option (Hooks ρ κ)) (i : Nat) (parents : List Nat) (b : Batch ρ κ δ) :
    List (ColName × Col ρ κ) :=
  if env.activated i = false then b.columns
  else match hooks with
    | none => []
    | some h => b.columns.filter (fun x => !h.activated i parents (env.activated i) x.2)

/-- `_maybe_deterministic_ctx`, meta.py: in deterministic mode the state of the augmenter's own RNG is set back afterwards. -/
def restoreRng (env : Env G ρ κ δ) (i : Nat) (before after : World G) : World G :=
  if env.deterministic i then after.put (env.rngOf i) (before (env.rngOf i)) else after

/-- The call of `_augment_batch_` in `augment_batch_`, meta.py 639-647. -/
def guarded (env : Env G ρ κ δ) (i : Nat) (body : Runner G ρ κ δ) : Runner G ρ κ δ := fun parents w b =>
  if isEmpty b then some (w, b)
  else (body parents w b).map (fun r => (restoreRng env i w r.1, r.2))

/-- `Augmenter.augment_batch_` on a `_BatchInAugmentation`, meta.py 553-673; `body` is `_augment_batch_`. -/
def augmentBatch (env : Env G ρ κ δ) (hooks : Option (Hooks ρ κ)) (i : Nat) (body : Runner G ρ κ δ) : Runner G ρ κ δ :=
  fun parents w b =>
    let b1 := match hooks with
      | none => b
      | some h => mapColumns (h.preprocess i parents) b
    let off := switchedOff env hooks i parents b1
    (guarded env i body parents w (hide off b1)).map (fun r =>
      let b2 := unhide off r.2
      (r.1, match hooks with
        | none => b2
        | some h => mapColumns (h.postprocess i parents) b2))

/-- `with batch.propagation_hooks_ctx(self, hooks, parents)`, batches.py 614-631, around a block. -/
def propagationCtx (hooks : Option (Hooks ρ κ)) (i : Nat) (parents : List Nat) (b : Batch ρ κ δ)
    (block : Batch ρ κ δ → Option (World G × Batch ρ κ δ)) : Option (World G × Batch ρ κ δ) :=
  match hooks with
  | none => block b
  | some h =>
    (block (Batch.applyHooks (h.propagates i parents) b).1).map (fun r =>
      (r.1, Batch.invHooks r.2 (Batch.applyHooks (h.propagates i parents) b).2))

/-- The order of the children and the RNG state after drawing it, meta.py 3137-3140 and 3376-3381. -/
def drawOrder (env : Env G ρ κ δ) (randomOrder : Bool) (n : Nat) (g : G) : List Nat × G :=
  if randomOrder then env.permutation n g else (List.range n, g)

/-- `for index in order: batch = self[index].augment_batch_(...)`, meta.py 3142-3147. -/
def runOrder (children : List (Runner G ρ κ δ)) (parents : List Nat) :
    List Nat → World G → Batch ρ κ δ → Option (World G × Batch ρ κ δ)
  | [], w, b => some (w, b)
  | k :: ks, w, b =>
    match children[k]? with
    | none => none
    | some c => (c parents w b).bind (fun r => runOrder children parents ks r.1 r.2)

/-- `Sequential._augment_batch_`, meta.py 3135-3148. -/
def seqBody (env : Env G ρ κ δ) (hooks : Option (Hooks ρ κ)) (i : Nat) (randomOrder : Bool)
    (children : List (Runner G ρ κ δ)) : Runner G ρ κ δ := fun parents w b =>
  propagationCtx hooks i parents b (fun b =>
    runOrder children (parents ++ [i]) (drawOrder env randomOrder children.length (w (env.rngOf i))).1
      (w.put (env.rngOf i) (drawOrder env randomOrder children.length (w (env.rngOf i))).2) b)

/-- Argument `n` of `SomeOf` after `_handle_arg_n`, meta.py 3336-3362. A stochastic parameter is its sampling function. -/
inductive Count (G : Type) where
  | fixed (n : Int)
  | all
  | atLeast (n : Int)
  | param (draw : Nat → G → List Int × G)

/-- `_get_n`, meta.py 3364-3374. -/
def getN (env : Env G ρ κ δ) (n : Count G) (nbChildren nbRows : Nat) (g : G) : List Int × G :=
  match n with
  | .fixed n => (List.replicate nbRows n, g)
  | .all => (List.replicate nbRows (nbChildren : Int), g)
  | .atLeast n => env.uniform n nbChildren nbRows g
  | .param draw => draw nbRows g

/-- A row of `augmenter_active` before shuffling, meta.py 3386-3390. -/
def activeRow (nbChildren : Nat) (n : Int) : List Bool :=
  (List.range nbChildren).map (fun (j : Nat) => decide ((j : Int) < min n nbChildren))

/-- `for row in augmenter_active: random_state.shuffle(row)`, meta.py 3391-3392. -/
def shuffleRows (env : Env G ρ κ δ) : List (List Bool) → G → List (List Bool) × G
  | [], g => ([], g)
  | row :: rows, g =>
    ((env.shuffle row g).1 :: (shuffleRows env rows (env.shuffle row g).2).1,
      (shuffleRows env rows (env.shuffle row g).2).2)

/-- `_get_augmenter_active`, meta.py 3383-3393. -/
def getActive (env : Env G ρ κ δ) (n : Count G) (nbChildren nbRows : Nat) (g : G) : List (List Bool) × G :=
  shuffleRows env ((getN env n nbChildren nbRows g).1.map (activeRow nbChildren)) (getN env n nbChildren nbRows g).2

/-- `augmenter_active[:, k].nonzero()[0]`, meta.py 3418. -/
def activeRows (active : List (List Bool)) (k : Nat) : List Nat :=
  (List.range active.length).filter (fun (r : Nat) => ((active[r]?.getD [])[k]?).getD false)

/-- One augmenter applied to some rows: subselect, augment, write back; meta.py 3421-3428 and 3651-3658. -/
def applyToRows [DecidableEq κ] (env : Env G ρ κ δ) (c : Runner G ρ κ δ) (rows : List Nat) (parents : List Nat) (w : World G)
    (b : Batch ρ κ δ) : Option (World G × Batch ρ κ δ) :=
  (b.subselect rows).bind (fun sub => (c parents w sub).bind (fun r =>
    (b.invSubselect env.kindOf rows r.2).map (fun b' => (r.1, b'))))

/-- The loop of `SomeOf._augment_batch_`, meta.py 3417-3428. -/
def someOfLoop [DecidableEq κ] (env : Env G ρ κ δ) (children : List (Runner G ρ κ δ)) (active : List (List Bool))
    (parents : List Nat) : List Nat → World G → Batch ρ κ δ → Option (World G × Batch ρ κ δ)
  | [], w, b => some (w, b)
  | k :: ks, w, b =>
    if activeRows active k = [] then someOfLoop env children active parents ks w b
    else match children[k]? with
      | none => none
      | some c => (applyToRows env c (activeRows active k) parents w b).bind (fun r =>
          someOfLoop env children active parents ks r.1 r.2)

/-- `SomeOf._augment_batch_`, meta.py 3396-3430: first the order is drawn, then the active augmenters per row. -/
def someOfBody [DecidableEq κ] (env : Env G ρ κ δ) (hooks : Option (Hooks ρ κ)) (i : Nat) (n : Count G) (randomOrder : Bool)
    (children : List (Runner G ρ κ δ)) : Runner G ρ κ δ := fun parents w b =>
  propagationCtx hooks i parents b (fun b =>
    let o := drawOrder env randomOrder children.length (w (env.rngOf i))
    let a := getActive env n children.length b.nbRows o.2
    someOfLoop env children a.1 (parents ++ [i]) o.1 (w.put (env.rngOf i) a.2) b)

/-- Row indices at which the samples have a given value, `np.where(samples == v)[0]`, meta.py 3638-3639. -/
def rowsWith (samples : List ℚ) (v : ℚ) : List Nat :=
  (List.range samples.length).filter (fun (r : Nat) => decide (samples[r]? = some v))

/-- One round of the loop of `Sometimes._augment_batch_`, meta.py 3649-3658. `none` stands for a child list that is `None` or
empty. -/
def sometimesStep [DecidableEq κ] (env : Env G ρ κ δ) (c : Option (Runner G ρ κ δ)) (rows : List Nat) (parents : List Nat)
    (w : World G) (b : Batch ρ κ δ) : Option (World G × Batch ρ κ δ) :=
  match c with
  | none => some (w, b)
  | some c => applyToRows env c rows parents w b

/-- `Sometimes._augment_batch_`, meta.py 3630-3660. `draw` is `self.p.draw_samples((nb_rows,), random_state)`. -/
def sometimesBody [DecidableEq κ] (env : Env G ρ κ δ) (hooks : Option (Hooks ρ κ)) (i : Nat)
    (draw : Nat → G → List ℚ × G) (thenC elseC : Option (Runner G ρ κ δ)) : Runner G ρ κ δ := fun parents w b =>
  propagationCtx hooks i parents b (fun b =>
    let s := draw b.nbRows (w (env.rngOf i))
    (sometimesStep env thenC (rowsWith s.1 1) (parents ++ [i]) (w.put (env.rngOf i) s.2) b).bind (fun r =>
      sometimesStep env elseC (rowsWith s.1 0) (parents ++ [i]) r.1 r.2))

/-- Augmenters built from the framework's classes and arbitrary others (`prim`, given by its `_augment_batch_`). -/
inductive Node (G ρ κ δ : Type) where
  | prim (i : Nat) (body : Runner G ρ κ δ)
  | seq (i : Nat) (randomOrder : Bool) (children : List (Node G ρ κ δ))
  | someOf (i : Nat) (n : Count G) (randomOrder : Bool) (children : List (Node G ρ κ δ))
  | sometimes (i : Nat) (draw : Nat → G → List ℚ × G) (thenList elseList : Option (Node G ρ κ δ))

/-- `len(augmenters) > 0` of a children list (a `Sequential` or `SomeOf`), meta.py 3650. -/
def Node.nonempty : Node G ρ κ δ → Bool
  | .seq _ _ cs => cs.length > 0
  | .someOf _ _ _ cs => cs.length > 0
  | _ => true

mutual
/-- `augment_batch_` of an augmenter tree. -/
def run [DecidableEq κ] (env : Env G ρ κ δ) (hooks : Option (Hooks ρ κ)) : Node G ρ κ δ → Runner G ρ κ δ
  | .prim i body => augmentBatch env hooks i body
  | .seq i ro cs => augmentBatch env hooks i (seqBody env hooks i ro (runAll env hooks cs))
  | .someOf i n ro cs => augmentBatch env hooks i (someOfBody env hooks i n ro (runAll env hooks cs))
  | .sometimes i draw t e => augmentBatch env hooks i (sometimesBody env hooks i draw (runOpt env hooks t) (runOpt env hooks e))
/-- The children of a node. -/
def runAll [DecidableEq κ] (env : Env G ρ κ δ) (hooks : Option (Hooks ρ κ)) : List (Node G ρ κ δ) → List (Runner G ρ κ δ)
  | [] => []
  | c :: cs => run env hooks c :: runAll env hooks cs
/-- A child list of `Sometimes`, if there is one and it is not empty. -/
def runOpt [DecidableEq κ] (env : Env G ρ κ δ) (hooks : Option (Hooks ρ κ)) : Option (Node G ρ κ δ) → Option (Runner G ρ κ δ)
  | none => none
  | some c => if c.nonempty then some (run env hooks c) else none
end

end Imgaug.Meta
