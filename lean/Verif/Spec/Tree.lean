import Verif.Model.Tree
import Mathlib.Logic.Function.Iterate
/-! Vocabulary for trees of augmenters: positions, order of positions, ancestors. -/
namespace Imgaug.Tree
variable {σ : Type}

/-- A position in a tree: for each step down the number of the children list and the index in this list. -/
abbrev Pos := List (Nat × Nat)

/-- The child at index `k.2` of children list `k.1`. -/
def childAt (a : Aug σ) (k : Nat × Nat) : Option (Aug σ) :=
  (a.groups[k.1]?).bind (fun (g : Group σ) => g.children[k.2]?)

/-- The augmenter at a position. -/
def nodeAt (a : Aug σ) : Pos → Option (Aug σ)
  | [] => some a
  | k :: p => (childAt a k).bind (fun c => nodeAt c p)

/-- The proper ancestors of a position, topmost first. -/
def ancestors (a : Aug σ) : Pos → List (Aug σ)
  | [] => []
  | k :: p => a :: ((childAt a k).map (fun c => ancestors c p)).getD []

/-- `p` comes before `q` in depth-first order: ancestors first, then by list and index. -/
def Before : Pos → Pos → Prop
  | [], [] => False
  | [], _ :: _ => True
  | _ :: _, [] => False
  | k :: p, l :: q => k.1 < l.1 ∨ (k.1 = l.1 ∧ (k.2 < l.2 ∨ (k.2 = l.2 ∧ Before p q)))

/-- `ps` lists all positions of the tree, each once, in depth-first order. -/
def IsPreorder (a : Aug σ) (ps : List Pos) : Prop :=
  ps.Pairwise Before ∧ ∀ p, p ∈ ps ↔ (nodeAt a p).isSome

/-- The attributes of all augmenters on the way from the root to a position. -/
def trail (a : Aug σ) (p : Pos) : Option (List (Info σ)) :=
  (nodeAt a p).map (fun x => (ancestors a p).map Aug.info ++ [x.info])

/-- Neither the last augmenter of a trail nor any augmenter above it (the root excepted) satisfies the predicate. -/
def survives (f : Info σ → List (Info σ) → Bool) (t : List (Info σ)) : Bool :=
  (List.range t.length).all (fun (k : Nat) => k == 0 || (match t[k]? with
    | some i => !f i (t.take k)
    | none => true))

/-- `a` and `b` have the same positions. -/
def SameShape (a b : Aug σ) : Prop := ∀ p, (nodeAt a p).isSome = (nodeAt b p).isSome

/-- The state of a generator after `n` derivations. -/
def advanced (derive : σ → σ × σ) (n : Nat) (s : σ) : σ := (fun s => (derive s).1)^[n] s

/-- The state of the `n`-th derived generator. -/
def derived (derive : σ → σ × σ) (n : Nat) (s : σ) : σ := (derive (advanced derive n s)).2

/-- The number of children before the given one, over all children lists. -/
def childRank (a : Aug σ) (k : Nat × Nat) : Nat :=
  ((a.groups.take k.1).map (fun g => g.children.length)).sum + k.2

/-- The state that belongs to a position if the root has state `s`: at each step down the state derived for this child. -/
def stateAt (derive : σ → σ × σ) (a : Aug σ) (s : σ) : Pos → σ
  | [] => s
  | k :: p => ((childAt a k).map (fun c => stateAt derive c (derived derive (childRank a k) s) p)).getD s

/-- The number of augmenters with global random state among the first `n`. -/
def globalsBefore (l : List (Info σ)) (n : Nat) : Nat :=
  (l.take n).countP (fun i => match i.rng with | .global => true | .loc _ => false)

/-- Some children list of some augmenter of the tree is an augmenter with attributes `i`. -/
def HasListAugmenter (a : Aug σ) (i : Info σ) : Prop :=
  ∃ p x g, nodeAt a p = some x ∧ g ∈ x.groups ∧ g.hidden = some i

/-- The `n`-th augmenter of the list is the last one of its name. -/
def LastOfItsName (l : List (Aug σ)) (n : Nat) : Prop :=
  ∀ (m : Nat) (a b : Aug σ), n < m → l[n]? = some a → l[m]? = some b → b.info.name ≠ a.info.name

end Imgaug.Tree
