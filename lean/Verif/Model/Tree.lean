import Verif.Model.Batch
/-! Model of the tree functions of `Augmenter`: `get_all_children`, `find_augmenters`, `remove_augmenters`, `seed_`,
`localize_random_state_` and `copy_random_state_` (imgaug/augmenters/meta.py).

Random states are values of a type `σ`; `derive : σ → σ × σ` stands for `RNG.derive_rng_`: the advanced state and the derived
state. The tree has no shared nodes: an augmenter object that is used at two places of a tree is not modelled. -/
namespace Imgaug.Tree

/-- `Augmenter.random_state`: the global RNG (`is_global_rng()`) or a local one with its state. -/
inductive Rng (σ : Type) where
  | global
  | loc (s : σ)
  deriving DecidableEq, Repr

/-- The attributes of an augmenter that the functions below read or write, meta.py 402-435. -/
structure Info (σ : Type) where
  name : String
  rng : Rng σ
  deterministic : Bool
  deriving DecidableEq, Repr

mutual
/-- An augmenter with its children lists (`get_children_lists`). -/
inductive Aug (σ : Type) where
  | node (info : Info σ) (groups : List (Group σ))
/-- One children list. `hidden = none`: the list is the augmenter itself (`Sequential`, `SomeOf`, `OneOf`; meta.py 3173-3175
and 3455-3457). `hidden = some i`: the list is another augmenter with attributes `i`, namely the `Sequential`, `SomeOf` or
`OneOf` that `handle_children_list` (meta.py 75-103) creates or takes over; `get_children_lists` of `Sometimes`,
`WithChannels`, `BlendAlpha` etc. returns that augmenter in the role of the list (meta.py 3678-3685, 3931-3933, blend.py
678-681). -/
inductive Group (σ : Type) where
  | group (hidden : Option (Info σ)) (children : List (Aug σ))
end

variable {σ : Type}

def Aug.info : Aug σ → Info σ | .node i _ => i
def Aug.groups : Aug σ → List (Group σ) | .node _ g => g
def Group.hidden : Group σ → Option (Info σ) | .group h _ => h
def Group.children : Group σ → List (Aug σ) | .group _ c => c

mutual
/-- `get_all_children(flat=True)`, meta.py 2689-2715. -/
def allChildren : Aug σ → List (Aug σ)
  | .node _ gs => allGroups gs
/-- The outer loop, meta.py 2706. -/
def allGroups : List (Group σ) → List (Aug σ)
  | [] => []
  | g :: gs => allGroup g ++ allGroups gs
def allGroup : Group σ → List (Aug σ)
  | .group _ cs => allForest cs
/-- The inner loop, meta.py 2707-2712. -/
def allForest : List (Aug σ) → List (Aug σ)
  | [] => []
  | c :: cs => c :: (allChildren c ++ allForest cs)
end

mutual
/-- `find_augmenters(func, parents, flat=True)`, meta.py 2717-2776. -/
def find (f : Aug σ → List (Aug σ) → Bool) : Aug σ → List (Aug σ) → List (Aug σ)
  | .node i gs, ps => (if f (.node i gs) ps then [.node i gs] else []) ++ findGroups f gs (ps ++ [.node i gs])
def findGroups (f : Aug σ → List (Aug σ) → Bool) : List (Group σ) → List (Aug σ) → List (Aug σ)
  | [], _ => []
  | g :: gs, ps => findGroup f g ps ++ findGroups f gs ps
def findGroup (f : Aug σ → List (Aug σ) → Bool) : Group σ → List (Aug σ) → List (Aug σ)
  | .group _ cs, ps => findForest f cs ps
def findForest (f : Aug σ → List (Aug σ) → Bool) : List (Aug σ) → List (Aug σ) → List (Aug σ)
  | [], _ => []
  | c :: cs, ps => find f c ps ++ findForest f cs ps
end

/-- `find_augmenters_by_names(names, regex=False)`, meta.py 2801-2833. -/
def findByNames (names : List String) (a : Aug σ) : List (Aug σ) := find (fun x _ => names.contains x.info.name) a []

mutual
/-- `remove_augmenters_`, meta.py 2920-2966. Simplification: the predicate sees the attributes of the augmenter and of its
parents only (the parents are being changed while the function runs). The list of a group first loses all matching children,
then the function goes on into the remaining ones (lines 2956-2966). -/
def remove (f : Info σ → List (Info σ) → Bool) : Aug σ → List (Info σ) → Aug σ
  | .node i gs, ps => .node i (removeGroups f gs (ps ++ [i]))
def removeGroups (f : Info σ → List (Info σ) → Bool) : List (Group σ) → List (Info σ) → List (Group σ)
  | [], _ => []
  | g :: gs, ps => removeGroup f g ps :: removeGroups f gs ps
def removeGroup (f : Info σ → List (Info σ) → Bool) : Group σ → List (Info σ) → Group σ
  | .group h cs, ps => .group h (removeForest f cs ps)
def removeForest (f : Info σ → List (Info σ) → Bool) : List (Aug σ) → List (Info σ) → List (Aug σ)
  | [], _ => []
  | c :: cs, ps => if f c.info ps then removeForest f cs ps else remove f c ps :: removeForest f cs ps
end

/-- What `remove_augmenters` returns: an augmenter, `Identity()`, or `None`. -/
inductive Removed (σ : Type) where
  | aug (a : Aug σ)
  | identity
  | none

/-- `remove_augmenters`, meta.py 2837-2907. The outer `none` is the exception for in-place removal of the topmost augmenter. -/
def removeAugmenters (f : Info σ → List (Info σ) → Bool) (copy identityIfTopmost : Bool) (a : Aug σ) :
    Option (Removed σ) :=
  if f a.info [] then
    if !copy then Option.none
    else some (if identityIfTopmost then .identity else .none)
  else some (.aug (remove f a []))

section rng
variable (derive : σ → σ × σ)

/-- Lines 2385-2388: set the own random state unless the augmenter is deterministic. -/
def seedInfo (s : σ) (tooDet : Bool) (i : Info σ) : Info σ :=
  if !i.deterministic || tooDet then { i with rng := .loc s } else i

mutual
/-- `seed_` with an RNG in state `s`, meta.py 2385-2393. -/
def seed (tooDet : Bool) : Aug σ → σ → Aug σ
  | .node i gs, s => .node (seedInfo s tooDet i) (seedGroups tooDet gs s).1
/-- The loop over the lists; also returns the advanced state of the RNG. -/
def seedGroups (tooDet : Bool) : List (Group σ) → σ → List (Group σ) × σ
  | [], s => ([], s)
  | g :: gs, s => ((seedGroup tooDet g s).1 :: (seedGroups tooDet gs (seedGroup tooDet g s).2).1,
      (seedGroups tooDet gs (seedGroup tooDet g s).2).2)
def seedGroup (tooDet : Bool) : Group σ → σ → Group σ × σ
  | .group h cs, s => (.group h (seedForest tooDet cs s).1, (seedForest tooDet cs s).2)
/-- The loop over the augmenters of a list, meta.py 2391-2393: the child gets a derived RNG. -/
def seedForest (tooDet : Bool) : List (Aug σ) → σ → List (Aug σ) × σ
  | [], s => ([], s)
  | c :: cs, s => (seed tooDet c (derive s).2 :: (seedForest tooDet cs (derive s).1).1,
      (seedForest tooDet cs (derive s).1).2)
end

/-- Lines 2462-2463: replace the global RNG by one derived from it. `g` is the state of the global RNG. -/
def localizeInfo (i : Info σ) (g : σ) : Info σ × σ :=
  match i.rng with
  | .global => ({ i with rng := .loc (derive g).2 }, (derive g).1)
  | .loc _ => (i, g)

mutual
/-- `localize_random_state_(recursive=True)`, meta.py 2462-2468. `g` is the state of the global RNG; the second component of
the result is its state afterwards. -/
def localize : Aug σ → σ → Aug σ × σ
  | .node i gs, g => (.node (localizeInfo derive i g).1 (localizeGroups gs (localizeInfo derive i g).2).1,
      (localizeGroups gs (localizeInfo derive i g).2).2)
def localizeGroups : List (Group σ) → σ → List (Group σ) × σ
  | [], g => ([], g)
  | x :: xs, g => ((localizeGroup x g).1 :: (localizeGroups xs (localizeGroup x g).2).1,
      (localizeGroups xs (localizeGroup x g).2).2)
def localizeGroup : Group σ → σ → Group σ × σ
  | .group h cs, g => (.group h (localizeForest cs g).1, (localizeForest cs g).2)
def localizeForest : List (Aug σ) → σ → List (Aug σ) × σ
  | [], g => ([], g)
  | c :: cs, g => ((localize c g).1 :: (localizeForest cs (localize c g).2).1,
      (localizeForest cs (localize c g).2).2)
end
end rng

mutual
/-- Assignment of new attributes to the augmenters of `[self] + self.get_all_children(flat=True)` in this order; augmenters
beyond the end of the list keep theirs. The second component is the rest of the list. -/
def assign : Aug σ → List (Info σ) → Aug σ × List (Info σ)
  | .node i gs, l => (.node (l.headD i) (assignGroups gs l.tail).1, (assignGroups gs l.tail).2)
def assignGroups : List (Group σ) → List (Info σ) → List (Group σ) × List (Info σ)
  | [], l => ([], l)
  | g :: gs, l => ((assignGroup g l).1 :: (assignGroups gs (assignGroup g l).2).1,
      (assignGroups gs (assignGroup g l).2).2)
def assignGroup : Group σ → List (Info σ) → Group σ × List (Info σ)
  | .group h cs, l => (.group h (assignForest cs l).1, (assignForest cs l).2)
def assignForest : List (Aug σ) → List (Info σ) → List (Aug σ) × List (Info σ)
  | [], l => ([], l)
  | c :: cs, l => ((assign c l).1 :: (assignForest cs (assign c l).2).1,
      (assignForest cs (assign c l).2).2)
end

/-- `[self] + self.get_all_children(flat=True)`, meta.py 2571-2578 with `recursive=True`. -/
def flat (a : Aug σ) : List (Aug σ) := a :: allChildren a

/-- Lines 2603-2610 and 2621-2626: take over the random state of the source and, if wanted, its determinism. `none` is the
exception for global RNGs. The state is taken to be copied exactly; `RNG.copy` loses a cached number, see `Rng.copy_loses_cache`. -/
def takeOver (copyDet : Bool) (source target : Info σ) : Option (Info σ) :=
  match source.rng with
  | .global => none
  | .loc s => some { target with rng := .loc s, deterministic := if copyDet then source.deterministic else target.deterministic }

/-- `copy_random_state_(matching="position")`, meta.py 2615-2626. -/
def copyByPosition (tolerant copyDet : Bool) (target source : Aug σ) : Option (Aug σ) :=
  if (flat source).length ≠ (flat target).length ∧ tolerant = false then none
  else (((flat source).zip (flat target)).mapM (fun x => takeOver copyDet x.1.info x.2.info)).map
    (fun l => (assign target l).1)

/-- The last augmenter of a list with the given name: the value that a dict comprehension keeps. -/
def lastNamed (l : List (Info σ)) (n : String) : Option (Info σ) := (l.filter (fun i => i.name == n)).getLast?

/-- The new attributes of the target augmenters, in order. An augmenter whose name occurs again later in the target is not
in the dict (line 2588) and keeps its attributes. `none` are the exceptions of lines 2604 and 2612. -/
def namedUpdates (tolerant copyDet : Bool) (source : List (Info σ)) : List (Info σ) → Option (List (Info σ))
  | [] => some []
  | t :: ts =>
    (if ts.any (fun t' => t'.name == t.name) then some t
     else match lastNamed source t.name with
      | some s => takeOver copyDet s t
      | none => if tolerant then some t else none).bind
    (fun t' => (namedUpdates tolerant copyDet source ts).map (t' :: ·))

/-- `copy_random_state_(matching="name")`, meta.py 2586-2614. -/
def copyByName (tolerant copyDet : Bool) (target source : Aug σ) : Option (Aug σ) :=
  (namedUpdates tolerant copyDet ((flat source).map Aug.info) ((flat target).map Aug.info)).map
    (fun l => (assign target l).1)

end Imgaug.Tree
