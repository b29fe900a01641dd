import Verif.Model.Meta
import Mathlib.Data.Rat.Floor
/-! Model of the constructors of `Augmenter`, `Sequential`, `SomeOf`, `OneOf`, `Sometimes` and `WithChannels`,
imgaug/augmenters/meta.py, and of the treatment of child lists, `handle_children_list`. Exceptions are `none`.

Python objects are elements of a type `α` of which it is known which are augmenters and which of these are lists. -/
namespace Imgaug.Build
open Imgaug

/-- What the constructors ask about objects. -/
structure Objects (α : Type) where
  /-- `isinstance(x, Augmenter)` -/
  isAug : α → Bool
  /-- the elements, if the augmenter is a list (`Sequential`, `SomeOf`, `OneOf`, which inherit from `list`, meta.py 3006 and 3188) -/
  elems : α → Option (List α)

/-- Iterable arguments that are not augmenters. A generator can be run through once. Iterables without `len` that are no
generators do not occur. -/
inductive Iter (α : Type) where
  | list (l : List α)
  | generator (l : List α)

/-- The elements met on running through an iterable. -/
def Iter.items {α : Type} : Iter α → List α
  | .list l => l
  | .generator l => l

/-- The iterable after one has run through it. -/
def Iter.after {α : Type} : Iter α → Iter α
  | .list l => .list l
  | .generator _ => .generator []

/-- `len(it)`. Generators have none. -/
def Iter.len {α : Type} : Iter α → Option Nat
  | .list l => some l.length
  | .generator _ => none

/-- An argument `children`, `then_list`, ... -/
inductive Arg (α : Type) where
  | none
  /-- an augmenter, or something that is not iterable -/
  | obj (x : α)
  | iter (it : Iter α)

variable {α : Type}

/-- `list.__init__` in `Sequential.__init__` and `SomeOf.__init__`, meta.py 3112-3127 and 3312-3327: the children. The
assertion runs through the iterable first. -/
def children (o : Objects α) : Arg α → Option (List α)
  | .none => some []
  | .obj x => if o.isAug x then some [x] else Option.none
  | .iter it => if it.items.all o.isAug then some it.after.items else Option.none

/-- `OneOf.__init__`, meta.py 3528-3536: children, `n` and `random_order` given to `SomeOf`. -/
def oneOf (o : Objects α) (a : Arg α) : Option (List α × ℚ × Bool) := (children o a).map (fun l => (l, 1, false))

/-- Result of `handle_children_list`. -/
inductive Lst (α : Type) where
  /-- the given default value -/
  | default
  /-- the augmenter itself -/
  | same (x : α)
  /-- `Sequential(l, name=name)` -/
  | sequential (l : List α) (name : String)

/-- `handle_children_list`, meta.py 75-103. `seqDefault`: `default == "sequential"`. `Sequential(lst)` is built from what is
left of the iterable and checks it again. -/
def handleChildren (o : Objects α) (a : Arg α) (augName lstName : String) (seqDefault : Bool) : Option (Lst α) :=
  match a with
  | .none => some (if seqDefault then .sequential [] (augName ++ "-" ++ lstName) else .default)
  | .obj x =>
    if o.isAug x then
      match o.elems x with
      | some l => if l.all o.isAug then some (.same x) else Option.none
      | Option.none => (children o (.obj x)).map (fun l => .sequential l (augName ++ "-" ++ lstName))
    else Option.none
  | .iter it =>
    if seqDefault then
      if it.items.all o.isAug then
        (children o (.iter it.after)).map (fun l => .sequential l (augName ++ "-" ++ lstName))
      else Option.none
    else match it.len with
      | Option.none => Option.none
      | some 0 => some .default
      | some _ =>
        if it.items.all o.isAug then
          (children o (.iter it.after)).map (fun l => .sequential l (augName ++ "-" ++ lstName))
        else Option.none

/-- The lists of `Sometimes`, meta.py 3624-3627. -/
def sometimes (o : Objects α) (thenA elseA : Arg α) (name : String) : Option (Lst α × Lst α) :=
  (handleChildren o thenA name "then" false).bind (fun t =>
    (handleChildren o elseA name "else" false).map (fun e => (t, e)))

/-! ### The number of children to apply -/

/-- Entry of an iterable given as `n`. -/
inductive Entry where
  | num (q : ℚ)
  | none
  | other

/-- Argument `n` of `SomeOf`. Numbers are finite. Iterables can be indexed. A stochastic parameter is its sampling function. -/
inductive ArgN (G : Type) where
  | num (q : ℚ)
  | none
  | iter (l : List Entry)
  | param (draw : Nat → G → List Int × G)
  | other

/-- `int(q)`: the fraction is cut off. -/
def trunc (q : ℚ) : Int := if 0 ≤ q then ⌊q⌋ else ⌈q⌉

/-- `SomeOf._handle_arg_n`, meta.py 3336-3362. `uniform a b` samples from `DiscreteUniform(a, b)`. -/
def handleN {G : Type} (uniform : Int → Int → Nat → G → List Int × G) : ArgN G → Option (Meta.Count G)
  | .num q => some (.fixed (trunc q))
  | .none => some .all
  | .iter [.num a, .none] => some (.atLeast (trunc a))
  | .iter [.num a, .num b] => some (.param (uniform (trunc a) (trunc b)))
  | .iter _ => Option.none
  | .param d => some (.param d)
  | .other => Option.none

/-! ### Name and random number generator -/

/-- Argument `deterministic`, by default the string "deprecated". -/
inductive DetArg where
  | deprecated
  | bool (b : Bool)
  | other

/-- Where a generator comes from. `ρ` are the values that can be given as seeds. -/
inductive Source (ρ : Type) where
  /-- the global generator -/
  | globalRng
  /-- a new generator, seeded with a number drawn from the global one -/
  | pseudoRandom
  /-- the generator that was given -/
  | same (r : ρ)
  /-- a new generator made of the given value -/
  | fromSeed (s : ρ)

/-- `RNG.create_if_not_rng_`, random.py 472-494 and 119-123: `RNG(None)` uses the global generator. -/
def createIfNotRng {ρ : Type} (isRng : ρ → Bool) : Option ρ → Source ρ
  | none => .globalRng
  | some r => if isRng r then .same r else .fromSeed r

/-- Attributes set by `Augmenter.__init__`. -/
structure Attrs (ρ : Type) where
  name : String
  deterministic : Bool
  source : Source ρ
  activated : Bool

/-- The generator, meta.py 312-323. `randomState = none`: the argument was not given. -/
def initSource {ρ : Type} (isRng : ρ → Bool) (seed : Option ρ) (randomState : Option (Option ρ)) (det : Bool) :
    Option (Source ρ) :=
  match randomState with
  | none => some (if det && seed.isNone then .pseudoRandom else createIfNotRng isRng seed)
  | some r => if seed.isNone then some (if det && r.isNone then .pseudoRandom else createIfNotRng isRng r) else none

/-- `Augmenter.__init__`, meta.py 284-325. `name`: `none` is `None`, `some none` an object that is not a string. -/
def init {ρ : Type} (isRng : ρ → Bool) (className : String) (seed : Option ρ) (name : Option (Option String))
    (randomState : Option (Option ρ)) (det : DetArg) : Option (Attrs ρ) :=
  (match name with
   | none => some ("Unnamed" ++ className)
   | some (some s) => some s
   | some none => none).bind (fun nm =>
    (match det with
     | .deprecated => some false
     | .bool b => some b
     | .other => none).bind (fun d =>
      (initSource isRng seed randomState d).map (fun s => ⟨nm, d, s, true⟩)))

/-- Argument `channels` of `WithChannels`. `none` in a list stands for something that is not an integer. -/
inductive ChArg where
  | none
  | int (c : Int)
  | list (l : List (Option Int))
  | other

/-- `self.channels`, meta.py 3770-3783. -/
def channels : ChArg → Option (Option (List Int))
  | .none => some Option.none
  | .int c => some (some [c])
  | .list l => if l.all Option.isSome then some (some (l.filterMap id)) else Option.none
  | .other => Option.none

end Imgaug.Build
