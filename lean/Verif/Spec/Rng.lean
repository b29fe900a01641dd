import Verif.Model.Rng
/-! Specifications for random number generators. -/
namespace Imgaug.Rng
variable {σ : Type}

/-- Two states from which everything goes on alike: the cached number matters only if there is one. -/
def Same (a b : Bits σ) : Prop := a.core = b.core ∧ a.has = b.has ∧ (a.has = true → a.cache = b.cache)

/-- A method that reads its random numbers from the stream, and the cached number only if there is one: all methods of numpy's generators. -/
def Fair {α : Type} (d : Draw σ α) : Prop := ∀ a b, Same a b → (d a).1 = (d b).1 ∧ Same (d a).2 (d b).2

/-- The results of a series of calls. -/
def future {α : Type} : List (Draw σ α) → Bits σ → List α
  | [], _ => []
  | d :: l, b => (d b).1 :: future l (d b).2

/-- All places in the tables exist, and no two `RNG`s have the same `_idx`. -/
structure Good (w : World σ) : Prop where
  gens : ∀ r, r < w.nr → (w.rngs r).1 < w.ng
  bits : ∀ g, g < w.ng → w.gens g < w.nb
  glob : w.glob < w.nr
  below : ∀ r, r < w.nr → (w.rngs r).2 < w.idx
  unique : ∀ r s, r < w.nr → s < w.nr → (w.rngs r).2 = (w.rngs s).2 → r = s

/-- What a program can do with random number generators. -/
inductive Op (σ : Type) where
  | create (s : Src) | createIfNot (s : Src) | draw (d : Draw σ Nat) (r : Nat) | copy (r : Nat) | copyUnlessGlobal (r : Nat) | derive (n r : Nat)
  | advance (r : Nat) | reset (r : Nat) | useStateOf (r s : Nat) | seeds (n r : Nat) | seed (n : Nat) | pseudoRandom

/-- The objects that the operation mentions exist. -/
def Src.Exists (w : World σ) : Src → Prop
  | .none => True
  | .seed _ => True
  | .bits b => b < w.nb
  | .gen g => g < w.ng
  | .rng r => r < w.nr

def Op.Exists (w : World σ) : Op σ → Prop
  | .create s => s.Exists w
  | .createIfNot s => s.Exists w
  | .draw _ r => r < w.nr
  | .copy r => r < w.nr
  | .copyUnlessGlobal r => r < w.nr
  | .derive _ r => r < w.nr
  | .advance r => r < w.nr
  | .reset r => r < w.nr
  | .useStateOf r s => r < w.nr ∧ s < w.nr
  | .seeds _ r => r < w.nr
  | .seed _ => True
  | .pseudoRandom => True

def run (np : Np σ) (w : World σ) : Op σ → World σ
  | .create s => (create np s w).2
  | .createIfNot s => (createIfNot np s w).2
  | .draw d r => (draw d r w).2
  | .copy r => (copy np r w).2
  | .copyUnlessGlobal r => (copyUnlessGlobal np r w).2
  | .derive n r => (derive np n r w).2
  | .advance r => advance np r w
  | .reset r => resetCache r w
  | .useStateOf r s => useStateOf r s w
  | .seeds n r => (generateSeeds np n r w).2
  | .seed n => seedGlobal np n w
  | .pseudoRandom => (pseudoRandom np w).2

/-- The bit generator that an operation may use up or reset: that of the object it is called on, resp. that is handed to it. Copies and
`RNG(rng)` use up none. -/
def Op.acts (w : World σ) : Op σ → Option Nat
  | .create (.bits b) => some b
  | .create (.gen g) => some (w.gens g)
  | .create _ => none
  | .createIfNot (.bits b) => some b
  | .createIfNot (.gen g) => some (w.gens g)
  | .createIfNot _ => none
  | .draw _ r => some (w.bit r)
  | .copy _ => none
  | .copyUnlessGlobal _ => none
  | .derive _ r => some (w.bit r)
  | .advance r => some (w.bit r)
  | .reset r => some (w.bit r)
  | .useStateOf r _ => some (w.bit r)
  | .seeds _ r => some (w.bit r)
  | .seed _ => some (w.bit w.glob)
  | .pseudoRandom => some (w.bit w.glob)

/-- A history of operations on existing objects, from one world to another. -/
inductive History (np : Np σ) : World σ → List (Op σ) → World σ → Prop where
  | nil (w) : History np w [] w
  | cons (w op l w') : op.Exists w → History np (run np w op) l w' → History np w (op :: l) w'

/-- A history that never acts on the bit generator of `RNG` `r`. -/
inductive Spares (np : Np σ) (r : Nat) : World σ → List (Op σ) → World σ → Prop where
  | nil (w) : Spares np r w [] w
  | cons (w op l w') : op.Exists w → op.acts w ≠ some (w.bit r) → Spares np r (run np w op) l w' → Spares np r w (op :: l) w'

end Imgaug.Rng
