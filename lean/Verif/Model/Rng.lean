import Mathlib.Data.Nat.Basic
import Mathlib.Logic.Function.Basic
/-! Model of random number generators, imgaug/random.py 89-494 and 873-1561, for numpy from version 1.17 on.

Simplifications. The core of a bit generator is a state of an arbitrary type; the random stream is a parameter. Objects of Python are numbers: places
in the tables of bit generators, numpy generators and `RNG`s. `RandomState`s, which are turned into a seed, are left out. -/
namespace Imgaug.Rng

/-- The state of a bit generator: `state["state"]`, `state["has_uint32"]`, `state["uinteger"]`, and whether `state["bit_generator"]` is "SFC64". -/
structure Bits (σ : Type) where
  core : σ
  has : Bool
  cache : Nat
  sfc : Bool

/-- The parts of numpy: `next` yields 64 random bits as two numbers; `seeded` is the core of a new SFC64 generator for an entropy; `spawned s i`
that for child `i` of `SeedSequence(s)`; `ints` draws integers in [0, 2^31 - 1) as `Generator.integers` does. -/
structure Np (σ : Type) where
  next : σ → (Nat × Nat) × σ
  seeded : Nat → σ
  spawned : Nat → Nat → σ
  ints : Nat → Bits σ → List Nat × Bits σ

/-- What a method of a generator does: a result and the state afterwards. -/
abbrev Draw (σ α : Type) := Bits σ → α × Bits σ

/-- 32 random bits: the cached half of the last 64 bits if there is one. -/
def next32 {σ : Type} (np : Np σ) : Draw σ Nat := fun b =>
  if b.has then (b.cache, { b with has := false })
  else ((np.next b.core).1.1, { b with core := (np.next b.core).2, has := true, cache := (np.next b.core).1.2 })

/-- 64 random bits, which leaves the cache as it is. -/
def next64 {σ : Type} (np : Np σ) : Draw σ (Nat × Nat) := fun b => ((np.next b.core).1, { b with core := (np.next b.core).2 })

/-- The objects: bit generators with their states, generators with their bit generators, `RNG`s with their generators and their `_idx`, how many of
each exist, the next `_idx`, and `GLOBAL_RNG`. -/
structure World (σ : Type) where
  bits : Nat → Bits σ
  nb : Nat
  gens : Nat → Nat
  ng : Nat
  rngs : Nat → Nat × Nat
  nr : Nat
  idx : Nat
  glob : Nat

variable {σ : Type}

/-- The bit generator of an `RNG`. -/
def World.bit (w : World σ) (r : Nat) : Nat := w.gens (w.rngs r).1

/-- `RNG.state`, random.py 172-186. -/
def World.state (w : World σ) (r : Nat) : Bits σ := w.bits (w.bit r)

/-- A new bit generator. -/
def newBits (b : Bits σ) (w : World σ) : Nat × World σ := (w.nb, { w with bits := Function.update w.bits w.nb b, nb := w.nb + 1 })

/-- `np.random.Generator(bit_generator)`. -/
def newGen (b : Nat) (w : World σ) : Nat × World σ := (w.ng, { w with gens := Function.update w.gens w.ng b, ng := w.ng + 1 })

/-- The object `RNG` for a generator, with the next `_idx`, random.py 161-170. -/
def wrap (g : Nat) (w : World σ) : Nat × World σ :=
  (w.nr, { w with rngs := Function.update w.rngs w.nr (g, w.idx), nr := w.nr + 1, idx := w.idx + 1 })

/-- `_reset_generator_cache_np117_`, random.py 1262-1269. -/
def dropCache (b : Bits σ) : Bits σ := { b with has := false }

/-- The state of a bit generator is replaced. -/
def setBits (k : Nat) (b : Bits σ) (w : World σ) : World σ := { w with bits := Function.update w.bits k b }

/-- What `RNG(...)` is given: nothing, a seed, a bit generator, a generator or an `RNG`. -/
inductive Src where
  | none | seed (n : Nat) | bits (b : Nat) | gen (g : Nat) | rng (r : Nat)
  deriving DecidableEq, Repr

/-- A new generator for a state of SFC64: `convert_seed_sequence_to_generator`, random.py 1074-1088. -/
def fresh (c : σ) (w : World σ) : Nat × World σ :=
  let p := newBits ⟨c, false, 0, true⟩ w
  newGen p.1 p.2

/-- The generator, random.py 157-160 and 1004-1031. -/
def toGen (np : Np σ) : Src → World σ → Nat × World σ
  | .none, w => ((w.rngs w.glob).1, w)
  | .seed n, w => fresh (np.seeded n) w
  | .bits b, w => let p := newGen b w; (p.1, setBits b (dropCache (p.2.bits b)) p.2)
  | .gen g, w => (g, setBits (w.gens g) (dropCache (w.bits (w.gens g))) w)
  | .rng r, w => ((w.rngs r).1, w)

/-- `RNG(...)`, random.py 153-170. -/
def create (np : Np σ) (s : Src) (w : World σ) : Nat × World σ :=
  let p := toGen np s w
  wrap p.1 p.2

/-- `create_if_not_rng_`, random.py 472-494. -/
def createIfNot (np : Np σ) (s : Src) (w : World σ) : Nat × World σ :=
  match s with
  | .rng r => (r, w)
  | s => create np s w

/-- A call of a method that draws. -/
def draw {α : Type} (d : Draw σ α) (r : Nat) (w : World σ) : α × World σ :=
  ((d (w.state r)).1, setBits (w.bit r) (d (w.state r)).2 w)

/-- `RNG.copy`, random.py 389-398 and 1198-1205: a new bit generator with a copy of the state; `RNG(generator)` then drops the cached number of the
new generator, `normalize_generator_` being called with it. -/
def copy (np : Np σ) (r : Nat) (w : World σ) : Nat × World σ :=
  let p := newBits (w.state r) w
  let q := newGen p.1 p.2
  create np (.gen q.1) q.2

/-- `RNG.is_global_rng`, random.py 240-255. -/
def isGlobal (r : Nat) (w : World σ) : Bool := decide ((w.rngs w.glob).1 = (w.rngs r).1)

/-- `RNG.copy_unless_global_rng`, random.py 400-412. -/
def copyUnlessGlobal (np : Np σ) (r : Nat) (w : World σ) : Nat × World σ := if isGlobal r w then (r, w) else copy np r w

/-- `RNG.duplicate`, random.py 414-439. -/
def duplicate (n : Nat) (r : Nat) : List Nat := (List.range n).map (fun _ => r)

/-- `RNG.set_state_` and `use_state_of_`, random.py 201-238. -/
def useStateOf (r other : Nat) (w : World σ) : World σ := setBits (w.bit r) (w.state other) w

/-- `RNG.reset_cache_`, random.py 309-319. -/
def resetCache (r : Nat) (w : World σ) : World σ := setBits (w.bit r) (dropCache (w.state r)) w

/-- `RNG.advance_`, random.py 368-387 and 1510-1512: the cache is dropped, then a float64 is drawn. -/
def advance (np : Np σ) (r : Nat) (w : World σ) : World σ :=
  setBits (w.bit r) (next64 np (dropCache (w.state r))).2 w

/-- `is_generator_equal_to`, random.py 1449-1470. `none` is an exception. -/
def equals [DecidableEq σ] (r s : Nat) (w : World σ) : Option Bool :=
  let a := w.state r
  let b := w.state s
  if !a.sfc || !b.sfc then none
  else if a.has ≠ b.has then some false
  else if a.has && b.has && decide (a.cache ≠ b.cache) then some false
  else some (decide (a.core = b.core))

/-- `RNG.generate_seeds_`, random.py 288-307 and 1155-1175. -/
def generateSeeds (np : Np σ) (n : Nat) (r : Nat) (w : World σ) : List Nat × World σ := draw (np.ints n) r w

/-- The new `RNG`s of `derive_rngs_`: one per child of the seed sequence, random.py 350 and 1356-1359. -/
def spawn (np : Np σ) (seed : Nat) : (first n : Nat) → World σ → List Nat × World σ
  | _, 0, w => ([], w)
  | i, n + 1, w =>
    let p := fresh (np.spawned seed i) w
    let q := create np (.gen p.1) p.2
    let t := spawn np seed (i + 1) n q.2
    (q.1 :: t.1, t.2)

/-- `RNG.derive_rngs_`, random.py 334-350 and 1328-1359: the second of two integers is the seed. -/
def derive (np : Np σ) (n : Nat) (r : Nat) (w : World σ) : List Nat × World σ :=
  let p := draw (np.ints 2) r w
  spawn np (p.1.getD 1 0) 0 n p.2

/-- `imgaug.random.seed`, random.py 902-930: the global `RNG` keeps its generator, which gets the state of a new one. -/
def seedGlobal (np : Np σ) (n : Nat) (w : World σ) : World σ := setBits (w.bit w.glob) ⟨np.seeded n, false, 0, true⟩ w

/-- `RNG.create_pseudo_random_`, random.py 455-469. -/
def pseudoRandom (np : Np σ) (w : World σ) : Nat × World σ :=
  let p := derive np 1 w.glob w
  (p.1.getD 0 0, p.2)

/-- `copy.deepcopy` of an `RNG` by Python: all its attributes are copied, `_idx` among them. -/
def deepcopy (r : Nat) (w : World σ) : Nat × World σ :=
  let p := newBits (w.state r) w
  let q := newGen p.1 p.2
  (q.2.nr, { q.2 with rngs := Function.update q.2.rngs q.2.nr (q.1, (w.rngs r).2), nr := q.2.nr + 1 })

/-- The bounds of the integers that `polyfill_integers` asks for, random.py 1520-1561: the smallest possible number and the first number that is
too large. `old` says whether the generator has the method `randint`; `high = none` is the default. -/
def integerRange (old : Bool) (low : Int) (high : Option Int) (endpoint : Bool) : Int × Int :=
  -- `randint(low, high)` and `integers(low, high)`: without `high` from 0 to `low`
  let plain : Int → Option Int → Int × Int := fun lo hi => match hi with
    | none => (0, lo)
    | some h => (lo, h)
  if old then
    (if endpoint then (match high with
      | none => plain 0 (some (low + 1))
      | some h => plain low (some (h + 1)))
    else plain low high)
  else
    let p := plain low high
    if endpoint then (p.1, p.2 + 1) else p

/-- `random_integers`, random.py 811-824. -/
def randomIntegers (old : Bool) (low : Int) (high : Option Int) : Int × Int :=
  match high with
  | none => integerRange old 1 (some low) true
  | some h => integerRange old low (some h) true

end Imgaug.Rng
