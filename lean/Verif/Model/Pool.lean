import Verif.Model.Prefetch
/-! Model of `imgaug.multicore.Pool` (imgaug/multicore.py 104-558): seeds, batch ids, and the world of a worker process with
random number generators and prefetching parameters.

Not modelled: pickling of batches, `seed=None` (workers are then seeded by the clock), integer overflow of numpy batch ids. -/
namespace Imgaug.Pool

/-- `SEED_MIN_VALUE`, random.py 78. -/
def seedMin : Int := 0

/-- `SEED_MAX_VALUE`, random.py 79: `2**31-1`. -/
def seedMax : Int := 2147483647

/-- The check of `seed` in `Pool.__init__`, multicore.py 165-174. -/
def acceptsSeed (seed : Int) : Bool := decide (seedMin ≤ seed ∧ seed ≤ seedMax)

/-- `_derive_seed`, multicore.py 553-558. Python's `%` with a positive modulus is `Int.emod`. -/
def deriveSeed (base offset : Int) : Int := seedMin + (base + offset) % (seedMax - seedMin)

/-- Seed of the global generator for the batch with id `i`, multicore.py 532 and 547. -/
def globalSeed (start i : Int) : Int := deriveSeed (start + i) (-1000000000)

/-- Seed of the augmenters for the batch with id `i`, multicore.py 532 and 548. -/
def localSeed (start i : Int) : Int := deriveSeed (start + i) 0

/-! ### The world of a worker process -/

/-- Children of an augmenter: `cons children siblings` is an augmenter with its children and its next siblings.
Augmenters are numbered in preorder. An augmenter that is used twice in the tree counts as two. -/
inductive Forest where
  | nil
  | cons (children siblings : Forest)

/-- The number of augmenters. -/
def Forest.size : Forest → Nat
  | .nil => 0
  | .cons c s => 1 + c.size + s.size

/-- State of a process as far as random numbers are concerned. `S` are states of generators, `V` samples. Every `RNG` object
is a pair of its `_idx` and the state of its numpy generator. -/
structure World (S V : Type) where
  /-- `_RNG_IDX`, random.py 82 -/
  counter : Nat
  /-- `random_state` of augmenter number `j` -/
  nodes : Nat → Nat × S
  /-- other `RNG` objects, created while augmenting -/
  temps : List (Nat × S)
  /-- `GLOBAL_RNG` -/
  global : Nat × S
  /-- the prefetchers of all parameters -/
  pfs : Nat → PF V

/-- Everything that does not change: the augmenters and the random number library. -/
structure Env (S V : Type) where
  /-- `nb_prefetch` of the `AutoPrefetcher`s -/
  P : Nat
  /-- the wrapped parameters -/
  params : Nat → Param S V
  /-- attribute `deterministic` of augmenter number `j` -/
  det : Nat → Bool
  /-- the children of the root; the root is augmenter number 0 -/
  children : Forest
  /-- state of a new generator made from a seed -/
  ofSeed : Int → S
  /-- `derive_rng_`: state of the derived generator and new state of the old one, random.py 1328-1364 -/
  derive : S → S × S

variable {S V A : Type}

/-- Changes one component. -/
def upd {α : Type} (f : Nat → α) (i : Nat) (v : α) : Nat → α := fun (j : Nat) => if j = i then v else f j

/-- Number of augmenters. -/
def Env.size (env : Env S V) : Nat := 1 + env.children.size

/-- Result of seeding some augmenters: their generators, the next augmenter number and the next `RNG` id. -/
structure Seeded (S : Type) where
  nodes : Nat → Nat × S
  num : Nat
  cnt : Nat

/-- `seed_` for one augmenter without its children, meta.py 2384-2387: a copy (a new `RNG` object) unless deterministic. -/
def seedNode (det : Nat → Bool) (num cnt : Nat) (s : S) (nodes : Nat → Nat × S) : Seeded S :=
  if det num then ⟨nodes, num + 1, cnt⟩ else ⟨upd nodes num (cnt, s), num + 1, cnt + 1⟩

/-- The loop over children in `seed_`, meta.py 2389-2392: every child gets an `RNG` derived from `s`. -/
def seedForest (derive : S → S × S) (det : Nat → Bool) : Forest → Nat → Nat → S → (Nat → Nat × S) → Seeded S
  | .nil, num, cnt, _, nodes => ⟨nodes, num, cnt⟩
  | .cons ch sib, num, cnt, s, nodes =>
    let a := seedNode det num (cnt + 1) (derive s).1 nodes
    let b := seedForest derive det ch a.num a.cnt (derive s).1 a.nodes
    seedForest derive det sib b.num b.cnt (derive s).2 b.nodes

/-- `augseq.seed_(seed)` with an integer, meta.py 2318-2393. -/
def seedTree (env : Env S V) (seed : Int) (w : World S V) : World S V :=
  let a := seedNode env.det 0 (w.counter + 1) (env.ofSeed seed) w.nodes
  let b := seedForest env.derive env.det env.children a.num a.cnt (env.ofSeed seed) a.nodes
  { w with nodes := b.nodes, counter := b.cnt }

/-- `imgaug.random.seed(seed)`, random.py 902-934: the state of the global `RNG` is replaced, its `_idx` stays. -/
def seedGlobal (env : Env S V) (seed : Int) (w : World S V) : World S V := { w with global := (w.global.1, env.ofSeed seed) }

/-- `_reseed_global_local`, multicore.py 546-550, for the batch with id `i`. -/
def reseed (env : Env S V) (start i : Int) (w : World S V) : World S V :=
  seedTree env (localSeed start i) (seedGlobal env (globalSeed start i) w)

/-- Code of augmenters as far as random numbers are concerned. It draws from parameters with its own generator or with
generators created from it, creates generators (`f` gives the state of the new one and the new state of the old one: copies,
`derive_rng_`, `RNG(generate_seed_())`, ...), draws from the global generator without a parameter, or with one, calls other
augmenters (`block`, which is `augment_batch_` of augmenter `j`), and may raise and catch. -/
inductive Code (S V A : Type) where
  | ret (a : A)
  | raise
  | draw (param n : Nat) (k : List V → Code S V A)
  | drawTemp (t param n : Nat) (k : List V → Code S V A)
  | spawn (f : S → S × S) (k : Nat → Code S V A)
  | spawnTemp (t : Nat) (f : S → S × S) (k : Nat → Code S V A)
  | drawGlobal (dist n : Nat) (k : List V → Code S V A)
  | drawGlobalParam (param n : Nat) (k : List V → Code S V A)
  | block (j : Nat) (body : Code S V A) (k : Option A → Code S V A)

/-- A draw from parameter `param` with the generator `rng`: samples, generator state, and the world with the new prefetcher. -/
def drawWith (env : Env S V) (enabled : Bool) (param n : Nat) (rng : Nat × S) (w : World S V) : List V × S × World S V :=
  ((PF.drawSamples env.P (env.params param) enabled rng.1 n (w.pfs param) rng.2).1,
   (PF.drawSamples env.P (env.params param) enabled rng.1 n (w.pfs param) rng.2).2.2,
   { w with pfs := upd w.pfs param (PF.drawSamples env.P (env.params param) enabled rng.1 n (w.pfs param) rng.2).2.1 })

/-- End of `_maybe_deterministic_ctx` of augmenter `i`, meta.py 182-219: a deterministic augmenter's generator gets back the
state it had in `old`. -/
def restoreDet (env : Env S V) (i : Nat) (old w : World S V) : World S V :=
  if env.det i then { w with nodes := upd w.nodes i ((w.nodes i).1, (old.nodes i).2) } else w

/-- `RNG` objects created for earlier batches are garbage. -/
def forgetTemps (w : World S V) : World S V := { w with temps := [] }

/-- Runs code inside of `augment_batch_` of augmenter `j`; `none` is an exception. In a block the prefetching flag is
`not deterministic` (meta.py 642), and a deterministic augmenter's generator gets its old state back at the end
(`_maybe_deterministic_ctx`, meta.py 182-219), also after an exception. -/
def Code.run (env : Env S V) : Code S V A → Nat → World S V → Option A × World S V
  | .ret a, _, w => (some a, w)
  | .raise, _, w => (none, w)
  | .draw param n k, j, w =>
    let r := drawWith env (!env.det j) param n (w.nodes j) w
    (k r.1).run env j { r.2.2 with nodes := upd w.nodes j ((w.nodes j).1, r.2.1) }
  | .drawTemp t param n k, j, w =>
    if h : t < w.temps.length then
      let r := drawWith env (!env.det j) param n w.temps[t] w
      (k r.1).run env j { r.2.2 with temps := w.temps.set t (w.temps[t].1, r.2.1) }
    else (none, w)
  | .spawn f k, j, w =>
    (k w.temps.length).run env j
      { w with
        nodes := upd w.nodes j ((w.nodes j).1, (f (w.nodes j).2).2)
        temps := w.temps ++ [(w.counter, (f (w.nodes j).2).1)]
        counter := w.counter + 1 }
  | .spawnTemp t f k, j, w =>
    if h : t < w.temps.length then
      (k w.temps.length).run env j
        { w with
          temps := w.temps.set t (w.temps[t].1, (f w.temps[t].2).2) ++ [(w.counter, (f w.temps[t].2).1)]
          counter := w.counter + 1 }
    else (none, w)
  | .drawGlobal dist n k, j, w =>
    (k ((env.params dist).draw n w.global.2).1).run env j
      { w with global := (w.global.1, ((env.params dist).draw n w.global.2).2) }
  | .drawGlobalParam param n k, j, w =>
    let r := drawWith env (!env.det j) param n w.global w
    (k r.1).run env j { r.2.2 with global := (w.global.1, r.2.1) }
  | .block i body k, j, w =>
    if i < env.size then
      let r := body.run env i w
      (k r.1).run env j (restoreDet env i w r.2)
    else (none, w)

/-- `augseq.augment_batch_(batch)`: the code of the root augmenter for the batch. -/
def augmentBatch (env : Env S V) (code : Code S V A) (w : World S V) : Option A × World S V :=
  let r := code.run env 0 w
  (r.1, restoreDet env 0 w r.2)

/-- `_Pool_worker`, multicore.py 513-535, with a seed. -/
def worker (env : Env S V) (start i : Int) (code : Code S V A) (w : World S V) : Option A × World S V :=
  augmentBatch env code (forgetTemps (reseed env start i w))

/-- What happens in a pool, in the order of time: worker process `p` augments the batch with id `i` whose augmentation is
the code `code`; or process `p` is started anew (`maxtasksperchild`), with the world `w` of the process that started it. -/
inductive Event (S V A : Type) where
  | task (p : Nat) (i : Int) (code : Code S V A)
  | restart (p : Nat) (w : World S V)

/-- Results of all tasks with their batch ids. -/
def runPool (env : Env S V) (start : Int) : List (Event S V A) → (Nat → World S V) → List (Int × Option A)
  | [], _ => []
  | .task p i code :: es, ws =>
    (i, (worker env start i code (ws p)).1) :: runPool env start es (upd ws p (worker env start i code (ws p)).2)
  | .restart p w :: es, ws => runPool env start es (upd ws p w)

/-! ### Batch ids -/

/-- The running generators of a pool (`_handle_batch_ids_gen`): for each whether it has yielded an id and was not resumed
since, and how many batches of its input are left. -/
structure Ids where
  /-- `_batch_idx` -/
  idx : Nat
  gens : List (Bool × Nat)
  /-- ids handed out, in order -/
  out : List Nat
  deriving DecidableEq

/-- Uses of a pool: `map_batches` or `map_batches_async` with `n` batches; `imap_batches` with a generator of `n` batches;
the generator number `g` is asked for its next element (by the thread of the pool that feeds the workers). -/
inductive IdOp where
  | map (n : Nat)
  | imap (n : Nat)
  | next (g : Nat)

/-- `_handle_batch_ids`, multicore.py 449-453, and one step of `_handle_batch_ids_gen`, 455-459: the counter is advanced when
the generator is resumed after its `yield`. -/
def Ids.step (s : Ids) : IdOp → Ids
  | .map n => { s with idx := s.idx + n, out := s.out ++ (List.range n).map (s.idx + ·) }
  | .imap n => { s with gens := s.gens ++ [(false, n)] }
  | .next g =>
    match s.gens[g]? with
    | none => s
    | some (pending, left) =>
      let idx := if pending then s.idx + 1 else s.idx
      match left with
      | 0 => { s with idx := idx, gens := s.gens.set g (false, 0) }
      | left + 1 => { idx := idx, gens := s.gens.set g (true, left), out := s.out ++ [idx] }

/-- A new pool, multicore.py 184. -/
def Ids.init : Ids := ⟨0, [], []⟩

/-- Several uses one after the other. -/
def Ids.run (s : Ids) (ops : List IdOp) : Ids := ops.foldl Ids.step s

end Imgaug.Pool
