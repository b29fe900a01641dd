/-! Model of sampling: `AutoPrefetcher` (imgaug/parameters.py 838-950), the prefetching flag (122-178), deterministic mode
(`_maybe_deterministic_ctx`, augmenters/meta.py 182-219) and the legacy column-by-column augmentation (meta.py 675-741).

A random number generator is an object with an id (`RNG._idx`, random.py 164-170) and a state; the distribution of the
wrapped parameter is an arbitrary function from a number of samples and a state to samples and a new state. -/
namespace Imgaug

/-- A stochastic parameter as seen by `AutoPrefetcher`: `other_param.draw_samples`. `S` are generator states, `V` samples. -/
structure Param (S V : Type) where
  draw : Nat → S → List V × S

/-- The attributes of an `AutoPrefetcher`, parameters.py 875-877. -/
structure PF (V : Type) where
  lastIdx : Option Nat
  samples : Option (List V)
  index : Nat
  deriving DecidableEq, Repr

namespace PF
variable {S V : Type}

/-- `AutoPrefetcher.__init__`, parameters.py 870-877. -/
def fresh : PF V := ⟨none, none, 0⟩

/-- `_prefetch`, parameters.py 910-919; `P` is `nb_prefetch`. -/
def prefetch (P : Nat) (p : Param S V) (pf : PF V) (s : S) : PF V × S :=
  let (new, s') := p.draw P s
  ({ pf with samples := some (match pf.samples with
      | none => new
      | some old => old.drop pf.index ++ new), index := 0 }, s')

/-- Lines 900-907 of `_draw_samples`: refill if needed and cut off the next `n` samples. -/
def take (P : Nat) (p : Param S V) (n : Nat) (pf : PF V) (s : S) : List V × PF V × S :=
  let leftover : Int := (pf.samples.getD []).length - pf.index - n
  let (pf, s) := if leftover ≤ 0 then prefetch P p pf s else (pf, s)
  (((pf.samples.getD []).drop pf.index).take n, { pf with index := pf.index + n }, s)

/-- `AutoPrefetcher._draw_samples`, parameters.py 880-907. `enabled` is `_PREFETCHING_ENABLED`, `idx` is `random_state._idx`,
`s` the state of `random_state`, `n` the number of components of the requested size (the reshaping is not modelled). -/
def drawSamples (P : Nat) (p : Param S V) (enabled : Bool) (idx n : Nat) (pf : PF V) (s : S) : List V × PF V × S :=
  if !enabled then
    let (v, s') := p.draw n s
    (v, pf, s')
  else if pf.lastIdx ≠ some idx then
    let (v, s') := p.draw n s
    (v, { pf with lastIdx := some idx, samples := none }, s')
  else if n ≥ P then
    let (v, s') := p.draw n s
    (v, pf, s')
  else if pf.samples.isNone then
    let (pf, s) := prefetch P p pf s
    take P p n pf s
  else take P p n pf s

/-- A sequence of requests `(enabled, idx of the RNG, n)`; every RNG has its own state in `st`. Returns all outputs. -/
def run (P : Nat) (p : Param S V) : List (Bool × Nat × Nat) → PF V → (Nat → S) → List (List V) × PF V × (Nat → S)
  | [], pf, st => ([], pf, st)
  | (en, idx, n) :: rs, pf, st =>
    let (v, pf, s) := drawSamples P p en idx n pf (st idx)
    let (vs, pf, st) := run P p rs pf (fun (i : Nat) => if i = idx then s else st i)
    (v :: vs, pf, st)

/-- The samples in the buffer that were not handed out yet. -/
def unused (pf : PF V) : List V := (pf.samples.getD []).drop pf.index

end PF

/-! ### The prefetching flag -/

/-- Python code with respect to the prefetching flag: it reads the flag, sets it with `toggle_prefetching`
(parameters.py 122-135), enters `with toggled_prefetching(e)` blocks (138-166; `no_prefetching()` is `e = false`, 169-178),
and may raise. -/
inductive FlagProg where
  | skip
  | raise
  | seq (a b : FlagProg)
  | set (e : Bool)
  | withToggled (e : Bool) (body : FlagProg)

/-- Runs the code: the flag afterwards and whether it ended normally. -/
def FlagProg.run : FlagProg → Bool → Bool × Bool
  | .skip, f => (f, true)
  | .raise, f => (f, false)
  | .seq a b, f => if (a.run f).2 then b.run (a.run f).1 else ((a.run f).1, false)
  | .set e, _ => (e, true)
  | .withToggled e body, f => (f, (body.run e).2)

/-! ### Programs that sample -/

/-- The code of an augmenter (`_augment_batch_`, `_augment_images`, ...) as far as random numbers are concerned: it draws
samples from its parameters, one prefetcher each, with the generator it was given, and returns or raises. -/
inductive Prog (V A : Type) where
  | ret (a : A)
  | raise
  | draw (param n : Nat) (k : List V → Prog V A)

namespace Prog
variable {S V A : Type}

/-- Sets the prefetcher of one parameter. -/
def upd (f : Nat → PF V) (i : Nat) (v : PF V) : Nat → PF V := fun (j : Nat) => if j = i then v else f j

/-- Runs code with the generator `idx` in state `s`; `none` is an exception. Prefetchers and state change also then. -/
def run (P : Nat) (p : Nat → Param S V) (enabled : Bool) (idx : Nat) :
    Prog V A → (Nat → PF V) → S → Option A × (Nat → PF V) × S
  | .ret a, pfs, s => (some a, pfs, s)
  | .raise, pfs, s => (none, pfs, s)
  | .draw i n k, pfs, s =>
    run P p enabled idx (k (PF.drawSamples P (p i) enabled idx n (pfs i) s).1)
      (upd pfs i (PF.drawSamples P (p i) enabled idx n (pfs i) s).2.1)
      (PF.drawSamples P (p i) enabled idx n (pfs i) s).2.2

/-- `augment_batch_` of an augmenter, meta.py 639-647: deterministic context and toggled prefetching around the code. The
flag before the call does not matter (line 642 overrides it). -/
def callAug (P : Nat) (p : Nat → Param S V) (deterministic : Bool) (idx : Nat) (prog : Prog V A) (pfs : Nat → PF V) (s : S) :
    Option A × (Nat → PF V) × S :=
  let (a, pfs', s') := run P p (!deterministic) idx prog pfs s
  (a, pfs', if deterministic then s else s')

/-- The loop of the legacy `_augment_batch_`, meta.py 725-732, for an augmenter whose attribute `deterministic` is `det`:
every column is augmented by its own code in a deterministic context if there are several columns. `none` is an exception
in one of them. -/
def legacyColumns (P : Nat) (p : Nat → Param S V) (det : Bool) (idx : Nat) (multiple : Bool) :
    List (Prog V A) → (Nat → PF V) → S → Option (List A) × (Nat → PF V) × S
  | [], pfs, s => (some [], pfs, s)
  | c :: cs, pfs, s =>
    let (a, pfs', s') := run P p (!det) idx c pfs s
    let s'' := if det || multiple then s else s'
    match a with
    | none => (none, pfs', s'')
    | some a =>
      let (as, pfs'', s''') := legacyColumns P p det idx multiple cs pfs' s''
      (as.map (a :: ·), pfs'', s''')

/-- The legacy `_augment_batch_`, meta.py 675-741. `advance` is `random_state.advance_()`. -/
def legacy (P : Nat) (p : Nat → Param S V) (advance : S → S) (det : Bool) (idx : Nat) (cols : List (Prog V A))
    (pfs : Nat → PF V) (s : S) : Option (List A) × (Nat → PF V) × S :=
  let multiple := decide (cols.length > 1)
  let (r, pfs, s) := legacyColumns P p det idx multiple cols pfs s
  (r, pfs, if r.isSome && multiple && !det then advance s else s)

/-- Code that first draws its samples (`_draw_samples`) and then computes a result from them: the shape of the augmenters that
override `_augment_batch_`. -/
def map {B : Type} (f : A → B) : Prog V A → Prog V B
  | .ret a => .ret (f a)
  | .raise => .raise
  | .draw i n k => .draw i n (fun vs => map f (k vs))

end Prog
end Imgaug
