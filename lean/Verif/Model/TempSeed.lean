import Mathlib.Logic.Function.Basic
/-! Model of `temporary_numpy_seed`, imgaug/random.py 1604-1635: programs that use the global random state of numpy, exceptions and contexts. -/
namespace Imgaug.TempSeed

/-- A program. `σ` are the states of numpy's global generator. Contexts are objects, given by numbers, so that one object can be used several times. -/
inductive Code (σ : Type) where
  /-- draws a number -/
  | draw
  /-- changes the state in any way, e.g. by seeding -/
  | change (f : σ → σ)
  | raise
  | seq (a b : Code σ)
  /-- `try: a except: b` -/
  | tryExcept (a b : Code σ)
  /-- `with ctx: body` -/
  | withCtx (ctx : Nat) (body : Code σ)

/-- numpy: drawing, seeding (`none`: the seed is rejected), and the entropy of each context object. -/
structure Env (σ : Type) where
  draw : σ → Nat × σ
  seed : Nat → Option σ
  entropy : Nat → Option Nat

/-- The state: numpy's global state and the field `old_state` of every context object. -/
structure St (σ : Type) where
  glob : σ
  old : Nat → Option σ

/-- The outcome of a program: the state, whether an exception was raised, and the numbers drawn. -/
structure Out (σ : Type) where
  st : St σ
  raised : Bool
  log : List Nat

variable {σ : Type}

/-- `__exit__`, random.py 1634-1635: exceptions are passed on. `old_state` is never `None` here, see `exit_state`. -/
def exitCtx (i : Nat) (o : Out σ) : Out σ :=
  match o.st.old i with
  | some g => ⟨⟨g, o.st.old⟩, o.raised, o.log⟩
  | none => ⟨o.st, true, o.log⟩

/-- Execution. `withCtx`: `__enter__`, random.py 1629-1632, the body, and `__exit__`; if `__enter__` raises then neither is executed. -/
def exec (E : Env σ) : Code σ → St σ → Out σ
  | .draw, s => ⟨⟨(E.draw s.glob).2, s.old⟩, false, [(E.draw s.glob).1]⟩
  | .change f, s => ⟨⟨f s.glob, s.old⟩, false, []⟩
  | .raise, s => ⟨s, true, []⟩
  | .seq a b, s =>
    let r := exec E a s
    if r.raised then r
    else
      let r' := exec E b r.st
      ⟨r'.st, r'.raised, r.log ++ r'.log⟩
  | .tryExcept a b, s =>
    let r := exec E a s
    if r.raised then
      let r' := exec E b r.st
      ⟨r'.st, r'.raised, r.log ++ r'.log⟩
    else r
  | .withCtx i body, s =>
    match E.entropy i with
    | none => exec E body s
    | some e =>
      let old := Function.update s.old i (some s.glob)
      match E.seed e with
      | none => ⟨⟨s.glob, old⟩, true, []⟩
      | some g => exitCtx i (exec E body ⟨g, old⟩)

end Imgaug.TempSeed
