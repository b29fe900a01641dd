import Verif.Model.Params
/-! Model of the conversion of arguments to parameters, imgaug/parameters.py 181-477.

Simplifications. No NaN and no infinity. Strings (which are iterables without numbers) are iterables of `other`. Stochastic
parameters are given by a number. Prefetchers are not added (`prefetch=False`). -/
namespace Imgaug.Params
open Imgaug Imgaug.Dtypes

/-- A python number: an integer or a float (`ia.is_single_number`, which excludes booleans). -/
structure Num where
  isInt : Bool
  q : ℚ
  deriving DecidableEq

/-- A python value that is not an iterable. -/
inductive Atom where
  | num (n : Num)
  | bool (b : Bool)
  | par (id : Nat)
  | other
  deriving DecidableEq

/-- A python value: not an iterable, a tuple, or another iterable (list, array, string). -/
inductive Val where
  | atom (a : Atom)
  | tuple (l : List Atom)
  | iter (l : List Atom)
  deriving DecidableEq

/-- The argument `value_range`. `interval`: a tuple of two values, of which each may be `None`. `bad`: anything else. -/
inductive VR where
  | none
  | interval (lo hi : Option ℚ)
  | callable (ok : ℚ → Bool)
  | bad

/-- `_check_value_range`, parameters.py 181-217: does it return? -/
def checkValueRange (v : ℚ) : VR → Bool
  | .none => true
  | .interval lo hi =>
    match lo, hi with
    | Option.none, Option.none => true
    | Option.none, some h => v ≤ h
    | some l, Option.none => l ≤ v
    | some l, some h => l ≤ v && v ≤ h
  | .callable ok => ok v
  | .bad => false

/-- The parameter that an argument is turned into. -/
inductive Handled where
  | det (n : Num)
  | uniform (a b : Num)
  | discreteUniform (a b : Int)
  | choice (l : List Num)
  | choiceInt (l : List Int)
  | binomial (p : Num)
  | binomialUniform (a b : Num)
  | binomialChoice (l : List Num)
  | par (id : Nat)
  deriving DecidableEq

/-- `ia.is_single_number` of an element. -/
def asNum : Atom → Option Num
  | .num n => some n
  | _ => none

/-- `ia.is_single_number(v) if allow_floats else ia.is_single_integer(v)`. -/
def asNumOrInt (allowFloats : Bool) : Atom → Option Num
  | .num n => if allowFloats || n.isInt then some n else none
  | _ => none

/-- `handle_continuous_param`, parameters.py 222-261. `none` is an exception. -/
def handleContinuous (param : Val) (vr : VR) (tupleToUniform listToChoice : Bool) : Option Handled :=
  match param with
  | .atom (.num n) => if checkValueRange n.q vr then some (.det n) else none
  | .tuple l =>
    if tupleToUniform then
      match l.mapM asNum with
      | some [a, b] => if checkValueRange a.q vr && checkValueRange b.q vr then some (.uniform a b) else none
      | _ => none
    else none
  | .iter l =>
    if listToChoice then
      match l.mapM asNum with
      | some ns => if ns.all (fun n => checkValueRange n.q vr) then some (.choice ns) else none
      | none => none
    else none
  | .atom (.par i) => some (.par i)
  | .atom _ => none

/-- `handle_discrete_param`, parameters.py 264-320. -/
def handleDiscrete (param : Val) (vr : VR) (tupleToUniform listToChoice allowFloats : Bool) : Option Handled :=
  match param with
  | .atom (.num n) =>
    if allowFloats || n.isInt then (if checkValueRange n.q vr then some (.det ⟨true, pyInt n.q⟩) else none) else none
  | .tuple l =>
    if tupleToUniform then
      match l.mapM (asNumOrInt allowFloats) with
      | some [a, b] =>
        if checkValueRange a.q vr && checkValueRange b.q vr then some (.discreteUniform (pyInt a.q) (pyInt b.q)) else none
      | _ => none
    else none
  | .iter l =>
    if listToChoice then
      match l.mapM (asNumOrInt allowFloats) with
      | some ns => if ns.all (fun n => checkValueRange n.q vr) then some (.choiceInt (ns.map (fun n => pyInt n.q))) else none
      | none => none
    else none
  | .atom (.par i) => some (.par i)
  | .atom _ => none

/-- The argument of `handle_discrete_kernel_size_param`: not a tuple, or a tuple of values. -/
inductive KVal where
  | one (v : Val)
  | tuple (l : List Val)
  deriving DecidableEq

/-- `ia.is_single_integer`. -/
def intOf : Val → Option Num
  | .atom (.num n) => if n.isInt then some n else none
  | _ => none

/-- `ia.is_single_float`. -/
def floatOf : Val → Option Num
  | .atom (.num n) => if n.isInt then none else some n
  | _ => none

/-- `isinstance(_, StochasticParameter)`. -/
def parOf : Val → Option Nat
  | .atom (.par i) => some i
  | _ => none

/-- `handle_discrete_kernel_size_param`, parameters.py 366-428: one parameter for both axes, or one for each. -/
def handleKernelSize (param : KVal) (vr : VR) (allowFloats : Bool) : Option (Handled × Option Handled) :=
  match param with
  | .one (.tuple _) => none
  | .one v => (handleDiscrete v vr false true allowFloats).map (fun h => (h, none))
  | .tuple [a, b] =>
    match (match intOf a, intOf b with
      | some x, some y => some (x, y)
      | _, _ => if allowFloats then (match floatOf a, floatOf b with | some x, some y => some (x, y) | _, _ => none) else none) with
    | some (x, y) =>
      if checkValueRange x.q vr && checkValueRange y.q vr then some (.discreteUniform (pyInt x.q) (pyInt y.q), none) else none
    | none =>
      match parOf a, parOf b with
      | some i, some j => some (.par i, some (.par j))
      | _, _ => (handleDiscrete a vr true true allowFloats).bind (fun x =>
          (handleDiscrete b vr true true allowFloats).map (fun y => (x, some y)))
  | .tuple _ => none

/-- `eps` in `handle_probability_param`. -/
def probEps : ℚ := 1 / 1000000

/-- The branch of `handle_probability_param` for iterables, parameters.py 458-466. -/
def probabilityList (l : List Atom) : Option Handled :=
  match l.mapM asNum with
  | some ns => if ns.all (fun n => 0 ≤ n.q && n.q ≤ 1) then some (.binomialChoice ns) else none
  | none => none

/-- `handle_probability_param`, parameters.py 431-477. -/
def handleProbability (param : Val) (tupleToUniform listToChoice : Bool) : Option Handled :=
  match param with
  | .atom (.bool b) => some (.det ⟨true, if b then 1 else 0⟩)
  | .atom (.num n) =>
    if n.q = 0 ∨ n.q = 1 then some (.det ⟨true, n.q⟩)
    else if 0 ≤ n.q ∧ n.q ≤ 1 then
      if (0 - probEps < n.q ∧ n.q < 0 + probEps) ∨ (1 - probEps < n.q ∧ n.q < 1 + probEps) then some (.det ⟨true, npRound n.q⟩)
      else some (.binomial n)
    else none
  | .tuple l =>
    if tupleToUniform then
      match l.mapM asNum with
      | some [a, b] => if 0 ≤ a.q ∧ a.q ≤ 1 ∧ 0 ≤ b.q ∧ b.q ≤ 1 then some (.binomialUniform a b) else none
      | _ => none
    else if listToChoice then probabilityList l
    else none
  | .iter l =>
    if listToChoice then probabilityList l
    else none
  | .atom (.par i) => some (.par i)
  | .atom .other => none

variable {σ : Type}

/-- `np.array(list).dtype` of a list of numbers. -/
def numsDt (l : List Num) : DType := if l.all (·.isInt) then ⟨.i, 8⟩ else f64

/-- The parameter that is meant. `pars` are the given stochastic parameters. -/
def Handled.toParam (E : Env σ) (pars : Nat → Param σ) : Handled → Param σ
  | .det n => deterministic n.isInt n.q
  | .uniform a b => Params.uniform E (deterministic a.isInt a.q) (deterministic b.isInt b.q)
  | .discreteUniform a b => Params.discreteUniform E (deterministic true a) (deterministic true b)
  | .choice l => Params.choice E (numsDt l) (l.map (·.q)) true none
  | .choiceInt l => Params.choice E ⟨.i, 8⟩ (l.map (fun n : Int => (n : ℚ))) true none
  | .binomial p => Params.binomial E (deterministic p.isInt p.q)
  | .binomialUniform a b => Params.binomial E (Params.uniform E (deterministic a.isInt a.q) (deterministic b.isInt b.q))
  | .binomialChoice l => Params.binomial E (Params.choice E (numsDt l) (l.map (·.q)) true none)
  | .par i => pars i

end Imgaug.Params
