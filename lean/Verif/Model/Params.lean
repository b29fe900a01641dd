import Verif.Model.Dtypes
/-! Model of the stochastic parameters, imgaug/parameters.py 953-1184, 1194-1241, 1250-1308, 1317-1535, 1716-1846, 2061-2797.

Simplifications. A parameter is the function that draws an array of a requested shape in a state of the random number generator
(`RNG.duplicate` gives the same generator `n` times, random.py 439, so that draws are sequential). Numbers are exact; integer
dtypes wrap around where the code converts to them (`astype`), arithmetic does not overflow. The dtype of the result of an arithmetic
operation is given by a function of the environment. numpy's and scipy's distributions are functions of the environment, of
which only lengths and ranges are used. Strings are not modelled. Prefetching is modelled in Model/Prefetch.lean. Whether the
array that `DeterministicList` returns shares memory with the parameter is modelled at the end of this file. -/
namespace Imgaug.Params
open Imgaug Imgaug.Dtypes

/-- An array of samples. -/
structure Arr where
  dt : DType
  shape : List Nat
  vals : List ℚ
  deriving DecidableEq

def i32 : DType := ⟨.i, 4⟩
def f32 : DType := ⟨.f, 4⟩
def f64 : DType := ⟨.f, 8⟩

/-- The environment: random number generator (`σ` are its states) and numpy's dtype rules. The `Nat` argument of the distributions
is the number of values to draw. -/
structure Env (σ : Type) where
  advance : σ → σ
  integers : Int → Int → Nat → σ → List Int × σ
  choice : Nat → Nat → Bool → Option (List ℚ) → σ → Option (List Nat × σ)
  binomial : ℚ → Nat → σ → List Nat × σ
  poisson : ℚ → Nat → σ → List Nat × σ
  uniform : ℚ → ℚ → Nat → σ → List ℚ × σ
  normal : ℚ → ℚ → Nat → σ → List ℚ × σ
  truncnorm : ℚ → ℚ → ℚ → ℚ → Nat → σ → List ℚ × σ
  beta : ℚ → ℚ → Nat → σ → List ℚ × σ
  promote : DType → DType → DType

/-- What is known about the distributions: the requested number of values in the range of the distribution. -/
structure Env.Ok {σ : Type} (E : Env σ) : Prop where
  integers : ∀ a b n s, a < b → (E.integers a b n s).1.length = n ∧ ∀ v ∈ (E.integers a b n s).1, a ≤ v ∧ v < b
  choice : ∀ k n r p s l s', E.choice k n r p s = some (l, s') → l.length = n ∧ ∀ i ∈ l, i < k
  binomial : ∀ p n s, 0 ≤ p → p ≤ 1 → (E.binomial p n s).1.length = n ∧ ∀ v ∈ (E.binomial p n s).1, v ≤ 1
  poisson : ∀ l n s, 0 ≤ l → (E.poisson l n s).1.length = n
  uniform : ∀ a b n s, a < b → (E.uniform a b n s).1.length = n ∧ ∀ v ∈ (E.uniform a b n s).1, a ≤ v ∧ v ≤ b
  normal : ∀ m d n s, 0 < d → (E.normal m d n s).1.length = n
  truncnorm : ∀ m d a b n s, 0 < d → a ≤ b → (E.truncnorm m d a b n s).1.length = n ∧ ∀ v ∈ (E.truncnorm m d a b n s).1, a ≤ v ∧ v ≤ b
  beta : ∀ a b n s, 0 < a → 0 < b → (E.beta a b n s).1.length = n ∧ ∀ v ∈ (E.beta a b n s).1, 0 ≤ v ∧ v ≤ 1

variable {σ : Type}

/-- A parameter: `_draw_samples`, whether it is a `Deterministic`, and `str(param)`. -/
structure Param (σ : Type) where
  draw : List Nat → σ → Option (Arr × σ)
  isDet : Bool := false
  key : Nat := 0

/-- `StochasticParameter.draw_samples`, parameters.py 609-615. -/
def drawSamples (E : Env σ) (p : Param σ) (size : List Nat) (s : σ) : Option (Arr × σ) :=
  (p.draw size s).map (fun r => (r.1, E.advance r.2))

/-- `StochasticParameter.draw_sample`, parameters.py 585: the sample and its dtype. -/
def drawSample (E : Env σ) (p : Param σ) (s : σ) : Option (ℚ × DType × σ) :=
  (drawSamples E p [1] s).bind (fun r => (r.1.vals[0]?).map (fun v => (v, r.1.dt, r.2)))

/-- `np.full(size, v, dtype=dt)`. -/
def full (dt : DType) (size : List Nat) (v : ℚ) : Arr := ⟨dt, size, List.replicate size.prod (astype dt v)⟩

/-- Converts all values. -/
def conv (dt : DType) (size : List Nat) (l : List ℚ) : Arr := ⟨dt, size, l.map (astype dt)⟩

/-- `Deterministic`, parameters.py 977-994, of an integer or a float. -/
def deterministic (isInt : Bool) (v : ℚ) : Param σ :=
  ⟨fun size s => some (full (if isInt then i32 else f32) size v, s), true, 0⟩

/-- `DeterministicList._draw_samples`, parameters.py 1052-1061. `vals` have been converted to `dt`. `none`: no values. -/
def listSamples (vals : List ℚ) (n : Nat) : Option (List ℚ) :=
  if vals.length = 0 then none
  else
    let vals := if n > vals.length then (List.replicate ((n + vals.length - 1) / vals.length) vals).flatten else vals
    some (vals.take n)

/-- `DeterministicList`, parameters.py 1027-1061: values of the dtype `dt` (int32 or float32 unless an array was given). -/
def deterministicList (dt : DType) (vals : List ℚ) : Param σ :=
  ⟨fun size s => (listSamples (vals.map (astype dt)) size.prod).map (fun l => (⟨dt, size, l⟩, s)), false, 0⟩

/-- The conversion to at most 32 bits, parameters.py 1173-1182. -/
def to32 (dt : DType) : DType := if dt.bytes * 8 > 32 ∧ dt.kind ≠ .b then ⟨dt.kind, 4⟩ else dt

/-- `Choice`, parameters.py 1107-1184, of numbers, which numpy puts into an array of dtype `dt`. -/
def choice (E : Env σ) (dt : DType) (a : List ℚ) (replace : Bool) (p : Option (List ℚ)) : Param σ :=
  ⟨fun size s => (E.choice a.length size.prod replace p s).bind (fun r =>
    (r.1.mapM (fun i => a[i]?)).map (fun l => (conv (to32 dt) size l, r.2))), false, 0⟩

/-- One of the alternatives of a `Choice` of numbers and parameters; the number `key` stands for its `str()`. -/
inductive Item (σ : Type) where
  | val (key : Nat) (v : ℚ)
  | par (p : Param σ)

def Item.key : Item σ → Nat
  | .val k _ => k
  | .par p => p.key

/-- `isinstance(sample, StochasticParameter)` with that string. -/
def Item.isPar (k : Nat) : Item σ → Bool
  | .val _ _ => false
  | .par p => p.key == k

/-- The samples of each parameter, parameters.py 1149-1156: `counts` are the entries of `params_counter` (0: no entry). The result is the
dictionary `param_to_samples`. A number whose string is in `params_counter` has no `draw_samples`. -/
def drawItems (E : Env σ) (counts : Nat → Nat) : List (Item σ) → (Nat → List ℚ) → σ → Option ((Nat → List ℚ) × σ)
  | [], d, s => some (d, s)
  | it :: l, d, s =>
    if counts it.key = 0 then drawItems E counts l d s
    else match it with
      | .val _ _ => none
      | .par p => (drawSamples E p [counts p.key] s).bind (fun r =>
          drawItems E counts l (fun k => if k = p.key then r.1.vals else d k) r.2)

/-- Reading the samples, parameters.py 1160-1166. `seen` are the items read before. -/
def readItems (d : Nat → List ℚ) : List (Item σ) → List (Item σ) → Option (List ℚ)
  | _, [] => some []
  | seen, .val k v :: l => (readItems d (seen ++ [.val k v]) l).map (fun r => v :: r)
  | seen, .par p :: l => ((d p.key)[seen.countP (Item.isPar p.key)]?).bind (fun v =>
      (readItems d (seen ++ [.par p]) l).map (fun r => v :: r))

/-- `Choice` of numbers and parameters, parameters.py 1130-1168. The dtype of the result is "object". -/
def choiceItems (E : Env σ) (a : List (Item σ)) (replace : Bool) (p : Option (List ℚ)) : Param σ :=
  ⟨fun size s => (E.choice a.length size.prod replace p s).bind (fun r =>
    (r.1.mapM (fun i => a[i]?)).bind (fun samples =>
      (drawItems E (fun k => samples.countP (Item.isPar k)) a (fun _ => []) r.2).bind (fun d =>
        (readItems d.1 [] samples).map (fun l => (⟨f64, size, l⟩, d.2))))), false, 0⟩

/-- `Binomial`, parameters.py 1236-1241. -/
def binomial (E : Env σ) (p : Param σ) : Param σ :=
  ⟨fun size s => (drawSample E p s).bind (fun r =>
    if 0 ≤ r.1 ∧ r.1 ≤ 1 then
      let b := E.binomial r.1 size.prod r.2.2
      some (conv i32 size (b.1.map (fun v : Nat => (v : ℚ))), b.2)
    else none), false, 0⟩

/-- `DiscreteUniform`, parameters.py 1300-1308. Bounds that are not integers or do not fit into int32 are rejected by numpy here (they are converted
by the constructor unless parameters are given). -/
def discreteUniform (E : Env σ) (a b : Param σ) : Param σ :=
  ⟨fun size s => (drawSample E a s).bind (fun ra => (drawSample E b ra.2.2).bind (fun rb =>
    let lo := if ra.1 > rb.1 then rb.1 else ra.1
    let hi := if ra.1 > rb.1 then ra.1 else rb.1
    if ra.1 = rb.1 then some (full i32 size ra.1, rb.2.2)
    else if lo.den = 1 ∧ hi.den = 1 ∧ Dtypes.lo i32 ≤ lo.num ∧ hi.num ≤ Dtypes.hi i32 then
      let r := E.integers lo.num (hi.num + 1) size.prod rb.2.2
      some (conv i32 size (r.1.map (fun v : Int => (v : ℚ))), r.2)
    else none)), false, 0⟩

/-- `Uniform`, parameters.py 1766-1774. -/
def uniform (E : Env σ) (a b : Param σ) : Param σ :=
  ⟨fun size s => (drawSample E a s).bind (fun ra => (drawSample E b ra.2.2).map (fun rb =>
    let lo := if ra.1 > rb.1 then rb.1 else ra.1
    let hi := if ra.1 > rb.1 then ra.1 else rb.1
    if ra.1 = rb.1 then (full f32 size ra.1, rb.2.2)
    else
      let r := E.uniform lo hi size.prod rb.2.2
      (conv f32 size r.1, r.2))), false, 0⟩

/-- `Poisson`, parameters.py 1364-1368. -/
def poisson (E : Env σ) (lam : Param σ) : Param σ :=
  ⟨fun size s => (drawSample E lam s).map (fun r =>
    let b := E.poisson (max r.1 0) size.prod r.2.2
    (conv i32 size (b.1.map (fun v : Nat => (v : ℚ))), b.2)), false, 0⟩

/-- `Normal`, parameters.py 1426-1432 (`Laplace`, 1590-1596, is the same with another distribution). -/
def normal (E : Env σ) (loc scale : Param σ) : Param σ :=
  ⟨fun size s => (drawSample E loc s).bind (fun rl => (drawSample E scale rl.2.2).bind (fun rs =>
    if rs.1 < 0 then none
    else if rs.1 = 0 then some (full f32 size rl.1, rs.2.2)
    else
      let r := E.normal rl.1 rs.1 size.prod rs.2.2
      some (conv f32 size r.1, r.2))), false, 0⟩

/-- `TruncatedNormal`, parameters.py 1509-1528. The seed is part of the environment's function. -/
def truncatedNormal (E : Env σ) (loc scale low high : Param σ) : Param σ :=
  ⟨fun size s => (drawSample E loc s).bind (fun rl => (drawSample E scale rl.2.2).bind (fun rs =>
    (drawSample E low rs.2.2).bind (fun ra => (drawSample E high ra.2.2).bind (fun rb =>
      let lo := if ra.1 > rb.1 then rb.1 else ra.1
      let hi := if ra.1 > rb.1 then ra.1 else rb.1
      if rs.1 < 0 then none
      else if rs.1 = 0 then some (full f32 size rl.1, rb.2.2)
      else
        let r := E.truncnorm rl.1 rs.1 lo hi size.prod rb.2.2
        some (conv f32 size r.1, r.2))))), false, 0⟩

/-- `Beta`, parameters.py 1835-1840. -/
def beta (E : Env σ) (alpha bet : Param σ) (epsilon : ℚ) : Param σ :=
  ⟨fun size s => (drawSample E alpha s).bind (fun ra => (drawSample E bet ra.2.2).map (fun rb =>
    let r := E.beta (max ra.1 epsilon) (max rb.1 epsilon) size.prod rb.2.2
    (conv f32 size r.1, r.2))), false, 0⟩

/-- `np.clip` with bounds that may be missing: the maximum is applied last. -/
def clipTo (mn mx : Option ℚ) (v : ℚ) : ℚ :=
  let v := match mn with | some m => max v m | none => v
  match mx with | some m => min v m | none => v

/-- `Clip`, parameters.py 2105-2111. -/
def clip (E : Env σ) (p : Param σ) (mn mx : Option ℚ) : Param σ :=
  ⟨fun size s => (drawSamples E p size s).map (fun r => ({ r.1 with vals := r.1.vals.map (clipTo mn mx) }, r.2)), false, 0⟩

/-- `Discretize`, parameters.py 2159-2179. -/
def discretize (E : Env σ) (p : Param σ) (round : Bool) : Param σ :=
  ⟨fun size s => (drawSamples E p size s).map (fun r =>
    if r.1.dt.kind ≠ .f then r
    else
      let dt : DType := ⟨.i, max (8 * r.1.dt.bytes / 2) 8 / 8⟩
      (⟨dt, r.1.shape, r.1.vals.map (fun v => astype dt (if round then npRound v else v))⟩, r.2)), false, 0⟩

/-- The common part of `Add`, `Subtract`, `Multiply`, `Divide`, parameters.py 2241-2256, 2322-2348, 2415-2429, 2491-2505. -/
def arith (E : Env σ) (op : ℚ → ℚ → ℚ) (p val : Param σ) (elementwise : Bool) : Param σ :=
  ⟨fun size s => (drawSamples E p size s).bind (fun r =>
    if elementwise && !val.isDet then
      (drawSamples E val size r.2).map (fun q =>
        (⟨E.promote r.1.dt q.1.dt, size, List.zipWith op r.1.vals q.1.vals⟩, q.2))
    else
      (drawSample E val r.2).map (fun q => (⟨E.promote r.1.dt q.2.1, size, r.1.vals.map (fun v => op v q.1)⟩, q.2.2))), false, 0⟩

def add (E : Env σ) (p val : Param σ) (elementwise : Bool) : Param σ := arith E (· + ·) p val elementwise
def subtract (E : Env σ) (p val : Param σ) (elementwise : Bool) : Param σ := arith E (· - ·) p val elementwise
def multiply (E : Env σ) (p val : Param σ) (elementwise : Bool) : Param σ := arith E (· * ·) p val elementwise

/-- Division with zeros replaced by ones. -/
def safeDiv (a b : ℚ) : ℚ := a / (if b = 0 then 1 else b)

/-- `Divide`, parameters.py 2322-2348: the result is a float array. -/
def divide (E : Env σ) (p val : Param σ) (elementwise : Bool) : Param σ :=
  arith { E with promote := fun a b =>
    let a := if a.kind = .f then a else f64
    let b := if b.kind = .f then b else f64
    if elementwise && !val.isDet then (if a.bytes ≤ b.bytes then b else a) else a } safeDiv p val elementwise

/-- `StochasticParameter.__floordiv__`, parameters.py 673-675. -/
def floordiv (E : Env σ) (p val : Param σ) : Param σ := discretize E (divide E p val false) true

/-- `Absolute`, parameters.py 2628-2630. -/
def absolute (E : Env σ) (p : Param σ) : Param σ :=
  ⟨fun size s => (drawSamples E p size s).map (fun r => ({ r.1 with vals := r.1.vals.map (fun v => |v|) }, r.2)), false, 0⟩

/-- `RandomSign`, parameters.py 2675-2693. -/
def randomSign (E : Env σ) (p : Param σ) (pPositive : ℚ) : Param σ :=
  ⟨fun size s => (drawSamples E p size s).bind (fun r =>
    if r.1.dt.kind = .f ∨ r.1.dt.kind = .i then
      let b := E.binomial pPositive size.prod r.2
      some ({ r.1 with vals := List.zipWith (fun v (c : Nat) => |v| * ((c : ℚ) * 2 - 1)) r.1.vals b.1 }, b.2)
    else none), false, 0⟩

/-- A sample with the wrong sign. -/
def wrong (positive : Bool) (v : ℚ) : Bool := if positive then v < 0 else v > 0

/-- `samples[bad] = ...` for the rows along the first axis that contain a wrong sample (`np.where(...)[0]`): `f` is applied to every
sample in such a row, together with its index. -/
def inBadRows (positive : Bool) (a : Arr) (f : Nat → ℚ → ℚ) : Arr :=
  let row := a.shape.tail.prod
  { a with vals := a.vals.mapIdx (fun i v =>
      if ((a.vals.drop (i / row * row)).take row).any (wrong positive) then f i v else v) }

/-- The loop and the final inversion of the mode "reroll", parameters.py 2774-2795. -/
def reroll (E : Env σ) (p : Param σ) (positive : Bool) (size : List Nat) : Nat → Arr → σ → Option (Arr × σ)
  | 0, a, s => some (inBadRows positive a (fun _ v => v * -1), s)
  | n + 1, a, s =>
    if a.vals.any (wrong positive) then
      (drawSamples E p size s).bind (fun r =>
        reroll E p positive size n (inBadRows positive a (fun i v => r.1.vals.getD i v)) r.2)
    else some (a, s)

/-- `ForceSign`, parameters.py 2759-2797. `rerolls`: the mode and `reroll_count_max`. -/
def forceSign (E : Env σ) (p : Param σ) (positive : Bool) (rerolls : Option Nat) : Param σ :=
  ⟨fun size s => (drawSamples E p size s).bind (fun r =>
    match rerolls with
    | none => some ({ r.1 with vals := r.1.vals.map (fun v => if wrong positive v then v * -1 else v) }, r.2)
    | some n => reroll E p positive size n r.1 r.2), false, 0⟩

/-! The memory of `DeterministicList`: `values[:n].reshape(size)` is a view of the parameter's own array unless the array was tiled,
so that operations in place on the samples (`np.clip(..., out=samples)` 2110, `samples[...] *= -1` 2765, `val_samples[...] = 1` 2335)
write to the parameter. -/

/-- Draw `n` values from the list parameter whose values are `vals` and apply `f` to the samples in place: the result and the values
of the parameter afterwards. -/
def drawInPlace (f : ℚ → ℚ) (vals : List ℚ) (n : Nat) : Option (List ℚ × List ℚ) :=
  (listSamples vals n).map (fun l => (l.map f, if n > vals.length then vals else l.map f ++ vals.drop n))

/-- Successive draws of the given numbers of samples from `Clip(DeterministicList(vals))` etc. -/
def drawsInPlace (f : ℚ → ℚ) : List ℚ → List Nat → Option (List (List ℚ) × List ℚ)
  | vals, [] => some ([], vals)
  | vals, n :: ns => (drawInPlace f vals n).bind (fun r => (drawsInPlace f r.2 ns).map (fun q => (r.1 :: q.1, q.2)))

end Imgaug.Params
