import Verif.Model.AffineArgs
import Verif.Spec.Handle
import Verif.Spec.Affine
/-! Vocabulary for the statements in Props/AffineArgs.lean. -/
namespace Imgaug.AffineArgs
open Imgaug Imgaug.Params

/-- The values that stochastic parameters may yield. -/
abbrev Values (β : Type) := Nat → β → Prop

/-- A value for which an argument stands: a number stands for itself, a tuple for an interval, a list for its elements. -/
def Allows (P : Values ℚ) (a : Val) (v : ℚ) : Prop :=
  match a with
  | .atom (.num n) => v = n.q
  | .atom (.par i) => P i v
  | .tuple l => ∃ a b : Num, l = [.num a, .num b] ∧ min a.q b.q ≤ v ∧ v ≤ max a.q b.q
  | .iter l => ∃ n : Num, .num n ∈ l ∧ v = n.q
  | _ => False

/-- The axes. -/
inductive Axis where
  | x | y
  deriving DecidableEq

/-- What is given for an axis. -/
def Arg.on : Arg → Axis → Option Val
  | .none, _ => Option.none
  | .val v, _ => some v
  | .dict x _, .x => x
  | .dict _ y, .y => y

/-- A value for an axis: the one that is given, or the neutral one. -/
def Arg.Allows (P : Values ℚ) (neutral : ℚ) (a : Arg) (k : Axis) (v : ℚ) : Prop :=
  match a.on k with
  | Option.none => v = neutral
  | some w => AffineArgs.Allows P w v

/-- An argument that is not an empty list. -/
def Val.Filled (v : Val) : Prop := v ≠ .iter []

/-- No part of the argument is an empty list. -/
def Arg.Filled (a : Arg) : Prop := ∀ k v, a.on k = some v → Val.Filled v

/-- Python integers have integer values. -/
def IntNums (v : Val) : Prop := ∀ n : Num, .num n ∈ numbers v → n.isInt = true → ∃ z : Int, n.q = z

/-- No argument is or contains an empty list, and python integers have integer values. -/
structure Args.Filled (a : Args) : Prop where
  scale : a.scale.Filled
  percent : a.translatePercent.Filled
  px : a.translatePx.Filled
  rotate : ∀ v, a.rotate = some v → Val.Filled v
  shear : a.shear.Filled
  order : a.order ≠ .val (.iter [])
  cval : a.cval ≠ .val (.iter [])
  mode : a.mode ≠ .list []
  pxInts : ∀ k v, a.translatePx.on k = some v → IntNums v
  orderInts : ∀ v, a.order = .val v → IntNums v

/-- The values of a parameter that was created. -/
def Supports (P : Values ℚ) : Handled → ℚ → Prop
  | .det n, v => v = n.q
  | .uniform a b, v => min a.q b.q ≤ v ∧ v ≤ max a.q b.q
  | .discreteUniform a b, v => ∃ z : Int, v = z ∧ min a b ≤ z ∧ z ≤ max a b
  | .choice l, v => l ≠ [] → ∃ n ∈ l, v = n.q
  | .choiceInt l, v => l ≠ [] → ∃ z ∈ l, v = (z : ℚ)
  | .par i, v => P i v
  | _, v => v = 0 ∨ v = 1

/-- The modes of a parameter that was created. -/
def ModeDist.Supports (Q : Values String) : ModeDist → String → Prop
  | .det s, v => v = s
  | .choice l, v => l ≠ [] → v ∈ l
  | .par i, v => Q i v

/-- Parameters yield as many values as they are asked for, all among their possible values. -/
structure Ok {σ α β : Type} (Sup : α → β → Prop) (S : Sampler σ α β) : Prop where
  length : ∀ d n g, (S d n g).1.length = n
  values : ∀ d n g, ∀ v ∈ (S d n g).1, Sup d v

/-- A single number. -/
def Arg.IsNumber (a : Arg) : Prop := ∃ n, a = .val (.atom (.num n))

/-- A dictionary. -/
def Arg.IsDict (a : Arg) : Prop := ∃ x y, a = .dict x y

/-- A fill value that the argument `cval` stands for. -/
def CvalAllowed (P : Values ℚ) (a : AllOr) (v : ℚ) : Prop :=
  match a with | .all => 0 ≤ v ∧ v ≤ 255 | .val w => Allows P w v

/-- A mode that the argument `mode` stands for. -/
def ModeAllowed (Q : Values String) (a : ModeArg) (s : String) : Prop :=
  match a with
  | .all => s ∈ ["constant", "edge", "symmetric", "reflect", "wrap"]
  | .str t => s = t
  | .list l => some s ∈ l
  | .par i => Q i s
  | .other => False

/-- An order that the argument `order` stands for. -/
def OrderAllowed (P : Values ℚ) (b : Backend) (a : AllOr) (v : ℚ) : Prop :=
  match a with
  | .all => v = 0 ∨ v = 1 ∨ v = 3 ∨ b = .skimage ∧ (v = 4 ∨ v = 5)
  | .val w => Allows P w v

/-- An angle that the argument `rotate` stands for. -/
def RotateAllowed (P : Values ℚ) (a : Option Val) (v : ℚ) : Prop :=
  match a with | none => v = 0 | some w => Allows P w v

/-- The values of a row are as requested by the arguments (of which at least one is not `None`). -/
structure Requested (P : Values ℚ) (Q : Values String) (a : Args) (r : Row) : Prop where
  scaleX : a.scale.Allows P 1 .x r.scaleX
  scaleY : a.scale.Allows P 1 .y r.scaleY
  translateX : (if a.translatePercent = .none then a.translatePx else a.translatePercent).Allows P 0 .x r.translateX
  translateY : (if a.translatePercent = .none then a.translatePx else a.translatePercent).Allows P 0 .y r.translateY
  whole : a.translatePercent = .none → (∀ k i, a.translatePx.on k ≠ some (.atom (.par i))) →
    ∃ x y : Int, r.translateX = x ∧ r.translateY = y
  rotate : RotateAllowed P a.rotate r.rotate
  shearX : a.shear.Allows P 0 .x r.shearX
  shearY : ¬ a.shear.IsNumber → a.shear.Allows P 0 .y r.shearY
  shearY0 : a.shear.IsNumber → r.shearY = 0
  cvals : r.cval.length = 3
  cval : ∀ v ∈ r.cval, CvalAllowed P a.cval v
  mode : ModeAllowed Q a.mode r.mode
  order : OrderAllowed P a.backend a.order r.order

/-- A number, pair of numbers, list of numbers or parameter; the numbers are integers, if `fl` is false, and within the range. -/
def NumOk (vr : VR) (fl : Bool) (v : Val) : Prop := (∃ i, v = .atom (.par i)) ∨ (NumericArg true true fl v ∧ AllAllowed vr v)

/-- The same for an argument that may be a dictionary with at least one of two keys, or `None`. -/
def Arg.NumOk (vr : VR) (fl : Bool) (a : Arg) : Prop := a ≠ .dict Option.none Option.none ∧ ∀ k v, a.on k = some v → AffineArgs.NumOk vr fl v

/-- An order that can be requested. -/
def OrderOk (b : Backend) (z : Int) : Prop := 0 ≤ z ∧ z ≤ 5 ∧ (b = .cv2 → z = 0 ∨ z = 1 ∨ z = 3)

/-- The arguments are as documented. -/
structure Args.Valid (a : Args) : Prop where
  backend : a.backend ≠ .other
  scale : a.scale.NumOk (.interval (some (1 / 10000)) none) true
  percent : a.translatePercent.NumOk .none true
  px : a.translatePx.NumOk .none false
  notBoth : a.translatePercent = .none ∨ a.translatePx = .none
  rotate : ∀ v, a.rotate = some v → NumOk .none true v
  shear : a.shear.NumOk .none true
  cval : ∀ v, a.cval = .val v → NumOk .none true v
  mode : a.mode ≠ .other ∧ ∀ l, a.mode = .list l → none ∉ l
  order : ∀ v, a.order = .val v → (∃ i, v = .atom (.par i)) ∨ (∃ z, v = int z ∧ OrderOk a.backend z) ∨
    ∃ l : List Int, v = .iter (l.map (fun (z : Int) => .num ⟨true, z⟩)) ∧ ∀ z ∈ l, OrderOk a.backend z

/-- A sampler whose values alternate between the ends of intervals and go through lists. Parameters yield 0. -/
def alternating : Sampler Nat Handled ℚ := fun d n g =>
  ((List.range n).map (fun (k : Nat) =>
    match d with
    | .det m => m.q
    | .uniform a b => if (g + k) % 2 = 0 then a.q else b.q
    | .discreteUniform a b => if (g + k) % 2 = 0 then (a : ℚ) else (b : ℚ)
    | .choice l => (l.map (·.q)).getD ((g + k) % l.length) 0
    | .choiceInt l => (l.map (fun z : Int => (z : ℚ))).getD ((g + k) % l.length) 0
    | _ => 0), g + n)

/-- The same for modes. -/
def alternatingModes : Sampler Nat ModeDist String := fun d n g =>
  ((List.range n).map (fun (k : Nat) =>
    match d with
    | .det s => s
    | .choice l => l.getD ((g + k) % l.length) ""
    | .par _ => "edge"), g + n)

/-- `Affine()` with every argument left out. -/
def noArgs : Args := ⟨.none, .none, .none, none, .none, .val (int 1), .val (int 0), .str "constant", .auto⟩

/-- An angle given in degrees, in radians (with Python's value of pi). -/
noncomputable def Radians (degrees : ℚ) : ℝ := (degrees : ℝ) * ((pyPi : ℝ) / 180)

end Imgaug.AffineArgs
