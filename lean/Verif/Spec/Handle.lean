import Verif.Model.Handle
import Verif.Spec.Params
/-! Specification of the conversion of arguments to parameters. -/
namespace Imgaug.Params
open Imgaug Imgaug.Dtypes

/-- The values that a value range allows: those of the closed interval, where `None` is no bound. -/
def VR.allowed : VR → Set ℚ
  | .none => {_v | True}
  | .interval lo hi => {v | (∀ l, lo = some l → l ≤ v) ∧ (∀ h, hi = some h → v ≤ h)}
  | .callable ok => {v | ok v = true}
  | .bad => {_v | False}

/-- The numbers in an argument. -/
def numbers : Val → List Atom
  | .atom a => [a]
  | .tuple l => l
  | .iter l => l

/-- An argument of numbers: a number, a tuple of two numbers or another iterable of numbers, of such a kind as the flags permit. -/
def NumericArg (tupleToUniform listToChoice floats : Bool) (param : Val) : Prop :=
  (∀ a ∈ numbers param, ∃ n : Num, a = .num n ∧ (floats = true ∨ n.isInt = true)) ∧
  match param with
  | .atom _ => True
  | .tuple l => tupleToUniform = true ∧ l.length = 2
  | .iter _ => listToChoice = true

/-- All numbers of an argument are allowed. -/
def AllAllowed (vr : VR) (param : Val) : Prop := ∀ n : Num, .num n ∈ numbers param → n.q ∈ vr.allowed

/-- The bounds of an interval are integers. -/
def VR.Integral : VR → Prop
  | .interval lo hi => (∀ l, lo = some l → ∃ n : Int, l = n) ∧ (∀ h, hi = some h → ∃ n : Int, h = n)
  | .none => True
  | _ => False

/-- A python integer is an integer that fits into 32 bits, a float is in the range of float32. -/
def Num.Fits (n : Num) : Prop := Holds (if n.isInt then i32 else f32) n.q

end Imgaug.Params
