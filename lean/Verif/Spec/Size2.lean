import Verif.Model.Size2
import Verif.Spec.Size
import Mathlib.Order.Bounds.Basic
/-! Vocabulary for the statements in Props/Size2.lean. -/
namespace Imgaug.Size
open Imgaug

/-- Adding `a` and `b` pixels to the two sides of an axis gives the smallest size in `S` that is not below the old one, and the
amounts are as equal as possible, with an odd pixel added to the second side. -/
def PadsTo (S : Set Int) (size : Nat) (a b : Int) : Prop :=
  0 ≤ a ∧ 0 ≤ b ∧ (b = a ∨ b = a + 1) ∧ IsLeast {n | n ∈ S ∧ (size : Int) ≤ n} (size + a + b)

/-- Removing `a` and `b` pixels from the two sides of an axis gives the largest size in `S` that is not above the old one, and the
amounts are as equal as possible, with an odd pixel removed from the second side. -/
def CropsTo (S : Set Int) (size : Nat) (a b : Int) : Prop :=
  0 ≤ a ∧ 0 ≤ b ∧ (b = a ∨ b = a + 1) ∧ IsGreatest {n | n ∈ S ∧ n ≤ (size : Int)} (size - a - b)

/-- The sizes allowed on an axis: with no restriction, all of them. -/
def sizesOf {β : Type} (S : β → Set Int) : Option β → Set Int
  | some m => S m
  | none => Set.univ

/-- The multiples of `m`, without zero. -/
def posMultiples (m : Nat) : Set Int := {n | 0 < n ∧ (m : Int) ∣ n}

/-- The multiples of `m`. -/
def multiples (m : Nat) : Set Int := {n | (m : Int) ∣ n}

/-- The powers of `b` with an exponent of at least `k`. -/
def powers (k : Nat) (b : Nat) : Set Int := {n | ∃ e : Nat, k ≤ e ∧ n = (b : Int) ^ e}

/-- The exact logarithm of `n` to the base `b`. -/
noncomputable def exactExpo (n b : Nat) : ℝ := Real.log n / Real.log b

/-- `expo` computes logarithms with an error that is too small to confuse a size with a neighbouring one. -/
def SmallError (expo : Nat → Nat → ℝ) : Prop :=
  ∀ n b : Nat, 1 ≤ n → 2 ≤ b → |expo n b - exactExpo n b| < 1 / ((n + 1) * Real.log b)

/-- Logarithms as computed with 64 bit floats on two sizes: `log(1000)/log(10) = 2.9999999999999996` and
`log(125)/log(5) = 3.0000000000000004`; exact elsewhere. -/
noncomputable def roundedExpo (n b : Nat) : ℝ :=
  if n = 1000 ∧ b = 10 then 3 - 4 / 10 ^ 16
  else if n = 125 ∧ b = 5 then 3 + 4 / 10 ^ 16
  else exactExpo n b

/-- The size arguments accepted by `Resize`: positive numbers, "keep" and "keep-aspect-ratio". -/
def Accepted : SizeArg → Prop
  | .int n => 0 < n
  | .float q => 0 < q
  | .keep => True
  | .keepAspectRatio => True

/-- `n` is what the argument demands for an axis of the given size. -/
def Requested (size : Nat) (a : SizeArg) (n : Int) : Prop :=
  match a with
  | .int k => n = k
  | .float q => (1 / 2 < size * q → |(n : ℚ) - size * q| ≤ 1 / 2) ∧ (size * q ≤ 1 / 2 → n = 1)
  | .keep => n = size
  | .keepAspectRatio => True

end Imgaug.Size
