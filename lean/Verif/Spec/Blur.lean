import Verif.Model.Blur
import Verif.Spec.Conv
/-! Specifications for blurring. -/
namespace Imgaug.Blur
open Imgaug Imgaug.Dtypes Imgaug.Resize

/-- The values of `f` within an image of the given size are from `a` to `b`. -/
def Range (h w : Nat) (f : Plane) (a b : ℚ) : Prop := ∀ y x, y < h → x < w → a ≤ f y x ∧ f y x ≤ b

/-- What is assumed of a filter of channels of dtype `d`: no value leaves the range of the channel, and integers stay integers. -/
def Smooths (d : DType) (h w : Nat) (F : Plane → Plane) : Prop :=
  ∀ f : Plane, (d.kind ≠ .f → ∀ y x, ∃ n : Int, f y x = n) →
    (∀ a b, Range h w f a b → Range h w (F f) a b) ∧ (d.kind ≠ .f → ∀ y x, ∃ n : Int, F f y x = n)

/-- What is assumed of the two Gaussian filters. -/
def Gaussian (G : Gauss) : Prop :=
  ∀ d h w s, 0 < h → 0 < w → (∀ k, Smooths d h w (G.cv d k s h w)) ∧ Smooths d h w (G.sp d s h w)

/-- What is assumed of the rounding of means: floats are not rounded, others are rounded to a closest integer. -/
def Nearest (rnd : DType → ℚ → ℚ) : Prop :=
  ∀ d v, (d.kind = .f → rnd d v = v) ∧ (d.kind ≠ .f → (∃ n : Int, rnd d v = n) ∧ |rnd d v - v| ≤ 1 / 2)

/-- The pixel that is seen at position `i` along an axis of `n` pixels if the first and the last pixel are repeated. -/
structure Repeated (n : Nat) (seen : Int → Nat) : Prop where
  inside : ∀ i : Nat, i < n → seen i = i
  before : ∀ i : Int, i < 0 → seen i = 0
  behind : ∀ i : Int, (n : Int) ≤ i → seen i = n - 1

/-- What is assumed of the rotation of matrices of odd size: no entry becomes negative, and the one in the middle stays. -/
def Rotates (rot : Nat → Plane → Plane) : Prop :=
  ∀ k m, k % 2 = 1 → (∀ i j, i < k → j < k → 0 ≤ m i j) → (∀ i j, i < k → j < k → 0 ≤ rot k m i j) ∧ rot k m (k / 2) (k / 2) = m (k / 2) (k / 2)

/-- The samples that a parameter may give: the constant, or an integer between two bounds in any order. -/
def Draw.Allows : Draw → Int → Prop
  | .const n, v => v = n
  | .range a b, v => min a b ≤ v ∧ v ≤ max a b
  | .param _, _ => True

end Imgaug.Blur
