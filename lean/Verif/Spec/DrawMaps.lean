import Verif.Model.DrawMaps
import Verif.Spec.Dtypes
/-! Specification of drawn heatmaps and segmentation maps. -/
namespace Imgaug.DrawMaps
open Imgaug Imgaug.Dtypes Imgaug.Resize

/-- Row `y` and column `x` of an array of size `m × n` show row `sy y` and column `sx x` of one of size `h × w`, when nearest neighbours are used;
arrays of the same size are not resized. -/
def Shows (cv : Cv) (h w m n : Nat) (sy sx : Nat → Nat) : Prop :=
  (∀ y < m, sy y < h) ∧ (∀ x < n, sx x < w) ∧
    (if m = h ∧ n = w then (∀ y, sy y = y) ∧ ∀ x, sx x = x
     else ∀ d (f : Nat → Nat → ℚ) y x, cv .nearest d h w m n f y x = f (sy y) (sx x))

/-- A byte. -/
def IsByte (v : ℚ) : Prop := ∃ z : Int, v = z ∧ 0 ≤ z ∧ z ≤ 255

/-- An image of bytes with three channels. -/
def Rgb (im : Im) : Prop := im.c = some 3 ∧ im.dt = u8 ∧ ∀ y x k, IsByte (im.px y x k)

/-- An alpha value from 0 to 1. -/
def IsAlpha (a : ℚ) : Prop := 0 ≤ a ∧ a ≤ 1

/-- `v` is the mix of a color `f` with the color `b` behind it: `f` for alphas of at least 0.99, `b` for alphas of at most 0.01, and an integer
closest to the weighted average otherwise. -/
def Mixed (alpha f b v : ℚ) : Prop :=
  (alpha ≥ 99 / 100 → v = f) ∧ (alpha ≤ 1 / 100 → v = b) ∧
    (1 / 100 < alpha → alpha < 99 / 100 → ∃ z : Int, v = z ∧ |v - (alpha * f + (1 - alpha) * b)| ≤ 1 / 2)

/-- Every class has a color with three bytes. -/
def Colors (l : List (List Int)) : Prop := ∀ c ∈ l, c.length = 3 ∧ ∀ z ∈ c, 0 ≤ z ∧ z ≤ 255

/-- The component of the color of a class; classes below 0 are black. -/
def colorOf (colors : List (List Int)) (id : Int) (j : Nat) : ℚ :=
  if id < 0 then 0 else ((colors.getD id.toNat []).getD j 0 : ℚ)

/-- The ids of a channel. -/
def HasId (m : Map Int) (k : Nat) (id : Int) : Prop := ∃ y < m.h, ∃ x < m.w, m.at' y x k = id

/-- The size asked for along an axis by `SegmentationMapsOnImage.draw`: that of the map, a fraction of it (at least 1), or a number. -/
def Asks (axis : Nat) : Option Size → Int → Prop
  | none, v => v = axis
  | some (.float q), v => 1 ≤ v ∧ (1 ≤ axis * q → (v : ℚ) ≤ axis * q ∧ axis * q < v + 1) ∧ (axis * q < 1 → v = 1)
  | some (.int n), v => v = n

end Imgaug.DrawMaps
