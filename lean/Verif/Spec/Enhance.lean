import Verif.Model.Enhance
/-! What is assumed of PIL, and what images of uint8 are. -/
namespace Imgaug.Enhance

/-- The values are those of a uint8 array, and arrays of shape (H,W) have one value per pixel. -/
def Arr.Ok (a : Arr) : Prop := (∀ y x b, 0 ≤ a.px y x b ∧ a.px y x b ≤ 255) ∧ (a.flat = true → a.c = 1)

/-- The brightness of a grey color is its value; brightness and smoothed values are bytes. -/
structure Lib.Sane (L : Lib) : Prop where
  gray_same : ∀ v, L.gray v v v = v
  gray_range : ∀ r g b, 0 ≤ r → r ≤ 255 → 0 ≤ g → g ≤ 255 → 0 ≤ b → b ≤ 255 → 0 ≤ L.gray r g b ∧ L.gray r g b ≤ 255
  mean_range : ∀ p, 0 ≤ L.mean p ∧ L.mean p ≤ 255
  smooth_range : ∀ p y x b, 0 ≤ (L.smooth p).px y x b ∧ (L.smooth p).px y x b ≤ 255

/-- Same dtype and same shape. -/
def SameShape (a b : Arr) : Prop := b.uint8 = a.uint8 ∧ b.flat = a.flat ∧ b.h = a.h ∧ b.w = a.w ∧ b.c = a.c

end Imgaug.Enhance
