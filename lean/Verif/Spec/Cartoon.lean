import Verif.Model.Cartoon
import Mathlib.Order.Interval.Finset.Nat
/-! Specification of the cartoon style. -/
namespace Imgaug.Cartoon

/-- The values are those of uint8 images. -/
def Bytes (f : Rgb) : Prop := ∀ y x k, 0 ≤ f y x k ∧ f y x k ≤ 255

/-- The filters return uint8 images. -/
structure Lib.Sane (L : Lib) : Prop where
  median : ∀ k h w f, Bytes f → Bytes (L.median3 k h w f)
  meanShift : ∀ a b h w f, Bytes f → Bytes (L.meanShift a b h w f)
  toHsv : ∀ f, Bytes f → Bytes (L.toHsv f)
  fromHsv : ∀ f, Bytes f → Bytes (L.fromHsv f)

/-- The number of pixels with value 255 at most `r` rows and `r` columns away from the pixel (itself included), for pixels that are at least
that far from the borders. -/
def around (f : Gray) (r y x : Nat) : Nat :=
  ((Finset.Icc (y - r) (y + r) ×ˢ Finset.Icc (x - r) (x + r)).filter (fun p => f p.1 p.2 = 255)).card

/-- The pixel is at least `r` rows and columns away from the borders. -/
def Inner (h w r y x : Nat) : Prop := r ≤ y ∧ y + r < h ∧ r ≤ x ∧ x + r < w

/-- The pixels of an image of edges are 0 and 255. -/
def Edges (f : Gray) : Prop := ∀ y x, f y x = 0 ∨ f y x = 255

end Imgaug.Cartoon
