import Verif.Model.Color
import Verif.Spec.Blend
/-! Specification of changes of the colour space. -/
namespace Imgaug.Color
open Imgaug Imgaug.Dtypes

/-- RGB or BGR. -/
def Space.Basic (s : Space) : Prop := s = .rgb ∨ s = .bgr

instance (s : Space) : Decidable s.Basic := inferInstanceAs (Decidable (_ ∨ _))

/-- What it means to convert a pixel: nothing, if the colour spaces are the same; cv2's conversion if one of them is RGB or BGR, otherwise two
conversions via RGB. Grayscale has three equal components. -/
def converted (cv : Cv) (f t : Space) (p : Px) : Px :=
  if f = t then p
  else if t = .gray then
    (if f.Basic then (cv.gray f p, cv.gray f p, cv.gray f p)
     else (cv.gray .rgb (cv.conv f .rgb p), cv.gray .rgb (cv.conv f .rgb p), cv.gray .rgb (cv.conv f .rgb p)))
  else if f.Basic ∨ t.Basic then cv.conv f t p
  else cv.conv .rgb t (cv.conv f .rgb p)

/-- All components are bytes. -/
def Px.Bytes (p : Px) : Prop := p.1 ≤ 255 ∧ p.2.1 ≤ 255 ∧ p.2.2 ≤ 255

/-- cv2 returns bytes. -/
def Cv.Bytes (cv : Cv) : Prop := (∀ f t p, (cv.conv f t p).Bytes) ∧ ∀ f p, cv.gray f p ≤ 255

/-- A uint8 image of shape (H,W,3), with H and W not 0. -/
def Img.Colour (im : Img) : Prop :=
  im.dt = ⟨.u, 1⟩ ∧ im.flat = false ∧ im.c = 3 ∧ 0 < im.h ∧ 0 < im.w ∧ im.px.length = im.h * im.w ∧ ∀ p ∈ im.px, p.Bytes

/-- The components of pixels in row-major order. -/
def comps : List Px → List ℚ
  | [] => []
  | p :: l => (p.1 : ℚ) :: (p.2.1 : ℚ) :: (p.2.2 : ℚ) :: comps l

/-- The documented mixture of a component after and before the change, rounded; with alphas up to 0.001 and from 0.999 on taken as 0 and 1. -/
def faded (alpha new old : ℚ) : ℚ :=
  if 999 / 1000 ≤ alpha then new else if alpha ≤ 1 / 1000 then old else npRound (Blend.mix alpha new old)

end Imgaug.Color
