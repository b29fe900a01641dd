import Verif.Model.Draw
import Verif.Spec.Dtypes
/-! Specification for C116. -/
namespace Imgaug.Draw
open Imgaug Imgaug.Dtypes

/-- All pixels are values of the dtype. -/
def Img.Ok (im : Img) : Prop := ∀ y x ch, y < im.h → x < im.w → ch < im.c → Holds im.dt (im.px y x ch)

/-- Size, channels and dtype are the same. -/
def Same (a b : Img) : Prop := a.dt = b.dt ∧ a.h = b.h ∧ a.w = b.w ∧ a.c = b.c ∧ a.flat = b.flat

/-- The pixel is in the square around the keypoint, whose centre is the closest pixel, and which reaches `r` pixels in each direction. -/
def InSquare (x y : ℚ) (r : Nat) (yy xx : Nat) : Prop := |(yy : Int) - npRound y| ≤ r ∧ |(xx : Int) - npRound x| ≤ r

/-- All components of the color are uint8 numbers. -/
def IsU8 (k : Color) (c : Nat) : Prop := ∀ ch, ch < c → ∃ n : Nat, n ≤ 255 ∧ k.comp ch = n

/-- What becomes of a pixel value `v` if the component `k` is drawn over it. -/
def over (d : DType) (alpha k v : ℚ) : ℚ := if d = ⟨.u, 1⟩ then ⌊(1 - alpha) * v + alpha * k⌋ else (1 - alpha) * v + alpha * k

/-- The box is within the image. -/
def Within (b : BB) (im : Img) : Prop := 0 ≤ b.x1 ∧ b.x2 < im.w ∧ 0 ≤ b.y1 ∧ b.y2 < im.h

open Classical in
/-- The pixel row or column of a coordinate, in an axis of `n` pixels: the closest one, but the last one for coordinates of boxes in the image that are closer to
the one after it. -/
noncomputable def line (b : BB) (im : Img) (v : ℚ) (n : Nat) : Int := if Within b im then min (npRound v) (n - 1) else npRound v

/-- The pixel is on the frame of the box, which is `t` pixels thick and extends to the outside. -/
def OnFrame (b : BB) (im : Img) (t : Nat) (yy xx : Nat) : Prop :=
  (line b im b.y1 im.h - t < yy ∧ yy < line b im b.y2 im.h + t ∧ line b im b.x1 im.w - t < xx ∧ xx < line b im b.x2 im.w + t) ∧
  ¬ (line b im b.y1 im.h < yy ∧ yy < line b im b.y2 im.h ∧ line b im b.x1 im.w < xx ∧ xx < line b im b.x2 im.w)

end Imgaug.Draw
