import Verif.Model.DrawLines
import Verif.Spec.Draw
/-! Specification for C131. -/
namespace Imgaug.DrawLines
open Imgaug Imgaug.Dtypes Imgaug.Draw

/-- The pixel is on the line between two successive points, both moved to the closest pixels, with the strength `v` (from 0 to 1). Without antialiasing the
strength is always 1. -/
def OnLine (lib : Lib) (aa : Bool) (coords : List Pt) (y x : Nat) (v : ℚ) : Prop :=
  ∃ (i : Nat) (p q : Pt), coords[i]? = some p ∧ coords[i + 1]? = some q ∧
    (if aa = true then (((y : Int), (x : Int)), v) ∈ lib.lineAA (npRound p.y) (npRound p.x) (npRound q.y) (npRound q.x)
      else v = 1 ∧ ((y : Int), (x : Int)) ∈ lib.line (npRound p.y) (npRound p.x) (npRound q.y) (npRound q.x))

/-- In one axis, `j` is in the interval of `size` pixels around `i`; for even sizes, the interval has one pixel more before `i` than after it. -/
def InKernel (size i j : Nat) : Prop := (i : Int) - (size / 2 : Nat) ≤ j ∧ (j : Int) < i - (size / 2 : Nat) + size

/-- The pixel is on a line of the given thickness: a pixel of the image on the line is in the square around it. -/
def OnThick (lib : Lib) (aa : Bool) (coords : List Pt) (size h w y x : Nat) : Prop :=
  ∃ (yy xx : Nat) (v : ℚ), yy < h ∧ xx < w ∧ InKernel size y yy ∧ InKernel size x xx ∧ OnLine lib aa coords yy xx v

/-- The pixel is in the square of one of the points. -/
def OnPoint (coords : List Pt) (size y x : Nat) : Prop := ∃ p ∈ coords, InSquare p.x p.y (size / 2) y x

/-- The strengths of antialiased lines are between 0 and 1. -/
def Lib.Ok (lib : Lib) : Prop := ∀ a b c d, ∀ p ∈ lib.lineAA a b c d, 0 ≤ p.2 ∧ p.2 ≤ 1

/-- Something is drawn: there are two points, the lines are not transparent, and they are thick enough. -/
def Visible (coords : List Pt) (alpha : ℚ) (size : Nat) : Prop := 2 ≤ coords.length ∧ 1 / 10000 ≤ alpha ∧ 1 ≤ size

/-- `v` is between `a` and `b`. -/
def Btw (a b v : ℚ) : Prop := min a b ≤ v ∧ v ≤ max a b

/-- A value of uint8 images. -/
def IsByte (v : ℚ) : Prop := ∃ n : Nat, v = n ∧ n ≤ 255

end Imgaug.DrawLines
