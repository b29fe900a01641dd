import Verif.Model.Perspective
/-! Specification of perspective transformations. -/
namespace Imgaug.Perspective
open Imgaug

/-- The matrix sends the point `p` to `P`, as two linear equations for its entries. -/
def M3.Sends (m : M3) (p P : Pt) : Prop :=
  m.a * p.x + m.b * p.y + m.c = P.x * (m.g * p.x + m.h * p.y + m.i) ∧ m.d * p.x + m.e * p.y + m.f = P.y * (m.g * p.x + m.h * p.y + m.i)

/-- The system that `cv2.getPerspectiveTransform` solves: eight linear equations for eight entries, the last entry being 1. -/
def Fits (m : M3) (src dst : Quad) : Prop :=
  m.i = 1 ∧ m.Sends src.tl dst.tl ∧ m.Sends src.tr dst.tr ∧ m.Sends src.br dst.br ∧ m.Sends src.bl dst.bl

/-- The system has exactly one solution. -/
def Solvable (src dst : Quad) : Prop := ∃ m, Fits m src dst ∧ ∀ m', Fits m' src dst → m' = m

/-- What is assumed of `cv2.getPerspectiveTransform`: it finds the solution if there is exactly one. -/
def Solves (solve : Solve) : Prop := ∀ src dst m, Fits m src dst → (∀ m', Fits m' src dst → m' = m) → solve src dst = m

/-- The jitter (as fraction of the sides) is at most `t` everywhere. -/
def AtMost (t : ℚ) (j : Quad) : Prop :=
  ∀ p, p = j.tl ∨ p = j.tr ∨ p = j.br ∨ p = j.bl → Int.fract |p.x| ≤ t ∧ Int.fract |p.y| ≤ t

/-- The jitter is small in comparison with both sides: for squares less than one third, for elongated images less. -/
def Small (j : Quad) (h w : Nat) : Prop := ∃ t, AtMost t j ∧ t * (h + w + min h w : Nat) < (min h w : Nat)

/-- One of the four points. -/
def Quad.Has (q : Quad) (p : Pt) : Prop := p = q.tl ∨ p = q.tr ∨ p = q.br ∨ p = q.bl

/-- In the image or on its border. -/
def Within (h w : Nat) (p : Pt) : Prop := 0 ≤ p.x ∧ p.x ≤ w ∧ 0 ≤ p.y ∧ p.y ≤ h

/-- The points are far enough from each other: both widths and both heights are at least 2. -/
def Roomy (q : Quad) : Prop := 2 ≤ minWidth q ∧ 2 ≤ minHeight q

/-- The middle of the pixel with the (possibly fractional) index `p`. -/
def middle (p : Pt) : Pt := ⟨p.x + 1 / 2, p.y + 1 / 2⟩

/-- No jitter. -/
def still : Quad := ⟨⟨0, 0⟩, ⟨0, 0⟩, ⟨0, 0⟩, ⟨0, 0⟩⟩

/-- Where the position `u` (as fraction of the sides of an `h` x `w` array) ends, as fraction of the sides of the result. -/
def share (s : Sample) (h w : Nat) (u : Pt) : Pt := ⟨(s.m.apply ⟨u.x * w, u.y * h⟩).x / s.w, (s.m.apply ⟨u.x * w, u.y * h⟩).y / s.h⟩

/-- What is assumed of `cv2.warpPerspective` where a theorem says so: the matrix that moves nothing changes nothing. -/
def KeepsStill (warp : Warp) : Prop := ∀ d b r (h w : Nat) f, ∀ y < h, ∀ x < w, warp d ⟨1, 0, 0, 0, 1, 0, 0, 0, 1⟩ b r h w h w f y x = f y x

/-- The same jitter for all corners. -/
def evenly (t : ℚ) : Quad := ⟨⟨t, t⟩, ⟨t, t⟩, ⟨t, t⟩, ⟨t, t⟩⟩

/-- The jitter that turns a 7 x 7 image. -/
def turning : Quad := ⟨⟨3 / 7, 0⟩, ⟨0, 3 / 7⟩, ⟨3 / 7, 0⟩, ⟨0, 3 / 7⟩⟩

end Imgaug.Perspective
