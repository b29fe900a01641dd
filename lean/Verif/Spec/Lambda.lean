import Verif.Model.Lambda
import Verif.Spec.Boxes
/-! What the augmenters with user-defined functions should do. -/
namespace Imgaug.Lambda.Spec
open Imgaug Imgaug.Lambda

/-- A function for keypoints that moves every point by `T` and gives images the shape `S`. -/
def moving (T : Pt → Pt) (S : Shape → Shape) (l : List KPsOnImage) : Ret KPsOnImage :=
  .items (l.map (fun k => some ⟨k.kps.map T, S k.shape⟩))

/-- `r` is the smallest box around the four moved corners of `b`, with its label. -/
def Moved (T : Pt → Pt) (b r : BB) : Prop :=
  let cs := [T ⟨b.x1, b.y1⟩, T ⟨b.x2, b.y1⟩, T ⟨b.x2, b.y2⟩, T ⟨b.x1, b.y2⟩]
  r.label = b.label ∧ (∀ c ∈ cs, r.x1 ≤ c.x ∧ c.x ≤ r.x2 ∧ r.y1 ≤ c.y ∧ c.y ≤ r.y2) ∧
  (∃ c ∈ cs, c.x = r.x1) ∧ (∃ c ∈ cs, c.x = r.x2) ∧ (∃ c ∈ cs, c.y = r.y1) ∧ (∃ c ∈ cs, c.y = r.y2)

/-- The polygon is left as it is by its constructor. -/
def Open (p : Polygon) : Prop := Polygon.init p.exterior p.label = p

/-- The point is on the image. -/
def OnImage (p : Pt) (s : Shape) : Prop := 0 ≤ p.x ∧ p.x < s.w ∧ 0 ≤ p.y ∧ p.y < s.h

/-- A polygon with four corners and one that crosses itself. -/
def square : Polygon := ⟨[⟨0, 0⟩, ⟨4, 0⟩, ⟨4, 4⟩, ⟨0, 4⟩], some "a"⟩
def bowTie : Polygon := ⟨[⟨0, 0⟩, ⟨4, 4⟩, ⟨4, 0⟩, ⟨0, 4⟩], some "a"⟩

/-- shapely and scipy on polygons as above: the bow tie is not valid; its points are not duplicated, it is no line, its edges cross in the
middle, the hull of the points are the first four. -/
def demoEnv : Recover.Env where
  valid := fun l => l != bowTie.exterior
  same := fun p q => p == q
  fixLine := id
  jitter := id
  inter := fun l => l.map (fun _ => [])
  hull := fun _ => [0, 2, 1, 3]
  order := fun _ l => l

end Imgaug.Lambda.Spec
