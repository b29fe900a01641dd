import Verif.Model.Polar
/-! Specification for C109. -/
namespace Imgaug.Polar
open Imgaug Imgaug.Dtypes

/-- Euclidean distance. -/
noncomputable def dist2 (p q : P) : ℝ := Real.sqrt ((p.1 - q.1) ^ 2 + (p.2 - q.2) ^ 2)

/-- The computed angle of `(x, y)` differs by at most `ε` from its angle, and is between 0 and a full turn. -/
def Angles (angle : ℝ → ℝ → ℝ) (ε : ℝ) : Prop :=
  ∀ x y, 0 ≤ angle x y ∧ angle x y ≤ 2 * Real.pi ∧
    ∃ θ, x = Real.sqrt (x ^ 2 + y ^ 2) * Real.cos θ ∧ y = Real.sqrt (x ^ 2 + y ^ 2) * Real.sin θ ∧ |angle x y - θ| ≤ ε

/-- The centre of an image. -/
noncomputable def middle (s : Shp) : P := ((s.w : ℝ) / 2, (s.h : ℝ) / 2)

/-- Half of the diagonal of an image. -/
noncomputable def halfDiagonal (s : Shp) : ℝ := Real.sqrt ((s.h : ℝ) ^ 2 + (s.w : ℝ) ^ 2) / 2

/-- The point at the distance `m` from `c` in the direction `θ`. -/
noncomputable def at' (c : P) (m θ : ℝ) : P := (c.1 + m * Real.cos θ, c.2 + m * Real.sin θ)

/-- Rotation of a point around `c`. -/
noncomputable def rotated (c : P) (α : ℝ) (p : P) : P :=
  (c.1 + (p.1 - c.1) * Real.cos α - (p.2 - c.2) * Real.sin α, c.2 + (p.1 - c.1) * Real.sin α + (p.2 - c.2) * Real.cos α)

/-- All points replaced. -/
def OnImage.mapPts (f : P → P) (a : OnImage) : OnImage := { a with items := a.items.map (fun it => { it with pts := it.pts.map f }) }

/-- Item by item, the labels are equal, and point by point `R` holds. -/
def Items (R : P → P → Prop) (a b : List Item) : Prop := List.Forall₂ (fun x y => x.label = y.label ∧ List.Forall₂ R x.pts y.pts) a b

/-- Row by row `R` holds, if there are rows. -/
def Rows {α β : Type} (R : α → β → Prop) : Option (List α) → Option (List β) → Prop
  | none, none => True
  | some a, some b => List.Forall₂ R a b
  | _, _ => False

/-- Every row of the result stems from the row with the same number. -/
def Each {α β : Type} (R : α → β → Prop) (x : Option (List α)) (z : Option (List β)) : Prop :=
  ∀ l, z = some l → ∃ l', x = some l' ∧ ∀ (i : Nat) (b : β), l[i]? = some b → ∃ a, l'[i]? = some a ∧ R a b

/-- The same shape, labels and numbers of points; points moved by at most `ε` times their distance from the centre of the image. -/
def Moved (ε : ℝ) (a b : OnImage) : Prop :=
  a.shape = b.shape ∧ Items (fun p q => dist2 p q ≤ ε * dist2 p (middle a.shape)) a.items b.items

/-- The labels of the items. -/
def labels (a : OnImage) : List (Option String) := a.items.map (fun it => it.label)

/-- No polygon of the user has a label that looks like a marked bounding box. -/
def Unmarked (a : OnImage) : Prop := ∀ it ∈ a.items, unmarked it.label = none

/-- `b` is a box with ordered coordinates. -/
def Box.Ordered (b : Box) : Prop := b.x1 ≤ b.x2 ∧ b.y1 ≤ b.y2

/-- The coordinates differ by at most `δ`, the label is the same. -/
def BoxNear (δ : ℝ) (a b : Box) : Prop :=
  a.label = b.label ∧ |a.x1 - b.x1| ≤ δ ∧ |a.y1 - b.y1| ≤ δ ∧ |a.x2 - b.x2| ≤ δ ∧ |a.y2 - b.y2| ≤ δ

/-- No point of the box is farther than `D` from the centre of the image. -/
def Within (s : Shp) (D : ℝ) (b : Box) : Prop := ∀ x y, b.x1 ≤ x → x ≤ b.x2 → b.y1 ≤ y → y ≤ b.y2 → dist2 (x, y) (middle s) ≤ D

/-- The point is on the border of the box. -/
def OnBorder (b : Box) (p : P) : Prop :=
  (b.x1 ≤ p.1 ∧ p.1 ≤ b.x2 ∧ b.y1 ≤ p.2 ∧ p.2 ≤ b.y2) ∧ (p.1 = b.x1 ∨ p.1 = b.x2 ∨ p.2 = b.y1 ∨ p.2 = b.y2)

/-- All four corners of the box and the points that divide its edges into three equal parts are among the points, nothing else, and all points
are on the border of the box. -/
def Outline (b : Box) (l : List P) : Prop :=
  (∀ p ∈ l, OnBorder b p) ∧ (b.x1, b.y1) ∈ l ∧ (b.x2, b.y1) ∈ l ∧ (b.x2, b.y2) ∈ l ∧ (b.x1, b.y2) ∈ l ∧ l.length = 12 ∧
  ∀ t : ℝ, t = 1 / 3 ∨ t = 2 / 3 → ∀ x y : ℝ, x = b.x1 + t * (b.x2 - b.x1) → y = b.y1 + t * (b.y2 - b.y1) →
    (x, b.y1) ∈ l ∧ (x, b.y2) ∈ l ∧ (b.x1, y) ∈ l ∧ (b.x2, y) ∈ l

/-- `cv2.warpPolar` without interpolation: with interpolation flag 0 (`INTER_NEAREST`) every component is one of the source, or zero. -/
def Nearest (cv : Cv) : Prop := ∀ (c : Call) (h w : Nat) (ch : Chan) (y x : Nat), c.flags % 8 = 0 →
  cv c h w ch y x = 0 ∨ ∃ y' x', y' < h ∧ x' < w ∧ cv c h w ch y x = ch y' x'

/-- `cv2.warpPolar` without loss: the same call with the flag for the inverse (16) and the size of the source returns the source. -/
def Undoes (cv : Cv) : Prop := ∀ (c : Call) (h w : Nat) (ch : Chan) (y x : Nat), c.dest = (0, 0) → c.flags < 16 → y < h → x < w →
  cv ⟨(w, h), c.center, c.radius, c.flags + 16⟩ (resultSize c).1 (resultSize c).2 (cv c h w ch) y x = ch y x

/-- The same size, dtype and components. -/
def Same (a b : Arr) : Prop := b.h = a.h ∧ b.w = a.w ∧ b.dt = a.dt ∧ List.Forall₂ (fun (p q : Chan) => ∀ y x, y < a.h → x < a.w → q y x = p y x) a.chans b.chans

/-- Every component of `b` is zero or a component of the same channel of `a`. -/
def NoNew (a b : Arr) : Prop := List.Forall₂ (fun (p q : Chan) => ∀ y x, y < b.h → x < b.w → q y x = 0 ∨ ∃ y' x', y' < a.h ∧ x' < a.w ∧ q y x = p y' x') a.chans b.chans

/-- The components are such that the dtype holds them: 0 and 1 for bools; float16 numbers are not changed by `f16`. -/
def Arr.Ok (f16 : ℚ → ℚ) (a : Arr) : Prop := ∀ ch ∈ a.chans, ∀ y x, y < a.h → x < a.w →
  (a.dt.kind = .b → ch y x = 0 ∨ ch y x = 1) ∧ (a.dt = ⟨.f, 2⟩ → f16 (ch y x) = ch y x)

/-- Neither the array nor its polar version has a side of more than 32767 pixels. -/
def Arr.Fits (a : Arr) : Prop := a.empty ∨ (a.h ≤ 32767 ∧ a.w ≤ 32767 ∧ Real.pi * Real.sqrt ((a.h : ℝ) ^ 2 + (a.w : ℝ) ^ 2) / 2 ≤ 32767)

/-- Boxes and polygons of a batch are about the same images. -/
def SameShapes (b : Batch) : Prop := ∀ bs ps, b.boxes = some bs → b.polys = some ps → List.Forall₂ (fun (x : Boxes) (y : OnImage) => x.shape = y.shape) bs ps

end Imgaug.Polar
