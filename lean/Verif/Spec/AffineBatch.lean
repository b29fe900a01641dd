import Verif.Model.AffineBatch
import Verif.Spec.AffineArgs
import Verif.Spec.Dtypes
/-! Vocabulary for the statements in Props/AffineBatch.lean, and what is assumed of the libraries. -/
namespace Imgaug.AffineBatch
open Imgaug Imgaug.Dtypes Imgaug.Affine Imgaug.AffineArgs

/-- The dtypes that the documentation lists for a backend and an order. -/
def Supported (b : Backend) (order : ℚ) (d : DType) : Prop :=
  match b with
  | .cv2 => d ∈ [(⟨.b, 1⟩ : DType), ⟨.u, 1⟩, ⟨.u, 2⟩, ⟨.i, 1⟩, ⟨.i, 2⟩, ⟨.f, 2⟩, ⟨.f, 4⟩, ⟨.f, 8⟩] ∨ (d = ⟨.i, 4⟩ ∧ order = 0)
  | _ => d ∈ [(⟨.b, 1⟩ : DType), ⟨.u, 1⟩, ⟨.u, 2⟩, ⟨.u, 4⟩, ⟨.i, 1⟩, ⟨.i, 2⟩, ⟨.i, 4⟩, ⟨.f, 2⟩, ⟨.f, 4⟩, ⟨.f, 8⟩]

/-- The pixels of a channel are values of a dtype. -/
def Pixels (d : DType) (h w : Nat) (ch : Chan) : Prop := ∀ x y, x < w → y < h → Holds d (ch y x)

/-- What is assumed of a library that turns arrays of dtype `d` into arrays of dtype `out d`. -/
structure LibOk (lib : Lib) (out : DType → DType) : Prop where
  /-- The results are values of the new dtype. -/
  typed : ∀ (c : Call) (d : DType) (h w : Nat) (ch : Chan) (x y : Nat), Pixels d h w ch → Holds (out d) (lib c d h w ch y x)
  /-- The content of a pixel that is moved exactly onto another pixel is found there. -/
  moves : ∀ (c : Call) (d : DType) (h w : Nat) (ch : Chan) (x y x' y' : Nat), Pixels d h w ch → Pixels (out d) h w ch →
    Function.Injective c.matrix.apply → x < w → y < h → x' < c.w → y' < c.h →
    c.matrix.apply ((x : ℝ), (y : ℝ)) = ((x' : ℝ), (y' : ℝ)) → lib c d h w ch y' x' = ch y x
  /-- Interpolation of order 0 copies pixels; in mode `constant` it may also use the fill value. -/
  copies : ∀ (c : Call) (d : DType) (h w : Nat) (ch : Chan) (x' y' : Nat), Pixels d h w ch → Pixels (out d) h w ch → c.order = 0 → 0 < h → 0 < w →
    Holds (out d) c.cval → (c.mode = "constant" ∧ lib c d h w ch y' x' = c.cval) ∨ ∃ x y, x < w ∧ y < h ∧ lib c d h w ch y' x' = ch y x

/-- Both libraries: cv2 keeps dtypes, skimage yields float64. -/
structure LibsOk (cv sk : Lib) : Prop where
  cv : LibOk cv id
  sk : LibOk sk (fun _ => ⟨.f, 8⟩)

/-- All pixels of an array are values of its dtype. -/
def Arr.Valid (a : Arr) : Prop := a.dt ∈ all ∧ ∀ ch ∈ a.chans, Pixels a.dt a.h a.w ch

/-- The pixel in column `x` and row `y` of channel `c`, if there is one. -/
def Arr.at (a : Arr) (c x y : Nat) : Option ℚ := if x < a.w ∧ y < a.h then (a.chans[c]?).map (fun ch => ch y x) else none

/-- What a fill value becomes in an array of a dtype. -/
def FillOf (d : DType) (v f : ℚ) : Prop :=
  match d.kind with
  | .b => f = 0 ∨ f = 1
  | .f => f = v
  | _ => f = pyInt v ∨ f = npRound v

/-- A column of results: there is one iff there was one, with as many elements, and every element is related to its old one and the samples of
its row. -/
def Column {α β : Type} (R : Row → α → β → Prop) (rows : List Row) (x : Option (List α)) (y : Option (List β)) : Prop :=
  match x, y with
  | none, none => True
  | some l, some l' => l'.length = l.length ∧
      ∀ (i : Nat) (a : α), l[i]? = some a → ∃ (r : Row) (b : β), rows[i]? = some r ∧ l'[i]? = some b ∧ R r a b
  | _, _ => False

/-- Every column of the batch that is there has `n` elements. -/
structure Batch.Rows (b : Batch) (n : Nat) : Prop where
  images : ∀ l, b.images = some l → l.length = n
  heatmaps : ∀ l, b.heatmaps = some l → l.length = n
  segmaps : ∀ l, b.segmaps = some l → l.length = n
  kps : ∀ l, b.kps = some l → l.length = n
  boxes : ∀ l, b.boxes = some l → l.length = n
  polys : ∀ l, b.polys = some l → l.length = n
  lines : ∀ l, b.lines = some l → l.length = n

/-- The array `b` shows the content of the array `a` moved by `T`: what was in a pixel is found in the pixel with the place, as a subpixel
coordinate, to which `T` takes its middle. -/
def Arr.MovedBy (T : ℝ × ℝ → ℝ × ℝ) (a b : Arr) : Prop :=
  ∀ (c x y x' y' : Nat) (v : ℚ), a.at c x y = some v → x' < b.w → y' < b.h →
    T (middle ((x : ℝ), (y : ℝ))) = middle ((x' : ℝ), (y' : ℝ)) → b.at c x' y' = some v

/-- The middle of a pixel of an image is taken to the middle of the same pixel that now shows its content. -/
def PointsMovedBy (T : ℝ × ℝ → ℝ × ℝ) (s : Shape) (l l' : List (ℝ × ℝ)) : Prop :=
  l'.length = l.length ∧ ∀ (i : Nat) (x y x' y' : Nat), x < s.w → y < s.h → l[i]? = some (middle ((x : ℝ), (y : ℝ))) →
    T (middle ((x : ℝ), (y : ℝ))) = middle ((x' : ℝ), (y' : ℝ)) → l'[i]? = some (middle ((x' : ℝ), (y' : ℝ)))

/-- What is said about samples and the shape of an image: at most 1000 pixels high and wide but not empty, no scale is zero, and nothing is left
out (`Regular`). -/
structure Usual (p : Samples) (s : Shape) : Prop where
  w : s.w ≤ 1000
  h : s.h ≤ 1000
  notEmpty : ¬ s.hasZero
  regular : p.Regular s
  scaleX : p.scaleX ≠ 0
  scaleY : p.scaleY ≠ 0

/-- Some place of an image of at most 1000 by 1000 pixels is moved by a pixel or more. -/
def Noticeable (T : ℝ × ℝ → ℝ × ℝ) : Prop := ∃ u : ℝ × ℝ, |u.1| ≤ 1000 ∧ |u.2| ≤ 1000 ∧ (1 ≤ |(T u).1 - u.1| ∨ 1 ≤ |(T u).2 - u.2|)

/-- The box `b'` is the smallest one with the moved content of the box `b`. -/
def BoxMovedBy (T : ℝ × ℝ → ℝ × ℝ) (b b' : ℝ × ℝ × ℝ × ℝ) : Prop :=
  (∀ u, InRect b.1 b.2.1 b.2.2.1 b.2.2.2 u → InRect b'.1 b'.2.1 b'.2.2.1 b'.2.2.2 (T u)) ∧
  ∀ l t r o, (∀ u, InRect b.1 b.2.1 b.2.2.1 b.2.2.2 u → InRect l t r o (T u)) → l ≤ b'.1 ∧ t ≤ b'.2.1 ∧ b'.2.2.1 ≤ r ∧ b'.2.2.2 ≤ o

/-- What the linear part of the transformation makes of the corner pixels of an image: the coordinates on one of the axes. -/
noncomputable def cornersOf (f : ℝ × ℝ → ℝ) (s : Shape) : Fin 4 → ℝ :=
  ![f (0, 0), f (0, (s.h : ℝ) - 1), f ((s.w : ℝ) - 1, (s.h : ℝ) - 1), f ((s.w : ℝ) - 1, 0)]

/-- The smallest of them. -/
noncomputable def least (f : ℝ × ℝ → ℝ) (s : Shape) : ℝ := min (min (cornersOf f s 0) (cornersOf f s 1)) (min (cornersOf f s 2) (cornersOf f s 3))

/-- The largest of them. -/
noncomputable def most (f : ℝ × ℝ → ℝ) (s : Shape) : ℝ := max (max (cornersOf f s 0) (cornersOf f s 1)) (max (cornersOf f s 2) (cornersOf f s 3))

/-- The transformation with `fit_output`: rotated, scaled and sheared, and then moved to the upper left corner. -/
noncomputable def fittedMove (p : Samples) (s : Shape) (u : ℝ × ℝ) : ℝ × ℝ :=
  ((linear p u).1 - least (fun v => (linear p v).1) s, (linear p u).2 - least (fun v => (linear p v).2) s)

/-- The size of the image with `fit_output`: all columns and rows from the first to the last of the moved corners. -/
noncomputable def fittedShape (p : Samples) (s : Shape) : Shape :=
  ⟨⌈most (fun v => (linear p v).2) s - least (fun v => (linear p v).2) s + 1⌉.toNat,
   ⌈most (fun v => (linear p v).1) s - least (fun v => (linear p v).1) s + 1⌉.toNat, s.c⟩

/-- The transformation moves nothing by more than 0.0009 times its distance. -/
def HardlyMoves (T : ℝ × ℝ → ℝ × ℝ) : Prop :=
  ∀ (u : ℝ × ℝ) (c : ℝ), 1 ≤ c → |u.1| ≤ c → |u.2| ≤ c → |(T u).1 - u.1| ≤ 9 / 10000 * c ∧ |(T u).2 - u.2| ≤ 9 / 10000 * c

/-- As `Usual`, and not the case in which the image isn't moved to the upper left corner. -/
structure UsualFit (p : Samples) (s : Shape) : Prop where
  usual : Usual p s
  fits : Fittable p s 0
  fits' : Fittable p s (1 / 2)

/-- The array `b` shows the content of the array `a` moved by `T`, which takes indices of pixels to indices of pixels. -/
def Arr.PixelsMovedBy (T : ℝ × ℝ → ℝ × ℝ) (a b : Arr) : Prop :=
  ∀ (c x y x' y' : Nat) (v : ℚ), a.at c x y = some v → x' < b.w → y' < b.h → T ((x : ℝ), (y : ℝ)) = ((x' : ℝ), (y' : ℝ)) → b.at c x' y' = some v

open Classical in
/-- The pixel that is moved onto a place; if there is none, the fill value or the first pixel. -/
noncomputable def pick (c : Call) (h w : Nat) (ch : Chan) (y' x' : Nat) : ℚ :=
  if hx : ∃ p : Nat × Nat, p.1 < w ∧ p.2 < h ∧ c.matrix.apply ((p.1 : ℝ), (p.2 : ℝ)) = ((x' : ℝ), (y' : ℝ))
  then ch hx.choose.2 hx.choose.1 else if c.mode = "constant" then c.cval else ch 0 0

open Classical in
/-- A library that moves single pixels and fills the rest. -/
noncomputable def spots (out : DType → DType) : Lib := fun c d h w ch y' x' => if Holds (out d) (pick c h w ch y' x') then pick c h w ch y' x' else 0

end Imgaug.AffineBatch
