import Verif.Model.Piecewise
import Verif.Spec.AffineArgs
import Verif.Spec.Dtypes
/-! Vocabulary for the statements in Props/Piecewise.lean. -/
namespace Imgaug.Piecewise
open Imgaug Imgaug.Params Imgaug.AffineArgs Imgaug.Dtypes

/-- The arguments are as documented. -/
structure Args.Valid (a : Args) : Prop where
  scale : NumOk (.interval (some 0) none) true a.scale
  rows : NumOk (.interval (some 2) none) false a.rows
  cols : NumOk (.interval (some 2) none) false a.cols
  order : ∀ v, a.order = .val v → (∃ i, v = .atom (.par i)) ∨ (∃ z, v = int z ∧ OrderOk .skimage z) ∨
    ∃ l : List Int, v = .iter (l.map (fun (z : Int) => .num ⟨true, z⟩)) ∧ ∀ z ∈ l, OrderOk .skimage z
  cval : ∀ v, a.cval = .val v → NumOk .none true v
  mode : a.mode ≠ .other ∧ ∀ l, a.mode = .list l → none ∉ l

/-- No argument is an empty list, and python integers have integer values. -/
structure Args.Filled (a : Args) : Prop where
  scale : AffineArgs.Val.Filled a.scale
  rows : AffineArgs.Val.Filled a.rows
  cols : AffineArgs.Val.Filled a.cols
  order : a.order ≠ .val (.iter [])
  cval : a.cval ≠ .val (.iter [])
  mode : a.mode ≠ .list []
  rowsInts : IntNums a.rows
  colsInts : IntNums a.cols
  orderInts : ∀ v, a.order = .val v → IntNums v

/-- The transformation is piecewise affine between the points: on the rectangle that the grid covers, every position is a weighted mean of
grid points, and is mapped to the same mean of their new positions. -/
def Follows (T : Pos → Pos) (pts : Points) (h w : Nat) : Prop :=
  ∀ p : Pos, 0 ≤ p.1 → p.1 ≤ h → 0 ≤ p.2 → p.2 ≤ w → ∃ l : List (ℚ × Pos × Pos),
    (∀ e ∈ l, 0 ≤ e.1 ∧ e.2 ∈ pts) ∧ (l.map (fun e => e.1)).sum = 1 ∧
    p.1 = (l.map (fun e => e.1 * e.2.1.1)).sum ∧ p.2 = (l.map (fun e => e.1 * e.2.1.2)).sum ∧
    (T p).1 = (l.map (fun e => e.1 * e.2.2.1)).sum ∧ (T p).2 = (l.map (fun e => e.1 * e.2.2.2)).sum

/-- Interpolation yields the pixel at whole positions inside of the array. -/
def Exact (I : Interp) : Prop :=
  ∀ (h w : Nat) (order : ℚ) (mode : String) (cval : ℚ) (f : Nat → Nat → ℚ) (y x : Nat), y < h → x < w → I h w order mode cval f (at' y x) = f y x

/-- With order 0, interpolation picks a pixel of the array, or the fill value. -/
def Picks (I : Interp) : Prop :=
  ∀ (h w : Nat) (mode : String) (cval : ℚ) (f : Nat → Nat → ℚ) (p : Pos), I h w 0 mode cval f p = cval ∨ ∃ y x, y < h ∧ x < w ∧ I h w 0 mode cval f p = f y x

/-- Linear interpolation with the fill value 0: a weighted mean of the pixels (with a total weight below 1 at the border), in which a pixel has
the weight 1 exactly at its own position. -/
def Averages (L : Linear) : Prop :=
  ∀ (h w : Nat) (p : Pos), ∃ a : Nat × Nat → ℝ, (∀ q, 0 ≤ a q) ∧ ∑ q ∈ Finset.range h ×ˢ Finset.range w, a q ≤ 1 ∧
    (∀ f : Nat → Nat → ℝ, L h w f p = ∑ q ∈ Finset.range h ×ˢ Finset.range w, a q * f q.1 q.2) ∧
    ∀ y x : Nat, y < h → x < w → (a (y, x) = 1 ↔ p = at' y x)

/-- Pixels in reading order. -/
def Before (q q' : Nat × Nat) : Prop := q.1 < q'.1 ∨ q.1 = q'.1 ∧ q.2 < q'.2

/-- Something is to be done: some point moves down or to the right, and the array is large enough. -/
def Active (arr img : Affine.Shape) (r : Row) : Prop :=
  (∃ j ∈ r.jitter, 0 < j.1 ∨ 0 < j.2) ∧ 1 < arr.h ∧ 1 < arr.w ∧ arr.c ≠ some 0 ∧ img.c ≠ some 0

/-- An interpolation for examples: the pixel at whole positions, otherwise the fill value. -/
def demoInterp : Interp := fun h w _ _ cval f p =>
  if p = at' p.1.floor.toNat p.2.floor.toNat ∧ p.1.floor.toNat < h ∧ p.2.floor.toNat < w then f p.1.floor.toNat p.2.floor.toNat else cval

/-- The same for distance maps. -/
def demoLinear : Linear := fun h w f p =>
  if p = at' p.1.floor.toNat p.2.floor.toNat ∧ p.1.floor.toNat < h ∧ p.2.floor.toNat < w then f p.1.floor.toNat p.2.floor.toNat else 0

/-- A grid of two rows and two columns whose first point is moved. -/
def demoRow : Row := ⟨2, 2, [(1 / 10, 1 / 10), (0, 0), (0, 0), (0, 0)], 1, 0, "constant"⟩

/-- The points of `demoRow` on an array of 10 rows and columns. -/
def demoPoints : Points := [((0, 0), (1, 1)), ((0, 10), (0, 9)), ((10, 0), (9, 0)), ((10, 10), (9, 9))]

/-- The weights of the corners of an array of 10 rows and columns. -/
def demoWeights (p : Pos) : List ℚ :=
  [(1 - p.1 / 10) * (1 - p.2 / 10), (1 - p.1 / 10) * (p.2 / 10), p.1 / 10 * (1 - p.2 / 10), p.1 / 10 * (p.2 / 10)]

/-- A transformation that follows `demoPoints`. -/
def demoT (p : Pos) : Pos :=
  (((demoWeights p).zipWith (fun a e => a * e.2.1) demoPoints).sum, ((demoWeights p).zipWith (fun a e => a * e.2.2) demoPoints).sum)

end Imgaug.Piecewise
