import Verif.Model.Pad
import Verif.Spec.Dtypes
import Verif.Spec.Size
import Verif.Spec.Size2
/-! What padding should do. -/
namespace Imgaug.Pad
open Imgaug Imgaug.Dtypes Imgaug.Size

/-- An array with two axes counts as one channel. -/
def WellFormed (a : Draw.Img) : Prop := a.flat = true → a.c = 1

/-- There is one value, or one per channel. -/
def Matches (cval : Cval) (c : Nat) : Prop :=
  match cval with
  | .one _ => True
  | .many l => 1 ≤ c ∧ l.length = c

/-- The value for a channel. -/
def valueFor (cval : Cval) (ch : Nat) : ℚ :=
  match cval with
  | .one v => v
  | .many l => l.getD ch 0

/-- `r` is `v` as stored in an array of the dtype: in the range of the dtype, without the digits after the point if it is no float, and 0 or 1 for
booleans. -/
def StoredAs (d : DType) (v r : ℚ) : Prop :=
  match d.kind with
  | .f => r = clamp d v
  | .b => (clamp d v = 0 ∧ r = 0) ∨ (clamp d v ≠ 0 ∧ r = 1)
  | _ => ∃ n : Int, r = n ∧ |r| ≤ |clamp d v| ∧ |clamp d v| < |r| + 1 ∧ 0 ≤ r * clamp d v

/-- On an axis of size `n`, padded with the mode, the index `j` is shown at position `i` (the first index is at position 0). "edge" repeats the first and the
last index; "reflect" mirrors at the first and at the last index, "symmetric" mirrors at the border before the first and behind the last index. -/
def Shows (m : Mode) (n : Nat) (i : Int) (j : Nat) : Prop :=
  match m with
  | .edge => (i < 0 ∧ j = 0) ∨ (0 ≤ i ∧ i < n ∧ j = i) ∨ ((n : Int) ≤ i ∧ j + 1 = n)
  | .reflect => j < n ∧ (n = 1 ∨ ∃ k : Int, i = 2 * ((n : Int) - 1) * k + j ∨ i = 2 * ((n : Int) - 1) * k - j)
  | .symmetric => j < n ∧ ∃ k : Int, i = 2 * (n : Int) * k + j ∨ i = 2 * (n : Int) * k - 1 - j
  | _ => False

/-- The padded array has the right size and shows the array in the middle. -/
def InMiddle (a r : Draw.Img) (t : Trbl) : Prop :=
  r.dt = a.dt ∧ r.c = a.c ∧ r.flat = a.flat ∧ (r.h : Int) = t.top + a.h + t.bottom ∧ (r.w : Int) = t.left + a.w + t.right ∧
    ∀ y x ch, y < a.h → x < a.w → ch < a.c → r.px (t.top.toNat + y) (t.left.toNat + x) ch = a.px y x ch

/-- The pixel of a padded array belongs to the border. -/
def OnBorder (a : Draw.Img) (t : Trbl) (y x : Nat) : Prop :=
  (y : Int) < t.top ∨ t.top + a.h ≤ y ∨ (x : Int) < t.left ∨ t.left + a.w ≤ x

/-- The sums of two amounts of padding. -/
def both (t s : Trbl) : Trbl := ⟨t.top + s.top, t.right + s.right, t.bottom + s.bottom, t.left + s.left⟩

/-- The same dtype, sizes and pixels. -/
def Same (a b : Draw.Img) : Prop :=
  a.dt = b.dt ∧ a.h = b.h ∧ a.w = b.w ∧ a.c = b.c ∧ a.flat = b.flat ∧ ∀ y x ch, y < a.h → x < a.w → ch < a.c → a.px y x ch = b.px y x ch

/-- One channel as array. -/
def channel (a : Draw.Img) (ch : Nat) : Draw.Img := { a with c := 1, px := fun y x _ => a.px y x ch }

end Imgaug.Pad
