import Verif.Model.Normalize
/-! Vocabulary for the statements in Props/Normalize.lean. -/
namespace Imgaug.Props
open Imgaug
variable {ε ω : Type}

mutual
/-- A value without the distinction between lists and tuples, except for tuples of numbers (which describe one object). -/
def untuple : PyVal ε ω → PyVal ε ω
  | .list l => .list (untupleL l)
  | .tuple l => if l ≠ [] ∧ l.all PyVal.isNum = true then .tuple l else .list (untupleL l)
  | v => v
def untupleL : List (PyVal ε ω) → List (PyVal ε ω)
  | [] => []
  | v :: vs => untuple v :: untupleL vs
end

mutual
/-- A value and everything inside it. -/
def subvals : PyVal ε ω → List (PyVal ε ω)
  | .list l => .list l :: subvalsL l
  | .tuple l => .tuple l :: subvalsL l
  | v => [v]
def subvalsL : List (PyVal ε ω) → List (PyVal ε ω)
  | [] => []
  | v :: vs => subvals v ++ subvalsL vs
end

/-- All rows of numbers in an array. -/
def NArr.rows : NArr → List (List ℚ)
  | .d2 r => r
  | .d3 r => r.flatten
  | .d4 r => r.flatten.flatten
  | .bad => []

/-- What must hold of an input so that its numbers can survive: array entries are values of the array's dtype, all arrays have
the same dtype, and an object made from a row of numbers has these numbers (for boxes: `x1 ≤ x2`, `y1 ≤ y2`). -/
structure Faithful (F : Fam ε ω) (v : PyVal ε ω) : Prop where
  representable : ∀ dt a, .arr dt a ∈ subvals v → ∀ r ∈ NArr.rows a, ∀ q ∈ r, dt.restore q = q
  oneDtype : ∀ dt a dt' a', .arr dt a ∈ subvals v → .arr dt' a' ∈ subvals v → dt = dt'
  arrRows : ∀ dt a, .arr dt a ∈ subvals v → ∀ r ∈ NArr.rows a, ∀ e, F.make r = some e → F.nums e = r
  tupRows : ∀ x ∈ subvals v, ∀ r, x = .tuple (r.map .num) → ∀ e, F.make r = some e → F.nums e = r

/-- The result of an augmentation of normalised image `a` (three axes) that belongs to input image `o` keeps the number of
channels if it is one for two-axis inputs. -/
def KeepsOneChannel (a o : ImArr) : Prop :=
  (∃ h w c, a.dims = [h, w, c]) ∧ (o.dims.length = 2 → ∃ h w, a.dims = [h, w, 1])

end Imgaug.Props
