import Verif.Model.NormRings
import Verif.Spec.Normalize
/-! Vocabulary for the statements in Props/NormRings.lean. -/
namespace Imgaug.NormRings
open Imgaug Imgaug.Props

/-- The point lists in an array. -/
def outlines : NArr → List (List (List ℚ))
  | .d2 r => [r]
  | .d3 r => r
  | .d4 r => r.flatten
  | .bad => []

/-- The array is rectangular, and it has at least one object for each of at least one image. -/
def Rect : NArr → Prop
  | .d2 _ => True
  | .d3 l => l ≠ [] ∧ ∃ k, ∀ x ∈ l, x.length = k
  | .d4 l => l ≠ [] ∧ ∃ p k, 0 < p ∧ ∀ x ∈ l, x.length = p ∧ ∀ y ∈ x, y.length = k
  | .bad => True

/-- What must hold of an input so that its numbers can survive: array entries are values of the array's dtype, all arrays have
the same dtype, are rectangular and without empty axes, tuples of numbers are pairs, and no polygon repeats its first point at
the end. -/
structure Faithful (c : Cls) (v : Val) : Prop where
  representable : ∀ dt a, .arr dt a ∈ subvals v → ∀ r ∈ NArr.rows a, ∀ q ∈ r, dt.restore q = q
  oneDtype : ∀ dt a dt' a', .arr dt a ∈ subvals v → .arr dt' a' ∈ subvals v → dt = dt'
  rect : ∀ dt a, .arr dt a ∈ subvals v → Rect a
  pairs : ∀ r : List ℚ, r ≠ [] → .tuple (r.map .num) ∈ subvals v → r.length = 2
  openLists : ∀ x ∈ subvals v, ∀ pts : List Pt, x.items = some (pts.map tupleOf) ∨ x.items = some (pts.map kpOf) → outline c pts = pts
  openArrays : ∀ dt a, .arr dt a ∈ subvals v → ∀ pts : List Pt, pts.map (fun p => [p.x, p.y]) ∈ outlines a → outline c pts = pts

/-- `v` describes this one object: a polygon or line string, or a list of its points as tuples or keypoints. -/
def ShowsOne (v : Val) (r : List Pt) : Prop :=
  v = .ent (.inr r) ∨ untuple v = .list (r.map tupleOf) ∨ untuple v = .list (r.map kpOf)

/-- `v` describes these objects: a list of them, or an array of their points. -/
def Shows (v : Val) (rs : List (List Pt)) : Prop :=
  (∃ l, v.items = some l ∧ l.length = rs.length ∧ ∀ (j : Nat) x r, l[j]? = some x → rs[j]? = some r →
    ShowsOne x r ∨ ∃ dt, x = .arr dt (.d2 (r.map (fun p => [p.x, p.y])))) ∨
  ∃ dt, v = .arr dt (.d3 (rs.map (fun r => r.map (fun p => [p.x, p.y]))))

end Imgaug.NormRings
