import Verif.Model.Isect
/-! Specification of crossing segments. -/
namespace Imgaug.Isect
open Imgaug

/-- The point lies on the segment, ends included. -/
def OnSeg (p : Pt) (s : Seg) : Prop := ∃ t : ℚ, 0 ≤ t ∧ t ≤ 1 ∧ p.x = s.1.x + t * (s.2.x - s.1.x) ∧ p.y = s.1.y + t * (s.2.y - s.1.y)

/-- The point lies on the line through two points. -/
def OnLine (p a b : Pt) : Prop := ∃ t : ℚ, p.x = a.x + t * (b.x - a.x) ∧ p.y = a.y + t * (b.y - a.y)

/-- The segments have the same direction, or one of them is a point. -/
def Parallel (s t : Seg) : Prop := (s.2.x - s.1.x) * (t.2.y - t.1.y) = (s.2.y - s.1.y) * (t.2.x - t.1.x)

/-- The point is where two segments of different directions cross. -/
def Crosses (p : Pt) (s t : Seg) : Prop := ¬ Parallel s t ∧ OnSeg p s ∧ OnSeg p t

/-- The point is closer than 1/10000 to an end of the segment. -/
def AtEnd (p : Pt) (s : Seg) : Prop :=
  (p.x - s.1.x) ^ 2 + (p.y - s.1.y) ^ 2 < (1 / 10000) ^ 2 ∨ (p.x - s.2.x) ^ 2 + (p.y - s.2.y) ^ 2 < (1 / 10000) ^ 2

/-- The two segments have no end in common. -/
def NoCommonEnd (s t : Seg) : Prop := s.1 ≠ t.1 ∧ s.1 ≠ t.2 ∧ s.2 ≠ t.1 ∧ s.2 ≠ t.2

/-- The edge from a point of an outline to the next one, or to the first one. -/
def IsEdge (l : List Pt) (i : Nat) (s : Seg) : Prop := l[i]? = some s.1 ∧ l[(i + 1) % l.length]? = some s.2

/-- The segment, in one of the two directions, is in the list. -/
def Among (s : Seg) (l : List Seg) : Prop := s ∈ l ∨ (s.2, s.1) ∈ l

/-- Trees contain only what was inserted; `mem` are the contents. -/
structure Tree.Ok {T : Type} (V : Tree T) (mem : T → Ev → Prop) : Prop where
  empty : ∀ e, ¬ mem V.empty e
  insert : ∀ c e t t', V.insert c e t = some t' → ∀ f, mem t' f → f = e ∨ mem t f
  remove : ∀ c e t r, V.remove c e t = some r → ∀ f, mem r.2 f → mem t f
  above : ∀ c e t f, V.above c e t = some f → mem t f
  below : ∀ c e t f, V.below c e t = some f → mem t f
  slice : ∀ c e t f, f ∈ V.slice c e t → mem t f

/-- The square of the distance. -/
def sqDist (a b : Pt) : ℚ := (a.x - b.x) ^ 2 + (a.y - b.y) ^ 2

/-- The outline with coordinates rounded to four decimals. -/
def Rounded (l r : List Pt) : Prop :=
  r.length = l.length ∧ ∀ (i : Nat) (p q : Pt), l[i]? = some p → r[i]? = some q → q = ⟨npRound (p.x * 10000) / 10000, npRound (p.y * 10000) / 10000⟩

/-- What is found are points on segments of the list. -/
def Sound (find : List Seg → Option (List (Pt × List Seg))) : Prop :=
  ∀ l r, find l = some r → ∀ i ∈ r, i.2 ≠ [] ∧ ∀ s ∈ i.2, Among s l ∧ OnSeg i.1 s

/-- By how much an edge with `m` intersection points increases the count of points. -/
def cost (m : Nat) : Nat := if m = 0 then 0 else (3 * m * m + m) / 2 + 1

end Imgaug.Isect
