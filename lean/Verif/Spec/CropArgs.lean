import Verif.Model.CropArgs
/-! Vocabulary for the statements in Props/CropArgs.lean. -/
namespace Imgaug.CropArgs
open Imgaug Imgaug.Size

/-- The values that stochastic parameters may yield. -/
abbrev Values := Nat → ℚ → Prop

/-- A value for which a number or parameter stands. -/
def Atom.Allows (P : Values) : Atom → ℚ → Prop
  | .int z, v => v = z
  | .float q, v => v = q
  | .par s i, v => ∃ u, P i u ∧ v = if s then -u else u
  | .other, _ => False

/-- This is a number. -/
def Atom.Is (a : Atom) (q : ℚ) : Prop := (∃ z : Int, a = .int z ∧ q = z) ∨ a = .float q

/-- A value for which an entry for one side stands: a number stands for itself, a tuple for an interval, a list for its elements. -/
def Entry.Allows (P : Values) : Entry → ℚ → Prop
  | .atom a, v => a.Allows P v
  | .tuple l, v => ∃ a b x y, l = [a, b] ∧ a.Is x ∧ b.Is y ∧ min x y ≤ v ∧ v ≤ max x y
  | .list l, v => ∃ a ∈ l, a.Is v

/-- A value for which the argument stands on side `k`: 0 is the top, 1 the right, 2 the bottom, 3 the left side. -/
def Arg.Allows (P : Values) (arg : Arg) (k : Nat) (v : ℚ) : Prop :=
  match arg with
  | .atom a => a.Allows P v
  | .tuple l =>
    if l.length = 2 then ∃ a b x y, l = [.atom a, .atom b] ∧ a.Is x ∧ b.Is y ∧ min x y ≤ v ∧ v ≤ max x y
    else ∃ e, l[k]? = some e ∧ e.Allows P v
  | _ => False

/-- A single value for `px` as documented. -/
def Atom.PxOk (a : Atom) : Prop := (∃ z, a = .int z) ∨ ∃ s i, a = .par s i

/-- An entry for one side for `px` as documented: an integer, a parameter, a pair of integers or a list of integers. -/
def Entry.PxOk : Entry → Prop
  | .atom a => a.PxOk
  | .tuple l => ∃ x y, l = [.int x, .int y]
  | .list l => l ≠ [] ∧ ∀ a ∈ l, ∃ z, a = .int z

/-- A value for `px` as documented: an integer, a parameter, a pair of integers, or four entries. -/
def Arg.PxOk : Arg → Prop
  | .atom a => a.PxOk
  | .tuple l => (∃ x y, l = [.atom (.int x), .atom (.int y)]) ∨ l.length = 4 ∧ ∀ e ∈ l, e.PxOk
  | _ => False

/-- A number above -1. -/
def Atom.Frac (a : Atom) : Prop := ∃ q, a.Is q ∧ -1 < q

/-- As `Atom.PxOk`, `Entry.PxOk` and `Arg.PxOk`, for `percent`. -/
def Atom.PercentOk (a : Atom) : Prop := a.Frac ∨ ∃ s i, a = .par s i

def Entry.PercentOk : Entry → Prop
  | .atom a => a.PercentOk
  | .tuple l => ∃ a b, l = [a, b] ∧ a.Frac ∧ b.Frac
  | .list l => l ≠ [] ∧ ∀ a ∈ l, a.Frac

def Arg.PercentOk : Arg → Prop
  | .atom a => a.PercentOk
  | .tuple l => (∃ a b, l = [.atom a, .atom b] ∧ a.Frac ∧ b.Frac) ∨ l.length = 4 ∧ ∀ e ∈ l, e.PercentOk
  | _ => False

/-- No negative number. -/
def Atom.Nonneg : Atom → Prop
  | .int z => 0 ≤ z
  | .float q => 0 ≤ q
  | .par _ _ => True
  | .other => False

def Entry.Nonneg : Entry → Prop
  | .atom a => a.Nonneg
  | .tuple l => ∀ a ∈ l, a.Nonneg
  | .list l => ∀ a ∈ l, a.Nonneg

/-- There are no negative numbers anywhere in the argument. -/
def Arg.Nonneg : Arg → Prop
  | .none => True
  | .atom a => a.Nonneg
  | .tuple l => ∀ e ∈ l, e.Nonneg
  | .list l => ∀ e ∈ l, e.Nonneg

/-- Stochastic parameters are as passed by the user, not multiplied by -1. -/
def Arg.Plain : Arg → Prop
  | .atom a => ∀ i, a ≠ .par true i
  | .tuple l => ∀ e ∈ l, ∀ i, e ≠ .atom (.par true i)
  | _ => True

/-- The values of a parameter that was created. -/
def Dist.Supports (P : Values) : Dist → ℚ → Prop
  | .det q, v => v = q
  | .discrete a b, v => ∃ z : Int, v = z ∧ min a b ≤ z ∧ z ≤ max a b
  | .uniform a b, v => min a b ≤ v ∧ v ≤ max a b
  | .choice l, v => l ≠ [] → v ∈ l
  | .par s i, v => ∃ u, P i u ∧ v = if s then -u else u

/-- Parameters yield as many values as they are asked for, all among their possible values. -/
structure Ok {σ : Type} (P : Values) (S : Sampler σ) : Prop where
  length : ∀ d n g, (S d n g).1.length = n
  values : ∀ d n g, ∀ v ∈ (S d n g).1, d.Supports P v

/-- The amounts are as requested: allowed by `px`, or fractions of height and width, allowed by `percent`, up to rounding. -/
def Requested (P : Values) (default px percent : Arg) (s : Shape) (t : Trbl) : Prop :=
  (px ≠ .none ∧ percent = .none ∧ px.Allows P 0 t.top ∧ px.Allows P 1 t.right ∧ px.Allows P 2 t.bottom ∧ px.Allows P 3 t.left) ∨
  (px = .none ∧ ∃ p, p = (if percent = .none then default else percent) ∧ ∃ a b c d,
    p.Allows P 0 a ∧ p.Allows P 1 b ∧ p.Allows P 2 c ∧ p.Allows P 3 d ∧
    |(t.top : ℚ) - s.h * a| ≤ 1 / 2 ∧ |(t.right : ℚ) - s.w * b| ≤ 1 / 2 ∧ |(t.bottom : ℚ) - s.h * c| ≤ 1 / 2 ∧
    |(t.left : ℚ) - s.w * d| ≤ 1 / 2)

/-- These croppings and paddings are what the amounts ask for: positive amounts are padded, negative ones cropped, but so that at least
one row and column is left. -/
structure Fits (s : Shape) (t c p : Trbl) : Prop where
  padded : p = ⟨max t.top 0, max t.right 0, max t.bottom 0, max t.left 0⟩
  top : 0 ≤ c.top ∧ c.top ≤ max (-t.top) 0
  right : 0 ≤ c.right ∧ c.right ≤ max (-t.right) 0
  bottom : 0 ≤ c.bottom ∧ c.bottom ≤ max (-t.bottom) 0
  left : 0 ≤ c.left ∧ c.left ≤ max (-t.left) 0
  rows : c.top + c.bottom = min (max (-t.top) 0 + max (-t.bottom) 0) ((s.h - 1 : Nat) : Int)
  columns : c.left + c.right = min (max (-t.left) 0 + max (-t.right) 0) ((s.w - 1 : Nat) : Int)

def negative (t : Trbl) : Trbl := ⟨-t.top, -t.right, -t.bottom, -t.left⟩

/-- A sampler that yields the least possible values; parameters yield 0, 1, 2 and so on. -/
def least : Sampler Nat := fun d n g =>
  match d with
  | .det q => (List.replicate n q, g + 1)
  | .discrete a b => (List.replicate n ((min a b : Int) : ℚ), g + 1)
  | .uniform a b => (List.replicate n (min a b), g + 1)
  | .choice l => (List.replicate n (l.headD 0), g + 1)
  | .par s _ => ((List.range n).map (fun (k : Nat) => if s then -((g + k : Nat) : ℚ) else ((g + k : Nat) : ℚ)), g + n)

end Imgaug.CropArgs
