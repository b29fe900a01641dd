import Verif.Model.Positions
import Verif.Spec.Size
/-! Vocabulary for the statements in Props/Positions.lean. -/
namespace Imgaug.Positions
open Imgaug Imgaug.Size
variable {α : Type}

/-- The values that stochastic parameters may yield. -/
abbrev Values := Nat → ℚ → Prop

/-- The values that an entry of a tuple stands for. -/
def Entry.Allows (P : Values) : Entry → ℚ → Prop
  | .num q, v => v = q
  | .par i, v => P i v
  | .other, _ => False

/-- The positions that the argument stands for: x from 0 (left) to 1 (right), y from 0 (top) to 1 (bottom). -/
def Position.Allows (P : Values) : Position → ℚ × ℚ → Prop
  | .uniform, p | .normal, p => (0 ≤ p.1 ∧ p.1 ≤ 1) ∧ 0 ≤ p.2 ∧ p.2 ≤ 1
  | .center, p => p = (1 / 2, 1 / 2)
  | .named x y, p =>
    (match x with | .left => p.1 = 0 | .center => p.1 = 1 / 2 | .right => p.1 = 1) ∧
    (match y with | .top => p.2 = 0 | .center => p.2 = 1 / 2 | .bottom => p.2 = 1)
  | .par i, p => P i p.1 ∧ P i p.2
  | .tuple l, p => ∃ a b, l = [a, b] ∧ a.Allows P p.1 ∧ b.Allows P p.2
  | .other, _ => False

/-- The argument is as documented: all strings but unknown ones, parameters, and pairs of parameters and numbers in [0, 1]. -/
def Position.Documented : Position → Prop
  | .tuple l => l.length = 2 ∧ ∀ e ∈ l, (∃ q, e = .num q ∧ 0 ≤ q ∧ q ≤ 1) ∨ ∃ i, e = .par i
  | .other => False
  | _ => True

/-- Parameters yield only values from 0 to 1. -/
def Unit01 (P : Values) : Prop := ∀ i v, P i v → 0 ≤ v ∧ v ≤ 1

/-- The values of the created parameters. -/
def Dist.Supports (P : Values) : Dist → ℚ → Prop
  | .unif, v | .clippedNormal, v => 0 ≤ v ∧ v ≤ 1
  | .det q, v => v = q
  | .par i, v => P i v

/-- Parameters yield as many values as they are asked for, all among their possible values. -/
structure Ok {σ : Type} (P : Values) (S : Sampler σ) : Prop where
  length : ∀ d n g, (S d n g).1.length = n
  values : ∀ d n g, ∀ v ∈ (S d n g).1, d.Supports P v

/-- An axis of `n` pixels is padded by `a` pixels at its start and `b` pixels at its end, at the position `p`: to the demanded size, and
the start gets the share `1 - p`, rounded down. -/
def PadsAt (n : Nat) (demanded : Option Int) (p : ℚ) (a b : Int) : Prop :=
  0 ≤ a ∧ 0 ≤ b ∧ n + a + b = max (n : Int) (demanded.getD n) ∧ a ≤ (1 - p) * (a + b : Int) ∧ (1 - p) * (a + b : Int) < a + 1

/-- The same for cropping. -/
def CropsAt (n : Nat) (demanded : Option Int) (p : ℚ) (a b : Int) : Prop :=
  0 ≤ a ∧ 0 ≤ b ∧ n - a - b = min (n : Int) (demanded.getD n) ∧ a ≤ (1 - p) * (a + b : Int) ∧ (1 - p) * (a + b : Int) < a + 1

/-- The result shows the image, with `p` pixels added on its sides. -/
structure Padded (a b : Img α) (p : Trbl) : Prop where
  height : (b.h : Int) = a.h + p.top + p.bottom
  width : (b.w : Int) = a.w + p.left + p.right
  content : ∀ (y x y' x' : Nat), y < a.h → x < a.w → (y' : Int) = y + p.top → (x' : Int) = x + p.left → b.px y' x' = a.px y x

/-- The result shows the image without the outer `c` pixels on its sides. -/
structure Cropped (a b : Img α) (c : Trbl) : Prop where
  height : (b.h : Int) = a.h - c.top - c.bottom
  width : (b.w : Int) = a.w - c.left - c.right
  content : ∀ (y x y' x' : Nat), y < b.h → x < b.w → (y' : Int) = y + c.top → (x' : Int) = x + c.left → b.px y x = a.px y' x'

/-- The points are moved by `(dx, dy)`. -/
def Moved (k r : KPsOnImage) (dx dy : Int) : Prop := r.kps = k.kps.map (fun q => ⟨q.x + dx, q.y + dy⟩)

/-- A sampler that yields the value 1/4 where a choice is left, and for parameters. -/
def quarter : Sampler Unit := fun d n _ =>
  match d with
  | .det q => (List.replicate n q, ())
  | _ => (List.replicate n (1 / 4), ())

/-- The same, but parameters yield 2. -/
def far : Sampler Unit := fun d n _ =>
  match d with
  | .par _ => (List.replicate n 2, ())
  | d => quarter d n ()

end Imgaug.Positions
