import Verif.Model.Flip
/-! Specification for C43: mirrored arrays and coordinates. -/
namespace Imgaug.Flip
open Imgaug

/-- `b` is `a` mirrored horizontally: column `x` of `a` is column `w - 1 - x` of `b`. -/
def MirroredLr {α : Type} (a b : Img α) : Prop :=
  b.h = a.h ∧ b.w = a.w ∧ ∀ y x x', y < a.h → x < a.w → x + x' + 1 = a.w → b.px y x' = a.px y x

/-- `b` is `a` mirrored vertically. -/
def MirroredUd {α : Type} (a b : Img α) : Prop :=
  b.h = a.h ∧ b.w = a.w ∧ ∀ y x y', y < a.h → x < a.w → y + y' + 1 = a.h → b.px y' x = a.px y x

/-- The column `b` has the same rows as `a`, except that those with a sample of at least 0.5 are changed according to `R`. -/
def RowWise {ρ : Type} (samples : List ℚ) (R : ρ → ρ → Prop) (a b : Option (List ρ)) : Prop :=
  (a = none ∧ b = none) ∨ ∃ l l', a = some l ∧ b = some l' ∧ l'.length = l.length ∧
    ∀ (i : Nat) (s : ℚ) (x : ρ), samples[i]? = some s → l[i]? = some x →
      ∃ x', l'[i]? = some x' ∧ (1 / 2 ≤ s → R x x') ∧ (s < 1 / 2 → x' = x)

/-- The same shape, and each point has become `f` of itself. -/
def KpsMoved (f : Shape → Pt → Pt) (a b : KPsOnImage) : Prop :=
  b.shape = a.shape ∧ List.Forall₂ (fun p q => q = f a.shape p) a.kps b.kps

def PathsMoved (f : Shape → Pt → Pt) (a b : PathsOnImage) : Prop :=
  b.shape = a.shape ∧ List.Forall₂ (List.Forall₂ (fun p q => q = f a.shape p)) a.paths b.paths

/-- `c` is the box `b` with its two opposite corners moved by `f`: it is well formed if `b` is, has the same label and the
same size, and contains exactly the moved points of `b`. -/
def BoxMoved (f : Shape → Pt → Pt) (s : Shape) (b c : BB) : Prop :=
  c.label = b.label ∧ (b.x1 ≤ b.x2 → c.x1 ≤ c.x2) ∧ (b.y1 ≤ b.y2 → c.y1 ≤ c.y2) ∧
  c.width = b.width ∧ c.height = b.height ∧ ∀ p, c.contains (f s p) = b.contains p

def BBsMoved (f : Shape → Pt → Pt) (a b : BBsOnImage) : Prop :=
  b.shape = a.shape ∧ List.Forall₂ (BoxMoved f a.shape) a.boxes b.boxes

/-- Mirroring points at the vertical and the horizontal centre line of the image. -/
def mirrorX (s : Shape) (p : Pt) : Pt := ⟨(s.w : ℚ) - p.x, p.y⟩
def mirrorY (s : Shape) (p : Pt) : Pt := ⟨p.x, (s.h : ℚ) - p.y⟩

end Imgaug.Flip
