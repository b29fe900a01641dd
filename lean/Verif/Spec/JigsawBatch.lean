import Verif.Model.JigsawBatch
import Verif.Spec.Jigsaw
import Mathlib.Order.Bounds.Basic
/-! Specification for C107. -/
namespace Imgaug.JigsawBatch
open Imgaug Imgaug.Size
variable {α β γ : Type}

/-- `N` is the smallest positive multiple of `m` that is not below `n`. -/
def Fits (m n N : Nat) : Prop := IsLeast {k : Nat | 0 < k ∧ m ∣ k ∧ n ≤ k} N

/-- `before` pixels before `n` pixels are half of what is missing to `N`, rounded down. -/
def Centred (n N before : Nat) : Prop := ∃ after, before + n + after = N ∧ (after = before ∨ after = before + 1)

/-- `b` has size `(H, W)` and is `a` with its upper left corner at row `top` and column `left`, and `zero` around it. -/
def Framed (zero : α) (a b : Img α) (top left H W : Nat) : Prop :=
  b.h = H ∧ b.w = W ∧ ∀ y x, y < H → x < W →
    b.px y x = if top ≤ y ∧ y < top + a.h ∧ left ≤ x ∧ x < left + a.w then a.px (y - top) (x - left) else zero

/-- A row of a batch without bounding boxes, polygons and line strings, in which all augmentables name the same, non-empty, image size. -/
structure Consistent (r : Row α β γ) : Prop where
  image : ∀ a, r.image = some a → r.shape = ⟨a.h, a.w⟩
  heatmap : ∀ m, r.heatmap = some m → m.shape = r.shape
  segmap : ∀ m, r.segmap = some m → m.shape = r.shape
  kps : ∀ k, r.kps = some k → k.shape = r.shape
  height : 1 ≤ r.shape.h
  width : 1 ≤ r.shape.w
  others : r.others = false

/-- A function that resizes to the demanded size. -/
def Resizes (rs : Img α → Nat → Nat → Img α) : Prop := ∀ b h w, (rs b h w).h = h ∧ (rs b h w).w = w

/-- The point is in the image. -/
def Inside (p : Pt) (H W : Nat) : Prop := 0 ≤ p.x ∧ p.x < W ∧ 0 ≤ p.y ∧ p.y < H

end Imgaug.JigsawBatch
