import Verif.Model.PoolAug
/-! Specification for the pooling augmenters. -/
namespace Imgaug.Spec.PoolAug
open Imgaug Imgaug.PoolAug

/-- `m` blocks of size `k` cover `n` pixels, and one less does not. -/
def Blocks (n k m : Nat) : Prop := n ≤ m * k ∧ m * k < n + k

/-- The size of an image after pooling with blocks of `kh` times `kw`; images without pixels stay as they are. -/
def Pooled (s : Shape) (kh kw : Nat) (s' : Shape) : Prop :=
  if s.h = 0 ∨ s.w = 0 then s' = s else Blocks s.h kh s'.h ∧ Blocks s.w kw s'.w

/-- A pooling function for images: gives images of the pooled size, with the same data type and channels. -/
def Pools (pool : Nat → Nat → Resize.Im → Option Resize.Im) : Prop :=
  ∀ kh kw im p, 1 ≤ kh → 1 ≤ kw → pool kh kw im = some p → Pooled ⟨im.h, im.w⟩ kh kw ⟨p.h, p.w⟩ ∧ p.dt = im.dt ∧ p.c = im.c

/-- A point moved from an image of one size to the same place in an image of another. -/
def scaled (s s' : Shape) (p : Pt) : Pt := ⟨p.x / s.w * s'.w, p.y / s.h * s'.h⟩

/-- A point on the image. -/
def On (p : Pt) (s : Shape) : Prop := 0 ≤ p.x ∧ p.x < s.w ∧ 0 ≤ p.y ∧ p.y < s.h

end Imgaug.Spec.PoolAug
