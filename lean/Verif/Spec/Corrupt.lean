import Verif.Model.Corrupt
/-! Specification of the wrappers of image corruptions. -/
namespace Imgaug.Corrupt
open Imgaug.Compress

/-- The shapes that are accepted. -/
def GoodShape (s : Shape) : Prop := ∃ h w, 32 ≤ h ∧ 32 ≤ w ∧ (s = .hw h w ∨ s = .hwc h w 1 ∨ s = .hwc h w 3)

/-- The function returns an image of the shape of the one it gets, and never raises. -/
def KeepsShape {σ : Type} (f : Func σ) : Prop := ∀ x v s, ∃ r, (f x v s).1 = some r ∧ r.h = x.h ∧ r.w = x.w ∧ r.c = x.c

/-- All random shifts lie in the interval [-d, d). -/
def ShiftsIn (d : Nat) (v : Nat → Nat → Nat → Int × Int) : Prop :=
  ∀ i j k, (-(d : Int) ≤ (v i j k).1 ∧ (v i j k).1 < d) ∧ (-(d : Int) ≤ (v i j k).2 ∧ (v i j k).2 < d)

/-- What is expected of the blur and of the random numbers. -/
structure Lib.Sane {σ : Type} (L : Lib σ) : Prop where
  shape : ∀ q x, (L.gaussian q x).h = x.h ∧ (L.gaussian q x).w = x.w ∧ (L.gaussian q x).c = x.c
  shifts : ∀ d n s, 0 < d → ShiftsIn d (L.randint d n s).1

end Imgaug.Corrupt
