import Verif.Model.Weather
import Verif.Spec.Dtypes
/-! What is expected of weather augmenters. -/
namespace Imgaug.Weather
open Imgaug Imgaug.Dtypes

/-- A value of an array of `uint8`. -/
def Byte (v : ℚ) : Prop := ∃ n : Nat, v = n ∧ n ≤ 255

/-- An image of `uint8`. -/
def Bytes (a : Draw.Img) : Prop := a.dt = ⟨.u, 1⟩ ∧ ∀ y x ch, y < a.h → x < a.w → ch < a.c → Byte (a.px y x ch)

/-- A map of `uint8`. -/
def Map.Bytes (m : Map) : Prop := ∀ y x, y < m.h → x < m.w → Byte (m.v y x)

/-- The same height, width, channels and axes. -/
def SameShape (a b : Draw.Img) : Prop := b.h = a.h ∧ b.w = a.w ∧ b.c = a.c ∧ b.flat = a.flat

/-- Maps have the sizes asked for, and those of `uint8` stay such. -/
structure Lib.Ok (lib : Lib) : Prop where
  salt : ∀ d h w, (lib.salt d h w).h = h ∧ (lib.salt d h w).w = w ∧ (lib.salt d h w).Bytes
  resize : ∀ m h w, (lib.resize m h w).h = h ∧ (lib.resize m h w).w = w ∧ (m.Bytes → (lib.resize m h w).Bytes)
  blur : ∀ s m, (lib.blur s m).h = m.h ∧ (lib.blur s m).w = m.w ∧ (m.Bytes → (lib.blur s m).Bytes)
  motion : ∀ k a m, (lib.motion k a m).h = m.h ∧ (lib.motion k a m).w = m.w ∧ (3 ≤ k → m.Bytes → (lib.motion k a m).Bytes)
  gamma : ∀ g m, (lib.gamma g m).h = m.h ∧ (lib.gamma g m).w = m.w ∧ (m.Bytes → (lib.gamma g m).Bytes)

/-- Nothing but zeros. -/
def Map.Zero (m : Map) : Prop := ∀ y x, y < m.h → x < m.w → m.v y x = 0

/-- Maps of zeros stay such. -/
structure Lib.KeepsZero (lib : Lib) : Prop where
  resize : ∀ m h w, m.Zero → (lib.resize m h w).Zero
  blur : ∀ s m, m.Zero → (lib.blur s m).Zero
  motion : ∀ k a m, m.Zero → (lib.motion k a m).Zero
  gamma : ∀ g m, m.Zero → (lib.gamma g m).Zero

/-- `v` is between `a` and `b`, whichever is larger. -/
def Between (a b v : ℚ) : Prop := min a b ≤ v ∧ v ≤ max a b

/-- The channels of a pixel keep their order. -/
def KeepsOrder (a b : Draw.Img) : Prop :=
  ∀ y x c d, y < a.h → x < a.w → c < a.c → d < a.c → a.px y x c ≤ a.px y x d → b.px y x c ≤ b.px y x d

end Imgaug.Weather
