import Verif.Model.Blend
import Verif.Spec.Dtypes
/-! Specification of blending. -/
namespace Imgaug.Blend
open Imgaug Imgaug.Dtypes Imgaug.AddMul

/-- An image as numpy allows it: as many components as its shape says, each in the range of the dtype. -/
def Img.Valid (im : Img) : Prop :=
  im.dt ∈ all ∧ im.vals.length = im.h * im.w * im.c ∧ (im.flat = true → im.c = 1) ∧ ∀ v ∈ im.vals, Holds im.dt v

/-- Two images that may be blended: same shape and kind of dtype, no float128. -/
def Blendable (fg bg : Img) : Prop :=
  fg.Valid ∧ bg.Valid ∧ fg.flat = bg.flat ∧ fg.h = bg.h ∧ fg.w = bg.w ∧ fg.c = bg.c ∧ fg.dt.kind = bg.dt.kind ∧
    fg.dt ≠ ⟨.f, 16⟩ ∧ bg.dt ≠ ⟨.f, 16⟩

/-- The documented forms of `alpha`: one number; one per channel; an array `(H, W)`; an array `(H, W, C)` or `(H, W, 1)`. -/
inductive Documented (im : Img) : Alpha → Prop where
  | number (shape : List Nat) (x : ℚ) : Documented im ⟨shape, [x]⟩
  | channels (l : List ℚ) (h : l.length = im.c) : Documented im ⟨[im.c], l⟩
  | map2 (l : List ℚ) (h : l.length = im.h * im.w) : Documented im ⟨[im.h, im.w], l⟩
  | map1 (l : List ℚ) (h : l.length = im.h * im.w) : Documented im ⟨[im.h, im.w, 1], l⟩
  | map3 (l : List ℚ) (h : l.length = im.h * im.w * im.c) : Documented im ⟨[im.h, im.w, im.c], l⟩

/-- The alphas are given per pixel or component. -/
def Alpha.IsMap (a : Alpha) : Prop := 2 ≤ a.shape.length ∧ a.vals.length ≠ 1

/-- The alpha that belongs to component `i`. -/
def alphaAt (im : Img) (a : Alpha) (i : Nat) : ℚ :=
  if a.vals.length = 1 then a.vals.getD 0 0
  else if a.shape.length = 1 then a.vals.getD (i % im.c) 0
  else if a.shape = [im.h, im.w, im.c] then a.vals.getD i 0
  else a.vals.getD (i / im.c) 0

/-- The documented formula. -/
def mix (a f b : ℚ) : ℚ := a * f + (1 - a) * b

/-- A number as a dtype holds it: rounded to the nearest integer, except for floats. -/
def nearest (d : DType) (x : ℚ) : ℚ := if d.kind = .f then x else npRound x

/-- The common dtype of two dtypes of one kind: the larger one. -/
def larger (a b : DType) : DType := if a.bytes < b.bytes then b else a

end Imgaug.Blend
