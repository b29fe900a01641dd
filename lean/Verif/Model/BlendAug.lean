import Verif.Model.Blend
/-! Model of the augmenters `BlendAlpha` (imgaug/augmenters/blend.py 456-694) and `BlendAlphaMask` (697-1006), after both branches were augmented
and all random samples drawn.

Simplifications. Annotations that are not maps are values of any type (`BlendAlpha`) or lists of points (`BlendAlphaMask`, after
`convert_cbaois_to_kpsois`). The mask, resized to the size of a map, is an argument. Averages are exact. -/
namespace Imgaug.BlendAug
open Imgaug Imgaug.Dtypes Imgaug.Blend
variable {β : Type}

/-- `np.average`; `none` is nan (no values). -/
def average (l : List ℚ) : Option ℚ := if l.length = 0 then none else some (l.sum / l.length)

/-- The alphas of a row, blend.py 635-643: those of its channels, or a single one. `samples` is `alphas[i]`, `nbChannels` is `shape[2]` or 1. -/
def rowAlphas (perChannel : ℚ) (samples : List ℚ) (nbChannels : Nat) : Alpha :=
  if perChannel > 1 / 2 then ⟨[(samples.take nbChannels).length], samples.take nbChannels⟩
  else ⟨[], [samples.getD 0 0]⟩

/-- `use_fg_branch`, blend.py 647-648; comparisons with nan are false. -/
def useForeground (a : Alpha) : Bool :=
  match average a.vals with
  | some m => decide (m ≥ 1 / 2)
  | none => false

/-- The loop body for a row without its image, blend.py 660-664: the columns that are not `None` in the batch, with the cells of the branches. -/
def rowColumns (perChannel : ℚ) (samples : List ℚ) (nbChannels : Nat) (fg bg : List β) : List β :=
  if useForeground (rowAlphas perChannel samples nbChannels) then fg else bg

/-- The loop body for the image of a row, blend.py 651-654. -/
def rowImage (eps perChannel : ℚ) (samples : List ℚ) (nbChannels : Nat) (fg bg : Img) : Option Out :=
  blend eps fg bg (rowAlphas perChannel samples nbChannels)

/-- A mask with the alphas of a pixel: one per channel (one for a mask without channel axis). -/
structure Mask where
  h : Nat
  w : Nat
  px : Nat → Nat → List ℚ

/-- All values of the mask. -/
def Mask.vals (m : Mask) : List ℚ := (List.range m.h).flatMap (fun (y : Nat) => (List.range m.w).flatMap (fun (x : Nat) => m.px y x))

/-- `np.average(...)` with the default 1.0 for no values, blend.py 955-956 and 970-971. -/
def averageOr1 (l : List ℚ) : ℚ := (average l).getD 1

/-- The pointwise mode for one point, blend.py 950-962. -/
def blendPoint (m : Mask) (p fg bg : ℚ × ℚ) : ℚ × ℚ :=
  let x := npRound p.1
  let y := npRound p.2
  if 0 ≤ y ∧ y < m.h ∧ 0 ≤ x ∧ x < m.w then
    if averageOr1 (m.px y.toNat x.toNat) > 1 / 2 then fg else bg
  else (x, y)

/-- `_blend_coordinates`, blend.py 916-979. `none` is the failed assertion. -/
def blendCoords (pointwise : Bool) (m : Mask) (ps fg bg : List (ℚ × ℚ)) : Option (List (ℚ × ℚ)) :=
  if ps.length = fg.length ∧ fg.length = bg.length then
    some (if pointwise then (ps.zip (fg.zip bg)).map (fun q => blendPoint m q.1 q.2.1 q.2.2)
      else if averageOr1 m.vals > 1 / 2 then fg else bg)
  else none

/-- The end of `_binarize_mask`, blend.py 910-912, for a mask already averaged and resized to the size of the map. -/
def binarize (resized : List ℚ) : List ℚ := resized.map (fun v => if min (max v 0) 1 ≥ 1 / 2 then 1 else 0)

/-- Blending of heatmaps and segmentation maps, blend.py 857-875. -/
def blendMap (eps : ℚ) (resized : List ℚ) (fg bg : Img) : Option Out := blend eps fg bg ⟨[fg.h, fg.w], binarize resized⟩

end Imgaug.BlendAug
