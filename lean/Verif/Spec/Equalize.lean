import Verif.Model.Equalize
/-! Specification: what PIL does with one channel (`PIL/ImageOps.py` of Pillow, functions `equalize` and `autocontrast`), and percentiles. -/
namespace Imgaug.Equalize
open Imgaug

/-- `PIL.ImageOps.equalize`: `histo = [f for f in h if f]`, `step = (sum(histo) - histo[-1]) // 255`. -/
def pilTable (h : Hist) (v : Nat) : Nat :=
  let histo := ((List.range 256).map h).filter (· ≠ 0)
  if histo.length ≤ 1 then v
  else
    let step := (histo.sum - histo.getLastD 0) / 255
    if step = 0 then v else min ((step / 2 + ((List.range v).map h).sum) / step) 255

/-- The loop of `PIL.ImageOps.autocontrast` that removes `cut` pixels from the start of a list of numbers of pixels. -/
def pilCut (cut : Int) : List Int → List Int
  | [] => []
  | x :: l => if cut > x then 0 :: pilCut (cut - x) l else (x - cut) :: l

/-- `PIL.ImageOps.autocontrast` up to the search for the ends: both ends are cut off. -/
def pilHist (cutoff : ℚ) (h : List Int) : List Int :=
  if cutoff = 0 then h
  else (pilCut ⌊h.sum * cutoff / 100⌋ (pilCut ⌊h.sum * cutoff / 100⌋ h).reverse).reverse

/-- The table of `PIL.ImageOps.autocontrast`; the stretching is the same as in the code. -/
def pilContrast (cutoff : ℚ) (ignore : List Nat) (h : Hist) : Nat → Nat :=
  stretchTable (ends (fun v => (pilHist cutoff ((List.range 256).map (fun (v : Nat) => if v ∈ ignore then 0 else (h v : Int)))).getD v 0))

/-- `lo` is the smallest value such that more than `cut` of the pixels have a value of at most `lo`. -/
def IsLow (h : Nat → Int) (cut : Int) (lo : Nat) : Prop :=
  lo < 256 ∧ cut < ((List.range (lo + 1)).map h).sum ∧ ∀ v < lo, ((List.range (v + 1)).map h).sum ≤ cut

/-- `hi` is the largest value such that more than `cut` of the pixels have a value of at least `hi`. -/
def IsHigh (h : Nat → Int) (cut : Int) (hi : Nat) : Prop :=
  hi < 256 ∧ cut < ((List.range 256).map h).sum - ((List.range hi).map h).sum ∧
    ∀ v < 256, hi < v → ((List.range 256).map h).sum - ((List.range v).map h).sum ≤ cut

/-- The exact value of a linear map that sends `lo` to 0 and `hi` to 255, clipped to `[0, 255]`. -/
def exact (lo hi v : Nat) : ℚ := min (max (255 * ((v : ℚ) - lo) / ((hi : ℚ) - lo)) 0) 255

end Imgaug.Equalize
