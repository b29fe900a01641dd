import Verif.Model.Size2
import Mathlib.Algebra.BigOperators.Group.Finset.Basic
import Mathlib.Algebra.Order.Group.Multiset
/-! Model of pooling, imgaug/imgaug.py 1184-1776.

Simplifications. One channel. The function applied to a block is a function of the multiset of its values, as for maximum, minimum,
average and median. What is written into the padding is a parameter (`border`), or the nearest pixel for the mode "edge".
`cv2.dilate`/`cv2.erode` with an all-ones kernel are modelled as the function applied to the values that the window around
the anchor (`ksize // 2`) covers inside of the image; `cv2.medianBlur` likewise, with pixels outside of the image replaced by the
nearest ones. `skimage.measure.block_reduce` is only used on arrays whose sizes are multiples of the block size. -/
namespace Imgaug.Pooling
open Imgaug Imgaug.Size Finset
variable {α β : Type}

/-- `pad_to_multiples_of`, size.py 695-710. -/
def padToMultiplesOf (border : Nat → Nat → α) (a : Img α) (bh bw : Nat) : Option (Img α) :=
  (paddingsMultiples ⟨a.h, a.w⟩ (some bh) (some bw)).bind (fun p => Size.pad border a p)

/-- The values in the block in row `Y` and column `X` of blocks (`skimage.measure.block_reduce`). -/
def block (a : Img α) (bh bw Y X : Nat) : Multiset α :=
  ∑ i ∈ range bh, ∑ j ∈ range bw, {a.px (Y * bh + i) (X * bw + j)}

/-- `pool`, imgaug.py 1256-1303, on a 2D array with a block size of two values. `none` is an assertion error. -/
def pool (border : Nat → Nat → α) (f : Multiset α → α) (a : Img α) (bh bw : Nat) : Option (Img α) :=
  if a.h = 0 ∨ a.w = 0 then some a
  else (padToMultiplesOf border a bh bw).map (fun p => ⟨p.h / bh, p.w / bw, fun Y X => f (block p bh bw Y X)⟩)

/-- `cv2.flip(arr, -1)`. -/
def flipBoth (a : Img α) : Img α := ⟨a.h, a.w, fun y x => a.px (a.h - 1 - y) (a.w - 1 - x)⟩

/-- `cv2.dilate` / `cv2.erode` with a kernel of ones: the window of the pixel `y` covers the rows `y + i - bh // 2` for
`i < bh`, as far as they exist. -/
def morph (f : Multiset α → α) (a : Img α) (bh bw : Nat) : Img α :=
  ⟨a.h, a.w, fun y x => f (∑ i ∈ range bh, ∑ j ∈ range bw,
    if bh / 2 ≤ y + i ∧ y + i - bh / 2 < a.h ∧ bw / 2 ≤ x + j ∧ x + j - bw / 2 < a.w then
      {a.px (y + i - bh / 2) (x + j - bw / 2)} else 0)⟩

/-- `arr[s::k]` for the rows and columns: every `k`-th one beginning with `s`. -/
def every (a : Img α) (sy ky sx kx : Nat) : Img α :=
  ⟨(a.h - sy + ky - 1) / ky, (a.w - sx + kx - 1) / kx, fun y x => a.px (sy + y * ky) (sx + x * kx)⟩

/-- `_minmax_pool_uint8_`, imgaug.py 1641-1672. -/
def minmaxPoolUint8 (border : Nat → Nat → α) (f : Multiset α → α) (a : Img α) (bh bw : Nat) : Option (Img α) :=
  let p := if a.h % bh ≠ 0 ∨ a.w % bw ≠ 0 then padToMultiplesOf border a bh bw else some a
  p.map (fun p => every (flipBoth (morph f (flipBoth p) bh bw)) ((bh - 1) / 2) bh ((bw - 1) / 2) bw)

/-- `cv2.medianBlur(arr, k)` for odd `k`: `f` of the values in the `k` by `k` window centred on the pixel, replicating the border. -/
def medianBlur (f : Multiset α → α) (a : Img α) (k : Nat) : Img α :=
  ⟨a.h, a.w, fun y x => f (∑ i ∈ range k, ∑ j ∈ range k,
    {a.px (min (y + i - k / 2) (a.h - 1)) (min (x + j - k / 2) (a.w - 1))})⟩

/-- `_median_pool_cv2`, imgaug.py 1754-1776. -/
def medianPoolCv2 (border : Nat → Nat → α) (f : Multiset α → α) (a : Img α) (k : Nat) : Option (Img α) :=
  let p := if a.h % k ≠ 0 ∨ a.w % k ≠ 0 then padToMultiplesOf border a k k else some a
  p.map (fun p => every (medianBlur f p k) ((k - 1) / 2) k ((k - 1) / 2) k)

/-- `_pool_dispatcher_`, imgaug.py 1309-1331, for maximum and minimum. `uint8`: the dtype of the array. -/
def minmaxPool (border : Nat → Nat → α) (f : Multiset α → α) (uint8 : Bool) (a : Img α) (bh bw : Nat) : Option (Img α) :=
  if bh = 0 ∨ bw = 0 then some a
  else if uint8 ∧ a.h ≠ 0 ∧ a.w ≠ 0 then minmaxPoolUint8 border f a bh bw
  else pool border f a bh bw

/-- `median_pool`, imgaug.py 1721-1748. -/
def medianPool (border : Nat → Nat → α) (f : Multiset α → α) (uint8 : Bool) (a : Img α) (bh bw : Nat) : Option (Img α) :=
  if bh = 0 ∨ bw = 0 then some a
  else if uint8 ∧ bh = bw ∧ (bh = 3 ∨ bh = 5 ∨ ((bh = 7 ∨ bh = 9 ∨ bh = 11 ∨ bh = 13) ∧ a.h * a.w ≤ 32 * 32)) ∧ a.h ≠ 0 ∧ a.w ≠ 0 then
    medianPoolCv2 border f a bh
  else pool border f a bh bw

/-- `np.average` of the values of a block. -/
def average (s : Multiset ℚ) : ℚ := s.sum / s.card

/-- `avg_pool`, imgaug.py 1334-1419, on an integer array: the averages are converted to integers with `rnd`, which is the conversion
of `ndarray.astype` in `pool` and the rounding of `cv2.resize` with `INTER_AREA` (whose factors are the block sizes) for uint8. -/
def avgPoolInt (border : Nat → Nat → Int) (rnd : ℚ → Int) (a : Img Int) (bh bw : Nat) : Option (Img Int) :=
  if bh = 0 ∨ bw = 0 then some a
  else pool border (fun s => rnd (average (s.map (fun v : Int => (v : ℚ))))) a bh bw

/-- The mode "reflect" of `pad`: mirrored at the first and the last pixel, for paddings smaller than the image. -/
def reflect (a : Img α) (top left : Nat) (y x : Nat) : α :=
  a.px (if y < top then top - y else if y - top < a.h then y - top else 2 * (a.h - 1) - (y - top))
    (if x < left then left - x else if x - left < a.w then x - left else 2 * (a.w - 1) - (x - left))

/-- The mode "edge" of `pad` with the given paddings at the top and on the left: the nearest pixel. -/
def edge (a : Img α) (top left : Nat) (y x : Nat) : α := a.px (min (y - top) (a.h - 1)) (min (x - left) (a.w - 1))

end Imgaug.Pooling
