import Verif.Model.Num
/-! Model of the replacement of segments by their average colours, imgaug/augmenters/segmentation.py 41-754.

An image is the list of its pixels in row order, each with its channel values, and a segmentation map the list of the ids of its pixels.
Averages are exact numbers: for the dtypes of up to 32 bits the float64 sums of the code are integers and the truncation of their quotient is the
same.

Simplifications. Segment ids are natural numbers, which is what `slic(start_label=0)` and `KDTree.query` return. The arrays `average_colors` and
`counters` are functions of the index; every id is below `nb_segments`, so no index is out of bounds. SLIC, the KDTree and the resizing of images
are parameters. Images are changed in-place and returned; only the returned image is modelled. -/
namespace Imgaug.Segments
open Imgaug

/-- A pixel: the values of its channels. -/
abbrev Px := List Int

/-- Dtypes: bool, the 8 bit integers (uint8, int8) and the other integers. -/
inductive Dt | bool | byte | int
deriving DecidableEq, Repr

/-- An image of shape `(h,w)` or `(h,w,c)`. -/
structure Im where
  h : Nat
  w : Nat
  c : Option Nat
  dt : Dt
  px : List Px
deriving DecidableEq, Repr

/-- The number of channels; `image[:, :, np.newaxis]` has one. -/
def Im.n (a : Im) : Nat := a.c.getD 1

/-- Storing a float in an array: nonzero is `True` in bool arrays, integer arrays drop the fractional digits. -/
def store (dt : Dt) (v : ℚ) : Int :=
  match dt with
  | .bool => if v = 0 then 0 else 1
  | _ => pyInt v

/-- `np.average(pixels, axis=0)`: of channel `c`. -/
def average (pixels : List Px) (c : Nat) : ℚ := (pixels.map (fun p => ((p.getD c 0 : Int) : ℚ))).sum / pixels.length

/-- `np.max(segments)` of a nonempty map. -/
def maxId (segments : List Nat) : Nat := segments.foldl max 0

/-- `np.unique(segments)`: the ids in ascending order. -/
def unique (segments : List Nat) : List Nat := (List.range (maxId segments + 1)).filter (fun s => segments.contains s)

/-- `image[segments == seg_id, :]`, segmentation.py 403-404. -/
def masked (px : List Px) (segments : List Nat) (id : Nat) : List Px := ((px.zip segments).filter (fun q => q.2 == id)).map (·.1)

/-- The body of the loop for one segment, segmentation.py 403-405. -/
def replaceOne (dt : Dt) (n : Nat) (segments : List Nat) (px : List Px) (id : Nat) : List Px :=
  let mean := (List.range n).map (fun c => store dt (average (masked px segments id) c))
  List.zipWith (fun p s => if s = id then mean else p) px segments

/-- The loop of `_replace_segments_np_`, segmentation.py 401-405, over the ids from index `i` on. The modulo by an empty list of flags is a
`ZeroDivisionError`. -/
def npLoop (dt : Dt) (n : Nat) (segments : List Nat) (flags : List Bool) : Nat → List Nat → List Px → Option (List Px)
  | _, [], px => some px
  | i, id :: ids, px =>
    if flags.length = 0 then none
    else npLoop dt n segments flags (i + 1) ids
      (if flags.getD (i % flags.length) false then replaceOne dt n segments px id else px)

/-- `_replace_segments_np_`, segmentation.py 397-406. -/
def replaceNp (dt : Dt) (n : Nat) (px : List Px) (segments : List Nat) (flags : Option (List Bool)) : Option (List Px) :=
  let ids := unique segments
  npLoop dt n segments (flags.getD (List.replicate ids.length true)) 0 ids px

/-- `average_colors` and `counters`. -/
structure Sums where
  colors : Nat → Nat → ℚ
  counters : Nat → Int

/-- One pixel of the loop, segmentation.py 446-454. -/
def collectStep (st : Sums) (q : Px × Nat) : Sums :=
  if st.counters q.2 ≠ -1 then
    { colors := fun s c => if s = q.2 then st.colors s c + ((q.1.getD c 0 : Int) : ℚ) else st.colors s c,
      counters := fun s => if s = q.2 then st.counters s + 1 else st.counters s }
  else st

/-- The arrays before the loop, segmentation.py 439-444. -/
def collectStart (flags : List Bool) : Sums :=
  { colors := fun _ _ => 0, counters := fun s => if flags.getD (s % flags.length) false then 0 else -1 }

/-- `_replace_segments_numba_collect_avg_colors`, segmentation.py 433-461: the average colours, stored with the dtype of the image. -/
def collect (dt : Dt) (px : List Px) (segments : List Nat) (flags : List Bool) (s c : Nat) : Int :=
  let st := (px.zip segments).foldl collectStep (collectStart flags)
  store dt (st.colors s c / ((max (st.counters s) 1 : Int) : ℚ))

/-- `_replace_segments_numba_apply_avg_cols_`, segmentation.py 466-478. -/
def apply (n : Nat) (px : List Px) (segments : List Nat) (flags : List Bool) (colors : Nat → Nat → Int) : List Px :=
  List.zipWith (fun p s => if flags.getD (s % flags.length) false then (List.range n).map (colors s) else p) px segments

/-- `_replace_segments_numba_dispatcher_`, segmentation.py 410-428. -/
def replaceNumba (dt : Dt) (n : Nat) (px : List Px) (segments : List Nat) (flags : Option (List Bool)) (nbSegments : Nat) : List Px :=
  match flags with
  | none =>
    let fs := List.replicate nbSegments true
    apply n px segments fs (collect dt px segments fs)
  | some fs => if (fs.take nbSegments).any id = false then px else apply n px segments fs (collect dt px segments fs)

/-- `replace_segments_`, segmentation.py 317-393. `numba` is `_NUMBA_INSTALLED`. -/
def replaceSegments (numba : Bool) (a : Im) (segments : List Nat) (flags : Option (List Bool)) : Option Im :=
  if a.h = 0 ∨ a.w = 0 ∨ a.c = some 0 then some a
  else if a.dt ≠ .byte ∨ numba = false then
    (replaceNp a.dt a.n a.px segments flags).map (fun px => { a with px := px })
  else some { a with px := replaceNumba a.dt a.n a.px segments flags (1 + maxId segments) }

/-- A point `(x, y)`. -/
abbrev Pt := ℚ × ℚ

/-- `_generate_pixel_coords(height, width) + 0.5`, segmentation.py 563-564, 569-571: the centres of the pixels in row order. -/
def centers (h w : Nat) : List Pt :=
  (List.range h).flatMap (fun (y : Nat) => (List.range w).map (fun (x : Nat) => ((x : ℚ) + 1 / 2, (y : ℚ) + 1 / 2)))

/-- `KDTree(cell_coordinates).query(point)[1]`. -/
abbrev Nearest := List Pt → Pt → Nat

/-- `segment_voronoi`, segmentation.py 482-556. The axis that is added to `(H,W)` images and removed again does not change the pixels. -/
def segmentVoronoi (numba : Bool) (nearest : Nearest) (a : Im) (cells : List Pt) (mask : Option (List Bool)) : Option Im :=
  if cells.length = 0 then some a
  else (replaceSegments numba { a with c := some a.n } ((centers a.h a.w).map (nearest cells)) mask).map (fun b => { b with c := a.c })

/-- `imresize_single_image(image, (h, w), interpolation)`. -/
abbrev Resizer := Im → Int → Int → Option Im

/-- `_ensure_image_max_size`, segmentation.py 41-73. -/
def ensureMaxSize (resize : Resizer) (maxSize : Option Nat) (a : Im) : Option Im :=
  match maxSize with
  | none => some a
  | some m =>
    if max a.h a.w > m then
      let f : ℚ := m / (max a.h a.w : Nat)
      resize a (pyInt (a.h * f)) (pyInt (a.w * f))
    else some a

/-- The last step of both augmenters, segmentation.py 298-302 and 748-752. -/
def restore (resize : Resizer) (orig a : Im) : Option Im :=
  if (orig.h, orig.w, orig.c) ≠ (a.h, a.w, a.c) then resize a orig.h orig.w else some a

/-- `Voronoi._augment_single_image`, segmentation.py 736-754, with the sampled points of the (maybe smaller) image and the samples of
`p_replace` for a number of points. -/
def voronoi (numba : Bool) (nearest : Nearest) (resize : Resizer) (maxSize : Option Nat) (points : Im → Option (List Pt))
    (pReplace : Nat → List ℚ) (orig : Im) : Option Im :=
  if orig.dt ≠ .byte then none
  else (ensureMaxSize resize maxSize orig).bind (fun a => (points a).bind (fun cells =>
    (segmentVoronoi numba nearest a cells (some ((pReplace cells.length).map (fun p => decide (p > 1 / 2))))).bind
      (restore resize orig)))

/-- `skimage.segmentation.slic(image, n_segments=…, compactness=10, start_label=0)`: the ids of the pixels. -/
abbrev Slic := Im → Int → List Nat

/-- `np.max` of a nonempty list of samples. -/
def maxSample (l : List ℚ) : ℚ := l.foldl max (l.getD 0 0)

/-- The body of the loop of `Superpixels._augment_batch_`, segmentation.py 255-304, for one image with the drawn number of segments and the
samples of `p_replace` for a number of segments. -/
def superpixels (numba : Bool) (slic : Slic) (resize : Resizer) (maxSize : Option Nat) (nSegments : Int) (pReplace : Int → List ℚ)
    (orig : Im) : Option Im :=
  let n := max nSegments 1
  if orig.h = 0 ∨ orig.w = 0 ∨ orig.c = some 0 then some orig
  else if maxSample (pReplace n) = 0 then some orig
  else (ensureMaxSize resize maxSize orig).bind (fun a =>
    (replaceSegments numba a (slic a n) (some ((pReplace n).map (fun p => decide (p > 1 / 2))))).bind (restore resize orig))

end Imgaug.Segments
