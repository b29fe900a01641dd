import Verif.Model.Resize
import Verif.Model.Coords
/-! Model of `KeepSizeByResize`, imgaug/augmenters/size.py 4576-4922.

Simplifications. The children are an arbitrary function on batches. Bounding boxes, polygons and line strings are handled by the code as the
keypoints at their corners (`_apply_to_cbaois_as_keypoints`), so the model has keypoints only. Whether the images are returned in one array
is a flag. Heatmaps and segmentation maps are the array and the shape of the image that they belong to. -/
namespace Imgaug.KeepSize
open Imgaug Imgaug.Resize

/-- What may be drawn for an image: `NO_RESIZE` (`none`) or a method. -/
abbrev ImgIp := Option Inter

/-- What may be drawn for a map. -/
inductive MapIp where
  | sameAsImages | own (ip : ImgIp)
  deriving DecidableEq, Repr

/-- A heatmap (`heat`) or segmentation map: its array and the shape of its image. -/
structure MapOn where
  heat : Bool
  arr : Im
  shape : Shape

/-- A batch: columns that may be missing. -/
structure Batch where
  images : Option (Bool × List Im)
  heatmaps : Option (List MapOn)
  segmaps : Option (List MapOn)
  keypoints : Option (List KPsOnImage)

/-- The drawn interpolations, `_draw_samples`, size.py 4849-4893, from the values that the parameters yield; `none` for a parameter of maps
stands for `SAME_AS_IMAGES`. -/
def mapSamples (imgs : List ImgIp) : Option (List MapIp) → List ImgIp
  | none => imgs
  | some l => (l.zip imgs).map (fun p => match p.1 with | .sameAsImages => p.2 | .own ip => ip)

/-- One image, size.py 4783-4789. -/
def keepImage (cv : Cv) (im : Im) (ip : ImgIp) (orig : Nat × Nat) : Option Im :=
  match ip with
  | none => some im
  | some i => single cv (some i) (.tuple [.int orig.1, .int orig.2]) im

/-- `resize` of a map, heatmaps.py 465-477 (values are clipped to `[0, 1]`) and segmaps.py 502-504. -/
def resizeMap (cv : Cv) (m : MapOn) (i : Inter) (h w : Nat) : Option MapOn :=
  (single cv (some i) (.tuple [.int h, .int w]) m.arr).map (fun r =>
    { m with arr := if m.heat then { r with px := fun y x k => min (max (r.px y x k) 0) 1 } else r })

/-- One map, size.py 4808-4815. -/
def keepMap (cv : Cv) (m : MapOn) (ip : ImgIp) (arrOrig : Nat × Nat) (imgOrig : Shape) : Option MapOn :=
  match ip with
  | none => some m
  | some i => (resizeMap cv m i arrOrig.1 arrOrig.2).map (fun r => { r with shape := imgOrig })

/-- One instance of keypoints, size.py 4824-4828. -/
def keepKps (k : KPsOnImage) (ip : ImgIp) (orig : Shape) : Option KPsOnImage :=
  match ip with
  | none => some k
  | some _ => k.on orig

/-- The loops over `zip(cells, interpolations, shapes)`, size.py 4783, 4808, 4824. -/
def loop {α β γ : Type} (f : α → β → γ → Option α) (cells : List α) (ips : List β) (shapes : List γ) : Option (List α) :=
  (cells.zip (ips.zip shapes)).mapM (fun p => f p.1 p.2.1 p.2.2)

/-- Whether the images are put into one array, size.py 4791-4797. -/
def stacked (wereArray : Bool) (l : List Im) : Bool :=
  wereArray && (l.map (·.shape)).dedup.length == 1

/-- The images, size.py 4776-4799. -/
def keepImages (cv : Cv) (images : List Im) (origs : List (Nat × Nat)) (wereArray : Bool) (ips : List ImgIp) : Option (Bool × List Im) :=
  (loop (keepImage cv) images ips origs).map (fun r => (stacked wereArray r, r))

/-- The maps, size.py 4801-4817. -/
def keepMaps (cv : Cv) (maps : List MapOn) (imgOrigs : List Shape) (arrOrigs : List (Nat × Nat)) (ips : List ImgIp) : Option (List MapOn) :=
  loop (fun m ip s => keepMap cv m ip s.1 s.2) maps ips (arrOrigs.zip imgOrigs)

/-- A column that may be missing. -/
def column {α β : Type} (f : α → β → Option β) : Option α → Option β → Option (Option β)
  | some s, some v => (f s v).map some
  | _, none => some none
  -- the children added a column: its shapes were not recorded (a `KeyError`)
  | none, some _ => none

/-- `_augment_batch_`, size.py 4733-4773; `imgs`, `heat`, `seg` are the values drawn for images, heatmaps and segmentation maps. -/
def augment (cv : Cv) (child : Batch → Batch) (imgs : List ImgIp) (heat seg : Option (List MapIp)) (b : Batch) : Option Batch :=
  let c := child b
  (column (fun (s : Bool × List Im) v => keepImages cv v.2 (s.2.map (fun a => (a.h, a.w))) s.1 imgs) b.images c.images).bind fun images =>
  (column (fun (s : List MapOn) v => keepMaps cv v (s.map (·.shape)) (s.map (fun m => (m.arr.h, m.arr.w))) (mapSamples imgs heat))
    b.heatmaps c.heatmaps).bind fun heatmaps =>
  (column (fun (s : List MapOn) v => keepMaps cv v (s.map (·.shape)) (s.map (fun m => (m.arr.h, m.arr.w))) (mapSamples imgs seg))
    b.segmaps c.segmaps).bind fun segmaps =>
  (column (fun (s : List KPsOnImage) v => loop keepKps v imgs (s.map (·.shape))) b.keypoints c.keypoints).bind fun keypoints =>
  some ⟨images, heatmaps, segmaps, keypoints⟩

end Imgaug.KeepSize
