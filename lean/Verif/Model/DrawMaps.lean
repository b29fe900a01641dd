import Verif.Model.Resize
import Verif.Model.Blend
/-! Model of drawing heatmaps and segmentation maps, alone and onto images, imgaug/augmentables/heatmaps.py 129-252 and 347-367, and
segmaps.py 210-378.

Simplifications. Numbers are exact (`v / 255 * 255` gives `v` for every byte also in float32). Color maps of matplotlib are a parameter and
return three components (the fourth is deleted). `cv2.resize` is a parameter, as in `Model/Resize.lean`. The argument `resize` is a boolean,
other strings raise. -/
namespace Imgaug.DrawMaps
open Imgaug Imgaug.Dtypes Imgaug.Resize

/-- An array of shape `(h, w, c)`: a heatmap with values from 0 to 1, or a segmentation map. -/
structure Map (α : Type) where
  h : Nat
  w : Nat
  c : Nat
  at' : Nat → Nat → Nat → α

/-- The uint8 dtype. -/
def u8 : DType := ⟨.u, 1⟩

/-- `to_uint8`, heatmaps.py 347-367, for one value. -/
def byte (v : ℚ) : ℚ := clipI (npRound (v * 255)) 0 255

/-- `np.squeeze` of an array of shape `(h, w, 1)`: the axes that stay. -/
def squeezed (h w : Nat) : List Nat := [h, w].filter (· ≠ 1)

/-- A color map: three components for a number. -/
abbrev Cmap := ℚ → Nat → ℚ

/-- `np.clip(... * 255, 0, 255).astype(np.uint8)`, heatmaps.py 181-182, for a component. -/
def shown (v : ℚ) : ℚ := pyInt (max 0 (min 255 (v * 255)))

/-- Lines 167-182 of `draw`, for one channel that was resized: `np.delete` fails if there are not three axes, and `np.tile` adds axes in
front. `px` is the channel. -/
def colored (cmap : Option Cmap) (h w : Nat) (px : Nat → Nat → ℚ) : Option Im :=
  match cmap, squeezed h w with
  | some f, [h', w'] => some ⟨u8, h', w', some 3, fun y x k => shown (f (px y x / 255) k)⟩
  | some _, _ => none
  | none, [h', w'] => some ⟨u8, h', w', some 3, fun y x _ => shown (px y x / 255)⟩
  | none, [n] => some ⟨u8, 1, n, some 3, fun _ x _ => shown (px (if h = 1 then 0 else x) (if h = 1 then x else 0) / 255)⟩
  | none, _ => some ⟨u8, 1, 1, some 3, fun _ _ _ => shown (px 0 0 / 255)⟩

/-- One iteration of `draw`, heatmaps.py 157-184. -/
def heatChannel (cv : Cv) (m : Map ℚ) (size : Option Sizes) (cmap : Option Cmap) (k : Nat) : Option Im :=
  let a : Im := ⟨u8, m.h, m.w, some 1, fun y x _ => byte (m.at' y x k)⟩
  (match size with
    | some s => single cv (some .nearest) s a
    | none => some a).bind (fun r => colored cmap r.h r.w (fun y x => r.px y x 0))

/-- `HeatmapsOnImage.draw`, heatmaps.py 129-185. -/
def heatDraw (cv : Cv) (m : Map ℚ) (size : Option Sizes) (cmap : Option Cmap) : Option (List Im) :=
  (List.range m.c).mapM (heatChannel cv m size cmap)

/-- The size of an axis after numpy's broadcasting. -/
def broad (a b : Nat) : Option Nat := if a = b then some a else if a = 1 then some b else if b = 1 then some a else none

/-- `np.clip((1-alpha) * image + alpha * heatmap_i, 0, 255).astype(np.uint8)`, heatmaps.py 245-248. -/
def overlay (alpha : ℚ) (image heat : Im) : Option Im :=
  (broad image.h heat.h).bind (fun h => (broad image.w heat.w).map (fun w => ⟨u8, h, w, some 3, fun y x k =>
    pyInt (max 0 (min 255 ((1 - alpha) * image.px (if image.h = 1 then 0 else y) (if image.w = 1 then 0 else x) k +
      alpha * heat.px (if heat.h = 1 then 0 else y) (if heat.w = 1 then 0 else x) k)))⟩))

/-- The assertions about image and alpha, heatmaps.py 219-230 and segmaps.py 314-325. -/
def drawable (image : Im) (alpha : ℚ) : Bool :=
  decide (image.c = some 3) && decide (image.dt = u8) && decide (0 - 1 / 10 ^ 8 ≤ alpha) && decide (alpha ≤ 1 + 1 / 10 ^ 8)

/-- The image onto which a map of size `h × w` is drawn, heatmaps.py 235-237 and segmaps.py 336-338. -/
def canvas (cv : Cv) (image : Im) (h w : Nat) (resizeImage : Bool) : Option Im :=
  if resizeImage then single cv (some .cubic) (.tuple [.int h, .int w]) image else some image

/-- `HeatmapsOnImage.draw_on_image`, heatmaps.py 187-252. -/
def heatDrawOn (cv : Cv) (m : Map ℚ) (image : Im) (alpha : ℚ) (cmap : Option Cmap) (resizeImage : Bool) : Option (List Im) :=
  if drawable image alpha then
    (canvas cv image m.h m.w resizeImage).bind (fun im =>
      (heatDraw cv m (if resizeImage then none else some (.tuple [.int im.h, .int im.w])) cmap).bind (fun l => l.mapM (overlay alpha im)))
  else none

/-- All ids of a channel, row by row. -/
def ids (m : Map Int) (k : Nat) : List Int :=
  (List.range m.h).flatMap (fun (y : Nat) => (List.range m.w).map (fun (x : Nat) => m.at' y x k))

/-- `1 + np.max(arr)`; `none` is the exception for an empty array. -/
def nbClasses (l : List Int) : Option Int := l.max?.map (1 + ·)

/-- `blend_alpha` for a single alpha and bytes, blend.py 46-90 and 219-277, for one component (see `blend_component`). -/
def blended (alpha f b : ℚ) : ℚ :=
  if alpha ≥ 1 - 1 / 100 then f else if alpha ≤ 1 / 100 then b else Blend.weighted alpha f b

/-- One iteration of `draw_on_image`, segmaps.py 342-377. -/
def segChannel (cv : Cv) (m : Map Int) (im : Im) (alpha : ℚ) (colors : List (List Int)) (background : Bool) (bgId : Int) (k : Nat) : Option Im :=
  (nbClasses (ids m k)).bind (fun n =>
    if n ≤ colors.length then
      let drawn : Im := ⟨u8, m.h, m.w, some 3, fun y x j =>
        let id := m.at' y x k
        if 0 ≤ id ∧ id < n then astype u8 ((colors.getD id.toNat []).getD j 0 : ℚ) else 0⟩
      let mask : Im := ⟨⟨.b, 1⟩, m.h, m.w, none, fun y x _ => if m.at' y x k ≠ bgId then 1 else 0⟩
      (single cv (some .nearest) (.tuple [.int im.h, .int im.w]) drawn).bind (fun d =>
        if background then some { im with px := fun y x j => blended alpha (d.px y x j) (im.px y x j) }
        else (single cv (some .nearest) (.tuple [.int im.h, .int im.w]) mask).map (fun f =>
          { im with px := fun y x j => (1 - f.px y x 0) * im.px y x j + f.px y x 0 * blended alpha (d.px y x j) (im.px y x j) }))
    else none)

/-- `SegmentationMapsOnImage.draw_on_image`, segmaps.py 260-378. `np.dsplit` fails without channels. -/
def segDrawOn (cv : Cv) (m : Map Int) (image : Im) (alpha : ℚ) (resizeImage : Bool) (colors : List (List Int)) (background : Bool) (bgId : Int) :
    Option (List Im) :=
  if drawable image alpha then
    (canvas cv image m.h m.w resizeImage).bind (fun im =>
      if m.c = 0 then none else (List.range m.c).mapM (segChannel cv m im alpha colors background bgId))
  else none

/-- The argument `size` of `SegmentationMapsOnImage.draw`. -/
inductive SegSize where
  | none
  | one (s : Size)
  | two (a b : Option Size)

/-- `_handle_sizeval`, segmaps.py 233-241. -/
def sizeVal (s : Option Size) (axis : Nat) : Int :=
  match s with
  | .none => axis
  | some (.float q) => max (pyInt (axis * q)) 1
  | some (.int n) => n

/-- `SegmentationMapsOnImage.draw`, segmaps.py 210-258. `np.zeros` fails for negative sizes. -/
def segDraw (cv : Cv) (m : Map Int) (size : SegSize) (colors : List (List Int)) : Option (List Im) :=
  let p : Option Size × Option Size := match size with
    | .none => (.none, .none)
    | .one s => (some s, some s)
    | .two a b => (a, b)
  let h := sizeVal p.1 m.h
  let w := sizeVal p.2 m.w
  if h < 0 ∨ w < 0 then none
  else segDrawOn cv m ⟨u8, h.toNat, w.toNat, some 3, fun _ _ _ => 0⟩ 1 false colors true 0

end Imgaug.DrawMaps
