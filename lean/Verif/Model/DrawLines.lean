import Verif.Model.Draw
/-! Model of drawing line strings and polygons onto images, imgaug/augmentables/lines.py 749-1213 and polys.py 729-904.

Parameters. The pixels of lines and of the inside of polygons come from `skimage.draw`; whether line strings and polygons are outside of the image is decided
elsewhere (`is_out_of_image`, modelled in Model/Lines.lean).

Simplifications. Coordinates and pixels are exact numbers, not floats. Images have two or three axes. -/
namespace Imgaug.DrawLines
open Imgaug Imgaug.Dtypes Imgaug.Draw

/-- `skimage.draw.line_aa`, `skimage.draw.line` (for y1, x1, y2, x2: rows, columns and, for the first, values) and `skimage.draw.polygon` (for a list of rows and
columns, and a height and width), and `is_out_of_image` with its default arguments for line strings and for polygons. -/
structure Lib where
  lineAA : Int → Int → Int → Int → List ((Int × Int) × ℚ)
  line : Int → Int → Int → Int → List (Int × Int)
  polygon : List (Int × Int) → Nat → Nat → List (Nat × Nat)
  linesOut : List Pt → Nat → Nat → Bool
  polyOut : List Pt → Nat → Nat → Bool

/-- A color: a number, an array without axes, which `is_single_number` does not accept, or an array with one axis or a list. -/
inductive LColor where
  | number (v : ℚ)
  | scalar (v : ℚ)
  | list (l : List ℚ)

/-- `np.array(color).astype(np.uint8)`, lines.py 1202 and 1208. -/
def LColor.u8 : LColor → LColor
  | .number v => .scalar (astype ⟨.u, 1⟩ v)
  | .scalar v => .scalar (astype ⟨.u, 1⟩ v)
  | .list l => .list (l.map (astype ⟨.u, 1⟩))

/-- `np.float32(color) * 0.5`, lines.py 1191, and `np.array(color) * 0.5`, polys.py 837-838: numpy makes numbers of arrays without axes. -/
def LColor.half : LColor → LColor
  | .number v => .number (v / 2)
  | .scalar v => .number (v / 2)
  | .list l => .list (l.map (· / 2))

/-- `np.array(color)`, polys.py 836. -/
def LColor.arr : LColor → LColor
  | .number v => .scalar v
  | k => k

/-- The color as it is given to `Keypoint.draw_on_image`. -/
def LColor.toColor : LColor → Color
  | .number v => .one v
  | .scalar v => .many [v]
  | .list l => .many l

/-- The components of the color in lines 991-997 and 1020, for an image with `c` channels; `none` is the assertion. -/
def LColor.comps (k : LColor) (flat : Bool) (c : Nat) : Option (List ℚ) :=
  match k, flat with
  | .number v, true => some [v]
  | .number v, false => some (List.replicate c v)
  | .scalar v, false => some [v]
  | .list l, false => some l
  | _, true => none

/-- The lines, rounded, as y1, x1, y2, x2; lines.py 1006-1013. -/
def segments (coords : List Pt) : List (Int × Int × Int × Int) :=
  (coords.zip coords.tail).map (fun p => (npRound p.1.y, npRound p.1.x, npRound p.2.y, npRound p.2.x))

/-- The pixels of a line with their values, lines.py 1023-1027. -/
def pixels (lib : Lib) (aa : Bool) (s : Int × Int × Int × Int) : List ((Int × Int) × ℚ) :=
  if aa then lib.lineAA s.1 s.2.1 s.2.2.1 s.2.2.2 else (lib.line s.1 s.2.1 s.2.2.1 s.2.2.2).map (fun p => (p, 1))

/-- `heatmap[rr, cc] = val * alpha`, lines.py 1029-1039, seen at one pixel of the image: the last of several values for the same pixel stays. -/
def mark (alpha : ℚ) (ps : List ((Int × Int) × ℚ)) (heat : Nat → Nat → ℚ) : Nat → Nat → ℚ := fun y x =>
  match ps.reverse.find? (fun p => p.1 == ((y : Int), (x : Int))) with
  | some p => p.2 * alpha
  | none => heat y x

/-- The heatmap after the loop, lines.py 1021-1039. -/
def marked (lib : Lib) (aa : Bool) (alpha : ℚ) (coords : List Pt) : Nat → Nat → ℚ :=
  (segments coords).foldl (fun heat s => mark alpha (pixels lib aa s) heat) (fun _ _ => 0)

/-- The rows or columns of an axis of size `n` that a kernel of ones of the given size covers if its anchor, the element number `size // 2`, is at `i`. -/
def covered (size n i : Nat) : List Nat := (List.range n).filter (fun j => i ≤ j + size / 2 ∧ j + size / 2 < i + size)

/-- `cv2.dilate` with a kernel of ones, lines.py 1041-1043: the maximum of the pixels of the image under the kernel. -/
def dilate (size h w : Nat) (heat : Nat → Nat → ℚ) : Nat → Nat → ℚ := fun y x =>
  ((covered size h y).flatMap (fun yy => (covered size w x).map (fun xx => heat yy xx))).foldr max (heat y x)

/-- lines.py 1021-1043. -/
def heatmap (lib : Lib) (aa : Bool) (alpha : ℚ) (size h w : Nat) (coords : List Pt) : Nat → Nat → ℚ :=
  if size > 1 then dilate size h w (marked lib aa alpha coords) else marked lib aa alpha coords

/-- All pixels of an image of the size. -/
def allPixels (h w : Nat) (p : Nat → Nat → Bool) : Bool := (List.range h).all (fun y => (List.range w).all (fun x => p y x))

/-- `restore_dtypes_(image_blend, np.uint8)`, dtypes.py 72-88, lines.py 1054. -/
def toByte (v : ℚ) : ℚ := ((clipI (npRound v) 0 255 : Int) : ℚ)

/-- `blend_alpha(image_color, image, heatmap)` for images of floats, blend.py 219-236 and 348-395, and its conversion. -/
def blend (im : Img) (k : List ℚ) (heat : Nat → Nat → ℚ) : Option Img :=
  let out (px : Nat → Nat → Nat → ℚ) : Img := { im with dt := ⟨.u, 1⟩, px := fun y x ch => toByte (px y x ch) }
  if im.h * im.w * im.c = 0 then some (out im.px)
  else if allPixels im.h im.w (fun y x => decide (heat y x ≥ 99 / 100)) then some (out (fun _ _ ch => k.getD ch 0))
  else if allPixels im.h im.w (fun y x => decide (heat y x ≤ 1 / 100)) then some (out im.px)
  else if 0 ≤ heat 0 0 ∧ heat 0 0 ≤ 1 then some (out (fun y x ch => (k.getD ch 0 - im.px y x ch) * heat y x + im.px y x ch))
  else none

/-- `LineString.draw_lines_on_image` for an image, lines.py 969-1055. `none` is an exception. `np.tile` gives an array that has as many channels as the color
components; `blend_alpha` expects the shape of the image (blend.py 164-166). -/
def drawLines (lib : Lib) (im : Img) (coords : List Pt) (color : LColor) (alpha : ℚ) (size : Nat) (aa raise : Bool) : Option Img :=
  if coords.length ≤ 1 ∨ alpha < 1 / 10000 ∨ size < 1 then some im
  else if raise = true ∧ lib.linesOut coords im.h im.w = true then none
  else (color.comps im.flat im.c).bind (fun k =>
    if k.length = im.c then blend im k (heatmap lib aa alpha size im.h im.w coords) else none)

/-- The common size of two axes in numpy. -/
def common (a b : Nat) : Option Nat := if a = b then some a else if a = 1 then some b else if b = 1 then some a else none

/-- `draw_lines_on_image` for the tuple `(h, w, c)` instead of an image, lines.py 973-976 and 1045-1046. `heatmap * color` has the shape `(h, n)`, which numpy
aligns with the last two axes of the image. -/
def drawLinesNew (lib : Lib) (h w c : Nat) (coords : List Pt) (color : LColor) (alpha : ℚ) (size : Nat) (aa raise : Bool) : Option Img :=
  if coords.length ≤ 1 ∨ alpha < 1 / 10000 ∨ size < 1 then some ⟨⟨.u, 1⟩, h, w, c, false, fun _ _ _ => 0⟩
  else if raise = true ∧ lib.linesOut coords h w = true then none
  else (color.comps false c).bind (fun k => (common w k.length).bind (fun n => (common w h).bind (fun rows => (common c n).bind (fun chs =>
    let heat := heatmap lib aa alpha size h w coords
    let term := fun y j => heat y (if w = 1 then 0 else j) * k.getD (if k.length = 1 then 0 else j) 0
    some ⟨⟨.u, 1⟩, h, rows, chs, false, fun _ x ch => toByte (term (if h = 1 then 0 else x) (if n = 1 then 0 else ch))⟩))))

/-- `LineString.draw_points_on_image`, lines.py 1100-1107. -/
def drawPoints (im : Img) (coords : List Pt) (color : LColor) (alpha : ℚ) (size : Nat) (raise : Bool) : Option Img :=
  drawKps im (coords.map (fun p => (p.x, p.y))) color.toColor alpha size raise

/-- `np.zeros(image_shape, dtype=np.uint8)` for a shape `(h, w)`. -/
def black (h w : Nat) : Img := ⟨⟨.u, 1⟩, h, w, 1, true, fun _ _ _ => 0⟩

/-- `LineString.draw_lines_heatmap_array`, lines.py 815-826, for a shape `(h, w)`. -/
def linesHeat (lib : Lib) (h w : Nat) (coords : List Pt) (alpha : ℚ) (size : Nat) (aa raise : Bool) : Option (Nat → Nat → ℚ) :=
  (drawLines lib (black h w) coords (.number 255) alpha size aa raise).map (fun r => fun y x => r.px y x 0 / 255)

/-- `LineString.draw_points_heatmap_array`, lines.py 857-867. -/
def pointsHeat (h w : Nat) (coords : List Pt) (alpha : ℚ) (size : Nat) (raise : Bool) : Option (Nat → Nat → ℚ) :=
  (drawPoints (black h w) coords (.number 255) alpha size raise).map (fun r => fun y x => r.px y x 0 / 255)

/-- `LineString.draw_heatmap_array`, lines.py 910-926. -/
def drawHeat (lib : Lib) (h w : Nat) (coords : List Pt) (alphaL alphaP : ℚ) (sizeL sizeP : Nat) (aa raise : Bool) : Option (Nat → Nat → ℚ) :=
  (linesHeat lib h w coords alphaL sizeL aa raise).bind (fun l =>
    if sizeP ≤ 0 then some l
    else (pointsHeat h w coords alphaP sizeP raise).map (fun p => fun y x => max (l y x) (p y x)))

/-- `LineString.draw_mask`, lines.py 775-781. -/
def drawMask (lib : Lib) (h w : Nat) (coords : List Pt) (sizeL sizeP : Nat) (raise : Bool) : Option (Nat → Nat → Bool) :=
  (drawHeat lib h w coords 1 1 sizeL sizeP false raise).map (fun f => fun y x => decide (f y x > 1 / 2))

/-- The optional arguments of `draw_on_image`. -/
structure Args where
  color : LColor
  colorFace : Option LColor
  colorLines : Option LColor
  colorPoints : Option LColor
  alpha : ℚ
  alphaFace : Option ℚ
  alphaLines : Option ℚ
  alphaPoints : Option ℚ
  size : Nat
  sizeLines : Option Nat
  sizePoints : Option Nat

/-- `LineString.draw_on_image`, lines.py 1184-1213. -/
def drawLineString (lib : Lib) (im : Img) (coords : List Pt) (a : Args) (aa raise : Bool) : Option Img :=
  (drawLines lib im coords (a.colorLines.getD a.color).u8 (a.alphaLines.getD a.alpha) (a.sizeLines.getD a.size) aa raise).bind (fun r =>
    drawPoints r coords (a.colorPoints.getD a.color.half).u8 (a.alphaPoints.getD a.alpha) (a.sizePoints.getD (a.size * 3)) raise)

/-- The components of `color_face`, polys.py 847-853, which are then broadcast. -/
def faceComps (k : LColor) (flat : Bool) (c : Nat) : Option (List ℚ) := k.comps flat c

/-- The opacity of the face, polys.py 855-858. -/
def faceAlpha (a : ℚ) : ℚ := if a < 1 / 100 then 0 else if a > 99 / 100 then 1 else a

/-- The face, polys.py 875-887. An image with two axes has no third axis for line 885. -/
def drawFace (im : Img) (ps : List (Nat × Nat)) (k : List ℚ) (a : ℚ) : Option Img :=
  if ps = [] ∨ a = 0 then some im
  else if (k.length ≠ 1 ∧ k.length ≠ im.c) ∨ (a ≠ 1 ∧ im.flat = true) then none
  else some { im with px := fun y x ch =>
    if (y, x) ∈ ps then (1 - a) * im.px y x ch + a * k.getD (if k.length = 1 then 0 else ch) 0 else im.px y x ch }

/-- `Polygon.to_line_string(closed=True)`, polys.py 1181-1185. -/
def ring (ext : List Pt) : List Pt := if ext.length ≤ 1 then ext else ext ++ ext.take 1

/-- polys.py 898-902; the pixels are those of `result`, of dtype uint8 or float32. -/
def finish (d : DType) (r : Img) : Img :=
  { r with dt := d, px := fun y x ch => if d = ⟨.u, 1⟩ then toByte (r.px y x ch) else astype d (r.px y x ch) }

/-- `Polygon.draw_on_image`, polys.py 830-904. -/
def drawPolygon (lib : Lib) (im : Img) (ext : List Pt) (a : Args) (raise : Bool) : Option Img :=
  (faceComps (a.colorFace.getD a.color.arr) im.flat im.c).bind (fun k =>
    if raise = true ∧ lib.polyOut ext im.h im.w = true then none
    else (drawFace { im with dt := ⟨.f, 4⟩ } (lib.polygon (ext.map (fun p => (npRound p.y, npRound p.x))) im.h im.w) k
        (faceAlpha (a.alphaFace.getD (a.alpha / 2)))).bind (fun r =>
      (drawLines lib r (ring ext) (a.colorLines.getD a.color.half) (a.alphaLines.getD a.alpha) (a.sizeLines.getD a.size) true raise).bind (fun r =>
        (drawPoints r ext (a.colorPoints.getD a.color.half) (a.alphaPoints.getD a.alpha) (a.sizePoints.getD (a.size * 3)) raise).map (finish im.dt))))

end Imgaug.DrawLines
