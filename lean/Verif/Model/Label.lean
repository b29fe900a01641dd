import Verif.Model.Draw
/-! Model of drawing the labels of bounding boxes, imgaug/augmentables/bbs.py 729-799, 949-961 and 2156-2275, and imgaug/imgaug.py 842-875.

Parameters. The text itself is drawn by PIL, which may also reject the array.

Simplifications. Coordinates and pixels are exact numbers. Colors are lists of numbers. The rounded result of arithmetic in uint8 does not occur: the brightness of
the background is computed with floats. -/
namespace Imgaug.Label
open Imgaug Imgaug.Dtypes Imgaug.Draw

/-- PIL: `PIL_Image.fromarray(img)` and `context.text((x, y), text, fill=color, font=font)`, imgaug.py 856-860, for a uint8 array, x, y, text, color and font size. -/
abbrev Text := Img → Int → Int → String → List ℚ → Nat → Option Img

/-- The arguments of `_LabelOnImageDrawer`, bbs.py 2159-2169. -/
structure Args where
  color : Option (List ℚ)
  colorText : Option (List ℚ)
  colorBg : Option (List ℚ)
  size : Nat
  alpha : ℚ
  raise : Bool
  height : Nat
  sizeText : Nat

/-- `np.uint8(color)` -/
def bytes (l : List ℚ) : List ℚ := l.map (astype ⟨.u, 1⟩)

/-- `gray`, bbs.py 2224-2226. `none` is an `IndexError`. -/
def gray (l : List ℚ) : Option ℚ :=
  match l with
  | r :: g :: b :: _ => some (299 / 1000 * r + 587 / 1000 * g + 114 / 1000 * b)
  | _ => none

/-- The color of the background, bbs.py 2207-2216. `none` is the `AssertionError`. -/
def background (a : Args) : Option (List ℚ) :=
  match a.colorBg with
  | some l => some (bytes l)
  | none => a.color.map bytes

/-- `_preprocess_colors`, bbs.py 2206-2231: the colors of the text and of the background. `none` is an exception. -/
def colors (a : Args) : Option (List ℚ × List ℚ) :=
  match background a with
  | none => none
  | some bg =>
    match a.colorText with
    | some t => some (bytes t, bg)
    | none => (gray bg).map (fun g => (List.replicate 3 (if g > 128 then 0 else 255), bg))

/-- x1, y1, x2, y2. -/
structure Area where
  x1 : Int
  y1 : Int
  x2 : Int
  y2 : Int

/-- `_compute_bg_corner_coords`, bbs.py 2233-2250. -/
def area (a : Args) (im : Img) (b : BB) : Area :=
  let y1 := npRound b.y1 - 1 - a.height
  let y2 := y1 + a.height
  let x1 := npRound b.x1 - a.size + 1
  let x2 := npRound b.x2 + a.size
  ⟨clipI x1 0 (im.w - 1), clipI y1 0 (im.h - 1), clipI x2 0 (im.w - 1), clipI y2 0 (im.h - 1)⟩

/-- `draw_text`, imgaug.py 848-875. -/
def drawText (T : Text) (im : Img) (y x : Int) (text : String) (color : List ℚ) (size : Nat) : Option Img :=
  if im.dt = ⟨.u, 1⟩ then T im x y text color size
  else if im.dt = ⟨.f, 4⟩ then
    (T { im with dt := ⟨.u, 1⟩, px := fun y x ch => astype ⟨.u, 1⟩ (im.px y x ch) } x y text color size).map (fun r => { r with dt := ⟨.f, 4⟩ })
  else none

/-- `_draw_label_arr`, bbs.py 2252-2262, for images with three axes; numpy broadcasts the color. -/
def labelArr (T : Text) (label : String) (h w c : Nat) (d : DType) (text bg : List ℚ) (size : Nat) : Option Img :=
  if bg.length = 1 ∨ bg.length = c then
    drawText T ⟨d, h, w, c, false, fun _ _ ch => astype d (bg.getD (if bg.length = 1 then 0 else ch) 0)⟩ 2 2 label text size
  else none

/-- `_blend_label_arr_with_image_`, bbs.py 2264-2275. -/
def place (alpha : ℚ) (im l : Img) (r : Area) : Img :=
  { im with px := fun y x ch =>
    if r.y1 ≤ y ∧ (y : Int) < r.y2 ∧ r.x1 ≤ x ∧ (x : Int) < r.x2 then
      let v := l.px ((y : Int) - r.y1).toNat ((x : Int) - r.x1).toNat ch
      if alpha ≥ 99 / 100 then v
      else astype im.dt (min (max ((1 - alpha) * im.px y x ch + alpha * v) 0) 255)
    else im.px y x ch }

/-- `draw_on_image_`, bbs.py 2171-2191. Images with two axes have no third axis to write to (line 2267 or 2271); the array of PIL must have the shape of the area. -/
def drawLabel (T : Text) (im : Img) (b : BB) (a : Args) : Option Img :=
  if a.raise = true ∧ b.isOutOfImage ⟨im.h, im.w⟩ true false = true then none
  else (colors a).bind (fun c =>
    let r := area a im b
    if r.x2 ≤ r.x1 ∨ r.y2 ≤ r.y1 then some im
    else if im.flat then none
    else (labelArr T (b.label.getD "None") (r.y2 - r.y1).toNat (r.x2 - r.x1).toNat im.c im.dt c.1 c.2 a.sizeText).map (fun l => place a.alpha im l r))

/-- `BoundingBox.draw_on_image`, bbs.py 949-961; the defaults of the label are those of lines 730-732. -/
def drawBoxLabel (T : Text) (im : Img) (b : BB) (color : List ℚ) (alpha : ℚ) (size : Nat) (copy raise : Bool) : Option Img :=
  (drawBox im b (.many color) alpha size copy raise).bind (fun r =>
    if b.label = none then some r.1 else drawLabel T r.1 b ⟨some color, none, none, size, alpha, raise, 30, 20⟩)

end Imgaug.Label
