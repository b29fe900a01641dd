import Verif.Model.Extract
import Verif.Model.DrawLines
import Verif.Model.PolyClip
/-! Model of `Polygon.extract_from_image` and `change_first_point_by_coords`, imgaug/augmentables/polys.py 909-1010, and of
`LineString.extract_from_image`, imgaug/augmentables/lines.py 1215-1308. Exceptions are `none`.

Parameters. The pixels of lines and of the inside of polygons come from `skimage.draw`. Whether a polygon is outside of the image is a parameter (modelled in
Model/Lines.lean).

Simplifications. Coordinates and pixels are exact numbers. Pixels of line strings are those of one channel; the channels are treated alike. -/
namespace Imgaug.ExtractShapes
open Imgaug Imgaug.Extract

/-- `np.min(...)` and `np.max(...)` of integers. -/
def minI : List Int → Int
  | [] => 0
  | a :: l => l.foldl min a

def maxI : List Int → Int
  | [] => 0
  | a :: l => l.foldl max a

/-- `xx_int` and `yy_int`, polys.py 187-216 and lines.py 103-131. -/
def xxInt (l : List Pt) : List Int := l.map (fun p => npRound p.x)
def yyInt (l : List Pt) : List Int := l.map (fun p => npRound p.y)

/-- `height_mask` and `width_mask`, polys.py 943-948. -/
def maskH (l : List Pt) : Nat := (maxI (yyInt l) - minI (yyInt l)).toNat
def maskW (l : List Pt) : Nat := (maxI (xxInt l) - minI (xxInt l)).toNat

/-- The pixels of the mask that are true, polys.py 950-954. -/
def face (lib : DrawLines.Lib) (l : List Pt) : List (Nat × Nat) :=
  lib.polygon (l.map (fun p => (npRound p.y - minI (yyInt l), npRound p.x - minI (xxInt l)))) (maskH l) (maskW l)

/-- `bb_area * mask`, polys.py 959, with numpy's rules for axes of different length. -/
def masked {α : Type} (zero : α) (r : Img α) (mh mw : Nat) (ps : List (Nat × Nat)) : Option (Img α) :=
  (DrawLines.common r.h mh).bind (fun h => (DrawLines.common r.w mw).map (fun w =>
    ⟨h, w, fun y x =>
      if (if mh = 1 then 0 else y, if mw = 1 then 0 else x) ∈ ps then r.px (if r.h = 1 then 0 else y) (if r.w = 1 then 0 else x) else zero⟩))

/-- `Polygon.extract_from_image`, polys.py 930-959. `out`: `is_out_of_image(image, fully=True, partly=False)`. -/
def extractPolygon {α : Type} (lib : DrawLines.Lib) (out : Bool) (zero : α) (ext : List Pt) (a : Img α) : Option (Img α) :=
  if ext.length ≤ 2 then none
  else (Polygon.coordsToBB ext none).bind (fun b => (extract zero b a true none true).bind (fun r =>
    if out then some r else masked zero r (maskH ext) (maskW ext) (face lib ext)))

/-- `change_first_point_by_coords`, polys.py 995-1010. The limit is compared with the distance, i.e. its square with the squared one. -/
def changeFirstPointByCoords (p : Polygon) (x y : ℚ) (maxDistance : Option ℚ) (raise : Bool) : Option Polygon :=
  match PolyClip.closest ⟨x, y⟩ p.exterior with
  | none => none
  | some (i, d2) =>
    if maxDistance.any (fun m => decide (m < 0 ∨ m ^ 2 < d2)) then (if raise then none else some p.deepcopy)
    else p.changeFirstPointByIndex i

/-- The box around the line, lines.py 1280-1295. -/
def lineBox (l : List Pt) (size : Int) : BB :=
  BB.init (minI (xxInt l) - ((size : ℚ) - 1) / 2) (minI (yyInt l) - ((size : ℚ) - 1) / 2)
    (maxI (xxInt l) + 1 + ((size : ℚ) - 1) / 2) (maxI (yyInt l) + 1 + ((size : ℚ) - 1) / 2)

/-- `LineString.extract_from_image`, lines.py 1271-1308. -/
def extractLine (lib : DrawLines.Lib) (l : List Pt) (a : Img ℚ) (size : Int) (pad : Bool) (padMax : Option Int) (aa pz : Bool) : Option (Img ℚ) :=
  if l.length = 0 ∨ size ≤ 0 then some (if pz then ⟨1, 1, fun _ _ => 0⟩ else ⟨0, 0, fun _ _ => 0⟩)
  else if l.length = 1 then extract 0 (lineBox l size) a pad padMax pz
  else (DrawLines.linesHeat lib a.h a.w l 1 size.toNat aa false).bind (fun heat =>
    (extract 0 (lineBox l size) ⟨a.h, a.w, fun y x => a.px y x * heat y x⟩ pad padMax pz).map (fun r =>
      ⟨r.h, r.w, fun y x => DrawLines.toByte (r.px y x)⟩))

end Imgaug.ExtractShapes
