import Verif.Model.Num
/-! Model of `draw_debug_image` and `SaveDebugImageEveryNBatches`, imgaug/augmenters/debug.py. Exceptions are `none`.

Simplifications. A picture has pixels of one type (the channels of a pixel are not looked at separately; pictures with another number of
channels than three, which `vstack` refuses, are not modelled). The rendering of texts, the resizing of pictures, the drawing of annotations and the
mixing of two pixels are parameters. Numbers are exact. -/
namespace Imgaug.Debug
open Imgaug

/-- A picture: height, width and pixels. -/
structure Pic (α : Type) where
  h : Nat
  w : Nat
  px : Nat → Nat → α

variable {α : Type}

/-- `np.vstack`: the widths must agree. -/
def vstack : List (Pic α) → Option (Pic α)
  | [] => none
  | [a] => some a
  | a :: b :: l => (vstack (b :: l)).bind (fun r =>
      if a.w = r.w then some ⟨a.h + r.h, a.w, fun y x => if y < a.h then a.px y x else r.px (y - a.h) x⟩ else none)

/-- `np.hstack`: the heights must agree. -/
def hstack : List (Pic α) → Option (Pic α)
  | [] => none
  | [a] => some a
  | a :: b :: l => (hstack (b :: l)).bind (fun r =>
      if a.h = r.h then some ⟨a.h, a.w + r.w, fun y x => if x < a.w then a.px y x else r.px y (x - a.w)⟩ else none)

/-- `sizelib.pad` with a constant colour; amounts below zero are an error (size.py 435). -/
def pad (a : Pic α) (top right bottom left : Int) (color : α) : Option (Pic α) :=
  if 0 ≤ top ∧ 0 ≤ right ∧ 0 ≤ bottom ∧ 0 ≤ left then
    some ⟨top.toNat + a.h + bottom.toNat, left.toNat + a.w + right.toNat, fun y x =>
      if top.toNat ≤ y ∧ y < top.toNat + a.h ∧ left.toNat ≤ x ∧ x < left.toNat + a.w then a.px (y - top.toNat) (x - left.toNat)
      else color⟩
  else none

/-- The size to which a picture is resized in `_resizepad_to_size`, debug.py 41-59. Division by zero is an exception. -/
def rsSize (himg wimg h w : Nat) : Option (Nat × Nat) :=
  if himg = 0 then none
  else if (h : Int) - himg < (w : Int) - wimg then
    some ((max (npRound (h : ℚ)) 1).toNat, (max (npRound ((h : ℚ) * ((wimg : ℚ) / himg))) 1).toNat)
  else if wimg = 0 then none
  else some ((max (npRound ((w : ℚ) / ((wimg : ℚ) / himg))) 1).toNat, (max (npRound (w : ℚ)) 1).toNat)

/-- The paddings top, right, bottom, left, debug.py 64-69. -/
def paddings (h w : Nat) (s : Nat × Nat) : Int × Int × Int × Int :=
  let py : ℚ := (h : ℚ) - s.1
  let px : ℚ := (w : ℚ) - s.2
  (⌊py / 2⌋, ⌈px / 2⌉, ⌈py / 2⌉, ⌊px / 2⌋)

/-- What is taken from elsewhere. -/
structure Lib (α : Type) where
  /-- `ia.imresize_single_image`, and the same with nearest neighbour interpolation -/
  resize : Pic α → Nat → Nat → Pic α
  resizeNearest : Pic α → Nat → Nat → Pic α
  /-- `blend_alpha` of a pixel of the overlay and one of the image -/
  mix : α → α → α
  /-- `draw_text` on a white picture of the given height and width -/
  text : String → Nat → Nat → Pic α
  /-- the colour of the background -/
  pink : α

/-- `_resizepad_to_size`, debug.py 31-77. -/
def resizePad (L : Lib α) (a : Pic α) (h w : Nat) : Option (Pic α × (Nat × Nat) × (Int × Int × Int × Int)) :=
  (rsSize a.h a.w h w).bind (fun s =>
    (pad (L.resize a s.1 s.2) (paddings h w s).1 (paddings h w s).2.1 (paddings h w s).2.2.1 (paddings h w s).2.2.2 L.pink).map
      (fun r => (r, s, paddings h w s)))

/-- A cell of the grid: `min_height`, `min_width` and `draw(height, width)`. -/
structure Cell (α : Type) where
  minH : Nat
  minW : Nat
  draw : Nat → Nat → Option (Pic α)

/-- The length of the longest line. -/
def longest (lines : List String) : Nat := (lines.map String.length).foldl max 0

/-- `_DebugGridTextCell`, debug.py 162-191. `text.split("\n")` has at least one element. -/
def textCell (L : Lib α) (s : String) : Cell α where
  minH := max 20 ((s.splitOn "\n").length * 17)
  minW := max 20 (7 * longest (s.splitOn "\n"))
  draw := fun h w => some (L.text s h w)

/-- Pixels mixed one by one; pictures of different size cannot be mixed. -/
def blend (L : Lib α) (o a : Pic α) : Option (Pic α) :=
  if o.h = a.h ∧ o.w = a.w then some ⟨a.h, a.w, fun y x => L.mix (o.px y x) (a.px y x)⟩ else none

/-- `_DebugGridImageCell`, debug.py 194-256, for an image that was converted to bytes. -/
def imageCell (L : Lib α) (a : Pic α) (overlay : Option (Pic α)) : Cell α where
  minH := a.h
  minW := a.w
  draw := fun h w => (resizePad L a h w).bind (fun r =>
    match overlay with
    | none => some r.1
    | some o =>
      (pad (L.resizeNearest (L.resizeNearest o a.h a.w) r.2.1.1 r.2.1.2) r.2.2.1 r.2.2.2.1 r.2.2.2.2.1 r.2.2.2.2.2 L.pink).bind
        (fun p => blend L p r.1))

/-- Annotations of an image: coordinates and the size of the image they belong to. -/
structure Anns where
  coords : List (ℚ × ℚ)
  h : Nat
  w : Nat

/-- `on_(size)` and `shift_(y, x)`, debug.py 289-291. Coordinates with an image of height or width zero fail. -/
def placed (a : Anns) (s : Nat × Nat) (top left : Int) : Option (List (ℚ × ℚ)) :=
  if (a.h = 0 ∨ a.w = 0) ∧ a.coords ≠ [] then none
  else some (a.coords.map (fun p => (p.1 / a.w * s.2 + left, p.2 / a.h * s.1 + top)))

/-- `_DebugGridCBAsOICell`, debug.py 259-294. `paint` is `draw_on_image` of annotations with the given coordinates. -/
def annsCell (L : Lib α) (paint : List (ℚ × ℚ) → Pic α → Pic α) (anns : Anns) (a : Pic α) : Cell α where
  minH := a.h
  minW := a.w
  draw := fun h w => (resizePad L a h w).bind (fun r =>
    (placed anns r.2.1 r.2.2.1 r.2.2.2.2.2).map (fun l => paint l r.1))

/-- `_DebugGridBorderCell(1, pink, cell)`, debug.py 129-159. -/
def border (L : Lib α) (c : Cell α) : Cell α where
  minH := c.minH
  minW := c.minW
  draw := fun h w => (c.draw h w).bind (fun p => pad p 1 1 1 1 L.pink)

/-- `max_cell_width`, debug.py 316-323. -/
def maxWidth (cells : List (Cell α)) : Nat := (cells.map Cell.minW).foldl max 0

/-- `_DebugGridColumn.draw`, debug.py 334-343. -/
def drawColumn (cells : List (Cell α)) (heights : List Nat) : Option (Pic α) :=
  ((cells.zip heights).mapM (fun (p : Cell α × Nat) => p.1.draw p.2 (maxWidth cells))).bind vstack

/-- The heights of the rows, debug.py 369-372. -/
def rowHeights (cols : List (List (Cell α))) : List Nat :=
  cols.foldl (fun (hs : List Nat) (col : List (Cell α)) => List.zipWith max hs (col.map Cell.minH)) (List.replicate ((cols.head?.getD []).length) 0)

/-- `_DebugGrid.draw`, debug.py 346-374. -/
def drawGrid (cols : List (List (Cell α))) : Option (Pic α) :=
  if cols = [] ∨ cols.any (fun c => c.length != (cols.head?.getD []).length) then none
  else (cols.mapM (fun (c : List (Cell α)) => drawColumn c (rowHeights cols))).bind hstack

/-- A column: title, description, pictures, all with borders; debug.py 499-611. -/
def column (L : Lib α) (title descr : String) (cells : List (Cell α)) : List (Cell α) :=
  (textCell L title :: textCell L descr :: cells).map (border L)

/-- The end of `draw_debug_image`, debug.py 492-496. -/
def drawDebug (L : Lib α) (cols : List (List (Cell α))) : Option (Pic α) :=
  (drawGrid cols).bind (fun g => pad g 1 1 1 1 L.pink)

/-! ### Values of pixels -/

/-- Kinds of dtypes: boolean, unsigned with a largest value, signed with smallest and largest value, float. -/
inductive Kind where
  | b
  | u (hi : Int)
  | i (lo hi : Int)
  | f

/-- The byte that is shown, debug.py 219-232. The cast to bytes cuts off the fraction. -/
def shown : Kind → ℚ → Int
  | .b, v => ⌊v⌋ * 255
  | .u hi, v => ⌊max 0 (min 1 (v / hi)) * 255⌋
  | .i lo hi, v => ⌊max 0 (min 1 ((lo + v) / (hi - lo : Int))) * 255⌋
  | .f, v => ⌊max 0 (min 1 v) * 255⌋

/-! ### Descriptions -/

/-- The numbers in the description of annotations. -/
structure Descr where
  fewest : Int
  most : Int
  total : Int
  outside : Nat
  coords : Nat
  extreme : ℚ × ℚ

/-- A coordinate that is not in the image, debug.py 806. -/
def outside (h w : Nat) (p : ℚ × ℚ) : Bool := !(decide (0 ≤ p.1) && decide (p.1 < w) && decide (0 ≤ p.2) && decide (p.2 < h))

/-- The squared distance from the centre, debug.py 805. -/
def dist (h w : Nat) (p : ℚ × ℚ) : ℚ := (p.1 - (w : ℚ) / 2) ^ 2 + (p.2 - (h : ℚ) / 2) ^ 2

/-- The last of those elements whose key is largest; `sorted` is stable. -/
def lastMax : List ((ℚ × ℚ) × ℚ) → Option ((ℚ × ℚ) × ℚ)
  | [] => none
  | a :: l => match lastMax l with
    | none => some a
    | some b => if b.2 < a.2 then some a else some b

/-- Items with their coordinates, image by image, with the heights and widths of the images. -/
abbrev Items := List (List (List (ℚ × ℚ)) × Nat × Nat)

/-- All coordinates with their distances, debug.py 797-807. -/
def allCoords (l : Items) : List ((ℚ × ℚ) × ℚ × Bool) :=
  l.flatMap (fun r => r.1.flatMap (fun item => item.map (fun p => (p, dist r.2.1 r.2.2 p, outside r.2.1 r.2.2 p))))

/-- Smallest and largest number of a list that is not empty. -/
def minL (l : List Int) : Int := l.foldl min (l.headD 0)
def maxL (l : List Int) : Int := l.foldl max (l.headD 0)

/-- `_generate_cbasois_description`, debug.py 760-826, without labels and areas. The minimum of the areas fails if there are images but no
items; the share of coordinates outside and the most extreme coordinate fail if there are no coordinates. -/
def describe (l : Items) : Option Descr :=
  let counts : List Int := if l = [] then [-1] else l.map (fun r => (r.1.length : Int))
  if l ≠ [] ∧ l.flatMap (fun r => r.1) = [] then none
  else (lastMax ((allCoords l).map (fun c => (c.1, c.2.1)))).map (fun e =>
    ⟨minL counts, maxL counts, counts.sum, ((allCoords l).filter (fun c => c.2.2)).length, (allCoords l).length, e.1⟩)

/-! ### Saving every N batches -/

/-- State of `_SaveDebugImage`: the batch ids of schedule and destinations, and the files (by name) with the numbers of the batches they
show. -/
structure Saver where
  scheduleId : Int
  folderId : Int
  latestId : Int
  files : List (String × Nat)

/-- `_FolderImageDestination`, `_EveryNBatchesSchedule`, debug.py 1069-1075 and 1122-1124. -/
def saver0 : Saver := ⟨-1, -1, -1, []⟩

/-- Writing a file replaces one with the same name. -/
def write (files : List (String × Nat)) (name : String) (v : Nat) : List (String × Nat) :=
  (name, v) :: files.filter (fun f => f.1 != name)

/-- `_SaveDebugImage._augment_batch_`, debug.py 1177-1193, with the destinations of 1261-1265. `fileName` formats the batch id; `batch`
says which batch it is. An interval of zero is a division by zero. -/
def onBatch (fileName : Int → String) (interval : Int) (s : Saver) (batch : Nat) : Option Saver :=
  if interval = 0 then none
  else
    let t : Saver := { s with scheduleId := s.scheduleId + 1, folderId := s.folderId + 1, latestId := s.latestId + 1 }
    some (if t.scheduleId % interval = 0 then
      { t with files := write (write t.files (fileName t.folderId) batch) "batch_latest.png" batch } else t)

/-- Batches numbered from `k` on. -/
def onBatches (fileName : Int → String) (interval : Int) : Nat → Nat → Saver → Option Saver
  | _, 0, s => some s
  | k, n + 1, s => (onBatch fileName interval s k).bind (onBatches fileName interval (k + 1) n)

end Imgaug.Debug
