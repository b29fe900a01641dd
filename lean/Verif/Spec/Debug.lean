import Verif.Model.Debug
/-! Vocabulary for debug images. -/
namespace Imgaug.Debug
variable {α : Type}

/-- Resizing gives the requested size, and changes nothing if it is the size of the picture. Texts fill the requested area. -/
structure LibOk (L : Lib α) : Prop where
  size : ∀ a h w, (L.resize a h w).h = h ∧ (L.resize a h w).w = w
  same : ∀ a : Pic α, ∀ y x, y < a.h → x < a.w → (L.resize a a.h a.w).px y x = a.px y x
  sizeN : ∀ a h w, (L.resizeNearest a h w).h = h ∧ (L.resizeNearest a h w).w = w
  sameN : ∀ a : Pic α, ∀ y x, y < a.h → x < a.w → (L.resizeNearest a a.h a.w).px y x = a.px y x
  text : ∀ s h w, (L.text s h w).h = h ∧ (L.text s h w).w = w

/-- What is shown in the cell of an image: the image, the image with a map, or with annotations (and a way to draw them). -/
inductive Content (α : Type) where
  | plain
  | overlay (o : Pic α)
  | anns (paint : List (ℚ × ℚ) → Pic α → Pic α) (a : Anns)

/-- Annotations belong to images that are not empty, and drawing keeps the size of a picture. -/
def Content.Ok : Content α → Prop
  | .anns paint a => 0 < a.h ∧ 0 < a.w ∧ ∀ l p, (paint l p).h = p.h ∧ (paint l p).w = p.w
  | _ => True

/-- The cell for an image. -/
def cellOf (L : Lib α) (a : Pic α) : Content α → Cell α
  | .plain => imageCell L a none
  | .overlay o => imageCell L a (some o)
  | .anns paint an => annsCell L paint an a

/-- A column: title, description, and for each image what is shown. -/
structure Col (α : Type) where
  title : String
  descr : String
  contents : List (Content α)

/-- The columns of `draw_debug_image` for a list of images. -/
def grid (L : Lib α) (imgs : List (Pic α)) (cols : List (Col α)) : List (List (Cell α)) :=
  cols.map (fun c => column L c.title c.descr (List.zipWith (cellOf L) imgs c.contents))

/-- Where the row `r` begins: every row above takes its height and two pixels for borders. -/
def rowTop (heights : List Nat) (r : Nat) : Nat := ((heights.take r).map (· + 2)).sum

/-- An image in the middle of an area with its own height and a larger width. -/
def centred (a : Pic α) (w : Nat) (color : α) : Pic α :=
  ⟨a.h, w, fun y x => if (w - a.w) / 2 ≤ x ∧ x < (w - a.w) / 2 + a.w then a.px y (x - (w - a.w) / 2) else color⟩

/-- The pixel at row `y` and column `x` of the area of an image that is `w` wide. -/
def Content.Shows (L : Lib α) (a : Pic α) (w : Nat) (y x : Nat) (v : α) : Content α → Prop
  | .plain => v = (centred a w L.pink).px y x
  | .overlay o => v = L.mix ((centred (L.resizeNearest o a.h a.w) w L.pink).px y x) ((centred a w L.pink).px y x)
  | .anns paint an => ∃ p : Pic α, p.h = a.h ∧ p.w = w ∧ (∀ y x, y < a.h → x < w → p.px y x = (centred a w L.pink).px y x) ∧
      v = (paint (an.coords.map (fun q => (q.1 / an.w * a.w + ((w - a.w) / 2 : Nat), q.2 / an.h * a.h))) p).px y x

/-- Files after `n` batches: those of the batches `0, N, 2N, ...`, and the latest of them. -/
def Saved (fileName : Int → String) (interval : Nat) (n : Nat) (files : List (String × Nat)) : Prop :=
  ∀ name v, (name, v) ∈ files ↔
    (v < n ∧ interval ∣ v ∧ name = fileName v) ∨
    (name = "batch_latest.png" ∧ v < n ∧ interval ∣ v ∧ ∀ k, k < n → interval ∣ k → k ≤ v)

end Imgaug.Debug
