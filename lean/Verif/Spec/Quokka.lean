import Verif.Model.Quokka
import Verif.Spec.Extract
/-! Vocabulary for the example data. -/
namespace Imgaug.Quokka
open Imgaug
variable {α : Type}

/-- The size `n` that is asked for along an axis of size `f`: the same, a number of pixels, or a fraction of the size. -/
inductive Asked (f : Nat) : Option Num → Nat → Prop
  | same : Asked f none f
  | pixels (n : Nat) : Asked f (some (.int n)) n
  | fraction (q : ℚ) (n : Nat) (h : npRound (f * q) = n) : Asked f (some (.float q)) n

/-- The size `(h', w')` that is asked for by an argument, for an image of size `(h, w)`. -/
inductive AskedSize (h w : Nat) : SizeArg → Nat → Nat → Prop
  | none : AskedSize h w .none h w
  | array (h' w' : Nat) : AskedSize h w (.array [h', w']) h' w'
  | tuple (a b : Option Num) (h' w' : Nat) (ha : Asked h a h') (hb : Asked w b w') : AskedSize h w (.tuple [a, b]) h' w'
  | num (v : Num) (h' w' : Nat) (ha : Asked h (some v) h') (hb : Asked w (some v) w') : AskedSize h w (.num v) h' w'

/-- The area that is asked for: corner and size, in whole pixels. -/
inductive Area : ExtractArg → (x y : Int) → (h w : Nat) → Prop
  | none : Area .none 0 0 643 960
  | square : Area .square 0 0 643 643
  | tuple (x y : Int) (h w : Nat) : Area (.tuple [(x : ℚ), y, x + w, y + h]) x y h w
  | box (x y : Int) (h w : Nat) (l : Option String) : Area (.box ⟨x, y, x + w, y + h, l⟩) x y h w
  | boxes (x y : Int) (h w : Nat) (l : Option String) (s : List Nat) : Area (.boxes [⟨x, y, x + w, y + h, l⟩] (643 :: 960 :: s)) x y h w

/-- Resizing gives the size that is asked for, and changes nothing if it is the size of the image. -/
structure ResizeOk (resize : Img α → Nat → Nat → Img α) : Prop where
  size : ∀ a h w, (resize a h w).h = h ∧ (resize a h w).w = w
  same : ∀ a : Img α, resize a a.h a.w = a

end Imgaug.Quokka
