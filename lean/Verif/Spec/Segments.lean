import Verif.Model.Segments
/-! Specification of the replacement of segments by their average colours. -/
namespace Imgaug.Segments
open Imgaug

/-- The values of channel `c` of the pixels with id `s`. -/
def cell (px : List Px) (segments : List Nat) (s c : Nat) : List Int :=
  (List.range px.length).filterMap (fun i => if segments[i]? = some s then (px[i]?).map (fun p => p.getD c 0) else none)

/-- The mean of a list of integers. -/
def mean (l : List Int) : ℚ := (l.sum : ℚ) / l.length

/-- The colour a segment gets: in every channel the mean without its fractional digits; for bool images whether any pixel is `True`. -/
def cellColor (dt : Dt) (n : Nat) (px : List Px) (segments : List Nat) (s : Nat) : Px :=
  (List.range n).map (fun c => if dt = .bool then (if mean (cell px segments s c) = 0 then 0 else 1) else pyInt (mean (cell px segments s c)))

/-- Pixels of the segments that are chosen have the colour of their segment, all others are unchanged. -/
def Replaced (chosen : Nat → Bool) (segments : List Nat) (a b : Im) : Prop :=
  (b.h, b.w, b.c, b.dt) = (a.h, a.w, a.c, a.dt) ∧ b.px.length = a.px.length ∧
  ∀ (i : Nat) (p : Px) (s : Nat), a.px[i]? = some p → segments[i]? = some s →
    b.px[i]? = some (if chosen s then cellColor a.dt a.n a.px segments s else p)

/-- The number of different ids below `s`. -/
def rank (segments : List Nat) (s : Nat) : Nat := ((List.range s).filter (fun t => segments.contains t)).length

/-- A well-formed image: `h · w` pixels of `n` channels; bool images contain zeros and ones. -/
def Im.Good (a : Im) : Prop :=
  a.px.length = a.h * a.w ∧ (∀ p ∈ a.px, p.length = a.n) ∧ (a.dt = .bool → ∀ p ∈ a.px, ∀ v ∈ p, v = 0 ∨ v = 1)

/-- At least one pixel with at least one channel. -/
def Im.Full (a : Im) : Prop := 0 < a.h ∧ 0 < a.w ∧ a.c ≠ some 0

/-- The ids are `0 … m-1` and each of them has a pixel. -/
def Contiguous (segments : List Nat) : Prop := ∀ s t, s ∈ segments → t < s → t ∈ segments

/-- The squared distance of two points. -/
def dist2 (p q : Pt) : ℚ := (p.1 - q.1) ^ 2 + (p.2 - q.2) ^ 2

/-- The answer of the tree is the index of a point with the smallest distance. -/
def IsNearest (nearest : Nearest) : Prop :=
  ∀ cells p, cells ≠ [] → ∃ c, cells[nearest cells p]? = some c ∧ ∀ d ∈ cells, dist2 p c ≤ dist2 p d

/-- Resized images have the demanded size and the channels and dtype of the image. -/
def Resizes (resize : Resizer) : Prop := ∀ a h w b, resize a h w = some b → (b.h : Int) = h ∧ (b.w : Int) = w ∧ b.c = a.c ∧ b.dt = a.dt

end Imgaug.Segments
