import Verif.Model.Size
/-! Model of `BoundingBox.extract_from_image`, imgaug/augmentables/bbs.py 964-1090.

Simplifications. Coordinates are rationals (`float32` in the code) and integers unbounded. A pixel with all its channels is one value of
the type `α`, `zero` the pixel whose channels are all zero. Whether the result shares memory with the image is not modelled. -/
namespace Imgaug.Extract
open Imgaug Imgaug.Size
variable {α : Type}

/-- Start and end of a numpy slice `i:j` of an axis of size `n` as an index: negative values count from the end, values out of range
are clipped (numpy/Python, slicing with step 1). -/
def bound (n : Nat) (i : Int) : Nat := if i < 0 then (i + n).toNat else min i.toNat n

/-- `image[y1:y2, x1:x2]`, bbs.py 1066 and 1077. -/
def slice (a : Img α) (c : Xyxy) : Img α :=
  ⟨bound a.h c.y2 - bound a.h c.y1, bound a.w c.x2 - bound a.w c.x1,
    fun y x => a.px (bound a.h c.y1 + y) (bound a.w c.x1 + x)⟩

/-- `x1_int`, `x2_int`, `y1_int`, `y2_int`, bbs.py 82-140, as read in line 1008. -/
def rounded (b : BB) : Xyxy := ⟨npRound b.x1, npRound b.y1, npRound b.x2, npRound b.y2⟩

/-- bbs.py 1015-1018. -/
def clipped (b : BB) (s : Shape) : Xyxy :=
  let c := rounded b
  if b.isFullyWithin s then
    ⟨clipI c.x1 0 ((s.w : Int) - 1), clipI c.y1 0 ((s.h : Int) - 1), clipI c.x2 0 ((s.w : Int) - 1), clipI c.y2 0 ((s.h : Int) - 1)⟩
  else c

/-- bbs.py 1021-1025. -/
def grown (pz : Bool) (c : Xyxy) : Xyxy :=
  if pz then ⟨c.x1, c.y1, if |c.x2 - c.x1| < 1 then c.x1 + 1 else c.x2, if |c.y2 - c.y1| < 1 then c.y1 + 1 else c.y2⟩ else c

/-- bbs.py 1036-1054: the paddings of one axis of the given size before and after it, and the new coordinates. -/
structure Axis where
  before : Int
  after : Int
  c1 : Int
  c2 : Int
  deriving DecidableEq, Repr

def axis (size c1 c2 : Int) : Axis :=
  if c1 < 0 then ⟨|c1|, if c2 + |c1| ≥ size + |c1| then c2 + |c1| - (size + |c1|) else 0, 0, c2 + |c1|⟩
  else ⟨0, if c2 ≥ size then c2 - size else 0, c1, c2⟩

/-- bbs.py 1056-1065: `paddings` and the limit `pad_max`. -/
def limit (padMax : Option Int) (t : Trbl) : Trbl :=
  let m := padMax.getD (max (max t.top t.right) (max t.bottom t.left))
  ⟨min t.top m, min t.right m, min t.bottom m, min t.left m⟩

/-- bbs.py 1027-1066, the branch `pad=True`. `none` is the assertion of `pad` on negative amounts. -/
def padded (zero : α) (a : Img α) (c : Xyxy) (padMax : Option Int) : Option (Img α) :=
  let v := axis a.h c.y1 c.y2
  let u := axis a.w c.x1 c.x2
  let t : Trbl := ⟨v.before, u.after, v.after, u.before⟩
  if t.top > 0 ∨ t.right > 0 ∨ t.bottom > 0 ∨ t.left > 0 then
    (pad (fun _ _ => zero) a (limit padMax t)).map (fun p => slice p ⟨u.c1, v.c1, u.c2, v.c2⟩)
  else some (slice a ⟨u.c1, v.c1, u.c2, v.c2⟩)

/-- Python's `<` on tuples: the first difference decides. -/
def tupleLt : List Int → List Int → Bool
  | [], [] => false
  | [], _ :: _ => true
  | _ :: _, [] => false
  | x :: xs, y :: ys => if x = y then tupleLt xs ys else decide (x < y)

/-- bbs.py 1068-1090, the branch `pad=False`. -/
def unpadded (zero : α) (a : Img α) (c : Xyxy) (pz : Bool) : Img α :=
  let t := [c.x1, c.y1, c.x2, c.y2]
  if (tupleLt [0, 0, 0, 0] t || decide ([0, 0, 0, 0] = t)) && tupleLt t [(a.w : Int), a.h, a.w, a.h] && decide (c.y2 - c.y1 > 0) &&
      decide (c.x2 - c.x1 > 0) then slice a c
  else if pz then ⟨1, 1, fun _ _ => zero⟩ else ⟨0, 0, fun _ _ => zero⟩

/-- `extract_from_image`, bbs.py 964-1090. -/
def extract (zero : α) (b : BB) (a : Img α) (pad : Bool) (padMax : Option Int) (pz : Bool) : Option (Img α) :=
  let c := grown pz (clipped b ⟨a.h, a.w⟩)
  if pad then padded zero a c padMax else some (unpadded zero a c pz)

end Imgaug.Extract
