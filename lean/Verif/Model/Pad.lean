import Verif.Model.Draw
import Verif.Model.Size2
/-! Model of padding arrays: `pad`, `pad_to_aspect_ratio` and `pad_to_multiples_of`, imgaug/augmenters/size.py 363-710.

Simplifications. Numbers are exact. The modes are strings (cv2's constants, which are accepted too, are left out). The borders of `cv2.copyMakeBorder` and
`np.pad` for the modes "constant", "edge", "reflect" and "symmetric" are written out; for the other modes, for which only `np.pad` is used, they are a
parameter. -/
namespace Imgaug.Pad
open Imgaug Imgaug.Dtypes Imgaug.Size

/-- The modes of `np.pad`. -/
inductive Mode where
  | constant | edge | linearRamp | maximum | mean | median | minimum | reflect | symmetric | wrap
  deriving DecidableEq

/-- The argument `cval`. -/
inductive Cval where
  | one (v : ℚ)
  | many (l : List ℚ)

/-- The clipping of `cval`, size.py 455-458, and its conversion to the dtype, lines 500-505 or in `np.pad`. -/
def value (d : DType) (v : ℚ) : ℚ := astype d (max (min v (hi d)) (lo d))

/-- The dtypes that cv2 rejects, size.py 487-491. -/
def cv2Bad : List DType := [⟨.u, 4⟩, ⟨.u, 8⟩, ⟨.i, 8⟩, ⟨.f, 2⟩, ⟨.f, 16⟩, ⟨.b, 1⟩]

/-- The modes of cv2, size.py 467-483. -/
def cv2Modes : List Mode := [.constant, .edge, .reflect, .symmetric]

/-- Which index of an axis of size `n` is shown at the position `i`, with the first index at position 0: the closed form of OpenCV's
`borderInterpolate`, and the same for `np.pad`. -/
def index (m : Mode) (n : Nat) (i : Int) : Nat :=
  match m with
  | .edge => (max 0 (min i (n - 1))).toNat
  | .reflect =>
    if n = 1 then 0
    else
      let k := i % (2 * ((n : Int) - 1))
      if k < n then k.toNat else (2 * ((n : Int) - 1) - k).toNat
  | .symmetric =>
    let k := i % (2 * (n : Int))
    if k < n then k.toNat else (2 * (n : Int) - 1 - k).toNat
  | _ => 0

/-- The array in the middle of a border. -/
def frame (a : Draw.Img) (t : Trbl) (border : Nat → Nat → Nat → ℚ) : Draw.Img :=
  { a with
    h := a.h + t.top.toNat + t.bottom.toNat
    w := a.w + t.left.toNat + t.right.toNat
    px := fun y x ch =>
      if t.top.toNat ≤ y ∧ y < t.top.toNat + a.h ∧ t.left.toNat ≤ x ∧ x < t.left.toNat + a.w then a.px (y - t.top.toNat) (x - t.left.toNat) ch
      else border y x ch }

/-- The border for the four modes, where `val` are the values for the mode "constant". -/
def border (m : Mode) (val : Nat → Nat → Nat → ℚ) (a : Draw.Img) (t : Trbl) (y x ch : Nat) : ℚ :=
  if m = .constant then val y x ch
  else a.px (index m a.h ((y : Int) - t.top)) (index m a.w ((x : Int) - t.left)) ch

/-- `cv2.copyMakeBorder` for at most four channels: missing values are 0, more than four values are an error. -/
def copyMakeBorder (m : Mode) (l : List ℚ) (a : Draw.Img) (t : Trbl) : Option Draw.Img :=
  if l.length > 4 then none else some (frame a t (border m (fun _ _ ch => l.getD ch 0) a t))

/-- `arr[..., s:s+4]`. -/
def four (a : Draw.Img) (s : Nat) : Draw.Img := { a with c := min 4 (a.c - s), px := fun y x ch => a.px y x (s + ch) }

/-- The branch with cv2, size.py 497-535. -/
def padCv (m : Mode) (cval : Cval) (a : Draw.Img) (t : Trbl) : Option Draw.Img :=
  if a.flat = true ∨ a.c ≤ 4 then
    copyMakeBorder m (match cval with
      | .one v => if a.flat then [value a.dt v] else List.replicate a.c (value a.dt v)
      | .many l => l.map (value a.dt)) a t
  else
    let l := match cval with
      | .one v => List.replicate a.c (value a.dt v)
      | .many l => l.map (value a.dt)
    ((List.range ((a.c + 3) / 4)).mapM (fun (k : Nat) => copyMakeBorder m ((l.drop (4 * k)).take 4) (four a (4 * k)) t)).map (fun parts =>
      { frame a t (fun _ _ _ => 0) with c := (parts.map (fun r => r.c)).sum, px := fun y x ch => match parts[ch / 4]? with
        | some r => r.px y x (ch % 4)
        | none => 0 })

/-- `np.pad` for the modes that are not written out: the border, for the given end values. -/
abbrev Np := Mode → List ℚ → Draw.Img → Trbl → Option (Nat → Nat → Nat → ℚ)

/-- Values for the sides of an array with two axes, as broadcast by `np.pad`: one value, or one before and one after. The last axis is padded last. -/
def sides (l : List ℚ) (a : Draw.Img) (t : Trbl) : Option (Nat → Nat → Nat → ℚ) :=
  match l with
  | [v] => some (fun _ _ _ => v)
  | [v, w] => some (fun y x _ =>
      if x < t.left.toNat then v else if t.left.toNat + a.w ≤ x then w else if y < t.top.toNat then v else w)
  | _ => none

/-- The branch with numpy, size.py 536-565. -/
def padNp (np : Np) (m : Mode) (cval : Cval) (a : Draw.Img) (t : Trbl) : Option Draw.Img :=
  if m = .constant then
    match cval with
    | .one v => some (frame a t (fun _ _ _ => value a.dt v))
    | .many l =>
      if a.flat then (sides (l.map (value a.dt)) a t).map (frame a t)
      else if a.c = 0 ∨ l.length < a.c then none
      else some (frame a t (fun _ _ ch => (l.map (value a.dt)).getD ch 0))
  else if m ∈ cv2Modes then some (frame a t (border m (fun _ _ _ => 0) a t))
  else (np m (match cval with
      | .one v => [value a.dt v]
      | .many l => l.map (value a.dt)) a t).map (frame a t)

/-- `pad`, size.py 434-568. `none` is an exception. -/
def pad (np : Np) (a : Draw.Img) (t : Trbl) (mode : Mode) (cval : Cval) : Option Draw.Img :=
  if 0 ≤ t.top ∧ 0 ≤ t.right ∧ 0 ≤ t.bottom ∧ 0 ≤ t.left then
    if t.top > 0 ∨ t.right > 0 ∨ t.bottom > 0 ∨ t.left > 0 then
      let m := if a.h = 0 ∨ a.w = 0 ∨ (a.flat = false ∧ a.c = 0) then .constant else mode
      if a.dt ∉ cv2Bad ∧ m ∈ cv2Modes ∧ ¬ (a.flat = false ∧ a.c = 0) then padCv m cval a t else padNp np m cval a t
    else some a
  else none

/-- `pad_to_aspect_ratio`, size.py 571-636: the array and the amounts. -/
def padToRatio (np : Np) (a : Draw.Img) (ratio : ℚ) (mode : Mode) (cval : Cval) : Option (Draw.Img × Trbl) :=
  (paddingsRatio ⟨a.h, a.w⟩ ratio).bind (fun t => (pad np a t mode cval).map (fun r => (r, t)))

/-- `pad_to_multiples_of`, size.py 639-710. -/
def padToMultiples (np : Np) (a : Draw.Img) (hm wm : Option Nat) (mode : Mode) (cval : Cval) : Option (Draw.Img × Trbl) :=
  (paddingsMultiples ⟨a.h, a.w⟩ hm wm).bind (fun t => (pad np a t mode cval).map (fun r => (r, t)))

end Imgaug.Pad
