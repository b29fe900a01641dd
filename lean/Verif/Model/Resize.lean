import Verif.Model.AddMul
/-! Model of `imresize_many_images` and `imresize_single_image`, imgaug/imgaug.py 878-1181.

Simplifications. Values are exact numbers. `cv2.resize` is a parameter that works on one channel of a given dtype; that it treats the
channels of an image alike and independently is built into the model, and so is that it keeps the dtype (asserted in the code, lines 1110-1115).
It rejects images of more than 512 channels and drops a last axis of size 1. -/
namespace Imgaug.Resize
open Imgaug Imgaug.Dtypes
open Imgaug.AddMul (promote)

/-- An image array `(H,W)` (`c = none`) or `(H,W,C)`; `px y x k` is the component in row `y`, column `x`, channel `k`. -/
structure Im where
  dt : DType
  h : Nat
  w : Nat
  c : Option Nat
  px : Nat → Nat → Nat → ℚ

/-- The shape of an array. -/
def Im.shape (a : Im) : Nat × Nat × Option Nat := (a.h, a.w, a.c)

/-- The interpolation methods, `IMRESIZE_VALID_INTERPOLATIONS`, imgaug.py 43-46 (names and numbers of cv2 being the same methods). -/
inductive Inter where
  | nearest | linear | area | cubic
  deriving DecidableEq, Repr

/-- One channel of an array of dtype `dt` and size `h × w`, resized to `h' × w'`: what `cv2.resize` computes. -/
abbrev Cv := Inter → DType → (h w h' w' : Nat) → (Nat → Nat → ℚ) → (Nat → Nat → ℚ)

/-- A number given as a size. -/
inductive Size where
  | int (n : Int) | float (q : ℚ)
  deriving DecidableEq, Repr

def Size.val : Size → ℚ
  | .int n => n
  | .float q => q

/-- The argument `sizes`: one number or a tuple. -/
inductive Sizes where
  | one (s : Size) | tuple (l : List Size)
  deriving DecidableEq, Repr

/-- The validation of `sizes`, imgaug.py 975-992. `none` is an exception. -/
def pair : Sizes → Option (Size × Size)
  | .one s => if s.val ≤ 0 then none else some (s, s)
  | .tuple [a, b] => if 0 ≤ a.val ∧ 0 ≤ b.val then some (a, b) else none
  | .tuple _ => none

/-- The size in pixels along one axis, imgaug.py 1017-1023. -/
def target (axis : Nat) : Size → Nat
  | .int n => n.toNat
  | .float q => (npRound (axis * q)).toNat

/-- The method that is used, imgaug.py 1045-1066. -/
def chosen (h w h' w' : Nat) : Option Inter → Inter
  | none => if h' > h ∨ w' > w then .area else .linear
  | some i => i

/-- The gates, imgaug.py 1070-1084. -/
def allowed (i : Inter) : List DType :=
  if i = .nearest then [⟨.b, 1⟩, ⟨.u, 1⟩, ⟨.u, 2⟩, ⟨.i, 1⟩, ⟨.i, 2⟩, ⟨.i, 4⟩, ⟨.f, 2⟩, ⟨.f, 4⟩, ⟨.f, 8⟩]
  else [⟨.b, 1⟩, ⟨.u, 1⟩, ⟨.u, 2⟩, ⟨.i, 1⟩, ⟨.i, 2⟩, ⟨.f, 2⟩, ⟨.f, 4⟩, ⟨.f, 8⟩]

/-- The dtype in which `cv2.resize` is called, imgaug.py 1094-1099. -/
def inner (i : Inter) (d : DType) : DType :=
  if d = ⟨.b, 1⟩ then ⟨.u, 1⟩
  else if d = ⟨.i, 1⟩ ∧ i ≠ .nearest then ⟨.i, 2⟩
  else if d = ⟨.f, 2⟩ then ⟨.f, 4⟩
  else d

/-- The conversion of a component before `cv2.resize`, imgaug.py 1094-1099. -/
def before (d : DType) (v : ℚ) : ℚ := if d = ⟨.b, 1⟩ then v * 255 else v

/-- The conversion of a component after `cv2.resize`, imgaug.py 1123-1132. -/
def after (i : Inter) (d : DType) (v : ℚ) : Option ℚ :=
  if d = ⟨.b, 1⟩ then some (if v > 127 then 1 else 0)
  else if d = ⟨.i, 1⟩ ∧ i ≠ .nearest then changeDtype ⟨.i, 2⟩ ⟨.i, 1⟩ true v
  else if d = ⟨.f, 2⟩ then changeDtype ⟨.f, 4⟩ ⟨.f, 2⟩ true v
  else some v

/-- `cv2.resize` of an image: up to 512 channels, the last axis is dropped if it is 1. -/
def cvResize (cv : Cv) (i : Inter) (a : Im) (h' w' : Nat) : Option Im :=
  if a.c.getD 1 > 512 then none
  else some ⟨a.dt, h', w', if a.c = some 1 then none else a.c, fun y x k => cv i a.dt a.h a.w h' w' (fun y x => a.px y x k) y x⟩

/-- The resizing of an image whose dtype is supported by cv2, with the treatment of many channels and the added last axis,
imgaug.py 1101-1121. -/
def viaCv (cv : Cv) (i : Inter) (a : Im) (h' w' : Nat) : Option Im :=
  if a.c.getD 1 > 512 then
    -- each channel alone, then `np.stack(..., axis=-1)`
    some ⟨a.dt, h', w', a.c, fun y x k => cv i a.dt a.h a.w h' w' (fun y x => a.px y x k) y x⟩
  else
    (cvResize cv i a h' w').map (fun r => if r.c = none ∧ a.c = some 1 then { r with c := some 1 } else r)

/-- One image of the array, imgaug.py 1010-1134. `none` is an exception: also that of writing an array into a place of another shape.
Components whose conversion would raise are written as 0; `after_some` proves that there are none. -/
def core (cv : Cv) (ip : Option Inter) (sz : Size × Size) (a : Im) : Option Im :=
  let h' := target a.h sz.1
  let w' := target a.w sz.2
  if h' = a.h ∧ w' = a.w then some a
  else if h' = 0 ∨ w' = 0 ∨ a.c = some 0 then some ⟨a.dt, h', w', a.c, fun _ _ _ => 0⟩
  else if a.h = 0 ∨ a.w = 0 ∨ a.c = some 0 then none
  else
    let i := chosen a.h a.w h' w' ip
    if a.dt ∉ allowed i then none
    else (viaCv cv i ⟨inner i a.dt, a.h, a.w, a.c, fun y x k => before a.dt (a.px y x k)⟩ h' w').bind (fun r =>
      if r.c = a.c then some ⟨a.dt, h', w', a.c, fun y x k => (after i a.dt (r.px y x k)).getD 0⟩ else none)

/-- `np.array(images)` for arrays of the same shape: the common dtype. -/
def npArray : List Im → List Im
  | [] => []
  | a :: l =>
    let d := l.foldl (fun d b => promote d b.dt) a.dt
    (a :: l).map (fun b => { b with dt := d, px := fun y x k => astype d (b.px y x k) })

/-- `imresize_many_images` on an array (all images of the same shape and dtype), imgaug.py 970-1134. -/
def manyArray (cv : Cv) (ip : Option Inter) (sizes : Sizes) (images : List Im) : Option (List Im) :=
  if images.isEmpty then some []
  else (pair sizes).bind (fun sz => images.mapM (core cv ip sz))

/-- `imresize_many_images` on a list, imgaug.py 970-1008. -/
def manyList (cv : Cv) (ip : Option Inter) (sizes : Sizes) (images : List Im) : Option (List Im) :=
  match images with
  | [] => some []
  | a :: l =>
    (pair sizes).bind (fun sz =>
      if l.all (fun b => b.shape = a.shape) then (npArray (a :: l)).mapM (core cv ip sz)
      else (a :: l).mapM (core cv ip sz))

/-- `imresize_single_image`, imgaug.py 1145-1181: a last axis is added to `(H,W)` images and removed afterwards. -/
def single (cv : Cv) (ip : Option Inter) (sizes : Sizes) (a : Im) : Option Im :=
  match a.c with
  | none => ((pair sizes).bind (fun sz => core cv ip sz { a with c := some 1 })).map (fun r => { r with c := none })
  | some _ => (pair sizes).bind (fun sz => core cv ip sz a)

end Imgaug.Resize
