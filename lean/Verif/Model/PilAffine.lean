import Verif.Model.AffineArgs
import Verif.Model.Draw
import Verif.Model.Positions
/-! Model of `pillike.warp_affine` and `pillike.Affine`, imgaug/augmenters/pillike.py 79-91, 1122-1270 and 2437-2522.

Simplifications. Numbers are real numbers and are not rounded. `PIL.Image.transform` with nearest neighbours is written out, without its
fixed point numbers; how PIL converts a colour is a parameter. The samples are those of `Model/AffineArgs.lean`; `deterministic`, names and
hooks are left out. -/
namespace Imgaug.PilAffine
open Imgaug Imgaug.Affine Imgaug.Dtypes Classical

/-- The argument `fillcolor`. -/
inductive Fill where
  | none
  | one (z : Int)
  | many (l : List ℚ)

/-- What PIL gets as `fillcolor`, pillike.py 1239-1243. -/
inductive PilColor where
  | int (z : Int)
  | tuple (l : List Int)

def Fill.toPil : Fill → PilColor
  | .none => .int 0
  | .one z => .int z
  | .many l => .tuple (l.map pyInt)

/-- The conversion of a color to the values of so many channels by PIL; `none` is an exception. -/
abbrev Ink := Nat → PilColor → Option (Nat → ℚ)

/-- The arguments of `warp_affine`, angles in degrees. -/
structure Args where
  scaleX : ℝ
  scaleY : ℝ
  translateX : ℝ
  translateY : ℝ
  rotate : ℝ
  shearX : ℝ
  shearY : ℝ
  fill : Fill
  centerX : ℝ
  centerY : ℝ

/-- `_RAD_PER_DEGREE`, geometric.py 82. -/
noncomputable def radPerDegree : ℝ := (AffineArgs.pyPi / 180 : ℚ)

/-- `_create_affine_matrix` without the last step, pillike.py 1122-1144. -/
noncomputable def forward (v : Args) (cx cy : ℝ) : M3 :=
  let m := M3.one.translate (-cx) (-cy)
  let m := m.scale (max v.scaleX (1 / 10000)) (max v.scaleY (1 / 10000))
  let m := m.translate v.translateX v.translateY
  let m := m.shear (-(v.shearX * radPerDegree)) (v.shearY * radPerDegree)
  let m := m.rotate (v.rotate * radPerDegree)
  m.translate cx cy

/-- The determinant. -/
noncomputable def det (m : M3) : ℝ :=
  m.a * (m.e * m.i - m.f * m.h) - m.b * (m.d * m.i - m.f * m.g) + m.c * (m.d * m.h - m.e * m.g)

/-- `np.linalg.inv`, pillike.py 1145; `none` is an exception. -/
noncomputable def inv (m : M3) : Option M3 :=
  if det m = 0 then none
  else some ⟨(m.e * m.i - m.f * m.h) / det m, (m.c * m.h - m.b * m.i) / det m, (m.b * m.f - m.c * m.e) / det m,
    (m.f * m.g - m.d * m.i) / det m, (m.a * m.i - m.c * m.g) / det m, (m.c * m.d - m.a * m.f) / det m,
    (m.d * m.h - m.e * m.g) / det m, (m.b * m.g - m.a * m.h) / det m, (m.a * m.e - m.b * m.d) / det m⟩

/-- `image_pil.transform(size, PIL.Image.AFFINE, matrix, fillcolor)`, pillike.py 1262-1265. Only two rows of the matrix are used. -/
noncomputable def transform (m : M3) (k : Nat → ℚ) (im : Draw.Img) : Draw.Img :=
  { im with px := fun y x ch =>
      let u := m.a * (x + 1 / 2) + m.b * (y + 1 / 2) + m.c
      let v := m.d * (x + 1 / 2) + m.e * (y + 1 / 2) + m.f
      if u < 0 ∨ v < 0 ∨ (im.w : ℤ) ≤ ⌊u⌋ ∨ (im.h : ℤ) ≤ ⌊v⌋ then k ch else im.px ⌊v⌋.toNat ⌊u⌋.toNat ch }

/-- `warp_affine`, pillike.py 1151-1270, with `_ensure_valid_shape`, pillike.py 79-91. -/
noncomputable def warp (ink : Ink) (im : Draw.Img) (v : Args) : Option Draw.Img :=
  if im.dt ≠ ⟨.u, 1⟩ then none
  else if im.h = 0 ∨ im.w = 0 ∨ im.c = 0 then some im
  else if ¬ (im.c = 1 ∨ im.c = 3 ∨ im.c = 4) then none
  else (inv (forward v (im.w * v.centerX) (im.h * v.centerY))).bind (fun m =>
    (ink im.c v.fill.toPil).map (fun k => transform m k im))

/-- The shape of an image. -/
def shapeOf (im : Draw.Img) : Affine.Shape := ⟨im.h, im.w, if im.flat then none else some im.c⟩

/-- One iteration of `_augment_images_by_samples`, pillike.py 2478-2499: the arguments for an image, from `get_affine_parameters`,
geometric.py 700-738, and from the samples of the center. -/
noncomputable def argsFor (percent : Bool) (r : AffineArgs.Row) (c : ℚ × ℚ) (im : Draw.Img) : Args :=
  let s := AffineArgs.toSamples percent r
  ⟨r.scaleX, r.scaleY, s.txPx (shapeOf im) (shapeOf im), s.tyPx (shapeOf im) (shapeOf im), r.rotate, r.shearX, r.shearY, .many r.cval, c.1, c.2⟩

/-- The attributes: those of `geometric.Affine` and the center. -/
structure Conf where
  affine : AffineArgs.Conf
  center : Positions.Handled
  deriving DecidableEq

/-- The arguments of the augmenter. -/
structure Init where
  scale : AffineArgs.Arg
  translatePercent : AffineArgs.Arg
  translatePx : AffineArgs.Arg
  rotate : Option Params.Val
  shear : AffineArgs.Arg
  fillcolor : AffineArgs.AllOr
  center : Positions.Position

/-- `Affine.__init__`, pillike.py 2437-2456. -/
def init (a : Init) : Option Conf :=
  (AffineArgs.init ⟨a.scale, a.translatePercent, a.translatePx, a.rotate, a.shear, .val (AffineArgs.int 1), a.fillcolor, .str "constant", .auto⟩).bind
    (fun c => (Positions.handlePosition a.center).map (fun p => ⟨c, p⟩))

variable {σ : Type}

/-- The samplers for parameters, modes and positions. -/
structure Samplers (σ : Type) where
  num : AffineArgs.Sampler σ Params.Handled ℚ
  mode : AffineArgs.Sampler σ AffineArgs.ModeDist String
  pos : Positions.Sampler σ

/-- The state of the generator after `AffineArgs.drawSamples`, geometric.py 1573-1631. -/
def after (S : Samplers σ) (c : AffineArgs.Conf) (n : Nat) (g : σ) : σ :=
  let g := (AffineArgs.drawAxes S.num c.scale n g).2
  let g := (AffineArgs.drawAxes S.num c.translate n g).2
  let g := (S.num c.rotate n g).2
  let g := (AffineArgs.drawShear S.num c.shear n g).2
  let g := (S.num c.cval (n * 3) g).2
  let g := (S.mode c.mode n g).2
  (S.num c.order n g).2

/-- `_draw_samples`, pillike.py 2502-2522. -/
def drawSamples (S : Samplers σ) (c : Conf) (n : Nat) (g : σ) : List (AffineArgs.Row × (ℚ × ℚ)) :=
  (AffineArgs.drawSamples S.num S.mode c.affine n g).zip (Positions.drawPositions S.pos c.center n (after S c.affine n g))

/-- A batch: its images, and the names of its other columns that hold something. -/
structure Batch where
  images : Option (List Draw.Img)
  others : List String

/-- `_augment_batch_` and `_augment_images_by_samples`, pillike.py 2459-2499, with geometric.py 1430-1450. -/
noncomputable def augment (ink : Ink) (S : Samplers σ) (c : Conf) (b : Batch) (g : σ) : Option Batch :=
  if b.others ≠ [] then none
  else match b.images with
    | none => some b
    | some l => ((l.zip (drawSamples S c l.length g)).mapM (fun p => warp ink p.1 (argsFor c.affine.percent p.2.1 p.2.2 p.1))).map
        (fun r => { b with images := some r })

end Imgaug.PilAffine
