import Verif.Model.Cv2Args
import Verif.Spec.AffineArgs
import Verif.Spec.AffineCv2
/-! Vocabulary for the statements in Props/Cv2Args.lean. -/
namespace Imgaug.Cv2Args
open Imgaug Imgaug.Params Imgaug.AffineArgs

/-- The documented interpolations, with the numbers that OpenCV gives them. -/
inductive IsOrder : String → Int → Prop
  | nearest : IsOrder "nearest" 0
  | linear : IsOrder "linear" 1
  | cubic : IsOrder "cubic" 2
  | lanczos4 : IsOrder "lanczos4" 4

/-- The documented ways of filling, with the numbers that OpenCV gives them. -/
inductive IsMode : String → Int → Prop
  | constant : IsMode "constant" 0
  | replicate : IsMode "replicate" 1
  | reflect : IsMode "reflect" 2
  | wrap : IsMode "wrap" 3
  | reflect_101 : IsMode "reflect_101" 4

/-- A value stands for a number: it is the number or a string for it. -/
def StandsFor (T : String → Int → Prop) : Name → Int → Prop
  | .int w, z => w = z ∧ ∃ s, T s z
  | .str s, z => T s z

/-- A number that an argument stands for. -/
def NameAllowed (T : String → Int → Prop) (Q : Nat → Int → Prop) (a : NameArg) (z : Int) : Prop :=
  match a with
  | .all => ∃ s, T s z
  | .one n => StandsFor T n z
  | .list l => ∃ n, some n ∈ l ∧ StandsFor T n z
  | .par i => Q i z
  | .other => False

/-- The argument is as documented. -/
def NameOk (T : String → Int → Prop) (a : NameArg) : Prop :=
  match a with
  | .all => True
  | .one n => ∃ z, StandsFor T n z
  | .list l => ∀ x ∈ l, ∃ n z, x = some n ∧ StandsFor T n z
  | .par _ => True
  | .other => False

/-- A list with both integers and strings. -/
def NameArg.Mixed (a : NameArg) : Prop := ∃ l z s, a = .list l ∧ some (.int z) ∈ l ∧ some (.str s) ∈ l

/-- The arguments are as documented. -/
structure Args.Valid (a : Args) : Prop where
  scale : a.scale ≠ .none ∧ a.scale.NumOk (.interval (some (1 / 10000)) none) true
  percent : a.translatePercent.NumOk .none true
  px : a.translatePx.NumOk .none false
  notBoth : a.translatePercent = .none ∨ a.translatePx = .none
  rotate : NumOk .none true a.rotate
  shear : NumOk .none true a.shear
  cval : ∀ v, a.cval = .val v → NumOk (.interval (some 0) (some 255)) true v
  order : NameOk IsOrder a.order
  mode : NameOk IsMode a.mode

/-- No argument is or contains an empty list, and python integers have integer values. -/
structure Args.Filled (a : Args) : Prop where
  scale : a.scale.Filled
  percent : a.translatePercent.Filled
  px : a.translatePx.Filled
  rotate : Val.Filled a.rotate
  shear : Val.Filled a.shear
  order : a.order ≠ .list []
  cval : a.cval ≠ .val (.iter [])
  mode : a.mode ≠ .list []
  pxInts : ∀ k v, a.translatePx.on k = some v → IntNums v

/-- What the parameter for the order or mode may yield. A stochastic parameter yields values that stand for numbers. -/
def NameDist.Supports (Q : Nat → Name → Prop) : NameDist → Name → Prop
  | .det n, v => v = n
  | .choice l, v => l ≠ [] → v ∈ l
  | .par i, v => Q i v

/-- The values of a row are as requested by the arguments. -/
structure Requested (P : Values ℚ) (a : Args) (r : Row) : Prop where
  scaleX : a.scale.Allows P 1 .x r.geo.scaleX
  scaleY : a.scale.Allows P 1 .y r.geo.scaleY
  translateX : (if a.translatePercent = .none then a.translatePx else a.translatePercent).Allows P 0 .x r.geo.tx.v
  translateY : (if a.translatePercent = .none then a.translatePx else a.translatePercent).Allows P 0 .y r.geo.ty.v
  rotate : Allows P a.rotate r.geo.rotate
  shear : Allows P a.shear r.geo.shear
  cvals : r.cval.length = 3

/-- `AffineCv2()` with every argument left out. -/
def noArgs : Args := ⟨.val (float 1), .none, .none, float 0, float 0, .one (.int 1), .val (int 0), .one (.int 0)⟩

/-- A sampler of orders and modes that goes through lists. Parameters yield 0. -/
def alternatingNames : Sampler Nat NameDist Name := fun d n g =>
  ((List.range n).map (fun (k : Nat) =>
    match d with
    | .det s => s
    | .choice l => l.getD ((g + k) % l.length) (.int 0)
    | .par _ => .int 0), g + n)

end Imgaug.Cv2Args
