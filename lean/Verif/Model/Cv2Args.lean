import Verif.Model.AffineArgs
import Verif.Model.AffineCv2
/-! Model of the arguments of `AffineCv2` and of the values drawn for them, imgaug/augmenters/geometric.py 2500-2735 and 2778-2802, 2896-2946.

Simplifications. As in `Model/AffineArgs.lean`. A choice among values is made by numpy, which first makes an array of them: an array of integers, of floats
or of strings (parameters.py 1171-1172 and numpy). Stochastic parameters are given by a number and by whether they yield floats. -/
namespace Imgaug.Cv2Args
open Imgaug Imgaug.Params Imgaug.AffineArgs

/-- An integer (one of the constants of cv2) or a string. -/
inductive Name where
  | int (z : Int)
  | str (s : String)
  deriving DecidableEq

/-- The argument `order` or `mode`; `none` in a list is a value that is neither an integer nor a string. -/
inductive NameArg where
  | all
  | one (n : Name)
  | list (l : List (Option Name))
  | par (id : Nat)
  | other
  deriving DecidableEq

/-- The parameter for the order or mode. -/
inductive NameDist where
  | det (n : Name)
  | choice (l : List Name)
  | par (id : Nat)
  deriving DecidableEq

/-- The strings and the constants of cv2 that they stand for. -/
abbrev Table := List (String × Int)

/-- `cv2.INTER_NEAREST`, `INTER_LINEAR`, `INTER_CUBIC`, `INTER_LANCZOS4`, geometric.py 2516-2518 and 2691-2696. -/
def orders : Table := [("nearest", 0), ("linear", 1), ("cubic", 2), ("lanczos4", 4)]

/-- `cv2.BORDER_REPLICATE`, `BORDER_REFLECT`, `BORDER_REFLECT_101`, `BORDER_WRAP`, `BORDER_CONSTANT`, geometric.py 2560-2564 and 2697-2703. -/
def modes : Table := [("replicate", 1), ("reflect", 2), ("reflect_101", 4), ("wrap", 3), ("constant", 0)]

/-- Is the value available? -/
def known (t : Table) : Name → Bool
  | .int z => (t.map (·.2)).contains z
  | .str s => (t.map (·.1)).contains s

/-- The checks of `order`, geometric.py 2520-2551, and of `mode`, 2565-2594. -/
def nameArg (t : Table) : NameArg → Option NameDist
  | .all => some (.choice (t.map (fun e => .int e.2)))
  | .one n => if known t n then some (.det n) else none
  | .list l => (l.mapM id).bind (fun ns => if ns.all (known t) then some (.choice ns) else none)
  | .par i => some (.par i)
  | .other => none

/-- `self.cval`, geometric.py 2553-2558. -/
def cvalArg : AllOr → Option Handled
  | .all => some (.discreteUniform 0 255)
  | .val v => handleDiscrete v (.interval (some 0) (some 255)) true true true

/-- The arguments of `AffineCv2`. -/
structure Args where
  scale : Arg
  translatePercent : Arg
  translatePx : Arg
  rotate : Val
  shear : Val
  order : NameArg
  cval : AllOr
  mode : NameArg

/-- The attributes. -/
structure Conf where
  scale : Axes
  translate : Axes
  rotate : Handled
  shear : Handled
  order : NameDist
  cval : Handled
  mode : NameDist
  deriving DecidableEq

/-- `AffineCv2.__init__`, geometric.py 2500-2673. The translations are handled as those of `Affine` (2617-2666), but it is not kept which of the two
arguments was given. -/
def init (a : Args) : Option Conf := do
  let order ← nameArg orders a.order
  let cval ← cvalArg a.cval
  let mode ← nameArg modes a.mode
  let scale ← scaleArg a.scale
  let (translate, _) ← translateArg a.translatePx a.translatePercent
  let rotate ← continuous a.rotate
  let shear ← continuous a.shear
  return ⟨scale, translate, rotate, shear, order, cval, mode⟩

/-- Does the array of samples have a float dtype? `Deterministic`, `Uniform`, `DiscreteUniform` and `Choice`, parameters.py 988-994, 1129-1190, 1766-1774. -/
def isFloat (K : Nat → Bool) : Handled → Bool
  | .det n => !n.isInt
  | .uniform _ _ => true
  | .choice l => l.any (fun n => !n.isInt)
  | .par i => K i
  | _ => false

/-- `str(z)`. -/
def Name.toStr : Name → Name
  | .int z => .str (toString z)
  | .str s => .str s

/-- `np.array` of a list of integers and strings: if there is a string, all elements become strings. -/
def asArray (l : List Name) : List Name := if l.any (fun n => match n with | .str _ => true | .int _ => false) then l.map Name.toStr else l

/-- What the parameter draws from. -/
def NameDist.array : NameDist → NameDist
  | .choice l => .choice (asArray l)
  | d => d

/-- `mode if ia.is_single_integer(mode) else mode_str_to_int[mode]`, geometric.py 2730-2735. `none` is a `KeyError`. -/
def resolve (t : Table) : Name → Option Int
  | .int z => some z
  | .str s => (t.find? (fun e => e.1 == s)).map (·.2)

/-- The values for one image. -/
structure Row where
  geo : AffineCv2.Row
  cval : List ℚ
  mode : Name
  order : Name

variable {σ : Type}

/-- Two parameters, of which the first or only one is for the x axis. -/
def axisX : Axes → Handled
  | .same d => d
  | .each x _ => x
def axisY : Axes → Handled
  | .same d => d
  | .each _ y => y

/-- `_draw_samples`, geometric.py 2896-2946: the values for each of `n` images. All eleven generators are the same one. -/
def drawSamples (K : Nat → Bool) (S : Sampler σ Handled ℚ) (M : Sampler σ NameDist Name) (c : Conf) (n : Nat) (g : σ) : List Row :=
  let scale := drawAxes S c.scale n g
  let translate := drawAxes S c.translate n scale.2
  let rotate := S c.rotate n translate.2
  let shear := S c.shear n rotate.2
  let cval := S c.cval (n * 3) shear.2
  let mode := M c.mode.array n cval.2
  let order := M c.order.array n mode.2
  (List.range n).map (fun (i : Nat) =>
    ⟨⟨scale.1.1.getD i 0, scale.1.2.getD i 0, ⟨isFloat K (axisX c.translate), translate.1.1.getD i 0⟩,
      ⟨isFloat K (axisY c.translate), translate.1.2.getD i 0⟩, rotate.1.getD i 0, shear.1.getD i 0⟩,
      row3 cval.1 i, mode.1.getD i (.int 0), order.1.getD i (.int 0)⟩)

/-- What `cv2.warpAffine` is told besides the matrix: flags, border mode and border value. -/
structure Warp where
  order : Int
  mode : Int
  cval : List Int
  deriving DecidableEq

/-- An image, geometric.py 2726-2735 and 2762-2764. `none` is an exception. -/
def warpImage (r : Row) : Option Warp :=
  (resolve modes r.mode).bind (fun m => (resolve orders r.order).map (fun o => ⟨o, m, r.cval.map pyInt⟩))

/-- A heatmap, geometric.py 2783-2788. -/
def warpHeatmap (r : Row) : Option Warp := warpImage { r with cval := [0], mode := .str "constant" }

/-- A segmentation map, geometric.py 2798-2804. -/
def warpSegmap (r : Row) : Option Warp := warpImage { r with cval := [0], mode := .str "constant", order := .int 0 }

end Imgaug.Cv2Args
