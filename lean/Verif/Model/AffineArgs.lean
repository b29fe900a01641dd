import Verif.Model.Handle
import Verif.Model.Affine
/-! Model of the arguments of `Affine` and of the values drawn for them, imgaug/augmenters/geometric.py 86-164, 700-738, 1265-1427 and
1573-1631.

Simplifications. As in `Model/Handle.lean`; other iterables than tuples are taken to be lists. A dictionary as `rotate` is not modelled
(it raises, or has numbers as keys). Samples are exact numbers, `np.zeros_like` keeps the length. The generator is a state that a sampler
advances (`random_state.duplicate(12)` gives twelve times the same generator, random.py `RNG.duplicate`). Prefetching is not modelled. -/
namespace Imgaug.AffineArgs
open Imgaug Imgaug.Params

/-- The argument `scale`, `translate_percent`, `translate_px` or `shear`. A dictionary may have the keys `x` and `y`. -/
inductive Arg where
  | none
  | val (v : Val)
  | dict (x y : Option Val)
  deriving DecidableEq

/-- One parameter for both axes, or one for each. -/
inductive Axes where
  | same (d : Handled)
  | each (x y : Handled)
  deriving DecidableEq

/-- `self.shear` and `self._shear_param_type`: "dict", "single-number" or "other". -/
inductive Shear where
  | each (x y : Handled)
  | xOnly (d : Handled)
  | both (d : Handled)
  deriving DecidableEq

/-- A python integer or float as argument. -/
def int (z : Int) : Val := .atom (.num ⟨true, z⟩)
def float (q : ℚ) : Val := .atom (.num ⟨false, q⟩)
def floats (a b : ℚ) : Val := .tuple [.num ⟨false, a⟩, .num ⟨false, b⟩]
def ints (a b : Int) : Val := .tuple [.num ⟨true, a⟩, .num ⟨true, b⟩]

/-- A value for each of two keys, with a default, geometric.py 1325-1333 and elsewhere. -/
def twoKeys (f : Val → Option Handled) (default : Val) (x y : Option Val) : Option (Handled × Handled) :=
  if x.isNone && y.isNone then none
  else (f (x.getD default)).bind (fun a => (f (y.getD default)).map (fun b => (a, b)))

/-- A dictionary or a single value. -/
def perAxis (f : Val → Option Handled) (default : Val) : Arg → Option Axes
  | .none => none
  | .val v => (f v).map .same
  | .dict x y => (twoKeys f default x y).map (fun p => .each p.1 p.2)

/-- `_handle_scale_arg`, geometric.py 1320-1337. -/
def scaleArg (a : Arg) : Option Axes :=
  perAxis (fun v => handleContinuous v (.interval (some (1 / 10000)) none) true true) (float 1) a

/-- `handle_continuous_param` without value range. -/
def continuous (v : Val) : Option Handled := handleContinuous v .none true true

/-- `handle_discrete_param` without value range and without floats. -/
def discrete (v : Val) : Option Handled := handleDiscrete v .none true true false

/-- `_handle_translate_arg`, geometric.py 1340-1400: the parameters, and whether they are fractions of the size. -/
def translateArg (px percent : Arg) : Option (Axes × Bool) :=
  match px, percent with
  | .none, .none => (perAxis discrete (int 0) (.val (int 0))).map (fun a => (a, false))
  | .none, p => (perAxis continuous (int 0) p).map (fun a => (a, true))
  | p, .none => (perAxis discrete (int 0) p).map (fun a => (a, false))
  | _, _ => none

/-- `_handle_shear_arg`, geometric.py 1404-1427. -/
def shearArg : Arg → Option Shear
  | .none => none
  | .dict x y => (twoKeys continuous (int 0) x y).map (fun p => .each p.1 p.2)
  | .val (.atom (.num n)) => (continuous (.atom (.num n))).map .xOnly
  | .val v => (continuous v).map .both

/-- The argument `backend`. -/
inductive Backend where
  | auto | skimage | cv2 | other
  deriving DecidableEq

/-- An argument that may be `imgaug.ALL`. -/
inductive AllOr where
  | all
  | val (v : Val)
  deriving DecidableEq

/-- An order that a backend can handle as far as the constructor knows, geometric.py 103-121. -/
def orderOk (b : Backend) (z : Int) : Bool :=
  decide (0 ≤ z ∧ z ≤ 5) && (b != .cv2 || z == 0 || z == 1 || z == 3)

/-- `_handle_order_arg`, geometric.py 86-127. -/
def orderArg (b : Backend) : AllOr → Option Handled
  | .all => some (.choiceInt (if b = .auto ∨ b = .cv2 then [0, 1, 3] else [0, 1, 3, 4, 5]))
  | .val (.atom (.num n)) => if n.isInt && orderOk b (pyInt n.q) then some (.det n) else none
  | .val (.iter l) => (l.mapM (asNumOrInt false)).bind (fun ns =>
      if ns.all (fun n => orderOk b (pyInt n.q)) then some (.choiceInt (ns.map (fun n => pyInt n.q))) else none)
  | .val (.atom (.par i)) => some (.par i)
  | .val _ => none

/-- `_handle_cval_arg`, geometric.py 131-142. -/
def cvalArg : AllOr → Option Handled
  | .all => some (.uniform ⟨true, 0⟩ ⟨true, 255⟩)
  | .val v => continuous v

/-- The argument `mode`; `none` in a list is a value that is no string. -/
inductive ModeArg where
  | all
  | str (s : String)
  | list (l : List (Option String))
  | par (id : Nat)
  | other
  deriving DecidableEq

/-- The parameter for the mode. -/
inductive ModeDist where
  | det (s : String)
  | choice (l : List String)
  | par (id : Nat)
  deriving DecidableEq

/-- `_handle_mode_arg`, geometric.py 148-164. -/
def modeArg : ModeArg → Option ModeDist
  | .all => some (.choice ["constant", "edge", "symmetric", "reflect", "wrap"])
  | .str s => some (.det s)
  | .list l => (l.mapM id).map .choice
  | .par i => some (.par i)
  | .other => none

/-- The arguments of `Affine`, without `fit_output`. -/
structure Args where
  scale : Arg
  translatePercent : Arg
  translatePx : Arg
  rotate : Option Val
  shear : Arg
  order : AllOr
  cval : AllOr
  mode : ModeArg
  backend : Backend

/-- The attributes that are set. -/
structure Conf where
  scale : Axes
  translate : Axes
  percent : Bool
  rotate : Handled
  shear : Shear
  order : Handled
  cval : Handled
  mode : ModeDist
  deriving DecidableEq

/-- Is nothing requested? geometric.py 1274-1275. -/
def Args.nothing (a : Args) : Bool :=
  a.scale == .none && a.translatePercent == .none && a.translatePx == .none && a.rotate == none && a.shear == .none

/-- The default values, geometric.py 1276-1283. -/
def Args.filled (a : Args) : Args :=
  if a.nothing then
    { a with
      scale := .dict (some (floats (9 / 10) (11 / 10))) (some (floats (9 / 10) (11 / 10)))
      translatePercent := .dict (some (floats (-1 / 10) (1 / 10))) (some (floats (-1 / 10) (1 / 10)))
      rotate := some (ints (-15) 15)
      shear := .dict (some (ints (-10) 10)) (some (ints (-10) 10)) }
  else
    { a with
      scale := if a.scale = .none then .val (float 1) else a.scale
      rotate := some (a.rotate.getD (float 0))
      shear := if a.shear = .none then .val (float 0) else a.shear }

/-- The attributes for arguments with the default values filled in, geometric.py 1285-1298. -/
def build (a : Args) : Option Conf :=
  if a.backend = .other then none else do
    let order ← orderArg a.backend a.order
    let cval ← cvalArg a.cval
    let mode ← modeArg a.mode
    let scale ← scaleArg a.scale
    let (translate, percent) ← translateArg a.translatePx a.translatePercent
    let rotate ← a.rotate.bind continuous
    let shear ← shearArg a.shear
    return ⟨scale, translate, percent, rotate, shear, order, cval, mode⟩

/-- `Affine.__init__`, geometric.py 1265-1317. -/
def init (a : Args) : Option Conf := build a.filled

/-- `draw_samples((n,))` of a parameter, with the state of the generator. -/
abbrev Sampler (σ α β : Type) := α → Nat → σ → List β × σ

/-- The values for one image. -/
structure Row where
  scaleX : ℚ
  scaleY : ℚ
  translateX : ℚ
  translateY : ℚ
  rotate : ℚ
  shearX : ℚ
  shearY : ℚ
  cval : List ℚ
  mode : String
  order : ℚ
  deriving DecidableEq

variable {σ : Type}

/-- Samples for both axes, geometric.py 1576-1596. -/
def drawAxes (S : Sampler σ Handled ℚ) (a : Axes) (n : Nat) (g : σ) : (List ℚ × List ℚ) × σ :=
  match a with
  | .each x y => (((S x n g).1, (S y n (S x n g).2).1), (S y n (S x n g).2).2)
  | .same d => (((S d n g).1, (S d n g).1), (S d n g).2)

/-- Samples for the shear, geometric.py 1600-1613. -/
def drawShear (S : Sampler σ Handled ℚ) (s : Shear) (n : Nat) (g : σ) : (List ℚ × List ℚ) × σ :=
  match s with
  | .each x y => (((S x n g).1, (S y n (S x n g).2).1), (S y n (S x n g).2).2)
  | .xOnly d => (((S d n g).1, (S d n g).1.map (fun _ => 0)), (S d n g).2)
  | .both d => (((S d n g).1, (S d n g).1), (S d n g).2)

/-- Row `i` of an array with three columns. -/
def row3 (l : List ℚ) (i : Nat) : List ℚ := [l.getD (3 * i) 0, l.getD (3 * i + 1) 0, l.getD (3 * i + 2) 0]

/-- `_draw_samples`, geometric.py 1573-1631: the values for each of `n` images. -/
def drawSamples (S : Sampler σ Handled ℚ) (M : Sampler σ ModeDist String) (c : Conf) (n : Nat) (g : σ) : List Row :=
  let scale := drawAxes S c.scale n g
  let translate := drawAxes S c.translate n scale.2
  let rotate := S c.rotate n translate.2
  let shear := drawShear S c.shear n rotate.2
  let cval := S c.cval (n * 3) shear.2
  let mode := M c.mode n cval.2
  let order := S c.order n mode.2
  (List.range n).map (fun (i : Nat) =>
    ⟨scale.1.1.getD i 0, scale.1.2.getD i 0, translate.1.1.getD i 0, translate.1.2.getD i 0, rotate.1.getD i 0,
      shear.1.1.getD i 0, shear.1.2.getD i 0, row3 cval.1 i, mode.1.getD i "", order.1.getD i 0⟩)

/-- `_PI`, geometric.py 81. -/
def pyPi : ℚ := 3141592653589793 / 1000000000000000

/-- The values of a row as the matrix generator gets them: angles in radians, geometric.py 721-723. -/
noncomputable def toSamples (percent : Bool) (r : Row) : Affine.Samples :=
  ⟨r.scaleX, r.scaleY, r.translateX, r.translateY, percent, (r.rotate * (pyPi / 180) : ℚ), (r.shearX * (pyPi / 180) : ℚ),
    (r.shearY * (pyPi / 180) : ℚ)⟩

end Imgaug.AffineArgs
