import Verif.Model.Size
/-! Model of the arguments `px`, `percent` and `sample_independently` of `CropAndPad`, `Pad` and `Crop`, imgaug/augmenters/size.py
1823-1989, 2077-2160, 2364-2398 and 2550-2582.

Simplifications. Arguments that are nested deeper than tuples of tuples or lists contain `other`; they raise like these. Samples are
exact numbers. In mode "px", samples that are no integers are an error (they cannot be used as indices). The generator is a state that
a sampler advances. Pad modes and values and prefetching are not modelled. -/
namespace Imgaug.CropArgs
open Imgaug Imgaug.Size

/-- An integer, a float, a stochastic parameter (`negated`: `Multiply(parameter, -1)`), or something else. -/
inductive Atom where
  | int (z : Int)
  | float (q : ℚ)
  | par (negated : Bool) (id : Nat)
  | other
  deriving DecidableEq

/-- An entry of a tuple or list. -/
inductive Entry where
  | atom (a : Atom)
  | tuple (l : List Atom)
  | list (l : List Atom)
  deriving DecidableEq

/-- The argument `px` or `percent`. -/
inductive Arg where
  | none
  | atom (a : Atom)
  | tuple (l : List Entry)
  | list (l : List Entry)
  deriving DecidableEq

/-- The parameters that are created. -/
inductive Dist where
  | det (q : ℚ)
  | discrete (a b : Int)
  | uniform (a b : ℚ)
  | choice (l : List ℚ)
  | par (negated : Bool) (id : Nat)
  deriving DecidableEq

/-- `self.all_sides`, or `self.top`, `self.right`, `self.bottom`, `self.left`. -/
inductive Sides where
  | all (d : Dist)
  | each (top right bottom left : Dist)
  deriving DecidableEq

/-- `ia.is_single_integer`. -/
def intOf : Atom → Option Int
  | .int z => some z
  | _ => none

/-- `ia.is_single_number`. -/
def numOf : Atom → Option ℚ
  | .int z => some z
  | .float q => some q
  | _ => none

/-- `ia.is_single_number` and the comparison with -1. -/
def fracOf (a : Atom) : Option ℚ := (numOf a).bind (fun q => if q > -1 then some q else none)

/-- `handle_param` in `_handle_px_arg`, size.py 1887-1911. -/
def pxParam : Entry → Option Dist
  | .atom (.int z) => some (.det z)
  | .atom (.par s i) => some (.par s i)
  | .atom _ => none
  | .tuple [a, b] => (intOf a).bind (fun x => (intOf b).map (fun y => .discrete x y))
  | .tuple _ => none
  | .list l => if l = [] then none else (l.mapM intOf).map (fun zs => .choice (zs.map (fun (z : Int) => (z : ℚ))))

/-- `handle_param` in `_handle_percent_arg`, size.py 1943-1973. A single number is not compared with -1. -/
def percentParam : Entry → Option Dist
  | .atom (.par s i) => some (.par s i)
  | .atom a => (numOf a).map .det
  | .tuple [a, b] => (fracOf a).bind (fun x => (fracOf b).map (fun y => .uniform x y))
  | .tuple _ => none
  | .list l => if l = [] then none else (l.mapM fracOf).map .choice

/-- An entry as it is found in a tuple of numbers. -/
def Entry.asAtom : Entry → Atom
  | .atom a => a
  | _ => .other

/-- The four sides, size.py 1916-1919 and 1978-1981. -/
def four (f : Entry → Option Dist) (a b c d : Entry) : Option Sides :=
  (f a).bind (fun t => (f b).bind (fun r => (f c).bind (fun bo => (f d).map (fun l => .each t r bo l))))

/-- `_handle_px_arg`, size.py 1875-1927. -/
def pxArg : Arg → Option Sides
  | .atom (.int z) => some (.all (.det z))
  | .atom (.par s i) => some (.each (.par s i) (.par s i) (.par s i) (.par s i))
  | .tuple [a, b] => (pxParam (.tuple [a.asAtom, b.asAtom])).map .all
  | .tuple [a, b, c, d] => four pxParam a b c d
  | _ => none

/-- `_handle_percent_arg`, size.py 1930-1989. -/
def percentArg : Arg → Option Sides
  | .atom (.par s i) => some (.each (.par s i) (.par s i) (.par s i) (.par s i))
  | .atom a => (fracOf a).map (fun q => .all (.det q))
  | .tuple [a, b] => (percentParam (.tuple [a.asAtom, b.asAtom])).map .all
  | .tuple [a, b, c, d] => four percentParam a b c d
  | _ => none

/-- `self.mode`. -/
inductive Mode where
  | px
  | percent
  deriving DecidableEq

/-- A tuple of two floats. -/
def interval (a b : ℚ) : Arg := .tuple [.atom (.float a), .atom (.float b)]

/-- `_handle_px_and_percent_args`, size.py 1856-1872, with the default values set in the constructors (1832, 2384, 2570); mode "noop"
is not possible with these. -/
def modeAndSides (default px percent : Arg) : Option (Mode × Sides) :=
  match px, percent with
  | .none, .none => (percentArg default).map (fun s => (.percent, s))
  | .none, p => (percentArg p).map (fun s => (.percent, s))
  | p, .none => (pxArg p).map (fun s => (.px, s))
  | _, _ => none

/-- `CropAndPad.__init__`, size.py 1832-1836. -/
def cropAndPad (px percent : Arg) : Option (Mode × Sides) := modeAndSides (interval (-1 / 10) (1 / 10)) px percent

/-- The recursions of `Pad` and `Crop`, size.py 2368-2382 and 2554-2568, for a function on numbers and parameters. -/
def Entry.over (f : Atom → Option Atom) : Entry → Option Entry
  | .atom a => (f a).map .atom
  | .tuple l => (l.mapM f).map .tuple
  | .list l => (l.mapM f).map .list

def Arg.over (f : Atom → Option Atom) : Arg → Option Arg
  | .none => some .none
  | .atom a => (f a).map .atom
  | .tuple l => (l.mapM (Entry.over f)).map .tuple
  | .list l => (l.mapM (Entry.over f)).map .list

/-- `recursive_validate` for a number or parameter, size.py 2371-2375. -/
def validate : Atom → Option Atom
  | .int z => if z ≥ 0 then some (.int z) else none
  | .float q => if q ≥ 0 then some (.float q) else none
  | .par s i => some (.par s i)
  | .other => none

/-- `recursive_negate` for a number or parameter, size.py 2557-2561. -/
def negate : Atom → Option Atom
  | .int z => if z ≥ 0 then some (.int (-z)) else none
  | .float q => if q ≥ 0 then some (.float (-q)) else none
  | .par s i => some (.par (!s) i)
  | .other => none

/-- `Pad.__init__`, size.py 2364-2398. -/
def pad (px percent : Arg) : Option (Mode × Sides) :=
  (px.over validate).bind (fun px' => (percent.over validate).bind (fun pc' => modeAndSides (interval 0 (1 / 10)) px' pc'))

/-- `Crop.__init__`, size.py 2550-2582. -/
def crop (px percent : Arg) : Option (Mode × Sides) :=
  (px.over negate).bind (fun px' => (percent.over negate).bind (fun pc' => modeAndSides (interval (-0) (-(1 / 10))) px' pc'))

/-- `draw_samples((n,))` of a parameter, with the state of the generator. -/
abbrev Sampler (σ : Type) := Dist → Nat → σ → List ℚ × σ

/-- The values for top, right, bottom, left of an image. -/
structure Four where
  top : ℚ
  right : ℚ
  bottom : ℚ
  left : ℚ
  deriving DecidableEq

/-- `samples[:, 0]` to `samples[:, 3]` of an array with `n` rows and 4 columns, size.py 2093-2096. -/
def rowsOf4 (n : Nat) (l : List ℚ) : List Four :=
  (List.range n).map (fun (i : Nat) => ⟨l.getD (4 * i) 0, l.getD (4 * i + 1) 0, l.getD (4 * i + 2) 0, l.getD (4 * i + 3) 0⟩)

/-- The first part of `_draw_samples`, size.py 2089-2109, for `n` images. -/
def drawFours {σ : Type} (S : Sampler σ) (independently : Bool) (sides : Sides) (n : Nat) (g : σ) : List Four × σ :=
  match sides with
  | .all d =>
    if independently then (rowsOf4 n (S d (n * 4) g).1, (S d (n * 4) g).2)
    else ((S d n g).1.map (fun v => ⟨v, v, v, v⟩), (S d n g).2)
  | .each t r b l =>
    let a1 := S t n g
    let a2 := S r n a1.2
    let a3 := S b n a2.2
    let a4 := S l n a3.2
    ((List.range n).map (fun (i : Nat) => ⟨a1.1.getD i 0, a2.1.getD i 0, a3.1.getD i 0, a4.1.getD i 0⟩), a4.2)

/-- An integer sample. -/
def asInt (q : ℚ) : Option Int := if q.den = 1 then some q.num else none

/-- The amounts in pixels, size.py 2111-2121. -/
def amounts (m : Mode) (s : Shape) (f : Four) : Option Trbl :=
  match m with
  | .px => (asInt f.top).bind (fun t => (asInt f.right).bind (fun r => (asInt f.bottom).bind (fun b => (asInt f.left).map (fun l =>
      ⟨t, r, b, l⟩))))
  | .percent => some (percentToPx s f.top f.right f.bottom f.left)

/-- `_draw_samples`, size.py 2077-2142: croppings and paddings of each image. -/
def drawSamples {σ : Type} (S : Sampler σ) (independently : Bool) (ms : Mode × Sides) (shapes : List Shape) (g : σ) :
    Option (List (Trbl × Trbl)) :=
  (shapes.zip (drawFours S independently ms.2 shapes.length g).1).mapM (fun p =>
    (amounts ms.1 p.1 p.2).map (fun t => (croppings p.1 t, paddings t)))

end Imgaug.CropArgs
