import Verif.Model.Hue
import Verif.Model.AffineArgs
/-! Model of `MultiplyHueAndSaturation`, `MultiplyHue`, `MultiplySaturation` and `RemoveSaturation`, imgaug/augmenters/color.py 1874-1967, 2028-2039,
2097-2108, 2180-2194, with `Multiply` for int16 images of hue and saturation, arithmetic.py 589-636 and 2469-2512.

Simplifications. As in `Model/Hue.lean`. The multipliers that are sampled are arguments, as are the samples of `per_channel`. A multiplier is any rational
number; the product with a component is rounded to float32, which is the dtype for int16 and float16 (the product is far within the range of int16, so that
nothing is clipped). -/
namespace Imgaug.MulHue
open Imgaug Imgaug.Dtypes Imgaug.Color Imgaug.Hue Imgaug.Params

/-- The arguments `mul`, `mul_hue` and `mul_saturation`. -/
structure Args where
  mul : Option Val
  hue : Option Val
  sat : Option Val
  deriving DecidableEq

/-- The multipliers: the same parameter for both, or one for each that is changed. -/
inductive Conf where
  | both (d : Handled)
  | each (hue sat : Option Handled)
  deriving DecidableEq

/-- `handle_continuous_param` with value range. -/
def within (lo hi : ℚ) (v : Val) : Option Handled := handleContinuous v (.interval (some lo) (some hi)) true true

/-- For an argument that may be `None`. -/
def optional (f : Val → Option Handled) : Option Val → Option (Option Handled)
  | none => some none
  | some v => (f v).map some

/-- `MultiplyHueAndSaturation.__init__`, color.py 1878-1902: the multipliers. `none` is an exception. -/
def init (a : Args) : Option Conf :=
  let a := if a.mul.isNone && a.hue.isNone && a.sat.isNone then
    { a with hue := some (AffineArgs.floats (1 / 2) (3 / 2)), sat := some (AffineArgs.floats 0 (17 / 10)) } else a
  match a.mul with
  | some v => if a.hue.isNone && a.sat.isNone then (within (-10) 10 v).map .both else none
  | none => (optional (within (-10) 10) a.hue).bind (fun h => (optional (within 0 10) a.sat).map (fun s => .each h s))

/-- `MultiplyHue`, color.py 2028-2039. -/
def multiplyHue (mul : Val) : Option Conf := init ⟨none, some mul, none⟩

/-- `MultiplySaturation`, color.py 2097-2108. -/
def multiplySaturation (mul : Val) : Option Conf := init ⟨none, none, some mul⟩

/-- The argument of `RemoveSaturation`, color.py 2183-2190, which is subtracted from 1. -/
def removeSaturation (mul : Val) : Option Handled := within 0 1 mul

/-- A multiplier of `RemoveSaturation` for a sample of its argument, color.py 2183-2190. -/
def removed (v : ℚ) : ℚ := 1 - v

/-- A component of an int16 image times a multiplier: the product in float32, rounded, arithmetic.py 634-636. -/
def times (m : ℚ) (v : Int) : Int := if m * v < 0 then -npRound (f32 (-(m * v))) else npRound (f32 (m * v))

/-- The sampled multipliers: two per image with the sample of `per_channel`; or those of hue and saturation. -/
inductive Samples where
  | both (values : List (ℚ × ℚ)) (perChannel : List ℚ)
  | each (hue sat : Option (List ℚ))

/-- `Multiply`, arithmetic.py 2482-2510, for both channels. -/
def mulBoth (values : List (ℚ × ℚ)) (perChannel : List ℚ) (l : List HS) : List HS :=
  l.mapIdx (fun i im => { im with px := im.px.map (fun p =>
    (times (values.getD i (0, 0)).1 p.1,
      times (if perChannel.getD i 0 > 1 / 2 then (values.getD i (0, 0)).2 else (values.getD i (0, 0)).1) p.2)) })

/-- `WithChannels(0, Multiply(...))`, color.py 1926-1942. -/
def mulFirst (values : List ℚ) (l : List HS) : List HS :=
  l.mapIdx (fun i im => { im with px := im.px.map (fun p => (times (values.getD i 0) p.1, p.2)) })

/-- `WithChannels(1, Multiply(...))`, color.py 1943-1959. -/
def mulSecond (values : List ℚ) (l : List HS) : List HS :=
  l.mapIdx (fun i im => { im with px := im.px.map (fun p => (p.1, times (values.getD i 0) p.2)) })

/-- The children, one after the other. -/
def children : Samples → List HS → Option (List HS)
  | .both values perChannel, l => some (mulBoth values perChannel l)
  | .each hue sat, l =>
    let l1 := match hue with | none => l | some vs => mulFirst vs l
    some (match sat with | none => l1 | some vs => mulSecond vs l1)

/-- The images of a batch. -/
def augment (cv : Cv) (f : Space) (s : Samples) (array : Bool) (images : Option (List Img)) : Option (Option (List Img)) :=
  withHS cv f (children s) array images

end Imgaug.MulHue
