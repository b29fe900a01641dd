import Verif.Model.MulHue
import Verif.Spec.Hue
import Verif.Spec.AffineArgs
/-! Vocabulary for the statements in Props/MulHue.lean. -/
namespace Imgaug.MulHue
open Imgaug Imgaug.Dtypes Imgaug.Color Imgaug.Hue Imgaug.Params

/-- The multipliers of hue and saturation of image `i`; `none`: not multiplied. -/
def Samples.at (s : Samples) (i : Nat) : Option ℚ × Option ℚ :=
  match s with
  | .both values perChannel => (some (values.getD i (0, 0)).1,
      some (if perChannel.getD i 0 > 1 / 2 then (values.getD i (0, 0)).2 else (values.getD i (0, 0)).1))
  | .each hue sat => (hue.map (fun l => l.getD i 0), sat.map (fun l => l.getD i 0))

/-- The hue of a pixel after its multiplication: it is scaled from [0,180) to [0,255), multiplied, and scaled back as an angle. -/
def newHue (m : Option ℚ) (h : Nat) : Nat :=
  hueDown ((m.map (fun m => times m ((h * 255 / 180 : Nat) : Int))).getD ((h * 255 / 180 : Nat) : Int))

/-- The saturation of a pixel after its multiplication. -/
def newSat (m : Option ℚ) (s : Nat) : Nat := limited ((m.map (fun m => times m s)).getD s)

end Imgaug.MulHue
