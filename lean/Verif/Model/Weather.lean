import Verif.Model.Draw
import Verif.Model.Dtypes
/-! Model of the weather augmenters `FastSnowyLandscape`, `CloudLayer`, `SnowflakesLayer` and `RainLayer`: imgaug/augmenters/weather.py 152-186, 393-492,
899-1026 and 1306-1336.

Simplifications. The samples of an image are given. Resizing, blurring, the gamma contrast, salt noise, frequency noise, powers and conversions between
colorspaces are parameters. Floats are exact. Images have three axes if `flat` is false. -/
namespace Imgaug.Weather
open Imgaug Imgaug.Dtypes

/-- A map: one value per pixel. -/
structure Map where
  h : Nat
  w : Nat
  v : Nat → Nat → ℚ

/-- `np.clip(v, a, b)`. -/
def clipTo (a b v : ℚ) : ℚ := min (max v a) b

/-- `np.clip(v, 0, 255).astype(np.uint8)`. -/
def u8 (v : ℚ) : ℚ := astype ⟨.u, 1⟩ (clipTo 0 255 v)

/-- Salt noise on an array of zeros (density, height, width), `imresize_single_image`, Gaussian blur (sigma), motion blur (size, angle) and gamma contrast. -/
structure Lib where
  salt : ℚ → Nat → Nat → Map
  resize : Map → Nat → Nat → Map
  blur : ℚ → Map → Map
  motion : Nat → ℚ → Map → Map
  gamma : ℚ → Map → Map

/-- The samples drawn for an image, weather.py 909-915 and 962, and the density and the limits of sigma. -/
structure Samples where
  density : ℚ
  flake : ℚ
  uniformity : ℚ
  angle : ℚ
  speed : ℚ
  blurFraction : ℚ
  gate : Map
  sigmaMin : ℚ
  sigmaMax : ℚ

/-- Height and width of the noise, weather.py 918-920. -/
def downscaled (size : Nat) (flake : ℚ) : Nat := max 1 (pyInt (size * clipTo (1 / 1000) 1 (1 - flake))).toNat

/-- `_gate`, weather.py 962-968. -/
def gated (lib : Lib) (noise gate : Map) : Map :=
  let up := lib.resize gate noise.h noise.w
  { noise with v := fun y x => u8 (noise.v y x * clipTo 0 1 (up.v y x)) }

/-- `_motion_blur`, weather.py 974-985. -/
def motionBlur (lib : Lib) (angle speed : ℚ) (noise : Map) : Map :=
  let k := pyInt (speed * max noise.h noise.w)
  if k ≤ 1 then noise else lib.motion (max k 3).toNat angle noise

/-- The sigma of the blur, weather.py 938-940. -/
def sigma (s : Samples) (h w : Nat) : ℚ := clipTo s.sigmaMin s.sigmaMax (max h w * s.blurFraction)

/-- The noise up to its postprocessing, weather.py 917-945; rain is not blurred, weather.py 1307-1308. -/
def noiseMap (lib : Lib) (rain : Bool) (s : Samples) (h w : Nat) : Map :=
  let n1 := lib.salt s.density (downscaled h s.flake) (downscaled w s.flake)
  let n2 := lib.resize (gated lib n1 s.gate) h w
  let n3 := if rain then n2 else lib.blur (sigma s h w) n2
  motionBlur lib s.angle s.speed n3

/-- `_postprocess_noise` for snow, weather.py 994-998. -/
def snowNoise (lib : Lib) (s : Samples) (n : Map) : Map :=
  let gain := 1 + 2 * (1 - s.uniformity)
  let gainAdj := 1 + 5 * (1 - s.uniformity)
  let g := lib.gamma gain n
  { g with v := fun y x => g.v y x * gainAdj }

/-- `_blend` for snow, weather.py 1009-1026, for one value. -/
def blendSnow (speed v n : ℚ) : ℚ :=
  let v1 := u8 (v + (1 / 10 + 20 * speed) * n)
  u8 (max v1 ((1 + 20 * speed) * n))

/-- The sum of the first 1000 values of the noise, repeated for `c` channels, weather.py 1325. -/
def noiseSum (n : Map) (c : Nat) : ℚ :=
  ((List.range (min 1000 (n.h * n.w * c))).map (fun (k : Nat) => n.v (k / c / n.w) (k / c % n.w))).sum

/-- `drop_mean_color`, weather.py 1325-1327. -/
def dropColor (n : Map) (c : Nat) : ℚ :=
  let t := noiseSum n c
  let t := if 0 < t then t else 1
  110 + (((240 - 110) % pyInt t : Int) : ℚ)

/-- `_blend` for rain, weather.py 1328-1336, for one value. -/
def blendRain (color v n : ℚ) : ℚ :=
  let a := clipTo 0 1 (13 / 10 * (n / 255))
  u8 ((1 - a) * v + a * color)

/-- `draw_on_image`, weather.py 899-950. `none` is an exception. -/
def draw (lib : Lib) (rain : Bool) (s : Samples) (a : Draw.Img) : Option Draw.Img :=
  if a.flat = false ∧ (a.c = 1 ∨ a.c = 3) then
    let n := noiseMap lib rain s a.h a.w
    if rain then
      let color := dropColor n a.c
      some { a with
        dt := ⟨.u, 1⟩
        px := fun y x ch => blendRain color (a.px y x ch) (n.v y x) }
    else
      let m := snowNoise lib s n
      some { a with
        dt := ⟨.u, 1⟩
        px := fun y x ch => blendSnow s.speed (a.px y x ch) (m.v y x) }
  else none

/-- Several layers after each other, as in `Snowflakes` and `Rain`, weather.py 1214-1219 and 1438-1443. -/
def layers (lib : Lib) (rain : Bool) : List Samples → Draw.Img → Option Draw.Img
  | [], a => some a
  | s :: t, a => (draw lib rain s a).bind (layers lib rain t)

/-- The samples for clouds, weather.py 419-428, the coarse map of the intensity, and frequency noise for the intensity and for the mask. -/
structure Cloud where
  mean : ℚ
  alphaMin : ℚ
  alphaMultiplier : ℚ
  sparsity : ℚ
  density : ℚ
  coarse : Nat → Nat → ℚ
  fine : Nat → Nat → ℚ
  mask : Nat → Nat → ℚ

/-- `_generate_alpha_mask`, weather.py 486-492. -/
def alpha (pow : ℚ → ℚ → ℚ) (k : Cloud) (y x : Nat) : ℚ :=
  clipTo 0 1 (pow (k.alphaMin + k.alphaMultiplier * k.mask y x) k.sparsity * k.density)

/-- The intensity, weather.py 433-441 and 475. -/
def intensity (k : Cloud) (y x : Nat) : ℚ := k.coarse y x + k.mean * ((2 * k.fine y x - 1) / 5)

/-- `CloudLayer.draw_on_image`, weather.py 393-416. `none` is an exception. The dtype of float results, which numpy decides, is left as it is. -/
def drawClouds (pow : ℚ → ℚ → ℚ) (k : Cloud) (a : Draw.Img) : Option Draw.Img :=
  if a.dt.kind = .f then
    some { a with px := fun y x ch => (1 - alpha pow k y x) * a.px y x ch + alpha pow k y x * intensity k y x }
  else if a.dt = ⟨.u, 1⟩ then
    some { a with
      px := fun y x ch => u8 ((1 - alpha pow k y x) * a.px y x ch + alpha pow k y x * clipTo 0 255 (intensity k y x)) }
  else none

/-- Hue, lightness and saturation. -/
structure Hls where
  h : ℚ
  l : ℚ
  s : ℚ

/-- The conversion to HLS and back, `change_colorspace_`, for a pixel of `uint8` values. -/
structure Cvt where
  toHls : ℚ × ℚ × ℚ → Hls
  back : Hls → ℚ × ℚ × ℚ

/-- The lightness afterwards, weather.py 174-180. -/
def lighter (thresh lmul l : ℚ) : Option ℚ := changeDtype ⟨.f, 8⟩ ⟨.u, 1⟩ true (if l < thresh then l * lmul else l)

/-- `FastSnowyLandscape._augment_batch_`, weather.py 170-184, for a pixel. -/
def landscape (cvt : Cvt) (thresh lmul : ℚ) (p : ℚ × ℚ × ℚ) : Option (ℚ × ℚ × ℚ) :=
  let q := cvt.toHls p
  match changeDtype ⟨.f, 8⟩ ⟨.u, 1⟩ true q.h, lighter thresh lmul q.l, changeDtype ⟨.f, 8⟩ ⟨.u, 1⟩ true q.s with
  | some h, some l, some s => some (cvt.back ⟨h, l, s⟩)
  | _, _, _ => none

end Imgaug.Weather
