import Verif.Model.Color
import Verif.Model.AffineArgs
/-! Model of `ChangeColorTemperature` and the functions it uses, imgaug/augmenters/color.py 398-973 and 3019-3090.

Simplifications. Numbers are exact (float32 in the code). Colour spaces as in `Model/Color.lean`. The kelvin values of an array or list are
numbers. The generator is a state that a sampler advances. -/
namespace Imgaug.Temperature
open Imgaug Imgaug.Dtypes Imgaug.Color Imgaug.Params
open Imgaug.AffineArgs (Sampler)

/-- The rows of `_KelvinToRGBTable.create_table` before the division by 255, color.py 447-842: the colours of 1000, 1100, ..., 40000 kelvin. -/
def table : List Px := [
    (255, 56, 0), (255, 71, 0), (255, 83, 0), (255, 93, 0), (255, 101, 0), (255, 109, 0), (255, 115, 0), (255, 121, 0), (255, 126, 0), (255, 131, 0),
    (255, 137, 18), (255, 142, 33), (255, 147, 44), (255, 152, 54), (255, 157, 63), (255, 161, 72), (255, 165, 79), (255, 169, 87), (255, 173, 94), (255, 177, 101),
    (255, 180, 107), (255, 184, 114), (255, 187, 120), (255, 190, 126), (255, 193, 132), (255, 196, 137), (255, 199, 143), (255, 201, 148), (255, 204, 153), (255, 206, 159),
    (255, 209, 163), (255, 211, 168), (255, 213, 173), (255, 215, 177), (255, 217, 182), (255, 219, 186), (255, 221, 190), (255, 223, 194), (255, 225, 198), (255, 227, 202),
    (255, 228, 206), (255, 230, 210), (255, 232, 213), (255, 233, 217), (255, 235, 220), (255, 236, 224), (255, 238, 227), (255, 239, 230), (255, 240, 233), (255, 242, 236),
    (255, 243, 239), (255, 244, 242), (255, 245, 245), (255, 246, 248), (255, 248, 251), (255, 249, 253), (254, 249, 255), (252, 247, 255), (249, 246, 255), (247, 245, 255),
    (245, 243, 255), (243, 242, 255), (240, 241, 255), (239, 240, 255), (237, 239, 255), (235, 238, 255), (233, 237, 255), (231, 236, 255), (230, 235, 255), (228, 234, 255),
    (227, 233, 255), (225, 232, 255), (224, 231, 255), (222, 230, 255), (221, 230, 255), (220, 229, 255), (218, 228, 255), (217, 227, 255), (216, 227, 255), (215, 226, 255),
    (214, 225, 255), (212, 225, 255), (211, 224, 255), (210, 223, 255), (209, 223, 255), (208, 222, 255), (207, 221, 255), (207, 221, 255), (206, 220, 255), (205, 220, 255),
    (204, 219, 255), (203, 219, 255), (202, 218, 255), (201, 218, 255), (201, 217, 255), (200, 217, 255), (199, 216, 255), (199, 216, 255), (198, 216, 255), (197, 215, 255),
    (196, 215, 255), (196, 214, 255), (195, 214, 255), (195, 214, 255), (194, 213, 255), (193, 213, 255), (193, 212, 255), (192, 212, 255), (192, 212, 255), (191, 211, 255),
    (191, 211, 255), (190, 211, 255), (190, 210, 255), (189, 210, 255), (189, 210, 255), (188, 210, 255), (188, 209, 255), (187, 209, 255), (187, 209, 255), (186, 208, 255),
    (186, 208, 255), (185, 208, 255), (185, 208, 255), (185, 207, 255), (184, 207, 255), (184, 207, 255), (183, 207, 255), (183, 206, 255), (183, 206, 255), (182, 206, 255),
    (182, 206, 255), (182, 205, 255), (181, 205, 255), (181, 205, 255), (181, 205, 255), (180, 205, 255), (180, 204, 255), (180, 204, 255), (179, 204, 255), (179, 204, 255),
    (179, 204, 255), (178, 203, 255), (178, 203, 255), (178, 203, 255), (178, 203, 255), (177, 203, 255), (177, 202, 255), (177, 202, 255), (177, 202, 255), (176, 202, 255),
    (176, 202, 255), (176, 202, 255), (175, 201, 255), (175, 201, 255), (175, 201, 255), (175, 201, 255), (175, 201, 255), (174, 201, 255), (174, 201, 255), (174, 200, 255),
    (174, 200, 255), (173, 200, 255), (173, 200, 255), (173, 200, 255), (173, 200, 255), (173, 200, 255), (172, 199, 255), (172, 199, 255), (172, 199, 255), (172, 199, 255),
    (172, 199, 255), (171, 199, 255), (171, 199, 255), (171, 199, 255), (171, 198, 255), (171, 198, 255), (170, 198, 255), (170, 198, 255), (170, 198, 255), (170, 198, 255),
    (170, 198, 255), (170, 198, 255), (169, 198, 255), (169, 197, 255), (169, 197, 255), (169, 197, 255), (169, 197, 255), (169, 197, 255), (169, 197, 255), (168, 197, 255),
    (168, 197, 255), (168, 197, 255), (168, 197, 255), (168, 196, 255), (168, 196, 255), (168, 196, 255), (167, 196, 255), (167, 196, 255), (167, 196, 255), (167, 196, 255),
    (167, 196, 255), (167, 196, 255), (167, 196, 255), (166, 196, 255), (166, 195, 255), (166, 195, 255), (166, 195, 255), (166, 195, 255), (166, 195, 255), (166, 195, 255),
    (166, 195, 255), (165, 195, 255), (165, 195, 255), (165, 195, 255), (165, 195, 255), (165, 195, 255), (165, 195, 255), (165, 194, 255), (165, 194, 255), (165, 194, 255),
    (164, 194, 255), (164, 194, 255), (164, 194, 255), (164, 194, 255), (164, 194, 255), (164, 194, 255), (164, 194, 255), (164, 194, 255), (164, 194, 255), (164, 194, 255),
    (163, 194, 255), (163, 194, 255), (163, 193, 255), (163, 193, 255), (163, 193, 255), (163, 193, 255), (163, 193, 255), (163, 193, 255), (163, 193, 255), (163, 193, 255),
    (163, 193, 255), (162, 193, 255), (162, 193, 255), (162, 193, 255), (162, 193, 255), (162, 193, 255), (162, 193, 255), (162, 193, 255), (162, 193, 255), (162, 192, 255),
    (162, 192, 255), (162, 192, 255), (162, 192, 255), (162, 192, 255), (161, 192, 255), (161, 192, 255), (161, 192, 255), (161, 192, 255), (161, 192, 255), (161, 192, 255),
    (161, 192, 255), (161, 192, 255), (161, 192, 255), (161, 192, 255), (161, 192, 255), (161, 192, 255), (161, 192, 255), (161, 192, 255), (160, 192, 255), (160, 192, 255),
    (160, 191, 255), (160, 191, 255), (160, 191, 255), (160, 191, 255), (160, 191, 255), (160, 191, 255), (160, 191, 255), (160, 191, 255), (160, 191, 255), (160, 191, 255),
    (160, 191, 255), (160, 191, 255), (160, 191, 255), (159, 191, 255), (159, 191, 255), (159, 191, 255), (159, 191, 255), (159, 191, 255), (159, 191, 255), (159, 191, 255),
    (159, 191, 255), (159, 191, 255), (159, 191, 255), (159, 191, 255), (159, 190, 255), (159, 190, 255), (159, 190, 255), (159, 190, 255), (159, 190, 255), (159, 190, 255),
    (159, 190, 255), (158, 190, 255), (158, 190, 255), (158, 190, 255), (158, 190, 255), (158, 190, 255), (158, 190, 255), (158, 190, 255), (158, 190, 255), (158, 190, 255),
    (158, 190, 255), (158, 190, 255), (158, 190, 255), (158, 190, 255), (158, 190, 255), (158, 190, 255), (158, 190, 255), (158, 190, 255), (158, 190, 255), (158, 190, 255),
    (158, 190, 255), (158, 190, 255), (157, 190, 255), (157, 190, 255), (157, 189, 255), (157, 189, 255), (157, 189, 255), (157, 189, 255), (157, 189, 255), (157, 189, 255),
    (157, 189, 255), (157, 189, 255), (157, 189, 255), (157, 189, 255), (157, 189, 255), (157, 189, 255), (157, 189, 255), (157, 189, 255), (157, 189, 255), (157, 189, 255),
    (157, 189, 255), (157, 189, 255), (157, 189, 255), (157, 189, 255), (157, 189, 255), (157, 189, 255), (156, 189, 255), (156, 189, 255), (156, 189, 255), (156, 189, 255),
    (156, 189, 255), (156, 189, 255), (156, 189, 255), (156, 189, 255), (156, 189, 255), (156, 189, 255), (156, 189, 255), (156, 189, 255), (156, 189, 255), (156, 189, 255),
    (156, 189, 255), (156, 189, 255), (156, 188, 255), (156, 188, 255), (156, 188, 255), (156, 188, 255), (156, 188, 255), (156, 188, 255), (156, 188, 255), (156, 188, 255),
    (156, 188, 255), (156, 188, 255), (156, 188, 255), (156, 188, 255), (155, 188, 255), (155, 188, 255), (155, 188, 255), (155, 188, 255), (155, 188, 255), (155, 188, 255),
    (155, 188, 255), (155, 188, 255), (155, 188, 255), (155, 188, 255), (155, 188, 255), (155, 188, 255), (155, 188, 255), (155, 188, 255), (155, 188, 255), (155, 188, 255),
    (155, 188, 255)]

/-- One entry of the table, color.py 840. -/
def cell (c i : Nat) : ℚ := (Px.get (table.getD i (0, 0, 0)) c : ℚ) / 255

/-- The interpolation between two rows for one channel, color.py 425-442. -/
def lerp (c : Nat) (x : ℚ) : ℚ := cell c ⌊x⌋.toNat + (x - ⌊x⌋) * (cell c ⌈x⌉.toNat - cell c ⌊x⌋.toNat)

/-- `transform_kelvins_to_rgb_multipliers` for one value and one channel, color.py 403-444. -/
def multiplier (kelvin : ℚ) (c : Nat) : ℚ := lerp c (min (max kelvin 1000) 40000 / 100 - 10)

/-- `np.round(...).astype(np.uint8)`, color.py 929-931. -/
def toByte (v : ℚ) : Nat := (npRound v % 256).toNat

/-- A pixel times the multipliers, color.py 927-931. -/
def adjust (kelvin : ℚ) (p : Px) : Px :=
  (toByte (p.1 * multiplier kelvin 0), toByte (p.2.1 * multiplier kelvin 1), toByte (p.2.2 * multiplier kelvin 2))

/-- The argument `kelvins`: a number, or something iterable. -/
inductive KArg where
  | one (k : ℚ)
  | many (l : List ℚ)

/-- `_validate` for `kelvins`, color.py 880-900. -/
def kelvinsOf (n : Nat) : KArg → Option (List ℚ)
  | .one k => some (List.replicate n k)
  | .many l => if l.length = n then some l else none

/-- An image without pixels: it is not looked at by `change_colorspace_`, and the product with an array of shape (1,1,3) broadcasts; an array of
images takes only values that fit into its rows and keeps its dtype, color.py 919-936. -/
def emptyStep (array : Bool) (im : Img) : Option Img :=
  if im.flat then
    if im.h = 0 ∧ (im.w = 1 ∨ im.w = 3) then
      if array then (if im.w = 3 then some { im with owned := false } else none)
      else some ⟨⟨.u, 1⟩, false, 1, 0, 3, true, []⟩
    else none
  else if im.c = 1 ∨ im.c = 3 then
    if array then (if im.c = 3 then some { im with owned := false } else none)
    else some { im with dt := ⟨.u, 1⟩, c := 3, owned := true }
  else none

/-- One image, color.py 920-936. -/
def step (cv : Cv) (array : Bool) (kelvin : ℚ) (f : Space) (im : Img) : Option Img :=
  if im.h = 0 ∨ im.w = 0 then emptyStep array im
  else
    (change cv im .rgb f).bind (fun o =>
      (change cv { o.result with owned := true, px := o.result.px.map (adjust kelvin) } f .rgb).map (fun o' => store array o'.result))

/-- `change_color_temperatures_`, color.py 845-937; `array`: `images` is an array, not a list. `none` is an exception. -/
def temperatures (cv : Cv) (array : Bool) (images : List Img) (kelvins : KArg) (f : Arg) : Option (List Img) :=
  if images = [] then some []
  else
    (kelvinsOf images.length kelvins).bind (fun ks => (validate images.length f).bind (fun fs =>
      if 1000 ≤ ks.getD 0 0 ∧ ks.getD 0 0 ≤ 40000 then
        (images.zip (ks.zip fs)).mapM (fun p => step cv array p.2.1 p.2.2 p.1)
      else none))

/-- `change_color_temperature`, color.py 940-971: an array of one image. -/
def temperature (cv : Cv) (im : Img) (kelvin : ℚ) (f : Space) : Option Img :=
  (temperatures cv true [{ im with owned := false }] (.many [kelvin]) (.many [f])).bind List.head?

/-- `ChangeColorTemperature.__init__`, color.py 3063-3074. -/
def init (kelvin : Val) : Option Handled := handleContinuous kelvin (.interval (some 1000) (some 40000)) true true

variable {σ : Type}

/-- `ChangeColorTemperature._augment_batch_`, color.py 3077-3087; `rows` is the number of rows of the batch. -/
def augment (cv : Cv) (S : Sampler σ Handled ℚ) (kelvin : Handled) (f : Space) (rows : Nat) (array : Bool) (images : Option (List Img)) (g : σ) :
    Option (Option (List Img)) :=
  match images with
  | none => some none
  | some l => (temperatures cv array l (.many (S kelvin rows g).1) (.one f)).map some

end Imgaug.Temperature
