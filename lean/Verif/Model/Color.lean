import Verif.Model.Blend
/-! Model of `change_colorspace_`, `change_colorspaces_`, `WithColorspace`, `WithBrightnessChannels` and `ChangeColorspace`,
imgaug/augmenters/color.py 48-385, 988-1305, 2723-3018.

Simplifications. `cv2.cvtColor` is a parameter: any function of single pixels, for each pair of colour spaces that the code hands to cv2; with
`dst` of fitting shape it works in-place, otherwise it returns a new array. Only names in `CSPACE_ALL` occur as colour spaces (others raise).
Pixels have three components; those of images with another number of channels do not matter, as they raise, or have no pixels. -/
namespace Imgaug.Color
open Imgaug Imgaug.Dtypes

/-- The colour spaces, color.py 48-61. -/
inductive Space where
  | rgb | bgr | gray | ycrcb | hsv | hls | lab | luv | yuv | cie
  deriving DecidableEq

/-- A pixel of three channels. -/
abbrev Px := Nat × Nat × Nat

/-- An image of shape (H,W), `flat`, or (H,W,C), with its pixels in row-major order. `owned`: the flags `OWNDATA` and `C_CONTIGUOUS` are set. -/
structure Img where
  dt : DType
  flat : Bool
  h : Nat
  w : Nat
  c : Nat
  owned : Bool
  px : List Px
  deriving DecidableEq

/-- `cv2.cvtColor` for one pixel: to a colour space of three channels, and to grayscale. -/
structure Cv where
  conv : Space → Space → Px → Px
  gray : Space → Px → Nat

/-- Whether the pair is a key of `_CSPACE_OPENCV_CONV_VARS`, color.py 75-126. `_CHANGE_COLORSPACE_INPLACE` (131-174) has the same keys, all with
value `True`. -/
def direct : Space → Space → Bool
  | .rgb, t => t ≠ .rgb
  | .bgr, t => t ≠ .bgr
  | .gray, _ => false
  | _, .rgb => true
  | _, .bgr => true
  | _, _ => false

/-- `cv2.cvtColor`, for grayscale with the `np.tile` of color.py 294-297. -/
def cvtColor (cv : Cv) (f t : Space) (l : List Px) : List Px :=
  if t = .gray then l.map (fun p => (cv.gray f p, cv.gray f p, cv.gray f p)) else l.map (cv.conv f t)

/-- The result, and the array given as argument after the call. -/
structure Out where
  result : Img
  arg : Img

/-- The conversion, color.py 272-299. `_normalize_cv2_input_arr_` (imgaug.py 1996-2003) copies arrays that are not `owned`, so only `owned` ones
are changed in-place. A grayscale image does not fit into `dst`. `np.tile` returns a view. -/
def convert (cv : Cv) (im : Img) (t f : Space) : Out :=
  if direct f t then
    ⟨{ im with owned := t ≠ .gray, px := cvtColor cv f t im.px },
      { im with px := if im.owned ∧ t ≠ .gray then cvtColor cv f t im.px else im.px }⟩
  else
    ⟨{ im with owned := t ≠ .gray, px := cvtColor cv .rgb t (cvtColor cv f .rgb im.px) },
      { im with px := if im.owned then (if t ≠ .gray then cvtColor cv .rgb t (cvtColor cv f .rgb im.px) else cvtColor cv f .rgb im.px)
          else im.px }⟩

/-- `change_colorspace_(image, to, from)`, color.py 177-299. `none` is an exception. -/
def change (cv : Cv) (im : Img) (t f : Space) : Option Out :=
  if im.h = 0 ∨ im.w = 0 then some ⟨im, im⟩
  else if im.dt ≠ ⟨.u, 1⟩ then none
  else if f = .gray then none
  else if im.flat then none
  else if im.c ≠ 3 then none
  else if f = t then some ⟨im, im⟩
  else some (convert cv im t f)

/-- The arguments `to_colorspaces` and `from_colorspaces`. -/
inductive Arg where
  | one (s : Space)
  | many (l : List Space)

/-- `_validate`, color.py 363-376. -/
def validate (n : Nat) : Arg → Option (List Space)
  | .one s => some (List.replicate n s)
  | .many l => if l.length = n then some l else none

/-- `images[i] = image`: a list then holds `image`, an array gets its values (and `images[i]` remains a view). -/
def store (array : Bool) (im : Img) : Img := if array then { im with owned := false } else im

/-- `change_colorspaces_(images, to, from)`, color.py 302-384; `array`: `images` is an array, not a list. -/
def changes (cv : Cv) (array : Bool) (images : List Img) (t f : Arg) : Option (List Img) :=
  (validate images.length t).bind (fun ts => (validate images.length f).bind (fun fs =>
    (images.zip (ts.zip fs)).mapM (fun p => (change cv p.1 p.2.1 p.2.2).map (fun o => store array o.result))))

/-- `WithColorspace._augment_batch_` for the images, color.py 1059-1080. `children` says what the children make of the images: list or array,
and the images. `None` is an absent list of images. -/
def withColorspace (cv : Cv) (t f : Space) (children : Bool → List Img → Option (Bool × List Img)) (array : Bool)
    (images : Option (List Img)) : Option (Option (List Img)) :=
  match images with
  | none => some none
  | some l => (changes cv array l (.one t) (.one f)).bind (fun c => (children array c).bind (fun r =>
      (changes cv r.1 r.2 (.one f) (.one t)).map some))

/-- `_CSPACE_TO_CHANNEL_ID`, color.py 1189-1196. -/
def channelId : Space → Option Nat
  | .ycrcb => some 0
  | .hsv => some 2
  | .hls => some 1
  | .lab => some 0
  | .luv => some 0
  | .yuv => some 0
  | _ => none

/-- One component of a pixel. -/
def Px.get (p : Px) (k : Nat) : Nat := if k = 0 then p.1 else if k = 1 then p.2.1 else p.2.2

/-- A pixel with one component replaced. -/
def Px.set (p : Px) (k v : Nat) : Px := if k = 0 then (v, p.2.1, p.2.2) else if k = 1 then (p.1, v, p.2.2) else (p.1, p.2.1, v)

/-- An image of shape (H,W,C), as the children of `WithBrightnessChannels` get and return it, with the components in row-major order. -/
structure Chan where
  h : Nat
  w : Nat
  c : Nat
  vals : List Nat
  deriving DecidableEq

/-- `_extract_brightness_channels` for one image, color.py 1258-1263. -/
def extract (im : Img) (s : Space) : Option Chan := (channelId s).map (fun k => ⟨im.h, im.w, 1, im.px.map (fun p => Px.get p k)⟩)

/-- The value that `channel` has at pixel number `i` of an image with width `w`, after broadcasting. -/
def Chan.at (ch : Chan) (w i : Nat) : Nat :=
  ch.vals.getD ((if ch.h = 1 then 0 else i / w) * ch.w + (if ch.w = 1 then 0 else i % w)) 0

/-- `image[:, :, channel_id:channel_id+1] = channel`, color.py 1269-1271: numpy broadcasts axes of size 1. -/
def putBack (ch : Chan) (im : Img) (s : Space) : Option Img :=
  (channelId s).bind (fun k =>
    if (ch.h = im.h ∨ ch.h = 1) ∧ (ch.w = im.w ∨ ch.w = 1) ∧ ch.c = 1 then
      some { im with px := im.px.zipIdx.map (fun p => Px.set p.1 k (ch.at im.w p.2)) }
    else none)

/-- `WithBrightnessChannels._augment_batch_` for the images, color.py 1224-1253; `spaces` are the sampled colour spaces. `zip` stops at the end of
the shortest list, further images remain as they are. -/
def withBrightness (cv : Cv) (f : Space) (spaces : List Space) (children : List Chan → Option (List Chan)) (array : Bool) (images : List Img) :
    Option (List Img) :=
  (changes cv array images (.many spaces) (.one f)).bind (fun cvt =>
    ((cvt.zip spaces).mapM (fun p => extract p.1 p.2)).bind (fun chs => (children chs).bind (fun chs' =>
      ((chs'.zip (cvt.zip spaces)).mapM (fun p => putBack p.1 p.2.1 p.2.2)).bind (fun done =>
        changes cv array (done ++ cvt.drop done.length) (.one f) (.many spaces)))))

/-- An image as `blend_alpha` sees it. -/
def toBlend (im : Img) : Blend.Img :=
  ⟨im.dt, im.flat, im.h, im.w, im.c, im.px.flatMap (fun p => [(p.1 : ℚ), (p.2.1 : ℚ), (p.2.2 : ℚ)])⟩

/-- `ChangeColorspace._augment_batch_` for one image, color.py 2913-2927, with `self.eps` 0.001. The result is the dtype and the components. -/
def changeOne (cv : Cv) (f : Space) (alpha : ℚ) (t : Space) (im : Img) : Option (DType × List ℚ) :=
  if alpha ≤ 1 / 1000 ∨ f = t then some (im.dt, (toBlend im).vals)
  else (change cv im t f).bind (fun o =>
    (Blend.blend (1 / 1000) (toBlend o.result) (toBlend o.arg) ⟨[], [alpha]⟩).map (fun b => (b.dt, b.vals)))

/-- `ChangeColorspace.__init__`, color.py 2890-2891, and the loop over the images, 2913-2927, with the samples of each image. -/
def changeColorspace (cv : Cv) (f : Space) (rows : List (Img × ℚ × Space)) : Option (List (DType × List ℚ)) :=
  if f = .gray then none else rows.mapM (fun r => changeOne cv f r.2.1 r.2.2 r.1)

/-- `Grayscale`, color.py 3008-3016. -/
def grayscale (cv : Cv) (f : Space) (rows : List (Img × ℚ)) : Option (List (DType × List ℚ)) :=
  changeColorspace cv f (rows.map (fun r => (r.1, r.2, .gray)))

end Imgaug.Color
