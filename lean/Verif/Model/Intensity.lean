import Verif.Model.Color
/-! Model of `_IntensityChannelBasedApplier`, `AllChannelsCLAHE`, `CLAHE`, `AllChannelsHistogramEqualization` and `HistogramEqualization`,
imgaug/augmenters/contrast.py 772-1559.

Simplifications. A channel is the list of its values in row-major order. The conversion of colour spaces (`change_colorspaces_`, modelled in
`Model/Color.lean`) is a parameter that works on the three channels of an image. The CLAHE of cv2 is a parameter, its histogram equalization is
modelled in exact arithmetic. The values drawn are parameters, one for each image and channel. `None` stands for an exception. -/
namespace Imgaug.Intensity
open Imgaug Imgaug.Color

/-- A channel. -/
abbrev Plane := List Nat

/-- An image of shape (H,W,C), as the list of its channels. -/
structure Im where
  dt : Dtypes.DType
  h : Nat
  w : Nat
  ch : List Plane
  deriving DecidableEq

/-- `image.size == 0`. -/
def Im.noPixels (im : Im) : Bool := im.h * im.w * im.ch.length = 0

/-- A conversion of the three channels of images between two colour spaces, color.py 177-385. -/
abbrev Conv := Space → Space → List Plane → List Plane

/-- `_CHANNEL_MAPPING`, contrast.py 778-782. -/
def channel : Space → Option Nat
  | .hsv => some 2
  | .hls => some 1
  | .lab => some 0
  | _ => none

/-- The assertion on `from_colorspace`, contrast.py 788-792. -/
def validFrom (s : Space) : Bool := s ∈ [.rgb, .bgr, .lab, .hls, .hsv]

/-- The assertion on `to_colorspace`, contrast.py 794-797. -/
def validTo (s : Space) : Bool := s ∈ [.lab, .hls, .hsv]

/-- An instance of `_IntensityChannelBasedApplier`, contrast.py 784-800. -/
structure Applier where
  source : Space
  target : Space

/-- `__init__`, contrast.py 784-800. -/
def Applier.make (f t : Space) : Option Applier := if validFrom f ∧ validTo t then some ⟨f, t⟩ else none

/-- Whether the image is converted: `nb_channels` is 3 or 4, contrast.py 821-829, 864. -/
def coloured (im : Im) : Bool := im.ch.length = 3 ∨ im.ch.length = 4

/-- `image[..., 0:3]`; an image of three channels is itself, contrast.py 823, 828. -/
def firstThree (im : Im) : Im := { im with ch := im.ch.take 3 }

/-- `image[..., c:c+1]`, contrast.py 850, 869. -/
def only (c : Nat) (im : Im) : Im := { im with ch := (im.ch.drop c).take 1 }

/-- `image[..., c:c+1] = other`, contrast.py 867. Only for `other` of one channel: otherwise numpy raises, or broadcasts. -/
def put (c : Nat) (im other : Im) : Im :=
  match other.ch with
  | p :: _ => { im with ch := im.ch.set c p }
  | [] => im

/-- The loops over `zip(values, indices)`, contrast.py 847-852, 881-889: the entries at the indices are replaced. -/
def scatter {α β : Type} (f : Option α → β → α) (base : List (Option α)) (todo : List (Nat × β)) : List (Option α) :=
  todo.foldl (fun l p => l.set p.1 (some (f (l.getD p.1 none) p.2))) base

/-- `images_change_cs_indices`, contrast.py 824, 829, 871. -/
def indices (images : List Im) : List Nat := (images.zipIdx.filter (fun q => coloured q.1)).map (·.2)

/-- `change_colorspaces_` on a list of images. -/
def converted (conv : Conv) (f t : Space) (images : List Im) : List Im := images.map (fun im => { im with ch := conv f t im.ch })

/-- `images_new_cs` before augmentation: contrast.py 821-845. -/
def newCs (conv : Conv) (a : Applier) (images : List Im) : List Im :=
  converted conv a.source a.target ((images.filter coloured).map firstThree)

/-- `images_normalized`, contrast.py 814-851. -/
def normalized (conv : Conv) (a : Applier) (c : Nat) (images : List Im) : List (Option Im) :=
  scatter (fun _ im => only c im) (images.map (fun im => if coloured im then none else some im))
    ((indices images).zip (newCs conv a images))

/-- `images_after_color_conversion`, contrast.py 840-852. -/
def afterConversion (conv : Conv) (a : Applier) (images : List Im) : List (Option Im) :=
  scatter (fun _ im => im) (List.replicate images.length none) ((indices images).zip (newCs conv a images))

/-- `image_tmp`, contrast.py 866-867. An entry that is `None` raises. -/
def changed (c : Nat) (q : Im × Option Im × Im) : Option Im := q.2.1.map (fun conv => put c conv q.2.2)

/-- `result` before the inverse conversion, contrast.py 863-873. -/
def started (q : Im × Option Im × Im) : Option Im :=
  if coloured q.1 then (if q.1.ch.length = 3 then none else some (only 3 q.1)) else some q.2.2

/-- `np.dstack`, contrast.py 883-889. -/
def stack : Option Im → Im → Im
  | none, im => im
  | some alpha, im => { im with ch := im.ch ++ alpha.ch }

/-- The part of `apply` after `func`, contrast.py 857-889. -/
def denormalize (conv : Conv) (a : Applier) (c : Nat) (images augmented : List Im) : Option (List Im) := do
  let rows := images.zip ((afterConversion conv a images).zip augmented)
  let tmp ← (rows.filter (fun q => coloured q.1)).mapM (changed c)
  let back := converted conv a.target a.source tmp
  (scatter stack (rows.map started) ((indices (rows.map (·.1))).zip back)).mapM id

/-- `apply`, contrast.py 802-895. `func` gets a list of images. -/
def Applier.apply (conv : Conv) (a : Applier) (func : List Im → Option (List Im)) (images : List Im) : Option (List Im) := do
  let c ← channel a.target
  let norm ← (normalized conv a c images).mapM id
  let augmented ← func norm
  denormalize conv a c images augmented

/-- What is drawn for an image and a channel, contrast.py 1034-1042. -/
structure Sample where
  clip : ℚ
  th : Nat
  tw : Nat

/-- CLAHE of cv2: clip limit, number of tiles per row and per column, height and width of the image, and the channel. -/
abbrev CvClahe := ℚ → Nat × Nat → Nat → Nat → Plane → Plane

/-- `np.maximum` with `tile_grid_size_px_min`, contrast.py 1044-1047. -/
def atLeast (m : Nat) (s : Sample) : Sample := { s with th := max s.th m, tw := max s.tw m }

/-- One channel, contrast.py 1059-1069. -/
def claheChannel (cv : CvClahe) (h w : Nat) (s : Sample) (p : Plane) : Plane :=
  if 1 < s.tw ∨ 1 < s.th then cv s.clip (s.tw, s.th) h w p else p

/-- The loop over the channels, with `c_param` as first argument, contrast.py 1056-1071. -/
def claheLoop (cv : CvClahe) (h w : Nat) (row : List Sample) (perChannel : Bool) : Nat → List Plane → Option (List Plane)
  | _, [] => some []
  | k, p :: ps => do
    let s ← row[k]?
    let rest ← claheLoop cv h w row perChannel (if perChannel then k + 1 else k) ps
    some (claheChannel cv h w s p :: rest)

/-- One image, contrast.py 1052-1076. -/
def claheImage (cv : CvClahe) (row : List Sample) (perChannel : Bool) (im : Im) : Option Im :=
  if im.noPixels then some im else (claheLoop cv im.h im.w row perChannel 0 im.ch).map (fun ch => { im with ch := ch })

/-- `estimate_max_number_of_channels`, meta.py 128-142. Images of an array have the same number of channels. -/
def maxChannels (images : List Im) : Nat := (images.map (·.ch.length)).foldl max 0

/-- The values drawn for image `i`, contrast.py 1034-1047. -/
def drawn (draw : Nat → Nat → Sample) (m n i : Nat) : List Sample := (List.range n).map (fun (k : Nat) => atLeast m (draw i k))

/-- The loop over the images, contrast.py 1049-1076, from image `i` on. -/
def claheFrom (cv : CvClahe) (draw : Nat → Nat → Sample) (perChannel : Nat → Bool) (m n : Nat) : Nat → List Im → Option (List Im)
  | _, [] => some []
  | i, im :: rest => do
    let x ← claheImage cv (drawn draw m n i) (perChannel i) im
    let xs ← claheFrom cv draw perChannel m n (i + 1) rest
    some (x :: xs)

/-- `AllChannelsCLAHE._augment_batch_`, contrast.py 1013-1077. Batches without images are not handed to it (meta.py 639). All data types but
uint8 and uint16 are in the list of those that raise. -/
def allChannelsClahe (cv : CvClahe) (draw : Nat → Nat → Sample) (perChannel : Nat → Bool) (m : Nat) (images : List Im) : Option (List Im) :=
  if images.all (fun im => im.dt = ⟨.u, 1⟩ ∨ im.dt = ⟨.u, 2⟩) then claheFrom cv draw perChannel m (maxChannels images) 0 images else none

/-- `CLAHE._augment_batch_`, contrast.py 1274-1296. `per_channel` is `False` in the inner augmenter (1264-1268). -/
def clahe (conv : Conv) (cv : CvClahe) (a : Applier) (draw : Nat → Nat → Sample) (m : Nat) (images : List Im) : Option (List Im) :=
  if images.all (fun im => im.dt = ⟨.u, 1⟩) then a.apply conv (allChannelsClahe cv draw (fun _ => false) m) images else none

/-- The smallest value of a channel: the first bin of the histogram that is not empty. -/
def smallest : Plane → Nat
  | [] => 0
  | x :: xs => xs.foldl min x

/-- The sum of the bins after that of the smallest value up to `v`. -/
def cumulated (p : Plane) (v : Nat) : Nat := ((List.range' (smallest p + 1) (v - smallest p)).map (fun j => p.count j)).sum

/-- The lookup table of `cv2.equalizeHist` (opencv, histogram.cpp): the bins are summed up after the first that is not empty, and scaled to 255.
cv2 computes with float32, here the arithmetic is exact. -/
def table (p : Plane) (v : Nat) : Nat :=
  (npRound ((cumulated p v : ℚ) * (255 / ((p.length - p.count (smallest p) : Nat) : ℚ)))).toNat

/-- `cv2.equalizeHist`: a channel with one value stays as it is. -/
def equalizeHist (p : Plane) : Plane := if p.count (smallest p) = p.length then p else p.map (table p)

/-- One image, contrast.py 1389-1398. -/
def equalizeImage (im : Im) : Im := if im.noPixels then im else { im with ch := im.ch.map equalizeHist }

/-- `AllChannelsHistogramEqualization._augment_batch_`, contrast.py 1380-1399. -/
def allChannelsEqualize (images : List Im) : Option (List Im) :=
  if images.all (fun im => im.dt = ⟨.u, 1⟩) then some (images.map equalizeImage) else none

/-- `HistogramEqualization._augment_batch_`, contrast.py 1532-1554. -/
def equalize (conv : Conv) (a : Applier) (images : List Im) : Option (List Im) :=
  if images.all (fun im => im.dt = ⟨.u, 1⟩) then a.apply conv allChannelsEqualize images else none

/-- The height and width in pixels of the tiles that the CLAHE of cv2 uses for a grid of `tw` times `th` tiles (opencv, clahe.cpp): images whose
sides are not both divisible are extended first. -/
def cvTiles (h w : Nat) (grid : Nat × Nat) : Nat × Nat :=
  if h % grid.2 = 0 ∧ w % grid.1 = 0 then (h / grid.2, w / grid.1)
  else ((h + (grid.2 - h % grid.2)) / grid.2, (w + (grid.1 - w % grid.1)) / grid.1)

end Imgaug.Intensity
