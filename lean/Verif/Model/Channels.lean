import Verif.Model.Num
import Mathlib.Data.List.Basic
import Mathlib.Data.List.Nodup
/-! Model of the augmenters that treat image channels: `WithChannels` (imgaug/augmenters/meta.py 3697-3941), `ChannelShuffle`
(4841-4946) and `shuffle_channels` (4949-5012).

Simplifications. Images have three axes (inside augmenters they always have). Components are of any type. The random number
generator is represented by the permutations it yields. Child augmenters are arbitrary functions on batches. -/
namespace Imgaug.Channels
open Imgaug
variable {α β : Type}

/-- An image with `c` channels: `px y x k` is the component in row `y`, column `x`, channel `k`; meaningful for `y < h`,
`x < w`, `k < c`. `dt` is the dtype. -/
structure CImg (α : Type) where
  h : Nat
  w : Nat
  c : Nat
  dt : Nat
  px : Nat → Nat → Nat → α

/-- numpy's treatment of an index into an axis of size `n`: negative indices count from the end, all others must be in
range (`IndexError` otherwise). -/
def resolve (n : Nat) (i : Int) : Option Nat :=
  if 0 ≤ i ∧ i < n then some i.toNat else if i < 0 ∧ -(n : Int) ≤ i then some (i + n).toNat else none

/-- `image[..., channels]`. -/
def select (im : CImg α) (channels : List Int) : Option (CImg α) :=
  (channels.mapM (resolve im.c)).map (fun idx => { im with c := idx.length, px := fun y x k => im.px y x (idx.getD k 0) })

/-- The component written to channel `k` by the assignments `out[idx[0]] = v 0; out[idx[1]] = v 1; …`, in this order. -/
def assign (old : α) (v : Nat → α) (k : Nat) (idx : List Nat) : α :=
  idx.zipIdx.foldl (fun acc p => if p.1 = k then v p.2 else acc) old

/-- `image[..., channels] = image_aug` for images of the same height and width. An image with one channel is broadcast. -/
def write (im : CImg α) (channels : List Int) (aug : CImg α) : Option (CImg α) :=
  (channels.mapM (resolve im.c)).bind (fun idx =>
    if aug.c = idx.length ∨ aug.c = 1 then
      some { im with px := fun y x k => assign (im.px y x k) (fun j => aug.px y x (if aug.c = 1 then 0 else j)) k idx }
    else none)

/-- Something that is not an image but belongs to one: its `.shape` and its content. -/
structure Cell (β : Type) where
  shape : List Nat
  val : β
  deriving DecidableEq, Repr

/-- A batch: images and the other columns; a column is `none` if it is not set or empty. -/
structure Bat (α β : Type) where
  images : Option (List (CImg α))
  cols : List (Option (List (Cell β)))

/-- `_reduce_images_to_channels`, meta.py 3884-3889. -/
def reduce (channels : Option (List Int)) (ims : List (CImg α)) : Option (List (CImg α)) :=
  match channels with
  | none => some ims
  | some l => ims.mapM (fun im => select im l)

/-- `_assert_lengths_not_changed`, `_assert_shapes_not_changed`, `_assert_dtypes_not_changed`, meta.py 3832-3874. -/
def unchanged (aug ims : List (CImg α)) : Bool :=
  aug.length == ims.length && (aug.zip ims).all (fun p => p.1.h == p.2.h && p.1.w == p.2.w && p.1.dt == p.2.dt)

/-- The number of channels in a `.shape`, meta.py 3906. -/
def nbChannels (shape : List Nat) : Nat := match shape with
  | _ :: _ :: c :: _ => c
  | _ => 1

/-- `_replace_unaugmented_cells` for one column, meta.py 3900-3918. `none`: there was no such column before, or division by
zero. -/
def replaceCells (channels : Option (List Int)) (aug : List (Cell β)) (old : Option (List (Cell β))) :
    Option (List (Cell β)) :=
  match channels, old with
  | none, _ => some aug
  | some _, none => none
  | some l, some old =>
    if old.any (fun c => nbChannels c.shape == 0) then none
    else some ((aug.zip old).map (fun p =>
      if (l.length : ℚ) / (nbChannels p.2.shape : ℚ) ≥ 1 / 2 then p.1 else p.2))

/-- The loop over the non-image columns, meta.py 3819-3824. -/
def replaceCols (channels : Option (List Int)) (aug old : List (Option (List (Cell β)))) :
    Option (List (Option (List (Cell β)))) :=
  (aug.zip old).mapM (fun p => match p.1 with
    | none => some none
    | some a => (replaceCells channels a p.2).map some)

/-- `_invert_reduce_images_to_channels`, meta.py 3891-3898. -/
def invertReduce (channels : Option (List Int)) (aug ims : List (CImg α)) : Option (List (CImg α)) :=
  match channels with
  | none => some aug
  | some l => (ims.zip aug).mapM (fun p => write p.1 l p.2)

/-- The images of the batch reduced to the channels, if there are images, meta.py 3795-3796. -/
def reduceBat (channels : Option (List Int)) (b : Bat α β) : Option (Bat α β) :=
  match b.images with
  | none => some b
  | some ims => (reduce channels ims).map (fun r => { b with images := some r })

/-- `WithChannels._augment_batch_`, meta.py 3787-3830, without the propagation hooks. `children` runs the children on a
batch. If the children drop the images, the result has none. -/
def withChannels (channels : Option (List Int)) (children : Bat α β → Option (Bat α β)) (b : Bat α β) : Option (Bat α β) :=
  if channels = some [] then some b else
  (reduceBat channels b).bind (fun reduced =>
  (children reduced).bind (fun out =>
    match out.images, b.images with
    | none, _ => (replaceCols channels out.cols b.cols).map (fun cols => ⟨none, cols⟩)
    | some _, none => none
    | some aug, some ims =>
      if unchanged aug ims then
        (replaceCols channels out.cols b.cols).bind (fun cols =>
          (invertReduce channels aug ims).map (fun res => ⟨some res, cols⟩))
      else none))

/-! ### Shuffling -/

/-- `set(all_channels).difference(set(channels))` is empty, meta.py 4996-5000. -/
def isAll (c : Nat) (channels : Option (List Int)) : Bool :=
  match channels with
  | none => true
  | some l => (List.range c).all (fun (k : Nat) => l.contains (k : Int))

/-- The loop of `shuffle_channels`, meta.py 5009-5011. -/
def permFull (c : Nat) (full : List Int) : List Int → List Int → Option (List Int)
  | ch :: chs, p :: ps => (resolve c ch).bind (fun i => permFull c (full.set i p) chs ps)
  | _, _ => some full

/-- `shuffle_channels`, meta.py 4949-5012. `perm l` is the result of `random_state.permutation(l)`. `channels = none` stands
for `None` and for `imgaug.ALL`. -/
def shuffle (perm : List Int → List Int) (channels : Option (List Int)) (im : CImg α) : Option (CImg α) :=
  if im.c = 1 then some im
  else
    let allChannels := (List.range im.c).map (fun (k : Nat) => (k : Int))
    if isAll im.c channels then select im (perm allChannels)
    else match channels with
      | none => select im (perm allChannels)
      | some l => (permFull im.c allChannels l (perm l)).bind (fun full => select im full)

/-- `ChannelShuffle._augment_batch_`, meta.py 4928-4942: the loop over the images with the samples of `p` and one generator
per image. -/
def channelShuffle (channels : Option (List Int)) (images : List (CImg α)) (p : List ℚ) (perms : List (List Int → List Int)) :
    Option (List (CImg α)) :=
  ((images.zip (p.zip perms)).mapM (fun q => if q.2.1 ≥ 1 - 1 / 10000 then shuffle q.2.2 channels q.1 else some q.1)).map
    (fun done => done ++ images.drop done.length)

end Imgaug.Channels
