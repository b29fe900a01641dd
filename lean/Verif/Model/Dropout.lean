import Verif.Model.MulElem
/-! Model of the dropout augmenters, imgaug/augmenters/arithmetic.py 2945-3662, and of `FromLowerResolution`, imgaug/parameters.py 1924-2041.

Simplifications. Samples of random parameters are arguments of the functions. `Dropout` and `CoarseDropout` are `MultiplyElementwise`
(Model/MulElem.lean) with the parameters built here. An image of `Dropout2d` and `TotalDropout` is the list of its pixels, a pixel the list of
its channels. The private switches `_drop_*` have their default, which is to drop. Working in-place is not modelled. -/
namespace Imgaug.Dropout
open Imgaug Imgaug.Dtypes Imgaug.Resize

/-- The argument `p` of the dropout augmenters. -/
inductive PArg where
  | number (p : ℚ)
  | tuple (l : List ℚ)
  | list (l : List ℚ)
  | param
  | other
  deriving DecidableEq, Repr

/-- What `_handle_dropout_probability_param` returns: `Binomial` of a number, of a uniform distribution, of one minus a choice, or the given
parameter itself. -/
inductive Keep where
  | one (q : ℚ)
  | uniform (a b : ℚ)
  | oneMinusChoice (l : List ℚ)
  | given
  deriving DecidableEq, Repr

/-- `_handle_dropout_probability_param`, arithmetic.py 3093-3125. `none` is an exception. -/
def handleP : PArg → Option Keep
  | .number p => some (.one (1 - p))
  | .tuple [a, b] =>
    if a < b then
      if (0 ≤ a ∧ a ≤ 1) ∧ (0 ≤ b ∧ b ≤ 1) then some (.uniform (1 - b) (1 - a)) else none
    else none
  | .tuple _ => none
  | .list l => if l.all (fun p => 0 ≤ p && p ≤ 1) then some (.oneMinusChoice l) else none
  | .param => some .given
  | .other => none

/-- The probabilities that `Binomial` can use, `Binomial._draw_samples`, parameters.py 1236-1241: it raises if the probability is not in
`[0, 1]`. -/
def CanDraw : Keep → ℚ → Prop
  | .one q, k => k = q ∧ 0 ≤ k ∧ k ≤ 1
  | .uniform a b, k => a ≤ k ∧ k ≤ b ∧ 0 ≤ k ∧ k ≤ 1
  | .oneMinusChoice l, k => (∃ p ∈ l, k = 1 - p) ∧ 0 ≤ k ∧ k ≤ 1
  | .given, _ => True

/-- `restore_dtypes_` of the samples, parameters.py 2015-2030: the dtype that they get. `none` is the exception for boolean samples. -/
def sampleDtype (m : Inter) (d : DType) : Option DType :=
  match d.kind with
  | .f => some ⟨.f, 4⟩
  | .i => some (if m = .nearest then ⟨.i, 4⟩ else ⟨.f, 4⟩)
  | .u => some (if m = .nearest then ⟨.u, 2⟩ else ⟨.f, 4⟩)
  | .b => none

/-- `restore_dtypes_` on the samples; 64 bit integers cannot be clipped. -/
def restore (a : Im) (d : DType) : Option Im :=
  if a.dt ≠ d ∧ clippable a.dt = false then none
  else some { a with dt := d, px := fun y x k => (changeDtype a.dt d true (a.px y x k)).getD 0 }

/-- One example in `FromLowerResolution._draw_samples`, parameters.py 2000-2033: `hw` is the drawn size, `m` the drawn method and
`draw h w c` what the other parameter draws. -/
def lowResOne (cv : Cv) (minSize : Int) (h w c : Nat) (hw : Int × Int) (m : Inter) (draw : Nat → Nat → Nat → Im) : Option Im :=
  let hs := max hw.1 minSize
  let ws := max hw.2 minSize
  if hs < 0 ∨ ws < 0 then none
  else
    (sampleDtype m (draw hs.toNat ws.toNat c).dt).bind (fun d =>
      (restore (draw hs.toNat ws.toNat c) d).bind (fun a => core cv (some m) (.int h, .int w) a))

/-- The sizes drawn with `size_percent`, parameters.py 1991-1993. -/
def percentSize (h w : Nat) (p : ℚ × ℚ) : Int × Int := (pyInt (p.1 * h), pyInt (p.2 * w))

/-- Several examples, parameters.py 1998-2037: the result has the dtype of the first one. -/
def lowRes (cv : Cv) (minSize : Int) (h w c : Nat) (rows : List ((Int × Int) × Inter × (Nat → Nat → Nat → Im))) : Option (List Im) :=
  (rows.mapM (fun r => lowResOne cv minSize h w c r.1 r.2.1 r.2.2)).map (fun l =>
    match l with
    | [] => []
    | a :: t => (a :: t).map (fun b => { b with dt := a.dt, px := fun y x k => if b.dt = a.dt then b.px y x k else astype a.dt (b.px y x k) }))

/-- `FromLowerResolution._draw_samples` for a size `(H, W, C)`, parameters.py 1979-2041. -/
def lowRes3 (cv : Cv) (minSize : Int) (h w c : Nat) (hw : Int × Int) (m : Inter) (draw : Nat → Nat → Nat → Im) : Option Im :=
  (lowRes cv minSize h w c [(hw, m, draw)]).bind List.head?

/-- A column of a batch, with what `get_rowwise_shapes` uses of it: the shape of the images' array without its first axis, or the shapes of the
items (`none` for an item that is `None`). -/
inductive Col where
  | array (shape : List Nat)
  | items (shapes : List (Option (List Nat)))
  deriving DecidableEq, Repr

/-- One row in the inner loop of `get_rowwise_shapes`, batches.py 779-782. -/
def setFound (l : List (Option (List Nat))) (a : (Option (List Nat) × Bool) × Nat) : Option (List Nat) × Bool :=
  match l.getD a.2 none with
  | some s => (some s, true)
  | none => a.1

/-- The loop in `get_rowwise_shapes`, batches.py 773-785. Shapes and whether they were found in a list. -/
def rowShapes : List Col → List (Option (List Nat) × Bool) → List (Option (List Nat))
  | [], acc => acc.map (·.1)
  | .array s :: t, acc =>
    let acc' := acc.map (fun a => (some s, a.2))
    if acc'.all (·.2) then acc'.map (·.1) else rowShapes t acc'
  | .items l :: t, acc =>
    let acc' := acc.zipIdx.map (setFound l)
    if acc'.all (·.2) then acc'.map (·.1) else rowShapes t acc'

/-- `get_rowwise_shapes`, batches.py 753-785. -/
def rowwiseShapes (n : Nat) (cols : List Col) : List (Option (List Nat)) := rowShapes cols (List.replicate n (none, false))

/-- The number of channels of a row in `Dropout2d._draw_samples`, arithmetic.py 3463-3469. `none` is an exception. -/
def channelsOf (s : Option (List Nat)) : Option Nat :=
  s.bind (fun s => (if s.length ≥ 2 then s else s ++ [1])[2]?)

/-- The channels to drop in one image, arithmetic.py 3485-3491. `shuffle` is `random_state.shuffle`. -/
def dropIds (keep : Nat) (shuffle : List Nat → List Nat) (ps : List ℚ) (nb : Nat) : List Nat :=
  let ids := (List.range ps.length).filter (fun i => decide (ps.getD i 0 < 1 / 2))
  let dropable := nb - keep
  if ids.length > dropable then (shuffle ids).take dropable else ids

/-- The loop in `Dropout2d._draw_samples`, arithmetic.py 3484-3498: the flat samples are dealt out to the images. `shuffle i` is the shuffling for
image `i`. -/
def dealOut (keep : Nat) (shuffle : Nat → List Nat → List Nat) (ps : List ℚ) (chans : List Nat) : List (List Nat) :=
  chans.zipIdx.map (fun p => dropIds keep (shuffle p.2) ((ps.drop (chans.take p.2).sum).take p.1) p.1)

/-- The images of which all channels are dropped, arithmetic.py 3494-3496. -/
def allDropped (chans : List Nat) (drops : List (List Nat)) : List Nat :=
  (List.range chans.length).filter (fun i => decide ((drops.getD i []).length = chans.getD i 0))

/-- An image: number of channels, pixels. -/
structure Img where
  c : Nat
  px : List (List ℚ)
  deriving DecidableEq, Repr

/-- The columns of a batch: images, the arrays of heatmaps and segmentation maps, and the four kinds of coordinate-based annotations. -/
structure Batch (α : Type) where
  images : Option (List Img)
  heatmaps : Option (List (List ℚ))
  segmaps : Option (List (List ℚ))
  coords : List (Option (List (List α)))
  deriving DecidableEq

/-- `image[:, :, ids] = 0`, arithmetic.py 3429. -/
def zeroChannels (ids : List Nat) (a : Img) : Img :=
  { a with px := a.px.map (fun p => p.zipIdx.map (fun v => if v.2 ∈ ids then 0 else v.1)) }

/-- `array[drop_idx][...] = 0` for the rows that are dropped. -/
def fillRows (drop : Nat → Bool) (l : List (List ℚ)) : List (List ℚ) :=
  l.zipIdx.map (fun p => if drop p.2 then p.1.map (fun _ => 0) else p.1)

/-- `setattr(attr_value[drop_idx], attr_name, [])` for the rows that are dropped. -/
def emptyRows {α : Type} (drop : Nat → Bool) (l : List (List α)) : List (List α) :=
  l.zipIdx.map (fun p => if drop p.2 then [] else p.1)

/-- The treatment of everything but images, arithmetic.py 3431-3456 and 3621-3644. -/
def dropRows {α : Type} (drop : Nat → Bool) (b : Batch α) : Batch α :=
  ⟨b.images, b.heatmaps.map (fillRows drop), b.segmaps.map (fillRows drop), b.coords.map (Option.map (emptyRows drop))⟩

/-- `Dropout2d._augment_batch_`, arithmetic.py 3422-3500: `shapes` are the batch's row-wise shapes, `draw n` is what `p` draws. -/
def dropout2d {α : Type} (keep : Int) (draw : Nat → List ℚ) (shuffle : Nat → List Nat → List Nat) (shapes : List (Option (List Nat)))
    (b : Batch α) : Option (Batch α) :=
  (shapes.mapM channelsOf).map (fun chans =>
    let drops := dealOut (max keep 0).toNat shuffle (draw chans.sum) chans
    let all := allDropped chans drops
    let b' : Batch α := { b with images := b.images.map (fun l => (l.zip drops).map (fun p => zeroChannels p.2 p.1) ++ l.drop drops.length) }
    dropRows (fun i => decide (i ∈ all)) b')

/-- `TotalDropout._augment_batch_`, arithmetic.py 3609-3650; images of a list and of an array alike. -/
def totalDropout {α : Type} (ps : List ℚ) (b : Batch α) : Batch α :=
  let drop : Nat → Bool := fun i => decide (i < ps.length) && decide (ps.getD i 0 < 1 / 2)
  let b' : Batch α := { b with images := b.images.map (fun l => l.zipIdx.map (fun p =>
    if drop p.2 then { p.1 with px := p.1.px.map (fun q => q.map (fun _ => 0)) } else p.1)) }
  dropRows drop b'

end Imgaug.Dropout
