import Verif.Model.Batch
/-! Model of the unified call `Augmenter.augment()`, imgaug/augmenters/meta.py 1708-2023, and of the treatment of an
`UnnormalizedBatch` by `augment_batch_` (meta.py 592-668), `to_normalized_batch` (batches.py 170-216) and
`fill_from_augmented_normalized_batch_` (218-257).

Simplifications. Python 3.6 or newer (keyword arguments are ordered). Values are of any type `V`, their standard form is of
type `N`, and the functions `normalize_*` and `invert_normalize_*` are parameters (see `Model/Normalize.lean` for those of
keypoints, bounding boxes and images). The augmentation of the standard form is any function. Warnings are not modelled. -/
namespace Imgaug.Aug
open Imgaug

/-- A keyword argument of `augment`. -/
inductive Key where
  | image
  | col (c : ColName)
  | unknown (name : String)
  deriving DecidableEq, Repr

/-- Not one of the names in `expected_keys_call`, meta.py 1925-1937. -/
def Key.isUnknown : Key → Bool
  | .unknown _ => true
  | _ => false

/-- What depends on the types of values. `none : Option V` is Python's `None`; an outer `none` is an exception. -/
structure Codec (V N S : Type) where
  /-- `[value]` -/
  wrap : V → V
  /-- `value[0]` -/
  first : V → Option V
  /-- `[image.shape for image in images]` -/
  shapes : N → S
  /-- `normalize_*(value, shapes)` -/
  norm : ColName → Option V → Option S → Option (Option N)
  /-- `invert_normalize_*(augmented, value)` -/
  inv : ColName → Option N → Option V → Option (Option V)

variable {V N S : Type}

/-- What `augment` returns: the batch, a single value, or a tuple. -/
inductive Out (V : Type) where
  | batch (unaug aug : ColName → Option V)
  | single (v : Option V)
  | tuple (l : List (Option V))

/-- `to_normalized_batch`, batches.py 170-216: images are normalised first, their shapes are used for the other columns.
(The shapes passed for images are not used.) -/
def toNormalized (C : Codec V N S) (b : ColName → Option V) : Option (ColName → Option N) :=
  (C.norm .images (b .images) none).bind (fun im =>
    Batch.traverse (fun c => if c = .images then some im else C.norm c (b c) (im.map C.shapes)))

/-- `augment_batch_` with an `UnnormalizedBatch`: normalise, augment, invert the normalisation of each column with the value
that was passed, batches.py 218-257. The result contains the new `*_aug` attributes. -/
def augmentUnnormalized (C : Codec V N S) (run : (ColName → Option N) → Option (ColName → Option N)) (b : ColName → Option V) :
    Option (ColName → Option V) :=
  (toNormalized C b).bind (fun n => (run n).bind (fun a => Batch.traverse (fun c => C.inv c (a c) (b c))))

/-- `kwargs.get(key, None)`. -/
def get (kwargs : List (Key × V)) (k : Key) : Option V := (kwargs.find? (fun p => p.1 == k)).map (fun p => p.2)

/-- The columns of the `UnnormalizedBatch`, meta.py 1945-1996. -/
def columns (C : Codec V N S) (kwargs : List (Key × V)) : ColName → Option V
  | .images => if (get kwargs .image).isSome then (get kwargs .image).map C.wrap else get kwargs (.col .images)
  | c => get kwargs (.col c)

/-- The value returned for a keyword argument, meta.py 2007-2012. -/
def pick (C : Codec V N S) (aug : ColName → Option V) : Key → Option (Option V)
  | .image => (aug .images).bind (fun v => (C.first v).map some)
  | .col c => some (aug c)
  | .unknown _ => none

/-- `Augmenter.augment`, meta.py 1708-2023. -/
def augment (C : Codec V N S) (run : (ColName → Option N) → Option (ColName → Option N)) (returnBatch : Bool)
    (kwargs : List (Key × V)) : Option (Out V) :=
  if kwargs.all (fun p => p.1.isUnknown) then none
  else if kwargs.any (fun p => p.1.isUnknown) then none
  else if (get kwargs .image).isSome ∧ (get kwargs (.col .images)).isSome then none
  else (augmentUnnormalized C run (columns C kwargs)).bind (fun aug =>
    if returnBatch then some (.batch (columns C kwargs) aug)
    else (kwargs.mapM (fun p => pick C aug p.1)).map (fun l => match l with
      | [v] => .single v
      | l => .tuple l))

end Imgaug.Aug
