import Verif.Model.Augment
/-! Model of `Augmenter.augment_batches`, imgaug/augmenters/meta.py 327-528, with `Batch.deepcopy` and
`UnnormalizedBatch.to_normalized_batch`/`fill_from_augmented_normalized_batch` (augmentables/batches.py 170-311, 488-620).

Simplifications. Values of columns are of any type: `V` as passed by the user, `N` in standard form; the conversions between
them are the parameter `Codec` of `Model/Augment.lean`. `augment_batch_` is a function of the augmenter's state that turns the
columns of a batch into the augmented columns or raises (`none`). Deep copies are values. Warnings are not modelled. For
background augmentation the pool is any process that hands back augmented batches after they were loaded; that `multicore.Pool`
is one is the topic of `Model/Pool.lean`, `Model/Imap.lean` and `Model/Background.lean`. -/
namespace Imgaug.Batches
open Imgaug Imgaug.Aug

variable {V N S δ G : Type}

/-- `Batch` (`A` is the standard form of columns) or `UnnormalizedBatch`, batches.py 45-160 and 314-416. -/
structure Bat (A δ : Type) where
  unaug : ColName → Option A
  aug : ColName → Option A
  data : δ

/-- The type of an element of a list, as far as `_normalize_batch` looks at it. -/
inductive Item where
  | array
  | heatmaps
  | segmaps
  | keypoints
  | boxes
  | polygons
  | lineStrings
  | other
  deriving DecidableEq, Repr

/-- One element of `batches`. A list is given by the types of its elements and its value as a column. -/
inductive Input (V N δ : Type) where
  | batch (b : Bat N δ)
  | unnorm (b : Bat V δ)
  | array (ndim : Nat) (v : N)
  | list (items : List Item) (v : N)
  | other

/-- `batch_orig_dt`. -/
inductive Kind where
  | batch
  | unnorm
  | array
  | emptyList
  | listOf (c : ColName)
  deriving DecidableEq, Repr

/-- What is yielded: a batch, or the value of a column (`None` is possible), or `[]`. -/
inductive Output (V N δ : Type) where
  | batch (b : Bat N δ)
  | unnorm (b : Bat V δ)
  | value (v : Option N)
  | emptyList

/-- `Batch(c=v)` without other columns. -/
def only (c : ColName) (v : N) : ColName → Option N := fun c' => if c' = c then some v else none

/-- The chain of `isinstance` tests of the first element, meta.py 404-434. -/
def listColumn : List Item → Option (Option ColName)
  | [] => some none
  | .array :: _ => some (some .images)
  | .heatmaps :: _ => some (some .heatmaps)
  | .segmaps :: _ => some (some .segmentationMaps)
  | .keypoints :: _ => some (some .keypoints)
  | .boxes :: _ => some (some .boundingBoxes)
  | .polygons :: _ => some (some .polygons)
  | .lineStrings :: _ => none
  | .other :: _ => none

/-- `_normalize_batch`, meta.py 386-455. `data` becomes `(idx, data)` or `(idx,)`. -/
def normalize (C : Codec V N S) (idx : Nat) : Input V N δ → Option (Bat N (Nat × Option δ) × Kind)
  | .batch b => some (⟨b.unaug, b.aug, (idx, some b.data)⟩, .batch)
  | .unnorm b =>
    if ColName.all.all (fun c => (b.aug c).isNone) then
      (toNormalized C b.unaug).map (fun n => (⟨n, fun _ => none, (idx, some b.data)⟩, .unnorm))
    else none
  | .array ndim v => if ndim = 3 ∨ ndim = 4 then some (⟨only .images v, fun _ => none, (idx, none)⟩, .array) else none
  | .list items v => (listColumn items).map (fun oc => match oc with
    | none => (⟨fun _ => none, fun _ => none, (idx, none)⟩, .emptyList)
    | some c => (⟨only c v, fun _ => none, (idx, none)⟩, .listOf c))
  | .other => none

/-- `fill_from_augmented_normalized_batch`, batches.py 259-311. -/
def fill (C : Codec V N S) (orig : Bat V δ) (a : Bat N δ) : Option (Bat V δ) :=
  (Batch.traverse (fun c => C.inv c (a.aug c) (orig.unaug c))).map (fun aug => ⟨orig.unaug, aug, a.data⟩)

/-- `_unnormalize_batch`, meta.py 458-487. -/
def unnormalize (C : Codec V N S) (a : Bat N (Nat × Option δ)) (orig : Input V N δ) : Kind → Option (Output V N δ)
  | .batch => a.data.2.map (fun d => .batch ⟨a.unaug, a.aug, d⟩)
  | .unnorm => a.data.2.bind (fun d => match orig with
    | .unnorm b => (fill C b ⟨a.unaug, a.aug, d⟩).map .unnorm
    | _ => none)
  | .array => some (.value (a.aug .images))
  | .emptyList => some .emptyList
  | .listOf c => some (.value (a.aug c))

/-- `augment_batch_` of a `Batch`, meta.py 598-600 and 669-672: the columns are copied, augmented and put in `*_aug`. -/
def augmentBatch (run : G → (ColName → Option N) → Option ((ColName → Option N) × G)) (g : G) (b : Bat N (Nat × Option δ)) :
    Option (Bat N (Nat × Option δ) × G) :=
  (run g b.unaug).map (fun r => (⟨b.unaug, r.1, b.data⟩, r.2))

/-- One pass of the loop, meta.py 493-499. -/
def one (C : Codec V N S) (run : G → (ColName → Option N) → Option ((ColName → Option N) × G)) (idx : Nat) (g : G)
    (x : Input V N δ) : Option (Output V N δ × G) :=
  (normalize C idx x).bind (fun nk => (augmentBatch run g nk.1).bind (fun r =>
    (unnormalize C r.1 x nk.2).map (fun o => (o, r.2))))

/-- The foreground loop, meta.py 489-499: what is yielded, and whether the generator ends without an exception. -/
def foreground (C : Codec V N S) (run : G → (ColName → Option N) → Option ((ColName → Option N) × G)) :
    Nat → G → List (Input V N δ) → List (Output V N δ) × Bool
  | _, _, [] => ([], true)
  | idx, g, x :: xs => match one C run idx g x with
    | none => ([], false)
    | some (o, g') => (o :: (foreground C run (idx + 1) g' xs).1, (foreground C run (idx + 1) g' xs).2)

/-- What happens during background augmentation: the pool takes the next batch from the generator `load_batches`, or it hands
back a batch (that some worker augmented). -/
inductive Event (N δ : Type) where
  | load
  | result (a : Bat N (Nat × Option δ))

/-- The variables of the background branch: batches left, the next index, `id_to_batch_orig`, what the pool was given and
what was yielded. -/
structure State (V N δ : Type) where
  left : List (Input V N δ)
  idx : Nat
  dict : List (Nat × (Input V N δ × Kind))
  loaded : List (Bat N (Nat × Option δ))
  out : List (Output V N δ)

/-- One step: `load_batches`, meta.py 506-511, or the body of the loop over the results, 518-528. `none` is an exception. -/
def step (C : Codec V N S) (s : State V N δ) : Event N δ → Option (State V N δ)
  | .load => match s.left with
    | [] => some s
    | x :: xs => (normalize C s.idx x).map (fun nk =>
      ⟨xs, s.idx + 1, (s.idx, (x, nk.2)) :: s.dict.filter (fun e => e.1 != s.idx), s.loaded ++ [nk.1], s.out⟩)
  | .result a => (s.dict.find? (fun e => e.1 == a.data.1)).bind (fun e =>
      (unnormalize C a e.2.1 e.2.2).map (fun o =>
        ⟨s.left, s.idx, s.dict.filter (fun e' => e'.1 != a.data.1), s.loaded, s.out ++ [o]⟩))

/-- All steps, from the start. -/
def background (C : Codec V N S) (inputs : List (Input V N δ)) (evs : List (Event N δ)) : Option (State V N δ) :=
  evs.foldlM (step C) ⟨inputs, 0, [], [], []⟩

/-- The argument `batches`. -/
inductive Arg (V N δ : Type) where
  | single (x : Input V N δ)
  | iterable (l : List (Input V N δ))
  | array
  | string
  | other

/-- The first checks, meta.py 370-384. A single batch is put in a list. -/
def batchesOf (hooks background : Bool) : Arg V N δ → Option (List (Input V N δ))
  | .single (.batch b) => if background && hooks then none else some [.batch b]
  | .single (.unnorm b) => if background && hooks then none else some [.unnorm b]
  | .single _ => none
  | .iterable l => if background && hooks then none else some l
  | .array => none
  | .string => none
  | .other => none

end Imgaug.Batches
