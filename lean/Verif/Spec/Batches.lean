import Verif.Model.Batches
/-! Vocabulary for the statements in Props/Batches.lean. -/
namespace Imgaug.Batches
open Imgaug Imgaug.Aug
variable {V N S δ G : Type}

/-- The column of a list whose first element is of this type. -/
def Column : Item → ColName → Prop
  | .array, c => c = .images
  | .heatmaps, c => c = .heatmaps
  | .segmaps, c => c = .segmentationMaps
  | .keypoints, c => c = .keypoints
  | .boxes, c => c = .boundingBoxes
  | .polygons, c => c = .polygons
  | .lineStrings, _ => False
  | .other, _ => False

/-- The element `x` of `batches` is acceptable and `cols` are the columns that have to be augmented for it. -/
def Fed (C : Codec V N S) (x : Input V N δ) (cols : ColName → Option N) : Prop :=
  match x with
  | .batch b => cols = b.unaug
  | .unnorm b => (∀ c, b.aug c = none) ∧ C.norm .images (b.unaug .images) none = some (cols .images) ∧
      ∀ c, c ≠ .images → C.norm c (b.unaug c) ((cols .images).map C.shapes) = some (cols c)
  | .array ndim v => (ndim = 3 ∨ ndim = 4) ∧ cols .images = some v ∧ ∀ c, c ≠ .images → cols c = none
  | .list [] _ => ∀ c, cols c = none
  | .list (t :: _) v => ∃ c, Column t c ∧ cols c = some v ∧ ∀ c', c' ≠ c → cols c' = none
  | .other => False

/-- `o` is the answer for `x` if `a` are the augmented columns: of the same type as `x`, with the same `*_unaug` columns and
the same `data`. -/
def Answer (C : Codec V N S) (x : Input V N δ) (a : ColName → Option N) (o : Output V N δ) : Prop :=
  match x, o with
  | .batch b, .batch r => r.unaug = b.unaug ∧ r.aug = a ∧ r.data = b.data
  | .unnorm b, .unnorm r => r.unaug = b.unaug ∧ r.data = b.data ∧ ∀ c, C.inv c (a c) (b.unaug c) = some (r.aug c)
  | .array _ _, .value v => v = a .images
  | .list [] _, .emptyList => True
  | .list (t :: _) _, .value v => ∃ c, Column t c ∧ v = a c
  | _, _ => False

/-- `o` is of the type of `x`; batches have the same data and unaugmented columns. -/
def Kept : Input V N δ → Output V N δ → Prop
  | .batch b, .batch r => r.data = b.data ∧ r.unaug = b.unaug
  | .unnorm b, .unnorm r => r.data = b.data ∧ r.unaug = b.unaug
  | .array _ _, .value _ => True
  | .list items _, .emptyList => items = []
  | .list items _, .value _ => items ≠ []
  | _, _ => False

/-- The batches are augmented one after the other, each in the state left by the one before. -/
inductive Runs (C : Codec V N S) (run : G → (ColName → Option N) → Option ((ColName → Option N) × G)) :
    G → List (Input V N δ) → List (Output V N δ) → G → Prop
  | nil (g : G) : Runs C run g [] [] g
  | cons {g g1 g2 : G} {x : Input V N δ} {xs : List (Input V N δ)} {o : Output V N δ} {os : List (Output V N δ)}
      (cols a : ColName → Option N) (hf : Fed C x cols) (hr : run g cols = some (a, g1)) (ha : Answer C x a o)
      (h : Runs C run g1 xs os g2) : Runs C run g (x :: xs) (o :: os) g2

/-- The batches that the pool hands back. -/
def results (evs : List (Event N δ)) : List (Bat N (Nat × Option δ)) :=
  evs.filterMap (fun e => match e with | .load => none | .result a => some a)

/-- How often the pool asks for a batch. -/
def loads (evs : List (Event N δ)) : Nat := (evs.filter (fun e => match e with | .load => true | .result _ => false)).length

/-- The pool only hands back batches that it was given before, none of them twice, with unchanged `*_unaug` columns and `data`
(the `*_aug` columns are arbitrary). -/
def Honest (C : Codec V N S) (inputs : List (Input V N δ)) (evs : List (Event N δ)) : Prop :=
  ∀ pre a post, evs = pre ++ .result a :: post →
    a.data.1 < loads pre ∧ (∀ b ∈ results pre, b.data.1 ≠ a.data.1) ∧
    ∃ x, inputs[a.data.1]? = some x ∧ ∃ given k, normalize C a.data.1 x = some (given, k) ∧ a.unaug = given.unaug ∧ a.data = given.data

end Imgaug.Batches
