import Verif.Model.Compress
import Mathlib.Data.Finset.Card
/-! Specification of the compression with JPEG and of the quantisation with k-means. -/
namespace Imgaug.Compress

/-- The position exists in arrays of the shape (with channel 0 for arrays of shape (H,W)). -/
def Inside : Shape → Nat → Nat → Nat → Prop
  | .hw h w, y, x, k => y < h ∧ x < w ∧ k = 0
  | .hwc h w c, y, x, k => y < h ∧ x < w ∧ k < c
  | .other, _, _, _ => False

/-- The pixel exists in arrays of the shape. -/
def Within : Shape → Nat → Nat → Prop
  | .hw h w, y, x => y < h ∧ x < w
  | .hwc h w _, y, x => y < h ∧ x < w
  | .other, _, _ => False

/-- The values of a pixel. -/
def colour (a : Arr) (y x : Nat) : List Int := (List.range a.shape.channels).map (a.px y x)

/-- The values are those of uint8 arrays. -/
def Bytes (a : Arr) : Prop := ∀ y x k, 0 ≤ a.px y x k ∧ a.px y x k ≤ 255

/-- All pixels of the array have one of at most `n` colours. -/
def AtMostColours (n : Nat) (a : Arr) : Prop :=
  ∃ cs : Finset (List Int), cs.card ≤ n ∧ ∀ y x, Within a.shape y x → colour a y x ∈ cs

/-- What is expected of `cv2.kmeans`: for every vector the number of a cluster, for every cluster a center, and the centers lie in the range
of the vectors. -/
structure Lib.Sane (L : Lib) : Prop where
  labels : ∀ s v n it eps, v ≠ [] → 0 < n →
    (L.kmeans s v n it eps).1.1.length = v.length ∧ ∀ l ∈ (L.kmeans s v n it eps).1.1, l < n
  centers : ∀ s v n it eps, v ≠ [] → 0 < n → (L.kmeans s v n it eps).1.2.length = n
  range : ∀ s v n it eps (k : Nat) (lo hi : ℚ), v ≠ [] → 0 < n → (∀ u ∈ v, lo ≤ u.getD k 0 ∧ u.getD k 0 ≤ hi) →
    ∀ c ∈ (L.kmeans s v n it eps).1.2, lo ≤ c.getD k 0 ∧ c.getD k 0 ≤ hi

/-- Equal vectors are put into the same cluster. -/
def Lib.Consistent (L : Lib) : Prop := ∀ s v n it eps (i j : Nat), i < v.length → j < v.length → v.getD i [] = v.getD j [] →
  (L.kmeans s v n it eps).1.1.getD i 0 = (L.kmeans s v n it eps).1.1.getD j 0

end Imgaug.Compress
