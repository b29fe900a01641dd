import Verif.Model.Augment
/-! Vocabulary for the statements in Props/Augment.lean. -/
namespace Imgaug.Aug
open Imgaug
variable {V N S : Type}

/-- `v` is the result for the keyword argument `k` with value `x`: the column is normalised together with the others (`n`),
augmented (`a`) and brought back to the form of `x`. For `image` a list with this image is used, and its first entry. -/
def IsResult (C : Codec V N S) (n a : ColName → Option N) (im : Option N) (k : Key) (x : V) (v : Option V) : Prop :=
  match k with
  | .image => C.norm .images (some (C.wrap x)) none = some (n .images) ∧
      ∃ l y, C.inv .images (a .images) (some (C.wrap x)) = some (some l) ∧ C.first l = some y ∧ v = some y
  | .col c => C.norm c (some x) (if c = .images then none else im.map C.shapes) = some (n c) ∧ C.inv c (a c) (some x) = some v
  | .unknown _ => False

end Imgaug.Aug
