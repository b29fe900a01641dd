import Verif.Model.NormMaps
import Verif.Spec.Normalize
import Verif.Spec.Heatmaps
/-! Vocabulary for the statements in Props/NormMaps.lean. -/
namespace Imgaug.NormMaps
open Imgaug Imgaug.Props Imgaug.Dtypes
variable {α ω : Type}

/-- `v` is one array of shape `(N, H, W, C)` made of the arrays `as`. -/
def OneArray (v : Val α ω) (dt : DType) (as : List (Arr α)) : Prop :=
  ∃ h w c, v = .ent ⟨dt, .stack h w c (as.map (fun a => a.flat))⟩ ∧ ∀ a ∈ as, a.dims = .d3 h w c

/-- `v` is a list or tuple of the arrays `as`, each of shape `(H, W, C)`. -/
def ManyArrays (v : Val α ω) (dt : DType) (as : List (Arr α)) : Prop :=
  v.items = some (as.map (fun a => .ent ⟨dt, .one a⟩)) ∧ as ≠ [] ∧ ∀ a ∈ as, a.is2d = false

/-- `v` gives the arrays `as`, one for each image, all of dtype `dt`. -/
def Shows (v : Val α ω) (dt : DType) (as : List (Arr α)) : Prop := OneArray v dt as ∨ ManyArrays v dt as

/-- All arrays have the same shape. -/
def SameShape (as : List (Arr α)) : Prop := ∀ a ∈ as, ∀ b ∈ as, a.dims = b.dims

/-- The dtypes of segmentation maps. -/
def SegTypes : List DType := [⟨.b, 1⟩, ⟨.u, 1⟩, ⟨.u, 2⟩, ⟨.i, 1⟩, ⟨.i, 2⟩, ⟨.i, 4⟩]

/-- An array of class ids that can be stored in dtype `dt`. -/
def ClassIds (dt : DType) (a : Arr Int) : Prop := a.flat ≠ [] ∧ ∀ v ∈ a.flat, 0 ≤ v ∧ v ≤ hi dt

/-- The object `o` shows the class ids `a` with dtype `dt`. -/
def Reads (dt : DType) (o : SmObj) (a : Arr Int) : Prop := o.map.getArr = some a ∧ ofSegDtype o.map.dtype = dt

end Imgaug.NormMaps
