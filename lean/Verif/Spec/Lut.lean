import Verif.Model.Lut
/-! Specification of lookup tables. -/
namespace Imgaug.Lut

/-- The table has 256 entries, for each of `c` channels or once for all of them. -/
def Table.Fits (c : Nat) : Table → Prop
  | .list lens _ => lens.length = c ∧ ∀ n ∈ lens, n = 256
  | .one n _ => n = 256
  | .two n c' _ => n = 256 ∧ c' = c
  | .three m n c' _ => m = 1 ∧ n = 256 ∧ c' = c

/-- The entry of the table for a value in a channel. -/
def Table.entry (v k : Nat) : Table → Nat
  | .list _ t => t k v
  | .one _ t => t v
  | .two _ _ t => t v k
  | .three _ _ _ t => t 0 v k

/-- Same shape. -/
def SameShape (i j : Img) : Prop := i.flat = j.flat ∧ i.h = j.h ∧ i.w = j.w ∧ i.c = j.c

end Imgaug.Lut
