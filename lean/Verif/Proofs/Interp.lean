import Verif.Spec.Coords
/-! Helper lemmas for Props/Interp.lean. -/
namespace Imgaug.Props
open Imgaug Imgaug.Spec

theorem edges_length (f : Pt → Pt → List Pt) (m : Nat) (hf : ∀ a b, (f a b).length = m) (l : List Pt) :
    (interpolateEdges f l).length = (l.length - 1) * (m + 1) := by
  induction l with
  | nil => simp [interpolateEdges]
  | cons a l ih =>
    cases l with
    | nil => simp [interpolateEdges]
    | cons b l =>
      simp only [interpolateEdges, List.length_append, List.length_cons, hf, ih]
      simp only [Nat.add_sub_cancel]
      ring

theorem edges_get (f : Pt → Pt → List Pt) (m : Nat) (hf : ∀ a b, (f a b).length = m) (l : List Pt)
    (k j : Nat) (hk : k + 1 < l.length) (hj : j ≤ m) :
    (interpolateEdges f l)[k * (m + 1) + j]? = (l[k] :: f l[k] l[k + 1])[j]? := by
  induction l generalizing k with
  | nil => simp at hk
  | cons a l ih =>
    cases l with
    | nil => simp at hk
    | cons b l =>
      simp only [interpolateEdges]
      cases k with
      | zero =>
        rw [List.getElem?_append_left (by simp [hf]; omega)]
        simp
      | succ k =>
        have h1 : (a :: f a b).length = m + 1 := by simp [hf]
        have e : (k + 1) * (m + 1) + j = (m + 1) + (k * (m + 1) + j) := by ring
        rw [e, List.getElem?_append_right (by rw [h1]; omega), h1, Nat.add_sub_cancel_left]
        rw [ih k (by simpa using hk)]
        simp

theorem pair_length (a b : Pt) (m : Nat) : (interpolatePointPair a b m).length = m := by
  unfold interpolatePointPair
  split
  · simp; omega
  · simp

theorem pair_get (a b : Pt) (m j : Nat) (hj : j ≤ m) :
    (a :: interpolatePointPair a b m)[j]? = some (lerp a b (j / (m + 1))) := by
  cases j with
  | zero => simp [lerp]
  | succ j =>
    unfold interpolatePointPair
    rw [if_neg (by omega)]
    simp only [List.getElem?_cons_succ, Int.toNat_natCast]
    rw [List.getElem?_map, List.getElem?_range (by omega)]
    simp only [Option.map_some, Option.some.injEq, lerp, Pt.mk.injEq]
    push_cast
    constructor <;> ring

end Imgaug.Props
