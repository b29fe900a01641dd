import Verif.Proofs.Interp
import Verif.Spec.Coords
/-! Properties C13, C14: interpolation of points. -/
namespace Imgaug.Props
open Imgaug Imgaug.Spec

/-- C13: closed case. Every edge (the one from the last to the first point included) contributes its start point and then
`m` evenly spaced points. -/
theorem interpolate_closed (points : List Pt) (m : Nat) (hn : 2 ≤ points.length) :
    (interpolatePoints points m true).length = points.length * (m + 1) ∧
    ∀ k j (hk : k < points.length), j ≤ m →
      (interpolatePoints points m true)[k * (m + 1) + j]? =
        some (lerp points[k] (points[(k + 1) % points.length]'(Nat.mod_lt _ (by omega))) (j / (m + 1))) := by
  match points, hn with
  | p :: q :: rest, _ =>
    simp only [interpolatePoints, interpolateWith, if_true, List.append_nil]
    constructor
    · rw [edges_length _ m (fun a b => pair_length a b m)]; simp
    · intro k j hk hj
      rw [edges_get _ m (fun a b => pair_length a b m) _ k j (by simp at hk ⊢; omega) hj, pair_get _ _ _ _ hj]
      congr 2
      · rw [List.getElem_append_left hk]
      · by_cases h : k + 1 < (p :: q :: rest).length
        · rw [List.getElem_append_left h]
          congr 1
          rw [Nat.mod_eq_of_lt h]
        · have h' : k + 1 = (p :: q :: rest).length := by omega
          rw [List.getElem_append_right (by omega)]
          simp only [h', Nat.mod_self, Nat.sub_self]
          simp

/-- C13: open case. Every edge contributes its start point and `m` evenly spaced points, and the last point ends the
result. -/
theorem interpolate_open (points : List Pt) (m : Nat) (hn : 2 ≤ points.length) :
    (interpolatePoints points m false).length = (points.length - 1) * (m + 1) + 1 ∧
    (∀ k j (hk : k + 1 < points.length), j ≤ m →
      (interpolatePoints points m false)[k * (m + 1) + j]? =
        some (lerp points[k] points[k + 1] (j / (m + 1)))) ∧
    (interpolatePoints points m false)[(points.length - 1) * (m + 1)]? = points[points.length - 1]? := by
  match points, hn with
  | p :: q :: rest, _ =>
    simp only [interpolatePoints, interpolateWith, Bool.false_eq_true, if_false]
    have hl := edges_length (fun a b => interpolatePointPair a b m) m (fun a b => pair_length a b m) (p :: q :: rest)
    refine ⟨?_, ?_, ?_⟩
    · rw [List.length_append, hl]
      simp [List.getLast?_cons]
    · intro k j hk hj
      rw [List.getElem?_append_left]
      · rw [edges_get _ m (fun a b => pair_length a b m) _ k j hk hj, pair_get _ _ _ _ hj]
      · rw [hl]
        have : k + 1 ≤ (p :: q :: rest).length - 1 := by omega
        calc k * (m + 1) + j < (k + 1) * (m + 1) := by rw [Nat.add_mul]; omega
          _ ≤ _ := Nat.mul_le_mul_right _ this
    · rw [List.getElem?_append_right (by rw [hl]), hl, Nat.sub_self]
      rw [List.getLast?_eq_getElem?]
      have : (p :: q :: rest).length - 1 < (p :: q :: rest).length := by simp
      rw [List.getElem?_eq_getElem this]
      rfl

/-- C13: `nb_steps < 1` and lists of fewer than two points leave the list as it is. -/
theorem interpolate_trivial (points : List Pt) (nb : Int) (closed : Bool) (h : nb < 1 ∨ points.length ≤ 1) :
    interpolatePoints points nb closed = points := by
  match points with
  | [] => rfl
  | [p] => rfl
  | p :: q :: rest =>
    have hnb : nb < 1 := by rcases h with h | h; exact h; simp at h
    have hf : (fun a b => interpolatePointPair a b nb) = fun _ _ => [] := by
      funext a b; unfold interpolatePointPair; rw [if_pos hnb]
    simp only [interpolatePoints, interpolateWith, hf]
    have key : ∀ (l : List Pt), interpolateEdges (fun _ _ => []) l = l.dropLast := by
      intro l
      induction l with
      | nil => rfl
      | cons a l ih =>
        cases l with
        | nil => rfl
        | cons b l => simp only [interpolateEdges, ih, List.dropLast_cons_cons, List.cons_append, List.nil_append]
    cases closed
    · simp only [Bool.false_eq_true, if_false]
      rw [key, List.getLast?_eq_some_getLast (by simp : p :: q :: rest ≠ []), Option.toList_some, List.dropLast_concat_getLast]
    · simp only [if_true, List.append_nil]
      rw [key, List.dropLast_concat]

example : interpolatePoints [⟨0, 0⟩, ⟨3, 6⟩] 2 false = [⟨0, 0⟩, ⟨1, 2⟩, ⟨2, 4⟩, ⟨3, 6⟩] := by
  simp [interpolatePoints, interpolateWith, interpolateEdges, interpolatePointPair, List.range_succ]; norm_num

/-! Polygon and line string subdivision. -/

/-- C13: subdividing a line string of at least two points. -/
theorem ls_subdivide (coords : List Pt) (m : Nat) (hn : 2 ≤ coords.length) :
    (Polygon.lsSubdivide coords m).length = (coords.length - 1) * (m + 1) + 1 ∧
    (∀ k j (hk : k + 1 < coords.length), j ≤ m →
      (Polygon.lsSubdivide coords m)[k * (m + 1) + j]? = some (lerp coords[k] coords[k + 1] (j / (m + 1)))) := by
  unfold Polygon.lsSubdivide
  split
  · rename_i h
    have hm : m = 0 := by rcases h with h | h <;> omega
    subst hm
    refine ⟨by omega, ?_⟩
    intro k j hk hj
    have : j = 0 := by omega
    subst this
    simp [lerp, List.getElem?_eq_getElem (show k < coords.length by omega)]
  · exact ⟨(interpolate_open coords m hn).1, (interpolate_open coords m hn).2.1⟩

/-- C13: subdividing a polygon of n >= 2 points puts `m` points on each of its n edges and keeps all its points. -/
theorem polygon_subdivide (p : Polygon) (m : Nat) (hn : 2 ≤ p.exterior.length) :
    (p.subdivide m).label = p.label ∧
    (p.subdivide m).exterior.length = p.exterior.length * (m + 1) ∧
    ∀ k j (hk : k < p.exterior.length), j ≤ m →
      (p.subdivide m).exterior[k * (m + 1) + j]? =
        some (lerp p.exterior[k] (p.exterior[(k + 1) % p.exterior.length]'(Nat.mod_lt _ (by omega))) (j / (m + 1))) := by
  have hls : p.toLineString true = p.exterior ++ p.exterior.take 1 := by
    unfold Polygon.toLineString
    rw [if_neg]; simp; omega
  have hlen : (p.toLineString true).length = p.exterior.length + 1 := by
    rw [hls, List.length_append, List.length_take]; omega
  have h := ls_subdivide (p.toLineString true) m (by omega)
  have e : (p.subdivide m).exterior = (Polygon.lsSubdivide (p.toLineString true) m).dropLast := by
    unfold Polygon.subdivide; rw [if_neg (by omega)]
  refine ⟨?_, ?_, ?_⟩
  · unfold Polygon.subdivide; split <;> rfl
  · rw [e, List.length_dropLast, h.1, hlen]; simp
  · intro k j hk hj
    rw [e, List.getElem?_dropLast, h.1, hlen]
    have hlt : k * (m + 1) + j < (p.exterior.length + 1 - 1) * (m + 1) + 1 - 1 := by
      calc k * (m + 1) + j < (k + 1) * (m + 1) := by rw [Nat.add_mul]; omega
        _ ≤ _ := by simp only [Nat.add_sub_cancel]; exact Nat.mul_le_mul_right _ hk
    rw [if_pos hlt, h.2 k j (by omega) hj]
    congr 2
    · simp only [hls]; rw [List.getElem_append_left hk]
    · simp only [hls]
      by_cases h : k + 1 < p.exterior.length
      · rw [List.getElem_append_left h]
        congr 1
        rw [Nat.mod_eq_of_lt h]
      · have h' : k + 1 = p.exterior.length := by omega
        rw [List.getElem_append_right (by omega)]
        simp [h']

end Imgaug.Props
