import Verif.Proofs.Interp2
import Verif.Props.Interp
/-! Property C14: interpolation by maximum distance. -/
namespace Imgaug.Props
open Imgaug Imgaug.Spec

/-- C14 (weaker bound): with `max_distance = d > 0` the call succeeds, keeps all given points in order, and consecutive
points of the result (the way back from the last to the first point included if `closed`) are less than `2 d` apart.
The documented bound `d` is false, see `interpolate_by_max_distance_exceeds`. -/
theorem interpolate_by_max_distance_partial (points : List Pt) (d : ℝ) (closed : Bool) (hd : 0 < d) :
    ∃ r, interpolateByMaxDistance points d closed = some r ∧ points.Sublist r ∧
      List.IsChain (fun p q => euclid p q < 2 * d) r ∧
      (closed = true → 2 ≤ points.length →
        List.IsChain (fun p q => euclid p q < 2 * d) (r ++ points.head?.toList)) := by
  unfold interpolateByMaxDistance
  rw [if_pos hd]
  refine ⟨_, rfl, ?_⟩
  have hf : ∀ a b, List.IsChain (fun p q => euclid p q < 2 * d)
      (a :: interpolatePointPair a b (truncInt (euclid a b / d - 1)) ++ [b]) := by
    intro a b
    rw [pair_eq_toNat]
    exact pair_isChain _ _ _ _ (steps_gap _ _ (Real.sqrt_nonneg _) hd)
  match points with
  | [] => simp [interpolateWith]
  | [p] => simp [interpolateWith]
  | p :: q :: rest =>
    cases closed
    · simp only [interpolateWith, Bool.false_eq_true, if_false, false_implies, and_true]
      refine ⟨?_, edges_isChain _ hf _⟩
      have h := (edges_sublist (fun a b => interpolatePointPair a b (truncInt (euclid a b / d - 1))) (p :: q :: rest)).append
        (List.Sublist.refl ((p :: q :: rest).getLast?.toList))
      rwa [List.getLast?_eq_some_getLast (by simp : p :: q :: rest ≠ []), Option.toList_some,
        List.dropLast_concat_getLast] at h
    · simp only [interpolateWith, if_true, List.append_nil]
      have h := edges_isChain _ hf ((p :: q :: rest) ++ [p])
      have h2 := edges_sublist (fun a b => interpolatePointPair a b (truncInt (euclid a b / d - 1))) ((p :: q :: rest) ++ [p])
      rw [List.dropLast_concat] at h2
      rw [List.getLast?_concat] at h
      refine ⟨h2, ?_, ?_⟩
      · exact (List.isChain_append.1 h).1
      · intro _ _; exact h

/-- C14: `max_distance <= 0` is rejected. -/
theorem interpolate_by_max_distance_invalid (points : List Pt) (d : ℝ) (closed : Bool) (hd : d ≤ 0) :
    interpolateByMaxDistance points d closed = none := by
  unfold interpolateByMaxDistance
  rw [if_neg (by linarith)]

/-- C14 is false as documented: two points 19 apart with maximum distance 10 get no point between them. -/
theorem interpolate_by_max_distance_exceeds :
    interpolateByMaxDistance [⟨0, 0⟩, ⟨19, 0⟩] 10 false = some [⟨0, 0⟩, ⟨19, 0⟩] ∧
    euclid ⟨0, 0⟩ ⟨19, 0⟩ = 19 := by
  have h : euclid ⟨0, 0⟩ ⟨19, 0⟩ = 19 := by
    unfold euclid
    rw [show (((0 : ℚ) : ℝ) - ((19 : ℚ) : ℝ)) ^ 2 + (((0 : ℚ) : ℝ) - ((0 : ℚ) : ℝ)) ^ 2 = 19 ^ 2 by push_cast; norm_num]
    exact Real.sqrt_sq (by norm_num)
  have hn : truncInt ((19 : ℝ) / 10 - 1) = 0 := by
    unfold truncInt
    rw [if_neg (by norm_num), Int.floor_eq_zero_iff]
    constructor <;> norm_num
  refine ⟨?_, h⟩
  unfold interpolateByMaxDistance
  rw [if_pos (by norm_num)]
  simp [interpolateWith, interpolateEdges, h, hn, interpolatePointPair]

end Imgaug.Props
