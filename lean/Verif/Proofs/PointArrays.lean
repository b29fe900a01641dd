import Verif.Spec.PointArrays
/-! Lemmas about arrays of points. -/
namespace Imgaug.PointArrays

theorem invertLoop_flatten (objs : List (List Pt)) : ∀ (xy : List Pt) (c : Nat), c + (objs.map List.length).sum = xy.length →
    (invertLoop xy c objs).flatten = xy.drop c ∧ (invertLoop xy c objs).map List.length = objs.map List.length := by
  induction objs with
  | nil =>
    intro xy c h
    simp only [List.map_nil, List.sum_nil, add_zero] at h
    simp [invertLoop, h]
  | cons o rest ih =>
    intro xy c h
    simp only [List.map_cons, List.sum_cons] at h
    obtain ⟨h1, h2⟩ := ih xy (c + o.length) (by omega)
    simp only [invertLoop, List.flatten_cons, h1, List.map_cons, h2, List.length_take, List.length_drop]
    refine ⟨?_, by rw [Nat.min_eq_left (by omega)]⟩
    rw [← List.drop_drop, List.take_append_drop]

/-- Lists of lists with the same lengths are the same if they have the same elements. -/
theorem flatten_inj : ∀ (a b : List (List Pt)), a.map List.length = b.map List.length → a.flatten = b.flatten → a = b := by
  intro a
  induction a with
  | nil =>
    intro b h _
    cases b with
    | nil => rfl
    | cons x b => simp at h
  | cons x a ih =>
    intro b h hf
    cases b with
    | nil => simp at h
    | cons y b =>
      simp only [List.map_cons, List.cons.injEq] at h
      simp only [List.flatten_cons] at hf
      obtain ⟨h1, h2⟩ := List.append_inj hf h.1
      rw [h1, ih b h.2 h2]

theorem fillLoop_enough (objs : List (List Pt)) : ∀ (xy : List Pt) (c : Nat), c + (objs.map List.length).sum ≤ xy.length →
    fillLoop xy c objs = (invertLoop xy c objs, c + (objs.map List.length).sum, true) := by
  induction objs with
  | nil => intro xy c _; simp [fillLoop, invertLoop]
  | cons o rest ih =>
    intro xy c h
    simp only [List.map_cons, List.sum_cons] at h
    simp only [fillLoop, if_pos (show c + o.length ≤ xy.length by omega), ih xy (c + o.length) (by omega), invertLoop, List.map_cons, List.sum_cons,
      Prod.mk.injEq, true_and, and_true]
    omega

theorem fillLoop_lengths (objs : List (List Pt)) : ∀ (xy : List Pt) (c : Nat), (fillLoop xy c objs).1.map List.length = objs.map List.length := by
  induction objs with
  | nil => intro xy c; rfl
  | cons o rest ih =>
    intro xy c
    unfold fillLoop
    split
    · simp only [List.map_cons, ih, List.length_take, List.length_drop]
      rw [Nat.min_eq_left (by omega)]
    · rfl

theorem fillLoop_few (objs : List (List Pt)) : ∀ (xy : List Pt) (c : Nat), c ≤ xy.length → xy.length < c + (objs.map List.length).sum →
    (fillLoop xy c objs).2.2 = false := by
  induction objs with
  | nil => intro xy c h1 h2; simp at h2; omega
  | cons o rest ih =>
    intro xy c h1 h2
    simp only [List.map_cons, List.sum_cons] at h2
    unfold fillLoop
    split
    · rename_i h
      exact ih xy (c + o.length) h (by omega)
    · rfl

/-- What the loop leaves: the objects for which there were enough points have new ones. -/
theorem fillLoop_prefix (objs : List (List Pt)) : ∀ (xy : List Pt) (c : Nat) (i : Nat) (o : List Pt), objs[i]? = some o → c ≤ xy.length →
    (fillLoop xy c objs).1[i]? = some (if c + ((objs.map List.length).take (i + 1)).sum ≤ xy.length
      then (xy.drop (c + ((objs.map List.length).take i).sum)).take o.length else o) := by
  induction objs with
  | nil => intro xy c i o h; simp at h
  | cons p rest ih =>
    intro xy c i o h hc
    unfold fillLoop
    cases i with
    | zero =>
      simp only [List.getElem?_cons_zero, Option.some.injEq] at h
      subst h
      split <;> rename_i hh <;> simp [hh]
    | succ i =>
      simp only [List.getElem?_cons_succ] at h
      simp only [List.map_cons, List.take_succ_cons, List.sum_cons]
      split
      · rename_i hh
        simp only [List.getElem?_cons_succ]
        rw [ih xy (c + p.length) i o h hh]
        simp only [Nat.add_assoc]
      · rename_i hh
        rw [if_neg (by omega)]
        simpa using h

theorem getElem_invertLoop (objs : List (List Pt)) : ∀ (xy : List Pt) (c : Nat) (i : Nat) (o : List Pt), objs[i]? = some o →
    (invertLoop xy c objs)[i]? = some ((xy.drop (c + ((objs.map List.length).take i).sum)).take o.length) := by
  induction objs with
  | nil => intro xy c i o h; simp at h
  | cons p rest ih =>
    intro xy c i o h
    cases i with
    | zero =>
      simp only [List.getElem?_cons_zero, Option.some.injEq] at h
      subst h
      simp [invertLoop]
    | succ i =>
      simp only [List.getElem?_cons_succ] at h
      simp only [invertLoop, List.getElem?_cons_succ, List.map_cons, List.take_succ_cons, List.sum_cons]
      rw [ih xy _ i o h, Nat.add_assoc]

end Imgaug.PointArrays
