import Verif.Proofs.Recover
import Verif.Model.Recover
import Mathlib.Data.List.InsertIdx
/-! Property C17: recovery of concave polygons. -/
namespace Imgaug.Props
open Imgaug Imgaug.Recover

/-- C17: for every validity test, every hull (a list of point indices) and every way of ordering and subsampling the
candidates, the best-fit step ends with a result; the result is either all points in order (and valid), or it consists of
indices of given points, contains the hull as a subsequence, has at most 100 points more than the hull, and is the hull
itself or passes the validity test. -/
theorem fit_best_spec (valid : List Nat → Bool) (hull : List Nat) (order : Nat → List Cand → List Cand) (n : Nat)
    (hn : 2 ≤ n) (hh : ∀ i ∈ hull, i < n) (ho : ∀ it l, ∀ c ∈ order it l, c ∈ l) :
    ∃ r, fitBest valid hull order n = some r ∧
      ((r = List.range n ∧ valid r = true) ∨
       (valid (List.range n) = false ∧ hull.Sublist r ∧ (∀ i ∈ r, i < n) ∧ r.length ≤ hull.length + 100 ∧
        (r = hull ∨ valid r = true))) := by
  unfold fitBest
  rw [if_neg (by omega)]
  split
  · rename_i h; exact ⟨_, rfl, Or.inl ⟨rfl, h⟩⟩
  · rename_i h
    have hl : ∀ i ∈ (List.range n).filter (fun i => !hull.contains i), i < n := by
      intro i hi; exact List.mem_range.1 (List.mem_filter.1 hi).1
    obtain ⟨r, c, hr, hi, hc⟩ := fit_loop_spec valid order hull n 100 ho 4 0 hull _ 0
      ⟨List.Sublist.refl _, hh, rfl, Or.inl rfl⟩ (by omega) hl
    refine ⟨r, hr, Or.inr ⟨by simpa using h, hi.sub, hi.lt, ?_, hi.ok⟩⟩
    rw [hi.len]; omega

/-- C17: if moreover the validity test rejects rings that visit a point twice and the hull does not do so, no index is used
twice. -/
theorem fit_best_nodup (valid : List Nat → Bool) (hull : List Nat) (order : Nat → List Cand → List Cand) (n : Nat)
    (hn : 2 ≤ n) (hh : ∀ i ∈ hull, i < n) (ho : ∀ it l, ∀ c ∈ order it l, c ∈ l) (hnd : hull.Nodup)
    (hv : ∀ ids, valid ids = true → ids.Nodup) :
    ∃ r, fitBest valid hull order n = some r ∧ r.Nodup := by
  obtain ⟨r, hr, h⟩ := fit_best_spec valid hull order n hn hh ho
  refine ⟨r, hr, ?_⟩
  rcases h with ⟨-, h⟩ | ⟨-, -, -, -, h | h⟩
  · exact hv _ h
  · rwa [h]
  · exact hv _ h

/-- C17: the code by itself does not prevent that a point is used twice (the candidate pairs of one round are not updated),
so the hypothesis on the validity test is needed. Here the hull is `[0, 2, 3]`, and point 1 is inserted twice. -/
theorem fit_best_duplicates :
    fitBest (fun ids => ids != [0, 1, 2, 3]) [0, 2, 3] (fun _ l => l) 4 = some [0, 2, 1, 3, 1] := by
  decide +kernel

/-- C17: a valid new exterior is returned as it is. -/
theorem recover_valid (env : Env) (ext : List Pt) (old : Polygon) (h3 : 3 ≤ ext.length)
    (hv : env.valid (Polygon.init ext).exterior = true) :
    recoverFrom env ext old = some (Polygon.init ext old.label) := by
  have e : (Polygon.init ext old.label).exterior = (Polygon.init ext).exterior := by
    unfold Polygon.init; split <;> [split; skip] <;> rfl
  unfold recoverFrom
  rw [if_neg (by omega)]
  simp only [Polygon.deepcopy, Option.getD_some, e]
  rw [if_pos hv]

/-- C17: removing consecutive duplicates keeps a subsequence of the points in which no two consecutive points, and not the
last and the first, are the same, unless only one point is left. -/
theorem remove_duplicates_spec (same : Pt → Pt → Bool) (hs : ∀ p q, same p q = same q p) (points : List Pt) :
    (removeConsecutiveDuplicates same points).Sublist points ∧
    List.IsChain (fun p q => same p q = false) (removeConsecutiveDuplicates same points) ∧
    (points ≠ [] → removeConsecutiveDuplicates same points ≠ []) := by
  have h1 := (dedup_sublist same [] points).1
  have h2 := dedup_chain same [] points (by simp)
  have h2' : List.IsChain (fun p q => same p q = false) (dedupLoop same [] points) := by
    refine h2.imp ?_; intro a b h; rwa [hs]
  have h3 : points ≠ [] → dedupLoop same [] points ≠ [] := by
    intro hne he
    cases points with
    | nil => exact hne rfl
    | cons p ps =>
      have := (dedup_sublist same [p] ps).2
      simp only [dedupLoop, List.getLast?_nil, List.nil_append] at he
      rw [he] at this; simp at this
  unfold removeConsecutiveDuplicates
  simp only
  split
  · split
    · rename_i hl
      refine ⟨(List.dropLast_sublist _).trans h1, h2'.prefix (List.dropLast_prefix _), ?_⟩
      intro _ he
      have := congrArg List.length he
      simp at this hl
      omega
    · exact ⟨h1, h2', h3⟩
  · exact ⟨h1, h2', h3⟩

/-- C17: the inserted intersection points keep the exterior as a subsequence. -/
theorem insert_intersections_spec (ext : List Pt) (add : List (List Pt)) (h : ext.length = add.length) :
    ∃ r, insertIntersectionPoints ext add = some r ∧ ext.Sublist r ∧ r.length = ext.length + (add.map List.length).sum ∧
      ∀ p ∈ r, p ∈ ext ∨ ∃ ps ∈ add, p ∈ ps := by
  unfold insertIntersectionPoints
  rw [if_pos h]
  refine ⟨_, rfl, ?_⟩
  induction ext generalizing add with
  | nil => cases add <;> simp_all
  | cons p ext ih =>
    cases add with
    | nil => simp at h
    | cons ps add =>
      obtain ⟨i1, i2, i3⟩ := ih add (by simpa using h)
      simp only [List.zip_cons_cons, List.flatMap_cons, List.cons_append]
      refine ⟨List.Sublist.cons_cons _ (i1.trans (List.sublist_append_right _ _)), ?_, ?_⟩
      · simp only [List.length_cons, List.length_append, i2, List.map_cons, List.sum_cons]; omega
      · intro q hq
        simp only [List.mem_cons, List.mem_append] at hq
        rcases hq with rfl | hq | hq
        · simp
        · exact Or.inr ⟨ps, by simp, hq⟩
        · rcases i3 q hq with h | ⟨ps', h, h'⟩
          · simp [h]
          · exact Or.inr ⟨ps', by simp [h], h'⟩

/-- C17: if at least three points are left after removing consecutive duplicates, recovery succeeds: the result keeps the
label, all its points are points of the exterior after the noise steps or intersection points, and it is valid or is the
convex hull. Assumed of the external parts: the noise steps keep the number of points, there is one list of intersection
points per point, hull indices are indices, candidates are only reordered and dropped. -/
theorem recover_spec (env : Env) (ext : List Pt) (old : Polygon)
    (h3 : 3 ≤ (removeConsecutiveDuplicates env.same ext).length)
    (hfix : ∀ l, (env.fixLine l).length = l.length) (hjit : ∀ l, (env.jitter l).length = l.length)
    (hint : ∀ l, (env.inter l).length = l.length) (hhull : ∀ l, ∀ i ∈ env.hull l, i < l.length)
    (ho : ∀ it l, ∀ c ∈ env.order it l, c ∈ l) (hsub : ext.length ≥ 3) :
    ∃ q, recoverFrom env ext old = some q ∧ q.label = old.label ∧
      (q = Polygon.init ext old.label ∨
       ∃ pts, insertIntersectionPoints (env.jitter (env.fixLine (removeConsecutiveDuplicates env.same ext)))
            (env.inter (env.jitter (env.fixLine (removeConsecutiveDuplicates env.same ext)))) = some pts ∧
          (∀ p ∈ q.exterior, p ∈ pts) ∧
          (env.valid q.exterior = true ∨ ∃ ps, pick pts (env.hull pts) = some ps ∧ q = Polygon.init ps old.label)) := by
  unfold recoverFrom
  rw [if_neg (by omega)]
  have hdc : ∀ e, old.deepcopy (some e) = Polygon.init e old.label := fun _ => rfl
  have hlab : ∀ e, (Polygon.init e old.label).label = old.label := by
    intro e; rw [init_exterior_label]
  by_cases hval : env.valid (old.deepcopy (some ext)).exterior = true
  · exact ⟨_, if_pos hval, hlab _, Or.inl rfl⟩
  · simp only
    rw [if_neg hval, if_neg (by omega)]
    obtain ⟨pts, hpts, hs, hlen, -⟩ := insert_intersections_spec
      (env.jitter (env.fixLine (removeConsecutiveDuplicates env.same ext)))
      (env.inter (env.jitter (env.fixLine (removeConsecutiveDuplicates env.same ext)))) (by rw [hint])
    rw [hjit, hfix] at hlen
    rw [hpts]
    simp only
    obtain ⟨r, hr, h⟩ := fit_best_spec (validIds env.valid pts) (env.hull pts) env.order pts.length (by omega)
      (hhull pts) ho
    rw [hr]
    simp only
    have hlt : ∀ i ∈ r, i < pts.length := by
      rcases h with ⟨h, -⟩ | ⟨-, -, h, -, -⟩
      · rw [h]; intro i hi; exact List.mem_range.1 hi
      · exact h
    obtain ⟨ps, hps⟩ := pick_isSome pts r hlt
    rw [hps]
    refine ⟨_, rfl, hlab _, Or.inr ⟨pts, rfl, ?_, ?_⟩⟩
    · intro p hp
      have hsub : (Polygon.init ps old.label).exterior.Sublist ps := by
        unfold Polygon.init
        split <;> [split; skip]
        · exact List.dropLast_sublist _
        · exact List.Sublist.refl _
        · exact List.Sublist.refl _
      have hp := hsub.subset hp
      unfold pick at hps
      have : ∀ (ids : List Nat) (ps : List Pt), ids.mapM (fun (i : Nat) => pts[i]?) = some ps → ∀ p ∈ ps, p ∈ pts := by
        intro ids
        induction ids with
        | nil => intro ps h; simp at h; subst h; simp
        | cons i ids ih =>
          intro ps h
          rw [List.mapM_cons] at h
          cases hi : pts[i]? with
          | none => simp [hi] at h
          | some a =>
            cases ht : ids.mapM (fun (i : Nat) => pts[i]?) with
            | none => simp [hi, ht] at h
            | some qs =>
              simp [hi, ht] at h
              subst h
              intro p hp
              rcases List.mem_cons.1 hp with rfl | hp
              · exact List.mem_of_getElem? hi
              · exact ih qs ht p hp
      exact this r ps hps p hp
    · have hvv : validIds env.valid pts r = true → env.valid (Polygon.init ps old.label).exterior = true := by
        intro h
        unfold validIds at h
        rw [hps] at h
        rw [init_exterior_label]; exact h
      rcases h with ⟨-, h⟩ | ⟨-, -, -, -, h | h⟩
      · exact Or.inl (hvv h)
      · subst h; exact Or.inr ⟨ps, hps, rfl⟩
      · exact Or.inl (hvv h)

/-- C17 is false for degenerate input: three points of which two consecutive ones coincide make recovery fail (an
assertion), unless such a polygon counts as valid. -/
theorem recover_degenerate_fails (env : Env) (old : Polygon) (p q : Pt) (hs : env.same p p = true)
    (hpq : env.same q p = false) (hqp : env.same p q = false) (hv : env.valid (Polygon.init [p, p, q]).exterior = false) :
    recoverFrom env [p, p, q] old = none := by
  have hd : removeConsecutiveDuplicates env.same [p, p, q] = [p, q] := by
    simp [removeConsecutiveDuplicates, dedupLoop, hs, hpq, hqp]
  unfold recoverFrom
  rw [if_neg (by simp)]
  have hv' : ¬ env.valid (old.deepcopy (some [p, p, q])).exterior = true := by
    rw [show (old.deepcopy (some [p, p, q])).exterior = (Polygon.init [p, p, q]).exterior by
      show (Polygon.init [p, p, q] old.label).exterior = _; rw [init_exterior_label], hv]
    simp
  simp only
  rw [if_neg hv', hd, if_pos (by simp)]

/-- The hypotheses of `recover_spec` are met by a bow-tie with simple external parts, and the hypotheses of
`fit_best_nodup` by a nodup test. -/
example : ∃ env : Env, (∀ l, (env.fixLine l).length = l.length) ∧ (∀ l, (env.jitter l).length = l.length) ∧
    (∀ l, (env.inter l).length = l.length) ∧ (∀ l, ∀ i ∈ env.hull l, i < l.length) ∧
    (∀ it l, ∀ c ∈ env.order it l, c ∈ l) ∧ 3 ≤ (removeConsecutiveDuplicates env.same
      [⟨0, 0⟩, ⟨1, 1⟩, ⟨1, 0⟩, ⟨0, 1⟩]).length ∧ env.valid [⟨0, 0⟩, ⟨1, 1⟩, ⟨1, 0⟩, ⟨0, 1⟩] = false :=
  ⟨⟨fun ps => ps != [⟨0, 0⟩, ⟨1, 1⟩, ⟨1, 0⟩, ⟨0, 1⟩], fun p q => p == q, id, id, fun l => l.map (fun _ => []),
    fun l => List.range l.length, fun _ l => l⟩, by simp, by simp, by simp, by simp, by simp, by decide +kernel, by decide +kernel⟩

example : fitBest (fun ids => decide ids.Nodup && ids != List.range 5) [0, 2, 4] (fun _ l => l) 5 = some [0, 3, 1, 2, 4] := by
  decide +kernel

/-- C17: fewer than three points are rejected. -/
theorem recover_few_points (env : Env) (ext : List Pt) (old : Polygon) (h : ext.length < 3) :
    recoverFrom env ext old = none := by
  unfold recoverFrom; rw [if_pos h]

end Imgaug.Props
