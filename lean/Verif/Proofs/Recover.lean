import Verif.Model.Recover
import Mathlib.Data.List.InsertIdx
/-! Helper lemmas for Props/Recover.lean. -/
namespace Imgaug.Props
open Imgaug Imgaug.Recover

/-- What every state of the fit loop satisfies: `kept` was grown from `hull` by `changes` insertions. -/
structure FitInv (valid : List Nat → Bool) (hull : List Nat) (n : Nat) (kept : List Nat) (changes : Nat) : Prop where
  sub : hull.Sublist kept
  lt : ∀ i ∈ kept, i < n
  len : kept.length = hull.length + changes
  ok : kept = hull ∨ valid kept = true

theorem fitInv_insert {valid : List Nat → Bool} {hull kept : List Nat} {n c pos l : Nat}
    (h : FitInv valid hull n kept c) (hp : pos < kept.length) (hl : l < n)
    (hv : valid (kept.insertIdx (pos + 1) l) = true) :
    FitInv valid hull n (kept.insertIdx (pos + 1) l) (c + 1) where
  sub := h.sub.trans (List.sublist_insertIdx _ _ _)
  lt := by
    intro i hi
    rcases List.eq_or_mem_of_mem_insertIdx hi with rfl | hi
    · exact hl
    · exact h.lt i hi
  len := by rw [List.length_insertIdx, if_pos (by omega), h.len]; omega
  ok := Or.inr hv

theorem fit_candidates_spec (valid : List Nat → Bool) (hull : List Nat) (n mx : Nat) (cands : List Cand) (s : FitSt)
    (hc : ∀ c ∈ cands, c.1 < n ∧ c.2 ∈ s.kept) (hinv : FitInv valid hull n s.kept s.changes) (hs : s.changes < mx)
    (hl : ∀ i ∈ s.left, i < n) :
    (∃ r, fitCandidates valid mx cands s = some (.inl r) ∧ FitInv valid hull n r mx) ∨
    (∃ t, fitCandidates valid mx cands s = some (.inr t) ∧ FitInv valid hull n t.kept t.changes ∧ t.changes < mx ∧
      (∀ i ∈ t.left, i < n)) := by
  induction cands generalizing s with
  | nil => exact Or.inr ⟨s, rfl, hinv, hs, hl⟩
  | cons c rest ih =>
    obtain ⟨l, k⟩ := c
    have hrest : ∀ c ∈ rest, c.1 < n ∧ c.2 ∈ s.kept := fun c h => hc c (by simp [h])
    obtain ⟨hln, hk⟩ := hc (l, k) (by simp)
    unfold fitCandidates
    split
    · exact ih s hrest hinv hs hl
    · have hex : (s.kept.findIdx? (· == k)).isSome := by
        rw [List.findIdx?_isSome]; simp; exact hk
      obtain ⟨pos, hpos⟩ := Option.isSome_iff_exists.1 hex
      have hpl : pos < s.kept.length := (List.findIdx?_eq_some_iff_getElem.1 hpos).1
      rw [hpos]
      simp only
      split
      · rename_i hv
        have hi := fitInv_insert hinv hpl hln hv
        split
        · left
          refine ⟨_, rfl, ?_⟩
          rwa [show s.changes + 1 = mx by omega] at hi
        · apply ih _ _ hi (by simp only; omega)
          · intro i hi; exact hl i (List.mem_filter.1 hi).1
          · intro c h
            exact ⟨(hrest c h).1, List.subset_insertIdx _ _ _ (hrest c h).2⟩
      · exact ih _ hrest hinv hs hl

theorem combos_mem {n d : Nat} {kept left : List Nat} {c : Cand} (h : c ∈ combos n d kept left) : c.1 ∈ left ∧ c.2 ∈ kept := by
  unfold combos at h
  have h := (List.mem_filter.1 h).1
  simp only [List.mem_flatMap, List.mem_map] at h
  obtain ⟨k, hk, l, hl, rfl⟩ := h
  exact ⟨hl, hk⟩

theorem fit_loop_spec (valid : List Nat → Bool) (order : Nat → List Cand → List Cand) (hull : List Nat) (n mx : Nat)
    (ho : ∀ it l, ∀ c ∈ order it l, c ∈ l) (fuel it : Nat) (kept left : List Nat) (ch : Nat)
    (hinv : FitInv valid hull n kept ch) (hs : ch < mx) (hl : ∀ i ∈ left, i < n) :
    ∃ r c, fitLoop valid order n mx fuel it kept left ch = some r ∧ FitInv valid hull n r c ∧ c ≤ mx := by
  induction fuel generalizing it kept left ch with
  | zero => exact ⟨kept, ch, rfl, hinv, hs.le⟩
  | succ fuel ih =>
    unfold fitLoop
    simp only
    have := fit_candidates_spec valid hull n mx (order it (combos n (if it > 0 then 1 else 2) kept left))
      ⟨kept, left, ch, false, []⟩ (fun c hc => ⟨hl _ (combos_mem (ho _ _ c hc)).1, (combos_mem (ho _ _ c hc)).2⟩) hinv hs hl
    rcases this with ⟨r, hr, hi⟩ | ⟨t, ht, hi, hlt, hlf⟩
    · rw [hr]; exact ⟨r, mx, rfl, hi, le_refl _⟩
    · rw [ht]
      simp only
      split
      · exact ⟨t.kept, t.changes, rfl, hi, hlt.le⟩
      · exact ih _ _ _ _ hi hlt hlf

theorem dedup_sublist (same : Pt → Pt → Bool) (r l : List Pt) : (dedupLoop same r l).Sublist (r ++ l) ∧
    r.Sublist (dedupLoop same r l) := by
  induction l generalizing r with
  | nil => simp [dedupLoop]
  | cons p ps ih =>
    unfold dedupLoop
    split
    · split
      · exact ⟨(ih r).1.trans (by simp), (ih r).2⟩
      · exact ⟨by simpa using (ih (r ++ [p])).1, (List.sublist_append_left _ _).trans (ih (r ++ [p])).2⟩
    · exact ⟨by simpa using (ih (r ++ [p])).1, (List.sublist_append_left _ _).trans (ih (r ++ [p])).2⟩

theorem dedup_chain (same : Pt → Pt → Bool) (r l : List Pt) (hr : List.IsChain (fun p q => same q p = false) r) :
    List.IsChain (fun p q => same q p = false) (dedupLoop same r l) := by
  induction l generalizing r with
  | nil => simpa [dedupLoop]
  | cons p ps ih =>
    unfold dedupLoop
    split
    · rename_i q hq
      split
      · exact ih r hr
      · rename_i hs
        apply ih
        rw [List.isChain_append]
        refine ⟨hr, by simp, ?_⟩
        intro x hx y hy
        rw [hq] at hx
        cases hx; simp at hy; subst hy; simpa using hs
    · rename_i hq
      apply ih
      rw [List.getLast?_eq_none_iff] at hq
      subst hq; simp

theorem pick_isSome (points : List Pt) (ids : List Nat) (h : ∀ i ∈ ids, i < points.length) :
    ∃ ps, pick points ids = some ps := by
  unfold pick
  induction ids with
  | nil => exact ⟨[], rfl⟩
  | cons i ids ih =>
    obtain ⟨ps, hps⟩ := ih (fun j hj => h j (by simp [hj]))
    refine ⟨points[i]'(h i (by simp)) :: ps, ?_⟩
    rw [List.mapM_cons, hps, List.getElem?_eq_getElem (h i (by simp))]
    rfl

theorem init_exterior_label (ext : List Pt) (l : Option String) :
    Polygon.init ext l = ⟨(Polygon.init ext).exterior, l⟩ := by
  unfold Polygon.init; split <;> [split; skip] <;> rfl

end Imgaug.Props
