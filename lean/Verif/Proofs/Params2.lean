import Verif.Proofs.Params
/-! Helpers for Props/Params2.lean. -/
namespace Imgaug.Params
open Imgaug Imgaug.Dtypes
variable {σ : Type}

theorem drawItems_spec (E : Env σ) (counts : Nat → Nat) : ∀ (l : List (Item σ)) (d : Nat → List ℚ) (s : σ) (d' : Nat → List ℚ) (s' : σ),
    drawItems E counts l d s = some (d', s') → ∀ k, (d' k = d k ∧ ∀ p, .par p ∈ l → p.key = k → counts k = 0) ∨
      ∃ p, .par p ∈ l ∧ p.key = k ∧ ∃ s0 r s1, p.draw [counts k] s0 = some (r, s1) ∧ d' k = r.vals := by
  intro l
  induction l with
  | nil =>
    intro d s d' s' h k
    simp only [drawItems, Option.some.injEq, Prod.mk.injEq] at h
    left; exact ⟨by rw [h.1], by simp⟩
  | cons it l ih =>
    intro d s d' s' h k
    cases it with
    | val kk v =>
      simp only [drawItems] at h
      split_ifs at h with hc
      rcases ih _ _ _ _ h k with ⟨h1, h2⟩ | ⟨p, hp, h2⟩
      · left
        refine ⟨h1, fun p hp hk => ?_⟩
        rcases List.mem_cons.mp hp with hp | hp
        · exact absurd hp (by simp)
        · exact h2 p hp hk
      · right; exact ⟨p, List.mem_cons_of_mem _ hp, h2⟩
    | par q =>
      simp only [drawItems] at h
      split_ifs at h with hc
      · rcases ih _ _ _ _ h k with ⟨h1, h2⟩ | ⟨p, hp, h2⟩
        · left
          refine ⟨h1, fun p hp hk => ?_⟩
          rcases List.mem_cons.mp hp with hp | hp
          · rw [Item.par.injEq] at hp; subst hp; rw [← hk]; exact hc
          · exact h2 p hp hk
        · right; exact ⟨p, List.mem_cons_of_mem _ hp, h2⟩
      · simp only [Option.bind_eq_some_iff] at h
        obtain ⟨⟨r, s1⟩, e, h⟩ := h
        obtain ⟨s2, e2, -⟩ := drawSamples_some e
        rcases ih _ _ _ _ h k with ⟨h1, h2⟩ | ⟨p, hp, h2⟩
        · simp only at h1
          by_cases hk : k = q.key
          · right
            rw [if_pos hk] at h1
            exact ⟨q, List.mem_cons_self, hk.symm, s, r, s2, by rw [hk]; exact e2, h1⟩
          · left
            rw [if_neg hk] at h1
            refine ⟨h1, fun p hp hpk => ?_⟩
            rcases List.mem_cons.mp hp with hp | hp
            · rw [Item.par.injEq] at hp; subst hp; exact absurd hpk.symm hk
            · exact h2 p hp hpk
        · right; exact ⟨p, List.mem_cons_of_mem _ hp, h2⟩

theorem readItems_spec (d : Nat → List ℚ) : ∀ (l seen : List (Item σ)) (r : List ℚ), readItems d seen l = some r → r.length = l.length ∧
    ∀ (i : Nat) (it : Item σ), l[i]? = some it → ∃ v, r[i]? = some v ∧ (match it with | .val _ w => v = w | .par p => v ∈ d p.key) := by
  intro l
  induction l with
  | nil => intro seen r h; simp only [readItems, Option.some.injEq] at h; subst h; simp
  | cons a l ih =>
    intro seen r h
    cases a with
    | val k v =>
      simp only [readItems, Option.map_eq_some_iff] at h
      obtain ⟨r', h1, rfl⟩ := h
      obtain ⟨i1, i2⟩ := ih _ _ h1
      refine ⟨by simp [i1], fun i it hi => ?_⟩
      cases i with
      | zero => simp only [List.getElem?_cons_zero, Option.some.injEq] at hi; subst hi; exact ⟨v, by simp, rfl⟩
      | succ i => exact i2 i it (by simpa using hi)
    | par p =>
      simp only [readItems, Option.bind_eq_some_iff, Option.map_eq_some_iff] at h
      obtain ⟨v, hv, r', h1, rfl⟩ := h
      obtain ⟨i1, i2⟩ := ih _ _ h1
      refine ⟨by simp [i1], fun i it hi => ?_⟩
      cases i with
      | zero => simp only [List.getElem?_cons_zero, Option.some.injEq] at hi; subst hi; exact ⟨v, by simp, List.mem_of_getElem? hv⟩
      | succ i => exact i2 i it (by simpa using hi)

theorem readItems_total (d : Nat → List ℚ) : ∀ (l seen : List (Item σ)),
    (∀ p : Param σ, .par p ∈ l → (seen ++ l).countP (Item.isPar p.key) ≤ (d p.key).length) → ∃ r, readItems d seen l = some r := by
  intro l
  induction l with
  | nil => intro seen _; exact ⟨[], rfl⟩
  | cons a l ih =>
    intro seen h
    cases a with
    | val k v =>
      obtain ⟨r, hr⟩ := ih (seen ++ [.val k v]) (fun p hp => by rw [List.append_assoc]; exact h p (List.mem_cons_of_mem _ hp))
      exact ⟨v :: r, by simp [readItems, hr]⟩
    | par p =>
      obtain ⟨r, hr⟩ := ih (seen ++ [.par p]) (fun q hq => by rw [List.append_assoc]; exact h q (List.mem_cons_of_mem _ hq))
      have hc := h p List.mem_cons_self
      rw [List.countP_append, List.countP_cons_of_pos (by simp [Item.isPar])] at hc
      have hlt : seen.countP (Item.isPar p.key) < (d p.key).length := by omega
      exact ⟨(d p.key)[seen.countP (Item.isPar p.key)] :: r, by simp [readItems, hr, List.getElem?_eq_getElem hlt]⟩

theorem drawItems_total (E : Env σ) (counts : Nat → Nat) : ∀ (l : List (Item σ)) (d : Nat → List ℚ) (s : σ),
    (∀ p : Param σ, .par p ∈ l → ∀ n s, ∃ r s', p.draw [n] s = some (r, s')) → (∀ k v, .val k v ∈ l → counts k = 0) →
    ∃ d' s', drawItems E counts l d s = some (d', s') := by
  intro l
  induction l with
  | nil => intro d s _ _; exact ⟨d, s, rfl⟩
  | cons a l ih =>
    intro d s hp hv
    have ih' := fun d s => ih d s (fun p h => hp p (List.mem_cons_of_mem _ h)) (fun k v h => hv k v (List.mem_cons_of_mem _ h))
    cases a with
    | val k v =>
      simp only [drawItems]
      rw [if_pos (show counts (Item.val k v : Item σ).key = 0 from hv k v List.mem_cons_self)]
      exact ih' d s
    | par p =>
      simp only [drawItems]
      split_ifs with hc
      · exact ih' d s
      · obtain ⟨r, s1, e⟩ := hp p List.mem_cons_self (counts p.key) s
        simp only [drawSamples, e, Option.map_some, Option.bind_some]
        exact ih' _ _

theorem count_par (l : List (Item σ)) (k : Nat) (h : l.countP (Item.isPar k) ≠ 0) : ∃ p : Param σ, .par p ∈ l ∧ p.key = k := by
  have : 0 < l.countP (Item.isPar k) := by omega
  rw [List.countP_pos_iff] at this
  obtain ⟨a, ha, hk⟩ := this
  cases a with
  | val k' v => simp [Item.isPar] at hk
  | par p => exact ⟨p, ha, by simpa [Item.isPar] using hk⟩

end Imgaug.Params
