import Verif.Spec.WrapPrefetch
/-! Helper lemmas for the wrapping of parameters. -/
namespace Imgaug.Wrap

mutual
theorem wrapRec_bare (en : Bool) : ∀ v, bare (wrapRec en v).1 = bare v
  | .const => by simp [wrapRec]
  | .auto p => by simp [wrapRec]
  | .seq l => by
    have := wrapAll_bare en l
    simp only [wrapRec]
    split <;> simp [bare, this]
  | .param rd pf attrs => by
    have := wrapAll_bare en attrs
    simp only [wrapRec]
    split <;> simp [bare, this]
theorem wrapAll_bare (en : Bool) : ∀ l, bareAll (wrapAll en l).1 = bareAll l
  | [] => by simp [wrapAll]
  | a :: t => by simp [wrapAll, bareAll, wrapRec_bare en a, wrapAll_bare en t]
end

mutual
theorem wrapRec_off : ∀ v, (wrapRec false v).1 = v
  | .const => by simp [wrapRec]
  | .auto p => by simp [wrapRec]
  | .seq l => by
    have := wrapAll_off l
    simp only [wrapRec]
    split <;> simp [this]
  | .param rd pf attrs => by
    have := wrapAll_off attrs
    simp [wrapRec, this]
theorem wrapAll_off : ∀ l, (wrapAll false l).1 = l
  | [] => by simp [wrapAll]
  | a :: t => by simp [wrapAll, wrapRec_off a, wrapAll_off t]
end

mutual
/-- The flag says whether there is a prefetcher in the new value. -/
theorem flag_iff (en : Bool) : ∀ v, (wrapRec en v).2 = true ↔ HasAuto (wrapRec en v).1
  | .const => by simp [wrapRec, HasAuto]
  | .auto p => by simp [wrapRec, HasAuto]
  | .seq l => by
    have ih := flagAll_iff en l
    simp only [wrapRec]
    split
    · rename_i h
      simp only [HasAuto, true_iff]
      exact ih.mp h
    · rename_i h
      simp only [HasAuto]
      have : ¬ HasAutoAny l := by
        rw [← flag_unchanged en l (by simpa using h)]
        exact fun hc => h (ih.mpr hc)
      simpa using this
  | .param rd pf attrs => by
    have ih := flagAll_iff en attrs
    simp only [wrapRec]
    split
    · simp [HasAuto]
    · simp only [HasAuto]
      exact ih
theorem flagAll_iff (en : Bool) : ∀ l, (wrapAll en l).2 = true ↔ HasAutoAny (wrapAll en l).1
  | [] => by simp [wrapAll, HasAutoAny]
  | a :: t => by
    simp only [wrapAll, HasAutoAny, Bool.or_eq_true, flag_iff en a, flagAll_iff en t]
/-- Nothing wrapped: nothing changed. -/
theorem flag_unchanged (en : Bool) : ∀ l, (wrapAll en l).2 = false → (wrapAll en l).1 = l
  | [], _ => by simp [wrapAll]
  | a :: t, h => by
    simp only [wrapAll, Bool.or_eq_false_iff] at h ⊢
    rw [flag_unchanged en t h.2, flag_unchanged1 en a h.1]
theorem flag_unchanged1 (en : Bool) : ∀ v, (wrapRec en v).2 = false → (wrapRec en v).1 = v
  | .const, _ => by simp [wrapRec]
  | .auto p, h => by simp [wrapRec] at h
  | .seq l, h => by
    simp only [wrapRec] at h ⊢
    split at h
    · simp at h
    · rename_i hh
      rw [if_neg hh]
  | .param rd pf attrs, h => by
    simp only [wrapRec] at h ⊢
    split at h
    · simp at h
    · rename_i hh
      rw [if_neg hh]
      simp only at h ⊢
      rw [flag_unchanged en attrs h]
end

mutual
theorem wrapRec_again (en : Bool) : ∀ v, wrapRec en (wrapRec true v).1 = wrapRec true v
  | .const => by simp [wrapRec]
  | .auto p => by simp [wrapRec]
  | .seq l => by
    have ih := wrapAll_again en l
    simp only [wrapRec]
    split
    · rename_i hh
      simp only [wrapRec, ih, if_pos hh]
    · rename_i hh
      have hh' : (wrapAll true l).2 = false := by simpa using hh
      rw [flag_unchanged true l hh'] at ih
      simp only [wrapRec, ih, if_neg hh]
  | .param rd pf attrs => by
    have ih := wrapAll_again en attrs
    simp only [wrapRec]
    split
    · simp [wrapRec]
    · rename_i hh
      simp only [wrapRec, ih]
      rw [if_neg]
      intro hcon
      simp only [Bool.and_eq_true, Bool.not_eq_true'] at hcon hh
      exact hh ⟨⟨hcon.1.1, hcon.1.2⟩, trivial⟩
theorem wrapAll_again (en : Bool) : ∀ l, wrapAll en (wrapAll true l).1 = wrapAll true l
  | [] => by simp [wrapAll]
  | a :: t => by simp only [wrapAll, wrapRec_again en a, wrapAll_again en t]
end

mutual
/-- If nothing was wrapped although prefetching is enabled, nothing was prefetchable. -/
theorem none_prefetchable : ∀ v, (wrapRec true v).2 = false → ¬ Has (fun _ pf => pf = true) v
  | .const, _ => by simp [Has]
  | .auto p, h => by simp [wrapRec] at h
  | .seq l, h => by
    simp only [wrapRec] at h
    split at h
    · simp at h
    · rename_i hh
      simp only [Has]
      exact none_prefetchable_all l (by simpa using hh)
  | .param rd pf attrs, h => by
    simp only [wrapRec] at h
    split at h
    · simp at h
    · rename_i hh
      simp only at h
      simp only [Has, not_or]
      refine ⟨?_, none_prefetchable_all attrs h⟩
      intro hp
      exact hh (by simp [hp, h])
theorem none_prefetchable_all : ∀ l, (wrapAll true l).2 = false → ¬ HasAny (fun _ pf => pf = true) l
  | [], _ => by simp [HasAny]
  | a :: t, h => by
    simp only [wrapAll, Bool.or_eq_false_iff] at h
    simp only [HasAny, not_or]
    exact ⟨none_prefetchable a h.1, none_prefetchable_all t h.2⟩
end

mutual
theorem inside_keep (Q : V → Prop) (en : Bool)
    (hQ : ∀ rd attrs, en = true → (wrapAll en attrs).2 = false → Q (.param rd true attrs)) :
    ∀ v, Inside Q v → Inside Q (wrapRec en v).1
  | .const, _ => by simp [wrapRec, Inside]
  | .auto p, h => by simpa [wrapRec] using h
  | .seq l, h => by
    simp only [wrapRec]
    split
    · simp only [Inside] at h ⊢
      exact inside_keep_all Q en hQ l h
    · exact h
  | .param rd pf attrs, h => by
    simp only [Inside] at h
    have ih := inside_keep_all Q en hQ attrs h
    simp only [wrapRec]
    split
    · rename_i hh
      simp only [Bool.and_eq_true, Bool.not_eq_true'] at hh
      obtain ⟨⟨h1, h2⟩, h3⟩ := hh
      simp only [Inside]
      refine ⟨?_, ih⟩
      rw [flag_unchanged en attrs h2, h1]
      exact hQ rd attrs h3 h2
    · simp only [Inside]
      exact ih
theorem inside_keep_all (Q : V → Prop) (en : Bool)
    (hQ : ∀ rd attrs, en = true → (wrapAll en attrs).2 = false → Q (.param rd true attrs)) :
    ∀ l, InsideAll Q l → InsideAll Q (wrapAll en l).1
  | [], _ => by simp [wrapAll, InsideAll]
  | a :: t, h => by
    simp only [InsideAll] at h
    simp only [wrapAll, InsideAll]
    exact ⟨inside_keep Q en hQ a h.1, inside_keep_all Q en hQ t h.2⟩
end

mutual
theorem covered_wrap : ∀ v, Covered (wrapRec true v).1
  | .const => by simp [wrapRec, Covered]
  | .auto p => by simp [wrapRec, Covered]
  | .seq l => by
    have ih := covered_wrapAll l
    simp only [wrapRec]
    split
    · exact ih
    · rename_i hh
      rw [flag_unchanged true l (by simpa using hh)] at ih
      exact ih
  | .param rd pf attrs => by
    have ih := covered_wrapAll attrs
    simp only [wrapRec]
    split
    · simp [Covered]
    · rename_i hh
      simp only [Covered]
      refine ⟨?_, ih⟩
      intro hp
      rw [← flagAll_iff]
      cases hf : (wrapAll true attrs).2 with
      | true => rfl
      | false => exact absurd (by simp [hp, hf]) hh
theorem covered_wrapAll : ∀ l, CoveredAll (wrapAll true l).1
  | [] => by simp [wrapAll, CoveredAll]
  | a :: t => by
    simp only [wrapAll, CoveredAll]
    exact ⟨covered_wrap a, covered_wrapAll t⟩
end

end Imgaug.Wrap
