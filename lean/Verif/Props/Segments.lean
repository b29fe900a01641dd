import Verif.Proofs.Segments
/-! C84: replacing segments by their average colours. -/
namespace Imgaug.Segments.Props
open Imgaug Imgaug.Segments

/-- A row of four pixels. -/
def demo : Im := ⟨1, 4, some 1, .byte, [[10], [20], [31], [40]]⟩
/-- The same as int16. -/
def demo16 : Im := { demo with dt := .int }

/-- C84: with numba, for 8 bit integers, the flag with the index `id mod len(flags)` decides about a segment. Chosen segments get in every
channel the mean of their pixels without its fractional digits, all other pixels are unchanged. -/
theorem flags_by_id (a : Im) (segs : List Nat) (flags : List Bool) (hb : a.dt = .byte) (hl : segs.length = a.px.length) (hfull : a.Full) :
    ∃ b, replaceSegments true a segs (some flags) = some b ∧ Replaced (fun s => flags.getD (s % flags.length) false) segs a b := by
  obtain ⟨h1, h2⟩ := numba_spec a.dt a.n a.px segs flags hl
  refine ⟨{ a with px := replaceNumba a.dt a.n a.px segs (some flags) (1 + maxId segs) }, ?_, rfl, h1, h2⟩
  unfold replaceSegments
  rw [if_neg (full_not a hfull), if_neg (by simp [hb])]

example : demo.Full := ⟨by decide, by decide, by decide⟩
example : replaceSegments true demo [0, 0, 2, 2] (some [true, false, true]) = some { demo with px := [[15], [15], [35], [35]] } := by
  decide +kernel

/-- C84: without numba, or for other dtypes, the position of a segment's id among the ids of the map decides instead of the id itself. -/
theorem flags_by_rank (numba : Bool) (a : Im) (segs : List Nat) (flags : List Bool) (hb : a.dt ≠ .byte ∨ numba = false)
    (hl : segs.length = a.px.length) (hf : flags ≠ []) (hfull : a.Full) :
    ∃ b, replaceSegments numba a segs (some flags) = some b ∧ Replaced (fun s => flags.getD (rank segs s % flags.length) false) segs a b := by
  obtain ⟨out, h0, h1, h2⟩ := np_spec a.dt a.n a.px segs flags hf hl
  refine ⟨{ a with px := out }, ?_, rfl, h1, h2⟩
  unfold replaceSegments
  rw [if_neg (full_not a hfull), if_pos hb, h0]
  rfl

example : replaceSegments false demo [0, 0, 2, 2] (some [true, false, true]) = some { demo with px := [[15], [15], [31], [40]] } := by decide +kernel

/-- C84: without flags every segment is replaced, for all dtypes and with both implementations. -/
theorem all_replaced (numba : Bool) (a : Im) (segs : List Nat) (hl : segs.length = a.px.length) (hg : a.Good) (hfull : a.Full) :
    ∃ b, replaceSegments numba a segs none = some b ∧ Replaced (fun _ => true) segs a b := by
  have hpos : 0 < segs.length := by rw [hl, hg.1]; exact Nat.mul_pos hfull.1 hfull.2.1
  by_cases hb : a.dt ≠ .byte ∨ numba = false
  · have hu : List.replicate (unique segs).length true ≠ [] := by
      rw [Ne, List.replicate_eq_nil_iff]
      have := rank_lt segs segs[0] (List.getElem_mem hpos)
      omega
    obtain ⟨out, h0, h1, h2⟩ := np_spec a.dt a.n a.px segs _ hu hl
    refine ⟨{ a with px := out }, ?_, rfl, h1, ?_⟩
    · unfold replaceSegments
      rw [if_neg (full_not a hfull), if_pos hb, np_none, h0]
      rfl
    · intro i p s hp hs
      have hr := rank_lt segs s (List.mem_of_getElem? hs)
      show out[i]? = _
      rw [h2 i p s hp hs, List.length_replicate, Nat.mod_eq_of_lt hr]
      simp [List.getElem?_replicate, hr]
  · obtain ⟨h1, h2⟩ := numba_spec a.dt a.n a.px segs (List.replicate (1 + maxId segs) true) hl
    refine ⟨{ a with px := replaceNumba a.dt a.n a.px segs (some (List.replicate (1 + maxId segs) true)) (1 + maxId segs) }, ?_, rfl, h1, ?_⟩
    · unfold replaceSegments
      rw [if_neg (full_not a hfull), if_neg hb, numba_none _ _ _ _ _ (by omega)]
    intro i p s hp hs
    show (replaceNumba a.dt a.n a.px segs (some (List.replicate (1 + maxId segs) true)) (1 + maxId segs))[i]? = _
    have hr : s < 1 + maxId segs := by have := le_maxId segs s (List.mem_of_getElem? hs); omega
    rw [h2 i p s hp hs, List.length_replicate, Nat.mod_eq_of_lt hr]
    simp [List.getElem?_replicate, hr]

example : replaceSegments false demo16 [7, 7, 2, 2] none = some { demo16 with px := [[15], [15], [35], [35]] } := by decide +kernel

/-- C84 (partial): the flag with index `i` decides about the segment with id `i`, as documented, if the ids are `0 … m-1`, none of them is
missing, and there are at least `m` flags. -/
theorem flags_documented_partial (numba : Bool) (a : Im) (segs : List Nat) (flags : List Bool) (hl : segs.length = a.px.length) (hg : a.Good)
    (hfull : a.Full) (hc : Contiguous segs) (hm : ∀ s ∈ segs, s < flags.length) :
    ∃ b, replaceSegments numba a segs (some flags) = some b ∧ Replaced (fun s => flags.getD s false) segs a b := by
  have hpos : 0 < segs.length := by rw [hl, hg.1]; exact Nat.mul_pos hfull.1 hfull.2.1
  have hf : flags ≠ [] := by
    have := hm segs[0] (List.getElem_mem hpos)
    intro h; rw [h] at this; simp at this
  by_cases hb : a.dt ≠ .byte ∨ numba = false
  · obtain ⟨b, h1, h2, h3, h4⟩ := flags_by_rank numba a segs flags hb hl hf hfull
    refine ⟨b, h1, h2, h3, fun i p s hp hs => ?_⟩
    have hs' := List.mem_of_getElem? hs
    rw [h4 i p s hp hs]
    simp only [rank_contiguous segs hc s hs', Nat.mod_eq_of_lt (hm s hs')]
  · rw [not_or, not_not, Bool.not_eq_false] at hb
    rw [hb.2]
    obtain ⟨b, h1, h2, h3, h4⟩ := flags_by_id a segs flags hb.1 hl hfull
    refine ⟨b, h1, h2, h3, fun i p s hp hs => ?_⟩
    rw [h4 i p s hp hs]
    simp only [Nat.mod_eq_of_lt (hm s (List.mem_of_getElem? hs))]

example : demo.Good ∧ Contiguous [0, 0, 1, 1] ∧
    replaceSegments true demo [0, 0, 1, 1] (some [false, true]) = some { demo with px := [[10], [20], [35], [35]] } := by
  refine ⟨⟨rfl, by decide, by decide⟩, ?_, by decide +kernel⟩
  intro s t hs ht
  simp only [List.mem_cons, List.not_mem_nil, or_false] at hs ⊢
  omega

/-- C84 is false if an id is missing: without numba, or for images of another dtype, the segment with id 2 is kept although its flag is set. -/
theorem flags_shifted :
    ∃ (a : Im) (segs : List Nat) (flags : List Bool), a.Good ∧ a.Full ∧ segs.length = a.px.length ∧ (∀ s ∈ segs, s < flags.length) ∧
      ∀ b, replaceSegments false a segs (some flags) = some b → ¬ Replaced (fun s => flags.getD s false) segs a b := by
  refine ⟨demo, [0, 0, 2, 2], [true, false, true], ⟨rfl, by decide, by decide⟩, ⟨by decide, by decide, by decide⟩, rfl, by decide, ?_⟩
  intro b hb h
  have h0 : replaceSegments false demo [0, 0, 2, 2] (some [true, false, true]) = some { demo with px := [[15], [15], [31], [40]] } := by decide +kernel
  rw [h0] at hb
  cases hb
  have := h.2.2 2 [31] 2 rfl rfl
  revert this
  decide +kernel

/-- C84: with contiguous ids both implementations do the same. -/
theorem backends_agree (a : Im) (segs : List Nat) (flags : List Bool) (hf : flags ≠ []) (hl : segs.length = a.px.length)
    (hc : Contiguous segs) : replaceSegments true a segs (some flags) = replaceSegments false a segs (some flags) := by
  by_cases hfull : a.h = 0 ∨ a.w = 0 ∨ a.c = some 0
  · unfold replaceSegments
    rw [if_pos hfull, if_pos hfull]
  by_cases hb : a.dt = .byte
  · have hF : a.Full := by
      refine ⟨by omega, by omega, fun h => hfull (Or.inr (Or.inr h))⟩
    obtain ⟨b, h1, h2⟩ := flags_by_id a segs flags hb hl hF
    obtain ⟨b', h1', h2'⟩ := flags_by_rank false a segs flags (Or.inr rfl) hl hf hF
    rw [h1, h1']
    congr 1
    refine replaced_unique _ segs a b b' hl h2 ⟨h2'.1, h2'.2.1, fun i p s hp hs => ?_⟩
    rw [h2'.2.2 i p s hp hs]
    simp only [rank_contiguous segs hc s (List.mem_of_getElem? hs)]
  · unfold replaceSegments
    rw [if_neg hfull, if_neg hfull, if_pos (Or.inl hb), if_pos (Or.inl hb)]

example : replaceSegments true demo [1, 0, 1, 0] (some [true]) = replaceSegments false demo [1, 0, 1, 0] (some [true]) := by decide +kernel

/-- C84 is false for an empty array of flags: numba changes nothing, numpy divides by zero. -/
theorem no_flags : ∃ (a : Im) (segs : List Nat), a.Good ∧ segs.length = a.px.length ∧
    replaceSegments true a segs (some []) = some a ∧ replaceSegments false a segs (some []) = none :=
  ⟨demo, [0, 0, 1, 1], ⟨rfl, by decide, by decide⟩, rfl, by decide +kernel, by decide +kernel⟩

/-- C84: images without pixels or channels are returned as they are. -/
theorem nothing_to_replace (numba : Bool) (a : Im) (segs : List Nat) (flags : Option (List Bool)) (h : ¬ a.Full) :
    replaceSegments numba a segs flags = some a := by
  unfold replaceSegments
  rw [if_pos]
  by_contra hc
  simp only [not_or] at hc
  exact h ⟨by omega, by omega, hc.2.2⟩

example : ¬ (⟨0, 4, some 3, .byte, []⟩ : Im).Full := by simp [Im.Full]

/-- C84: in every channel the new value of a pixel is between two values of pixels of the same segment. -/
theorem within (numba : Bool) (a b : Im) (segs : List Nat) (flags : Option (List Bool)) (hl : segs.length = a.px.length) (hg : a.Good)
    (h : replaceSegments numba a segs flags = some b) (i c : Nat) (q : Px) (s : Nat) (hc : c < a.n) (hq : b.px[i]? = some q)
    (hs : segs[i]? = some s) :
    (∃ (j : Nat) (p : Px), a.px[j]? = some p ∧ segs[j]? = some s ∧ p.getD c 0 ≤ q.getD c 0) ∧
    ∃ (j : Nat) (p : Px), a.px[j]? = some p ∧ segs[j]? = some s ∧ q.getD c 0 ≤ p.getD c 0 := by
  obtain ⟨chosen, h1, h2, h3⟩ := some_replaced numba a b segs flags hl h
  have hi' : i < a.px.length := by rw [← h2]; by_contra hcon; rw [List.getElem?_eq_none (by omega)] at hq; cases hq
  have hp := List.getElem?_eq_getElem hi'
  have he := h3 i _ s hp hs
  rw [hq] at he
  by_cases hch : chosen s = true
  · rw [if_pos hch] at he
    have hne : cell a.px segs s c ≠ [] := List.ne_nil_of_mem ((mem_cell a.px segs s c _).2 ⟨i, _, hp, hs, rfl⟩)
    cases he
    rw [color_get _ _ _ _ _ _ hc]
    by_cases hbool : a.dt = .bool
    · rw [if_pos hbool]
      have hval : ∀ v ∈ cell a.px segs s c, v = 0 ∨ v = 1 := by
        intro v hv
        obtain ⟨j, p, hpj, _, rfl⟩ := (mem_cell a.px segs s c v).1 hv
        rw [List.getD_eq_getElem?_getD]
        cases hpc : p[c]? with
        | none => left; rfl
        | some v => exact hg.2.2 hbool p (List.mem_of_getElem? hpj) v (List.mem_of_getElem? hpc)
      have hex : ∀ v ∈ cell a.px segs s c, ∃ (j : Nat) (p : Px), a.px[j]? = some p ∧ segs[j]? = some s ∧ p.getD c 0 = v :=
        fun v hv => (mem_cell a.px segs s c v).1 hv
      obtain ⟨v0, hv0⟩ := List.exists_mem_of_ne_nil _ hne
      obtain ⟨j0, p0, hj1, hj2, hj3⟩ := hex v0 hv0
      by_cases hz : mean (cell a.px segs s c) = 0
      · rw [if_pos hz]
        have hz' : pyInt (mean (cell a.px segs s c)) = 0 := by rw [hz]; rfl
        obtain ⟨v, hv, hle⟩ := exists_le _ hne
        obtain ⟨j, p, h4, h5, h6⟩ := hex v hv
        rcases hval v0 hv0 with h7 | h7 <;>
        exact ⟨⟨j, p, h4, h5, by omega⟩, ⟨j0, p0, hj1, hj2, by omega⟩⟩
      · rw [if_neg hz]
        have : ∃ v ∈ cell a.px segs s c, v ≠ 0 := by
          by_contra hcon
          push Not at hcon
          exact hz (by have := mean_const _ hne 0 hcon; simpa using this)
        obtain ⟨v, hv, hv'⟩ := this
        obtain ⟨j, p, h4, h5, h6⟩ := hex v hv
        rcases hval v hv with h7 | h7
        · exact absurd h7 hv'
        · exact ⟨⟨j, p, h4, h5, by omega⟩, ⟨j, p, h4, h5, by omega⟩⟩
    · rw [if_neg hbool]
      obtain ⟨v, hv, hle⟩ := exists_le _ hne
      obtain ⟨v', hv', hge⟩ := exists_ge _ hne
      obtain ⟨j, p, h4, h5, h6⟩ := (mem_cell a.px segs s c v).1 hv
      obtain ⟨j', p', h4', h5', h6'⟩ := (mem_cell a.px segs s c v').1 hv'
      exact ⟨⟨j, p, h4, h5, by omega⟩, ⟨j', p', h4', h5', by omega⟩⟩
  · rw [if_neg hch] at he
    cases he
    exact ⟨⟨i, _, hp, hs, le_refl _⟩, ⟨i, _, hp, hs, le_refl _⟩⟩

example : (∃ b, replaceSegments true demo [0, 0, 1, 1] none = some b ∧ b.px[2]? = some [35]) := ⟨{ demo with px := [[15], [15], [35], [35]] }, by decide +kernel, rfl⟩

/-- C84: replacing the same segments again changes nothing. -/
theorem idempotent (numba : Bool) (a b b' : Im) (segs : List Nat) (flags : Option (List Bool)) (hl : segs.length = a.px.length) (hg : a.Good)
    (h : replaceSegments numba a segs flags = some b) (h' : replaceSegments numba b segs flags = some b') : b' = b := by
  by_cases hfull : a.Full
  swap
  · rw [nothing_to_replace numba a segs flags hfull] at h
    cases h
    rw [nothing_to_replace numba a segs flags hfull] at h'
    cases h'; rfl
  have hpos : 0 < segs.length := by rw [hl, hg.1]; exact Nat.mul_pos hfull.1 hfull.2.1
  -- one and the same choice for both images
  have key : ∃ chosen : Nat → Bool, ∀ x y : Im, x.dt = a.dt → x.px.length = a.px.length → x.Full → replaceSegments numba x segs flags = some y →
      Replaced chosen segs x y := by
    by_cases hb : a.dt ≠ .byte ∨ numba = false
    · have main : ∀ fl, fl ≠ [] → ∃ chosen : Nat → Bool, ∀ x y : Im, x.dt = a.dt → x.px.length = a.px.length → x.Full →
          replaceSegments numba x segs (some fl) = some y → Replaced chosen segs x y := by
        intro fl hfl
        refine ⟨fun s => fl.getD (rank segs s % fl.length) false, fun x y hd hlx hxF hxy => ?_⟩
        obtain ⟨y', h1, h2⟩ := flags_by_rank numba x segs fl (by rw [hd]; exact hb) (by omega) hfl hxF
        rw [h1] at hxy
        cases hxy
        exact h2
      cases flags with
      | some fl =>
        by_cases hfl : fl = []
        · subst hfl
          unfold replaceSegments at h
          rw [if_neg (full_not a hfull), if_pos hb] at h
          have hu : unique segs ≠ [] := List.ne_nil_of_mem ((mem_unique segs _).2 (List.getElem_mem hpos))
          cases hu' : unique segs with
          | nil => exact absurd hu' hu
          | cons x xs => simp [replaceNp, hu', npLoop] at h
        · exact main fl hfl
      | none =>
        obtain ⟨ch, hch⟩ := main (List.replicate (unique segs).length true) (by
          rw [Ne, List.replicate_eq_nil_iff]
          have := rank_lt segs segs[0] (List.getElem_mem hpos)
          omega)
        refine ⟨ch, fun x y hd hlx hxF hxy => hch x y hd hlx hxF ?_⟩
        rw [← hxy]
        unfold replaceSegments
        rw [hd, if_pos hb, if_pos hb, np_none]
    · rw [not_or, not_not, Bool.not_eq_false] at hb
      have main : ∀ fl, ∃ chosen : Nat → Bool, ∀ x y : Im, x.dt = a.dt → x.px.length = a.px.length → x.Full →
          replaceSegments numba x segs (some fl) = some y → Replaced chosen segs x y := by
        intro fl
        refine ⟨fun s => fl.getD (s % fl.length) false, fun x y hd hlx hxF hxy => ?_⟩
        obtain ⟨y', h1, h2⟩ := flags_by_id x segs fl (by rw [hd]; exact hb.1) (by omega) hxF
        rw [hb.2, h1] at hxy
        cases hxy
        exact h2
      cases flags with
      | some fl => exact main fl
      | none =>
        obtain ⟨ch, hch⟩ := main (List.replicate (1 + maxId segs) true)
        refine ⟨ch, fun x y hd hlx hxF hxy => hch x y hd hlx hxF ?_⟩
        rw [← hxy]
        unfold replaceSegments
        rw [numba_none _ _ _ _ _ (by omega)]
        rw [hd]
        have : ¬ (a.dt ≠ .byte ∨ numba = false) := by simp [hb.1, hb.2]
        rw [if_neg this, if_neg this]
  obtain ⟨chosen, hch⟩ := key
  have hab := hch a b rfl rfl hfull h
  have hs := hab.1
  simp only [Prod.mk.injEq] at hs
  have hbF : b.Full := ⟨by rw [hs.1]; exact hfull.1, by rw [hs.2.1]; exact hfull.2.1, by rw [hs.2.2.1]; exact hfull.2.2⟩
  have hbb := hch b b' hs.2.2.2 hab.2.1 hbF h'
  refine replaced_unique chosen segs b b' b (by rw [hab.2.1]; exact hl) hbb ⟨rfl, rfl, ?_⟩
  intro i q s hq hsi
  rw [hq]
  by_cases hc : chosen s = true
  · have hi' : i < a.px.length := by rw [← hab.2.1]; by_contra hcon; rw [List.getElem?_eq_none (by omega)] at hq; cases hq
    have hp := List.getElem?_eq_getElem hi'
    rw [if_pos hc, color_again chosen segs a b hg hab s hc ⟨i, _, hp, hsi⟩]
    have := hab.2.2 i _ s hp hsi
    rw [hq, if_pos hc] at this
    exact this
  · rw [if_neg hc]

example : ∃ b, replaceSegments true demo [0, 0, 2, 2] (some [true]) = some b ∧ b ≠ demo ∧ replaceSegments true b [0, 0, 2, 2] (some [true]) = some b :=
  ⟨{ demo with px := [[15], [15], [35], [35]] }, by decide +kernel, by decide, by decide +kernel⟩

/-- C84: averages are rounded down: for nonnegative values a replaced segment gets darker by less than one. -/
theorem darker (numba : Bool) (a b : Im) (segs : List Nat) (hl : segs.length = a.px.length) (hg : a.Good) (hfull : a.Full)
    (hd : a.dt ≠ .bool) (hn : ∀ p ∈ a.px, ∀ v ∈ p, 0 ≤ v)
    (h : replaceSegments numba a segs none = some b) (s c : Nat) (hs : s ∈ segs) (hc : c < a.n) :
    mean (cell b.px segs s c) ≤ mean (cell a.px segs s c) ∧ mean (cell a.px segs s c) < mean (cell b.px segs s c) + 1 := by
  obtain ⟨b', h1, h2, h3, h4⟩ := all_replaced numba a segs hl hg hfull
  rw [h] at h1
  cases h1
  obtain ⟨i, hi⟩ := List.getElem?_of_mem hs
  have hi' : i < a.px.length := by rw [← hl]; by_contra hcon; rw [List.getElem?_eq_none (by omega)] at hi; cases hi
  have hp := List.getElem?_eq_getElem hi'
  have hne : cell b.px segs s c ≠ [] := List.ne_nil_of_mem ((mem_cell b.px segs s c _).2 ⟨i, _, h4 i _ s hp hi, hi, rfl⟩)
  have hnea : cell a.px segs s c ≠ [] := List.ne_nil_of_mem ((mem_cell a.px segs s c _).2 ⟨i, _, hp, hi, rfl⟩)
  have hall : ∀ v ∈ cell b.px segs s c, v = pyInt (mean (cell a.px segs s c)) := by
    intro v hv
    obtain ⟨j, q, hq, hsj, rfl⟩ := (mem_cell b.px segs s c v).1 hv
    have hj : j < a.px.length := by
      rw [← h3]; by_contra hcon; rw [List.getElem?_eq_none (by omega)] at hq; cases hq
    have := h4 j _ s (List.getElem?_eq_getElem hj) hsj
    rw [hq, if_pos rfl] at this
    cases this
    rw [color_get _ _ _ _ _ _ hc, if_neg hd]
  rw [mean_const _ hne _ hall]
  have h0 : (0 : ℚ) ≤ mean (cell a.px segs s c) := by
    have := le_mean _ hnea 0 (fun v hv => by
      obtain ⟨j, p, hpj, _, rfl⟩ := (mem_cell a.px segs s c v).1 hv
      rw [List.getD_eq_getElem?_getD]
      cases hpc : p[c]? with
      | none => exact le_refl _
      | some v => exact hn p (List.mem_of_getElem? hpj) v (List.mem_of_getElem? hpc))
    simpa using this
  rw [Quantize.pyInt_floor h0]
  exact ⟨Int.floor_le _, Int.lt_floor_add_one _⟩

example : mean (cell demo.px [0, 0, 2, 2] 2 0) = 71 / 2 ∧ demo.dt ≠ .bool := by decide +kernel

/-- C84 is false for bool images if the average is understood as the value of most pixels: a single `True` makes its whole segment `True`. -/
theorem bool_any : ∃ (a b : Im) (segs : List Nat), a.Good ∧ a.Full ∧ a.dt = .bool ∧ segs.length = a.px.length ∧
    replaceSegments true a segs none = some b ∧ mean (cell a.px segs 0 0) = 1 / 4 ∧ b.px = [[1], [1], [1], [1]] :=
  ⟨⟨1, 4, some 1, .bool, [[0], [0], [1], [0]]⟩, ⟨1, 4, some 1, .bool, [[1], [1], [1], [1]]⟩, [0, 0, 0, 0],
    ⟨rfl, by decide, by decide⟩, ⟨by decide, by decide, by decide⟩, rfl, rfl, by decide +kernel, by decide +kernel, rfl⟩

/-- C84: Voronoi images. Every pixel belongs to a cell whose centre has the smallest distance to the centre of the pixel, and all of an image's
cells are replaced if there is no mask. -/
theorem voronoi_all (numba : Bool) (nearest : Nearest) (hN : IsNearest nearest) (a : Im) (hg : a.Good) (hfull : a.Full) (cells : List Pt)
    (hne : cells ≠ []) :
    ∃ b ids, segmentVoronoi numba nearest a cells none = some b ∧ Replaced (fun _ => true) ids a b ∧ ids.length = a.h * a.w ∧
      ∀ x y, x < a.w → y < a.h → ∃ s p, ids[y * a.w + x]? = some s ∧ cells[s]? = some p ∧
        ∀ q ∈ cells, dist2 ((x : ℚ) + 1 / 2, (y : ℚ) + 1 / 2) p ≤ dist2 ((x : ℚ) + 1 / 2, (y : ℚ) + 1 / 2) q := by
  have hl : ((centers a.h a.w).map (nearest cells)).length = a.h * a.w := by rw [List.length_map, centers_len]
  obtain ⟨b, h1, h2⟩ := all_replaced numba { a with c := some a.n } ((centers a.h a.w).map (nearest cells)) (by rw [hl]; exact hg.1.symm) hg
    ⟨hfull.1, hfull.2.1, by
      simp only [Im.n, Ne, Option.some.injEq]
      cases hc : a.c with
      | none => simp
      | some k => intro hk; exact hfull.2.2 (by rw [hc]; simpa using hk)⟩
  have hs := h2.1
  simp only [Prod.mk.injEq] at hs
  refine ⟨{ b with c := a.c }, _, ?_, ⟨?_, h2.2.1, h2.2.2⟩, hl, ?_⟩
  · unfold segmentVoronoi
    rw [if_neg (by simpa using hne), h1]
    rfl
  · simp only [hs.1, hs.2.1, hs.2.2.2]
  · intro x y hx hy
    obtain ⟨p, h3, h4⟩ := hN cells ((x : ℚ) + 1 / 2, (y : ℚ) + 1 / 2) hne
    refine ⟨_, p, ?_, h3, h4⟩
    rw [List.getElem?_map, centers_get a.h a.w x y hx hy]
    rfl

example : IsNearest search := search_nearest
example : segmentVoronoi true search demo [(0, 0), (4, 0)] none = some { demo with px := [[15], [15], [35], [35]] } := by decide +kernel

/-- C84 (partial): the mask's entry of a cell decides about its pixels, if the image is replaced with numba or every cell has a pixel. -/
theorem voronoi_mask_partial (numba : Bool) (nearest : Nearest) (hN : IsNearest nearest) (a : Im) (hg : a.Good) (hfull : a.Full)
    (cells : List Pt) (mask : List Bool) (hm : mask.length = cells.length) (hne : cells ≠ [])
    (hx : (numba = true ∧ a.dt = .byte) ∨ ∀ s, s < cells.length → ∃ c ∈ centers a.h a.w, nearest cells c = s) :
    ∃ b, segmentVoronoi numba nearest a cells (some mask) = some b ∧
      Replaced (fun s => mask.getD s false) ((centers a.h a.w).map (nearest cells)) a b := by
  have hl : ((centers a.h a.w).map (nearest cells)).length = a.h * a.w := by rw [List.length_map, centers_len]
  have hlt : ∀ s ∈ (centers a.h a.w).map (nearest cells), s < mask.length := by
    intro s hs
    obtain ⟨c, _, rfl⟩ := List.mem_map.1 hs
    obtain ⟨p, h3, _⟩ := hN cells c hne
    rw [hm]
    by_contra hcon
    rw [List.getElem?_eq_none (by omega)] at h3; cases h3
  have hF : ({ a with c := some a.n } : Im).Full := ⟨hfull.1, hfull.2.1, by
      simp only [Im.n, Ne, Option.some.injEq]
      cases hc : a.c with
      | none => simp
      | some k => intro hk; exact hfull.2.2 (by rw [hc]; simpa using hk)⟩
  have hG : ({ a with c := some a.n } : Im).Good := hg
  have main : ∃ b, replaceSegments numba { a with c := some a.n } ((centers a.h a.w).map (nearest cells)) (some mask) = some b ∧
      Replaced (fun s => mask.getD s false) ((centers a.h a.w).map (nearest cells)) { a with c := some a.n } b := by
    rcases hx with ⟨rfl, hb⟩ | hall
    · obtain ⟨b, h1, h2, h3, h4⟩ := flags_by_id { a with c := some a.n } ((centers a.h a.w).map (nearest cells)) mask hb (by rw [hl]; exact hg.1.symm) hF
      refine ⟨b, h1, h2, h3, fun i p s hp hs => ?_⟩
      rw [h4 i p s hp hs]
      simp only [Nat.mod_eq_of_lt (hlt s (List.mem_of_getElem? hs))]
    · refine flags_documented_partial numba _ _ mask (by rw [hl]; exact hg.1.symm) hG hF ?_ hlt
      intro s t hs hts
      have := hlt s hs
      obtain ⟨c, hc, hct⟩ := hall t (by omega)
      exact List.mem_map.2 ⟨c, hc, hct⟩
  obtain ⟨b, h1, h2⟩ := main
  have hs := h2.1
  simp only [Prod.mk.injEq] at hs
  refine ⟨{ b with c := a.c }, ?_, ?_, h2.2.1, h2.2.2⟩
  · unfold segmentVoronoi
    rw [if_neg (by simpa using hne), h1]
    rfl
  · simp only [hs.1, hs.2.1, hs.2.2.2]

example : segmentVoronoi false search demo [(0, 0), (4, 0)] (some [false, true]) = some { demo with px := [[10], [20], [35], [35]] } := by
  decide +kernel

/-- C84 is false without numba if a cell has no pixel: the entries of the mask are given to the wrong cells. The second of three cells has the
same centre as the first; the third cell is kept although it is to be replaced. -/
theorem voronoi_mask_shifted : segmentVoronoi false search demo [(0, 0), (0, 0), (4, 0)] (some [true, false, true]) =
      some { demo with px := [[15], [15], [31], [40]] } ∧
    segmentVoronoi true search demo [(0, 0), (0, 0), (4, 0)] (some [true, false, true]) =
      some { demo with px := [[15], [15], [35], [35]] } := by
  decide +kernel

/-- C84: without cells the image is unchanged. -/
theorem voronoi_no_cells (numba : Bool) (nearest : Nearest) (a : Im) (mask : Option (List Bool)) :
    segmentVoronoi numba nearest a [] mask = some a := rfl

/-- C84: `max_size`: the cells are computed on the image itself if neither side is longer than `max_size`; otherwise on a smaller image whose longer
side is `max_size` and whose shorter side is shortened by the same factor and rounded down. -/
theorem max_size (resize : Resizer) (hr : Resizes resize) (m : Nat) (a b : Im) (h : ensureMaxSize resize (some m) a = some b) :
    (a.h ≤ m ∧ a.w ≤ m → b = a) ∧
    (m < a.h ∨ m < a.w → b.h = a.h * m / max a.h a.w ∧ b.w = a.w * m / max a.h a.w ∧ max b.h b.w = m) := by
  unfold ensureMaxSize at h
  simp only at h
  have hfl : ∀ n M : Nat, pyInt ((n : ℚ) * ((m : ℚ) / (M : Nat))) = ((n * m / M : Nat) : Int) := by
    intro n M
    rw [Quantize.pyInt_floor (by positivity), ← mul_div_assoc]
    have := Rat.floor_natCast_div_natCast (n * m) M
    push_cast at this ⊢
    exact this
  constructor
  · rintro ⟨h1, h2⟩
    rw [if_neg (by omega)] at h
    cases h; rfl
  · intro hm
    rw [if_pos (by omega), hfl, hfl] at h
    obtain ⟨e1, e2, -⟩ := hr _ _ _ _ h
    have e1 : b.h = a.h * m / max a.h a.w := by exact_mod_cast e1
    have e2 : b.w = a.w * m / max a.h a.w := by exact_mod_cast e2
    refine ⟨e1, e2, ?_⟩
    have hp : 0 < max a.h a.w := by omega
    rcases Nat.le_total a.h a.w with hle | hle
    · rw [Nat.max_eq_right hle] at e1 e2 hp
      rw [Nat.mul_div_cancel_left _ hp] at e2
      have : a.h * m / a.w ≤ m := Nat.div_le_of_le_mul (Nat.mul_le_mul_right m hle)
      omega
    · rw [Nat.max_eq_left hle] at e1 e2 hp
      rw [Nat.mul_div_cancel_left _ hp] at e1
      have : a.w * m / a.h ≤ m := Nat.div_le_of_le_mul (Nat.mul_le_mul_right m hle)
      omega

/-- C84: `Voronoi` keeps the size, the number of channels and the dtype of images, and rejects images that are not uint8. -/
theorem voronoi_shape (numba : Bool) (nearest : Nearest) (resize : Resizer) (hr : Resizes resize) (maxSize : Option Nat)
    (points : Im → Option (List Pt)) (pReplace : Nat → List ℚ) (orig out : Im)
    (h : voronoi numba nearest resize maxSize points pReplace orig = some out) :
    (out.h, out.w, out.c, out.dt) = (orig.h, orig.w, orig.c, orig.dt) ∧ orig.dt = .byte := by
  unfold voronoi at h
  split at h
  · cases h
  · next hd =>
    rw [not_not] at hd
    obtain ⟨a, h1, h⟩ := Option.bind_eq_some_iff.1 h
    obtain ⟨cells, _, h⟩ := Option.bind_eq_some_iff.1 h
    obtain ⟨b, h3, h⟩ := Option.bind_eq_some_iff.1 h
    have e1 := ensure_kept resize hr maxSize orig a h1
    have e2 := voronoi_kept numba nearest a b cells _ h3
    exact ⟨restore_kept resize hr orig b out h (by rw [e2.1, e1.1]) (by rw [e2.2, e1.2]), hd⟩

/-- Resizing by repeating the first pixel, as an example. -/
def flat : Resizer := fun a h w => if h < 0 ∨ w < 0 then none else some { a with h := h.toNat, w := w.toNat, px := List.replicate (h * w).toNat (a.px.getD 0 []) }

example : Resizes flat := by
  intro a h w b hb
  unfold flat at hb
  split at hb
  · cases hb
  · cases hb; exact ⟨by simp; omega, by simp; omega, rfl, rfl⟩
example : voronoi true search flat (some 2) (fun _ => some [(0, 0)]) (fun n => List.replicate n 1) { demo with h := 2, w := 2 } =
    some { demo with h := 2, w := 2, px := [[25], [25], [25], [25]] } := by decide +kernel

/-- C84 (partial): an image of at most the maximum size is divided into the cells of the sampled points, and those with a sample above 0.5 are
replaced. -/
theorem voronoi_image_partial (nearest : Nearest) (hN : IsNearest nearest) (resize : Resizer) (maxSize : Option Nat)
    (points : Im → Option (List Pt)) (pReplace : Nat → List ℚ) (hp : ∀ n, (pReplace n).length = n) (a : Im) (hg : a.Good) (hfull : a.Full)
    (hd : a.dt = .byte) (hm : ∀ m, maxSize = some m → max a.h a.w ≤ m) (cells : List Pt) (hc : points a = some cells) (hne : cells ≠ []) :
    ∃ b, voronoi true nearest resize maxSize points pReplace a = some b ∧
      Replaced (fun s => decide ((pReplace cells.length).getD s 0 > 1 / 2)) ((centers a.h a.w).map (nearest cells)) a b := by
  obtain ⟨b, h1, h2⟩ := voronoi_mask_partial true nearest hN a hg hfull cells
    ((pReplace cells.length).map (fun p => decide (p > 1 / 2))) (by rw [List.length_map, hp]) hne (Or.inl ⟨rfl, hd⟩)
  refine ⟨b, ?_, h2.1, h2.2.1, fun i p s hpi hs => ?_⟩
  · unfold voronoi
    rw [if_neg (by simp [hd]), ensure_small resize maxSize a hm]
    simp only [Option.bind_some, hc, h1]
    unfold restore
    have := h2.1
    simp only [Prod.mk.injEq] at this
    rw [if_neg (by simp [this.1, this.2.1, this.2.2.1])]
  · rw [h2.2.2 i p s hpi hs]
    have : ((pReplace cells.length).map (fun p => decide (p > 1 / 2))).getD s false = decide ((pReplace cells.length).getD s 0 > 1 / 2) := by
      rw [List.getD_eq_getElem?_getD, List.getElem?_map, List.getD_eq_getElem?_getD]
      cases (pReplace cells.length)[s]? with
      | none => simp
      | some v => simp
    simp only [this]

/-- C84: `Superpixels` keeps the size, the number of channels and the dtype of images. -/
theorem superpixels_shape (numba : Bool) (slic : Slic) (resize : Resizer) (hr : Resizes resize) (maxSize : Option Nat) (nSegments : Int)
    (pReplace : Int → List ℚ) (orig out : Im) (h : superpixels numba slic resize maxSize nSegments pReplace orig = some out) :
    (out.h, out.w, out.c, out.dt) = (orig.h, orig.w, orig.c, orig.dt) := by
  unfold superpixels at h
  split at h
  · cases h; rfl
  · simp only at h
    split at h
    · cases h; rfl
    · obtain ⟨a, h1, h⟩ := Option.bind_eq_some_iff.1 h
      obtain ⟨b, h3, h⟩ := Option.bind_eq_some_iff.1 h
      have e1 := ensure_kept resize hr maxSize orig a h1
      have e2 := segments_kept numba a b _ _ h3
      exact restore_kept resize hr orig b out h (by rw [e2.1, e1.1]) (by rw [e2.2, e1.2])

/-- C84: `Superpixels` changes nothing if no segment can be replaced or the image is empty. -/
theorem superpixels_none (numba : Bool) (slic : Slic) (resize : Resizer) (maxSize : Option Nat) (nSegments : Int)
    (pReplace : Int → List ℚ) (orig : Im) (h : ¬ orig.Full ∨ ∀ p ∈ pReplace (max nSegments 1), p = 0) :
    superpixels numba slic resize maxSize nSegments pReplace orig = some orig := by
  unfold superpixels
  simp only
  split
  · rfl
  · next hc =>
    rw [if_pos]
    rcases h with h | h
    · exfalso
      simp only [not_or] at hc
      exact h ⟨by omega, by omega, hc.2.2⟩
    · exact max_zero _ h

/-- C84 (partial): an image of at most the maximum size is divided into the segments that SLIC finds, and those whose sample is above 0.5 are
replaced. If SLIC finds more segments than demanded, the samples are used again from the first one on. The ids of SLIC are assumed to be
contiguous. -/
theorem superpixels_image_partial (numba : Bool) (slic : Slic) (resize : Resizer) (maxSize : Option Nat) (nSegments : Int)
    (pReplace : Int → List ℚ) (a : Im) (hg : a.Good) (hfull : a.Full) (hm : ∀ m, maxSize = some m → max a.h a.w ≤ m)
    (hp : (pReplace (max nSegments 1)).length = (max nSegments 1).toNat) (hsl : (slic a (max nSegments 1)).length = a.px.length)
    (hc : Contiguous (slic a (max nSegments 1))) (hx : maxSample (pReplace (max nSegments 1)) ≠ 0) :
    ∃ b, superpixels numba slic resize maxSize nSegments pReplace a = some b ∧
      Replaced (fun s => decide ((pReplace (max nSegments 1)).getD (s % (max nSegments 1).toNat) 0 > 1 / 2)) (slic a (max nSegments 1)) a b := by
  generalize hn : max nSegments 1 = n at *
  have hpos : 0 < n := by omega
  have hf : (pReplace n).map (fun p => decide (p > 1 / 2)) ≠ [] := by
    rw [Ne, List.map_eq_nil_iff]; intro h; rw [h] at hp; simp at hp; omega
  have hflag : ∀ s, ((pReplace n).map (fun p => decide (p > 1 / 2))).getD (s % n.toNat) false = decide ((pReplace n).getD (s % n.toNat) 0 > 1 / 2) := by
    intro s
    rw [List.getD_eq_getElem?_getD, List.getElem?_map, List.getD_eq_getElem?_getD]
    cases (pReplace n)[s % n.toNat]? with
    | none => simp
    | some v => simp
  have main : ∃ b, replaceSegments numba a (slic a n) (some ((pReplace n).map (fun p => decide (p > 1 / 2)))) = some b ∧
      Replaced (fun s => decide ((pReplace n).getD (s % n.toNat) 0 > 1 / 2)) (slic a n) a b := by
    by_cases hb : a.dt ≠ .byte ∨ numba = false
    · obtain ⟨b, h1, h2, h3, h4⟩ := flags_by_rank numba a (slic a n) _ hb hsl hf hfull
      refine ⟨b, h1, h2, h3, fun i p s hpi hs => ?_⟩
      rw [h4 i p s hpi hs]
      simp only [rank_contiguous _ hc s (List.mem_of_getElem? hs), List.length_map, hp, hflag]
    · rw [not_or, not_not, Bool.not_eq_false] at hb
      rw [hb.2]
      obtain ⟨b, h1, h2, h3, h4⟩ := flags_by_id a (slic a n) ((pReplace n).map (fun p => decide (p > 1 / 2))) hb.1 hsl hfull
      refine ⟨b, h1, h2, h3, fun i p s hpi hs => ?_⟩
      rw [h4 i p s hpi hs]
      simp only [List.length_map, hp, hflag]
  obtain ⟨b, h1, h2⟩ := main
  refine ⟨b, ?_, h2⟩
  unfold superpixels
  simp only [hn]
  rw [if_neg (full_not a hfull), if_neg hx, ensure_small resize maxSize a hm]
  simp only [Option.bind_some, h1]
  unfold restore
  have := h2.1
  simp only [Prod.mk.injEq] at this
  rw [if_neg (by simp [this.1, this.2.1, this.2.2.1])]

/-- Two segments, as an example. -/
def halves : Slic := fun a _ => List.replicate (a.px.length / 2) 0 ++ List.replicate (a.px.length - a.px.length / 2) 1

example : superpixels true halves flat (some 128) 2 (fun _ => [1, 1 / 4]) demo = some { demo with px := [[15], [15], [31], [40]] } := by decide +kernel
example : superpixels false halves flat (some 128) (-3) (fun _ => [1]) demo16 = some { demo16 with px := [[15], [15], [35], [35]] } := by decide +kernel

end Imgaug.Segments.Props
