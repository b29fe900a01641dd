import Verif.Spec.Batches
import Verif.Proofs.Augment
/-! Lemmas for Props/Batches.lean. -/
namespace Imgaug.Batches
open Imgaug Imgaug.Aug
variable {V N S δ G : Type}

theorem all_none (aug : ColName → Option V) : ColName.all.all (fun c => (aug c).isNone) = true ↔ ∀ c, aug c = none := by
  simp only [ColName.all, List.all_cons, List.all_nil, Bool.and_true, Bool.and_eq_true, Option.isNone_iff_eq_none]
  constructor
  · rintro ⟨h1, h2, h3, h4, h5, h6, h7⟩ c
    cases c <;> assumption
  · intro h
    exact ⟨h _, h _, h _, h _, h _, h _, h _⟩

theorem toNormalized_iff (C : Codec V N S) (b : ColName → Option V) (cols : ColName → Option N) :
    toNormalized C b = some cols ↔ C.norm .images (b .images) none = some (cols .images) ∧
      ∀ c, c ≠ .images → C.norm c (b c) ((cols .images).map C.shapes) = some (cols c) := by
  unfold toNormalized
  constructor
  · intro h
    obtain ⟨im, him, h⟩ := Option.bind_eq_some_iff.mp h
    rw [traverse_iff] at h
    have h0 : im = cols .images := by simpa using h .images
    subst h0
    refine ⟨him, fun c hc => ?_⟩
    have := h c
    rwa [if_neg hc] at this
  · rintro ⟨h1, h2⟩
    rw [h1]
    simp only [Option.bind_some]
    rw [traverse_iff]
    intro c
    by_cases hc : c = .images
    · subst hc; simp
    · rw [if_neg hc]; exact h2 c hc

theorem only_iff (c : ColName) (v : N) (cols : ColName → Option N) :
    cols = only c v ↔ cols c = some v ∧ ∀ c', c' ≠ c → cols c' = none := by
  constructor
  · rintro rfl
    exact ⟨by simp [only], fun c' hc => by simp [only, hc]⟩
  · rintro ⟨h1, h2⟩
    funext c'
    by_cases hc : c' = c
    · subst hc; simp [only, h1]
    · simp [only, hc, h2 c' hc]

theorem listColumn_cons (t : Item) (l : List Item) (c : ColName) : listColumn (t :: l) = some (some c) ↔ Column t c := by
  cases t <;> simp [listColumn, Column, eq_comm]

theorem listColumn_cons_none (t : Item) (l : List Item) : listColumn (t :: l) ≠ some none := by
  cases t <;> simp [listColumn]

theorem Column.unique {t : Item} {c c' : ColName} (h : Column t c) (h' : Column t c') : c = c' := by
  cases t <;> simp_all [Column]

/-- What `_normalize_batch` makes of an element. -/
theorem normalize_spec (C : Codec V N S) (idx : Nat) (x : Input V N δ) (b : Bat N (Nat × Option δ)) (k : Kind)
    (h : normalize C idx x = some (b, k)) :
    Fed C x b.unaug ∧ b.data.1 = idx ∧
      ∀ (a : Bat N (Nat × Option δ)) o, a.unaug = b.unaug → a.data = b.data → (unnormalize C a x k = some o ↔ Answer C x a.aug o) := by
  cases x with
  | batch c =>
    simp only [normalize, Option.some.injEq, Prod.mk.injEq] at h
    obtain ⟨rfl, rfl⟩ := h
    refine ⟨rfl, rfl, fun a o h1 h2 => ?_⟩
    obtain ⟨au, aa, ad⟩ := a
    dsimp only at h1 h2
    subst h1 h2
    simp only [unnormalize, Option.map_some, Option.some.injEq, Answer]
    cases o with
    | batch r =>
      obtain ⟨ru, ra, rd⟩ := r
      simp only [Output.batch.injEq, Bat.mk.injEq]
      constructor
      · rintro ⟨rfl, rfl, rfl⟩; exact ⟨rfl, rfl, rfl⟩
      · rintro ⟨rfl, rfl, rfl⟩; exact ⟨rfl, rfl, rfl⟩
    | unnorm r => simp
    | value v => simp
    | emptyList => simp
  | unnorm c =>
    simp only [normalize] at h
    by_cases hn : ColName.all.all (fun c' => (c.aug c').isNone) = true
    · rw [if_pos hn] at h
      obtain ⟨n, hn', h⟩ := Option.map_eq_some_iff.mp h
      simp only [Prod.mk.injEq] at h
      obtain ⟨rfl, rfl⟩ := h
      refine ⟨⟨(all_none _).mp hn, (toNormalized_iff _ _ _).mp hn'⟩, rfl, fun a o h1 h2 => ?_⟩
      obtain ⟨au, aa, ad⟩ := a
      dsimp only at h1 h2
      subst h1 h2
      simp only [unnormalize, Option.bind_some, Answer, fill, Option.map_map, Option.map_eq_some_iff, traverse_iff]
      cases o with
      | unnorm r =>
        obtain ⟨ru, ra, rd⟩ := r
        simp only [Function.comp_apply, Output.unnorm.injEq, Bat.mk.injEq]
        constructor
        · rintro ⟨g, hg, rfl, rfl, rfl⟩; exact ⟨rfl, rfl, hg⟩
        · rintro ⟨rfl, rfl, hg⟩; exact ⟨_, hg, rfl, rfl, rfl⟩
      | batch r => simp
      | value v => simp
      | emptyList => simp
    · rw [if_neg hn] at h
      simp at h
  | array nd v =>
    simp only [normalize] at h
    by_cases hn : nd = 3 ∨ nd = 4
    · rw [if_pos hn] at h
      simp only [Option.some.injEq, Prod.mk.injEq] at h
      obtain ⟨rfl, rfl⟩ := h
      refine ⟨⟨hn, (only_iff _ _ _).mp rfl⟩, rfl, fun a o h1 h2 => ?_⟩
      cases o <;> simp [unnormalize, Answer, eq_comm]
    · rw [if_neg hn] at h
      simp at h
  | list items v =>
    simp only [normalize] at h
    obtain ⟨oc, hoc, h⟩ := Option.map_eq_some_iff.mp h
    cases items with
    | nil =>
      simp only [listColumn, Option.some.injEq] at hoc
      subst hoc
      simp only [Prod.mk.injEq] at h
      obtain ⟨rfl, rfl⟩ := h
      refine ⟨fun _ => rfl, rfl, fun a o h1 h2 => ?_⟩
      cases o <;> simp [unnormalize, Answer]
    | cons t l =>
      cases oc with
      | none => exact absurd hoc (listColumn_cons_none t l)
      | some c =>
        simp only [Prod.mk.injEq] at h
        obtain ⟨rfl, rfl⟩ := h
        have hc := (listColumn_cons t l c).mp hoc
        refine ⟨⟨c, hc, (only_iff _ _ _).mp rfl⟩, rfl, fun a o h1 h2 => ?_⟩
        cases o with
        | value w =>
          simp only [unnormalize, Option.some.injEq, Output.value.injEq, Answer]
          constructor
          · rintro rfl; exact ⟨c, hc, rfl⟩
          · rintro ⟨c', hc', rfl⟩; rw [hc.unique hc']
        | batch r => simp [unnormalize, Answer]
        | unnorm r => simp [unnormalize, Answer]
        | emptyList => simp [unnormalize, Answer]
  | other => simp [normalize] at h

/-- Acceptable elements are accepted. -/
theorem normalize_fed (C : Codec V N S) (idx : Nat) (x : Input V N δ) (cols : ColName → Option N) (h : Fed C x cols) :
    ∃ b k, normalize C idx x = some (b, k) ∧ b.unaug = cols := by
  cases x with
  | batch c => exact ⟨⟨c.unaug, c.aug, (idx, some c.data)⟩, .batch, rfl, by rw [show cols = c.unaug from h]⟩
  | unnorm c =>
    obtain ⟨h1, h2⟩ := h
    refine ⟨⟨cols, fun _ => none, (idx, some c.data)⟩, .unnorm, ?_, rfl⟩
    simp only [normalize]
    rw [if_pos ((all_none _).mpr h1), (toNormalized_iff _ _ _).mpr h2]
    rfl
  | array nd v =>
    obtain ⟨h1, h2⟩ := h
    refine ⟨⟨only .images v, fun _ => none, (idx, none)⟩, .array, ?_, ((only_iff _ _ _).mpr h2).symm⟩
    simp only [normalize]
    rw [if_pos h1]
  | list items v =>
    cases items with
    | nil =>
      refine ⟨⟨fun _ => none, fun _ => none, (idx, none)⟩, .emptyList, rfl, ?_⟩
      funext c
      exact (h c).symm
    | cons t l =>
      obtain ⟨c, hc, h2⟩ := h
      refine ⟨⟨only c v, fun _ => none, (idx, none)⟩, .listOf c, ?_, ((only_iff _ _ _).mpr h2).symm⟩
      simp only [normalize]
      rw [(listColumn_cons t l c).mpr hc]
      rfl
  | other => exact absurd h (by simp [Fed])

theorem one_iff (C : Codec V N S) (run : G → (ColName → Option N) → Option ((ColName → Option N) × G)) (idx : Nat) (g g' : G)
    (x : Input V N δ) (o : Output V N δ) :
    one C run idx g x = some (o, g') ↔ ∃ cols a, Fed C x cols ∧ run g cols = some (a, g') ∧ Answer C x a o := by
  unfold one augmentBatch
  constructor
  · intro h
    obtain ⟨⟨b, k⟩, hb, h⟩ := Option.bind_eq_some_iff.mp h
    obtain ⟨r, hr, h⟩ := Option.bind_eq_some_iff.mp h
    obtain ⟨⟨a, g1⟩, ha, hr⟩ := Option.map_eq_some_iff.mp hr
    subst hr
    obtain ⟨o', ho, h⟩ := Option.map_eq_some_iff.mp h
    simp only [Prod.mk.injEq] at h
    obtain ⟨rfl, rfl⟩ := h
    obtain ⟨h1, -, h2⟩ := normalize_spec C idx x b k hb
    exact ⟨b.unaug, a, h1, ha, (h2 ⟨b.unaug, a, b.data⟩ o' rfl rfl).mp ho⟩
  · rintro ⟨cols, a, hf, hr, ha⟩
    obtain ⟨b, k, hb, rfl⟩ := normalize_fed C idx x cols hf
    obtain ⟨-, -, h2⟩ := normalize_spec C idx x b k hb
    rw [hb]
    simp only [Option.bind_some]
    rw [hr]
    simp only [Option.map_some, Option.bind_some]
    rw [(h2 ⟨b.unaug, a, b.data⟩ o rfl rfl).mpr ha]
    rfl

theorem Answer.unique {C : Codec V N S} {x : Input V N δ} {a : ColName → Option N} {o o' : Output V N δ} (h : Answer C x a o)
    (h' : Answer C x a o') : o = o' := by
  cases x with
  | batch b => cases o <;> cases o' <;> simp_all [Answer] <;> (rename_i r r'; cases r; cases r'; simp_all)
  | unnorm b =>
    cases o <;> cases o' <;> simp only [Answer] at h h'
    rename_i r r'
    obtain ⟨ru, ra, rd⟩ := r
    obtain ⟨ru', ra', rd'⟩ := r'
    obtain ⟨h1, h2, h3⟩ := h
    obtain ⟨h1', h2', h3'⟩ := h'
    dsimp only at h1 h2 h3 h1' h2' h3'
    have : ra = ra' := by
      funext c
      have := (h3 c).symm.trans (h3' c)
      simpa using this
    subst this h1 h2 h1' h2'
    rfl
  | array nd v => cases o <;> cases o' <;> simp_all [Answer]
  | list items v =>
    cases items with
    | nil => cases o <;> cases o' <;> simp_all [Answer]
    | cons t l =>
      cases o <;> cases o' <;> simp only [Answer] at h h'
      obtain ⟨c, hc, rfl⟩ := h
      obtain ⟨c', hc', rfl⟩ := h'
      rw [hc.unique hc']
  | other => cases o <;> simp_all [Answer]

theorem Fed.unique {C : Codec V N S} {x : Input V N δ} {a b : ColName → Option N} (h : Fed C x a) (h' : Fed C x b) : a = b := by
  cases x with
  | batch c => exact (show a = c.unaug from h).trans (show b = c.unaug from h').symm
  | unnorm c =>
    have := ((toNormalized_iff C _ _).mpr h.2).symm.trans ((toNormalized_iff C _ _).mpr h'.2)
    simpa using this
  | array nd v => exact ((only_iff _ _ _).mpr h.2).trans ((only_iff _ _ _).mpr h'.2).symm
  | list items v =>
    cases items with
    | nil => funext c; exact (h c).trans (h' c).symm
    | cons t l =>
      obtain ⟨c, hc, h⟩ := h
      obtain ⟨c', hc', h'⟩ := h'
      have := hc.unique hc'
      subst this
      exact ((only_iff _ _ _).mpr h).trans ((only_iff _ _ _).mpr h').symm
  | other => exact absurd h (by simp [Fed])

theorem results_snoc (evs : List (Event N δ)) (a : Bat N (Nat × Option δ)) : results (evs ++ [.result a]) = results evs ++ [a] := by
  simp [results]

theorem results_load (evs : List (Event N δ)) : results (evs ++ [.load]) = results evs := by simp [results]

theorem loads_snoc (evs : List (Event N δ)) (a : Bat N (Nat × Option δ)) : loads (evs ++ [.result a]) = loads evs := by
  simp [loads]

theorem loads_load (evs : List (Event N δ)) : loads (evs ++ [.load]) = loads evs + 1 := by simp [loads]

theorem Honest.init {C : Codec V N S} {inputs : List (Input V N δ)} {evs : List (Event N δ)} {e : Event N δ}
    (h : Honest C inputs (evs ++ [e])) : Honest C inputs evs := by
  intro pre a post he
  exact h pre a (post ++ [e]) (by rw [he]; simp)

/-- The invariant of the background branch. -/
structure Inv (C : Codec V N S) (inputs : List (Input V N δ)) (evs : List (Event N δ)) (s : State V N δ) : Prop where
  idx : s.idx = min (loads evs) inputs.length
  left : s.left = inputs.drop s.idx
  dict : ∀ i e, s.dict.find? (fun e => e.1 == i) = some e ↔ i < s.idx ∧ (∀ b ∈ results evs, b.data.1 ≠ i) ∧
    ∃ x b k, inputs[i]? = some x ∧ normalize C i x = some (b, k) ∧ e = (i, (x, k))
  loaded : ∀ i b, s.loaded[i]? = some b ↔ i < s.idx ∧ ∃ x k, inputs[i]? = some x ∧ normalize C i x = some (b, k)
  out : List.Forall₂ (fun (a : Bat N (Nat × Option δ)) o => ∃ x, inputs[a.data.1]? = some x ∧ Answer C x a.aug o) (results evs) s.out

theorem find_filter_ne {β : Type} (l : List (Nat × β)) (i j : Nat) :
    (l.filter (fun e => e.1 != i)).find? (fun e => e.1 == j) = if j = i then none else l.find? (fun e => e.1 == j) := by
  induction l with
  | nil => simp
  | cons e l ih =>
    by_cases he : e.1 = i
    · rw [List.filter_cons_of_neg (by simp [he]), ih]
      by_cases hj : j = i
      · simp [hj]
      · rw [if_neg hj, if_neg hj, List.find?_cons_of_neg (by simp [he]; omega)]
    · rw [List.filter_cons_of_pos (by simp [he])]
      by_cases hj : e.1 = j
      · rw [List.find?_cons_of_pos (by simp [hj]), List.find?_cons_of_pos (by simp [hj]), if_neg (by omega)]
      · rw [List.find?_cons_of_neg (by simp [hj]), List.find?_cons_of_neg (by simp [hj]), ih]

theorem step_inv (C : Codec V N S) (inputs : List (Input V N δ)) (hfed : ∀ x ∈ inputs, ∃ cols, Fed C x cols)
    (evs : List (Event N δ)) (e : Event N δ) (hh : Honest C inputs (evs ++ [e]))
    (hans : ∀ a ∈ results (evs ++ [e]), ∀ x, inputs[a.data.1]? = some x → ∃ o, Answer C x a.aug o) (s : State V N δ)
    (h : Inv C inputs evs s) : ∃ s', step C s e = some s' ∧ Inv C inputs (evs ++ [e]) s' := by
  cases e with
  | load =>
    simp only [step]
    cases hl : s.left with
    | nil =>
      refine ⟨s, rfl, ?_, h.left, ?_, h.loaded, ?_⟩
      · have h1 := h.left
        rw [hl] at h1
        have h2 : inputs.length ≤ s.idx := List.drop_eq_nil_iff.mp h1.symm
        rw [loads_load]
        have := h.idx
        omega
      · rw [results_load]; exact h.dict
      · rw [results_load]; exact h.out
    | cons x xs =>
      have h1 := h.left
      rw [hl] at h1
      have hlt : s.idx < inputs.length := by
        by_contra hc
        rw [List.drop_eq_nil_of_le (by omega)] at h1
        simp at h1
      have h2 : inputs[s.idx]? = some x := by
        have : (inputs.drop s.idx)[0]? = some x := by rw [← h1]; rfl
        simpa using this
      have hx : x ∈ inputs := List.mem_of_getElem? h2
      obtain ⟨cols, hc⟩ := hfed x hx
      obtain ⟨b, k, hb, -⟩ := normalize_fed C s.idx x cols hc
      have hidx := h.idx
      simp only [hb, Option.map_some]
      refine ⟨_, rfl, ?_, ?_, ?_, ?_, ?_⟩
      · show s.idx + 1 = _
        rw [loads_load]
        omega
      · show xs = inputs.drop (s.idx + 1)
        have : (inputs.drop s.idx).drop 1 = inputs.drop (s.idx + 1) := by rw [List.drop_drop]
        rw [← this, ← h1]
        rfl
      · intro i e
        dsimp only
        rw [results_load]
        by_cases hi' : i = s.idx
        · subst hi'
          rw [List.find?_cons_of_pos (by simp)]
          constructor
          · rintro he
            simp only [Option.some.injEq] at he
            subst he
            refine ⟨by omega, fun r hr heq => ?_, x, b, k, h2, hb, rfl⟩
            obtain ⟨pre, post, hp⟩ : ∃ pre post, evs = pre ++ .result r :: post := by
              simp only [results, List.mem_filterMap] at hr
              obtain ⟨ev, hev, hr⟩ := hr
              obtain ⟨pre, post, hp⟩ := List.append_of_mem hev
              cases ev with
              | load => simp at hr
              | result r' =>
                simp only [Option.some.injEq] at hr
                subst hr
                exact ⟨pre, post, hp⟩
            obtain ⟨h3, -⟩ := hh pre r (post ++ [.load]) (by rw [hp]; simp)
            have h4 : loads pre ≤ loads evs := by
              rw [hp]
              simp only [loads, List.filter_append, List.length_append]
              omega
            omega
          · rintro ⟨-, -, x', b', k', hx', hb', rfl⟩
            rw [h2, Option.some.injEq] at hx'
            subst hx'
            rw [hb, Option.some.injEq, Prod.mk.injEq] at hb'
            rw [hb'.2]
        · rw [List.find?_cons_of_neg (by simp; omega), find_filter_ne, if_neg hi', h.dict]
          constructor
          · rintro ⟨h3, h4, h5⟩; exact ⟨by omega, h4, h5⟩
          · rintro ⟨h3, h4, h5⟩; exact ⟨by omega, h4, h5⟩
      · have hlen : s.loaded.length = s.idx := by
          apply Nat.le_antisymm
          · by_contra hc
            have : s.idx < s.loaded.length := by omega
            have := (h.loaded s.idx (s.loaded[s.idx])).mp (by simp)
            omega
          · by_contra hc
            have hlt' : s.loaded.length < s.idx := by omega
            have hin : s.loaded.length < inputs.length := by omega
            obtain ⟨cols', hc'⟩ := hfed inputs[s.loaded.length] (List.getElem_mem _)
            obtain ⟨b', k', hb', -⟩ := normalize_fed C s.loaded.length _ cols' hc'
            have := (h.loaded s.loaded.length b').mpr ⟨hlt', _, k', List.getElem?_eq_getElem hin, hb'⟩
            simp at this
        intro i b'
        dsimp only
        by_cases hi' : i = s.idx
        · subst hi'
          rw [List.getElem?_append_right (by omega), hlen, Nat.sub_self]
          simp only [List.getElem?_cons_zero, Option.some.injEq]
          constructor
          · rintro rfl; exact ⟨by omega, x, k, h2, hb⟩
          · rintro ⟨-, x', k', hx', hb'⟩
            rw [h2, Option.some.injEq] at hx'
            subst hx'
            rw [hb, Option.some.injEq, Prod.mk.injEq] at hb'
            exact hb'.1
        · by_cases hlt' : i < s.idx
          · rw [List.getElem?_append_left (by omega), h.loaded]
            constructor
            · rintro ⟨h3, h4⟩; exact ⟨by omega, h4⟩
            · rintro ⟨h3, h4⟩; exact ⟨by omega, h4⟩
          · rw [List.getElem?_eq_none (by simp; omega)]
            constructor
            · intro hc; simp at hc
            · rintro ⟨h3, h4⟩; omega
      · rw [results_load]; exact h.out
  | result a =>
    obtain ⟨h1, h2, x, hx, given, k, hn, hu, hd⟩ := hh evs a [] rfl
    have hlen : a.data.1 < inputs.length := by
      by_contra hc
      rw [List.getElem?_eq_none (by omega)] at hx
      simp at hx
    have hidx := h.idx
    have hdict := (h.dict a.data.1 (a.data.1, (x, k))).mpr ⟨by omega, h2, x, given, k, hx, hn, rfl⟩
    obtain ⟨o, ho⟩ := hans a (by rw [results_snoc]; simp) x hx
    have hun := ((normalize_spec C _ x given k hn).2.2 a o hu hd).mpr ho
    simp only [step]
    rw [hdict]
    simp only [Option.bind_some]
    rw [hun]
    simp only [Option.map_some]
    refine ⟨_, rfl, ?_, h.left, ?_, h.loaded, ?_⟩
    · rw [loads_snoc]; exact h.idx
    · intro i e
      dsimp only
      rw [results_snoc, find_filter_ne]
      by_cases hi' : i = a.data.1
      · rw [if_pos hi']
        constructor
        · intro hc; simp at hc
        · rintro ⟨-, h3, -⟩
          exact absurd hi'.symm (h3 a (by simp))
      · rw [if_neg hi', h.dict]
        constructor
        · rintro ⟨h3, h4, h5⟩
          refine ⟨h3, fun b hb => ?_, h5⟩
          rcases List.mem_append.mp hb with hb | hb
          · exact h4 b hb
          · simp only [List.mem_singleton] at hb
            subst hb
            exact fun h => hi' h.symm
        · rintro ⟨h3, h4, h5⟩
          exact ⟨h3, fun b hb => h4 b (List.mem_append_left _ hb), h5⟩
    · rw [results_snoc]
      exact List.rel_append h.out (List.Forall₂.cons ⟨x, hx, ho⟩ List.Forall₂.nil)

theorem background_inv (C : Codec V N S) (inputs : List (Input V N δ)) (hfed : ∀ x ∈ inputs, ∃ cols, Fed C x cols)
    (evs : List (Event N δ)) : Honest C inputs evs →
    (∀ a ∈ results evs, ∀ x, inputs[a.data.1]? = some x → ∃ o, Answer C x a.aug o) →
    ∃ s, background C inputs evs = some s ∧ Inv C inputs evs s := by
  induction evs using List.reverseRecOn with
  | nil =>
    intro _ _
    refine ⟨_, rfl, ?_, ?_, ?_, ?_, ?_⟩
    · simp [loads]
    · simp
    · simp
    · simp
    · simp [results]
  | append_singleton evs e ih =>
    intro hh hans
    have hans' : ∀ a ∈ results evs, ∀ x, inputs[a.data.1]? = some x → ∃ o, Answer C x a.aug o := by
      intro a ha
      apply hans
      cases e with
      | load => rw [results_load]; exact ha
      | result b => rw [results_snoc]; exact List.mem_append_left _ ha
    obtain ⟨s, hs, hi'⟩ := ih hh.init hans'
    obtain ⟨s', hs', hi''⟩ := step_inv C inputs hfed evs e hh hans s hi'
    refine ⟨s', ?_, hi''⟩
    unfold background at hs ⊢
    rw [List.foldlM_append, hs]
    simp only [List.foldlM_cons, List.foldlM_nil]
    show (step C s e).bind _ = _
    rw [hs']
    rfl

end Imgaug.Batches
