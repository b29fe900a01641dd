import Verif.Spec.Segments
import Verif.Proofs.Handle
import Verif.Proofs.Dtypes
import Verif.Proofs.Quantize
import Mathlib.Tactic.SplitIfs
import Mathlib.Data.List.Nodup
import Mathlib.Algebra.Order.BigOperators.Group.List
/-! Lemmas on the replacement of segments. -/
namespace Imgaug.Segments
open Imgaug

theorem masked_cell (px : List Px) (segs : List Nat) (s c : Nat) :
    (masked px segs s).map (fun p => p.getD c 0) = cell px segs s c := by
  unfold masked cell
  induction px generalizing segs with
  | nil => simp
  | cons p px ih =>
    cases segs with
    | nil => simp
    | cons t segs =>
      rw [List.length_cons, List.range_succ_eq_map, List.filterMap_cons, List.filterMap_map, List.zip_cons_cons]
      have := ih segs
      by_cases h : t = s
      · subst h
        simp only [List.filter_cons, beq_self_eq_true, ↓reduceIte, List.map_cons, List.getElem?_cons_zero, Option.map_some, this]
        congr 1
      · have h' : (t == s) = false := by simpa using h
        simp only [List.filter_cons, h', Bool.false_eq_true, ↓reduceIte, List.getElem?_cons_zero, Option.some.injEq, h, this]
        congr 1

theorem average_cell (px : List Px) (segs : List Nat) (s c : Nat) : average (masked px segs s) c = mean (cell px segs s c) := by
  rw [← masked_cell]
  unfold average mean
  rw [List.length_map]
  congr 1
  induction masked px segs s with
  | nil => simp
  | cons a l ih => rw [List.map_cons, List.sum_cons, ih, List.map_cons, List.sum_cons, Int.cast_add]

theorem color_eq (dt : Dt) (n : Nat) (px : List Px) (segs : List Nat) (s : Nat) :
    (List.range n).map (fun c => store dt (average (masked px segs s) c)) = cellColor dt n px segs s := by
  unfold cellColor
  apply List.map_congr_left
  intro c _
  rw [average_cell]
  cases dt <;> simp [store]

theorem one_get (dt : Dt) (n : Nat) (segs : List Nat) (px : List Px) (id i : Nat) (p : Px) (s : Nat) (hp : px[i]? = some p) (hs : segs[i]? = some s) :
    (replaceOne dt n segs px id)[i]? = some (if s = id then cellColor dt n px segs id else p) := by
  unfold replaceOne
  rw [color_eq]
  simp [List.getElem?_zipWith, hp, hs]

theorem one_len (dt : Dt) (n : Nat) (segs : List Nat) (px : List Px) (id : Nat) (h : segs.length = px.length) :
    (replaceOne dt n segs px id).length = px.length := by
  simp [replaceOne, h]

theorem one_masked (dt : Dt) (n : Nat) (segs : List Nat) (px : List Px) (id s : Nat) (h : s ≠ id) :
    masked (replaceOne dt n segs px id) segs s = masked px segs s := by
  unfold masked replaceOne
  simp only
  generalize (List.range n).map _ = col
  induction px generalizing segs with
  | nil => simp
  | cons p px ih =>
    cases segs with
    | nil => simp
    | cons t segs =>
      simp only [List.zipWith_cons_cons, List.zip_cons_cons, List.filter_cons]
      by_cases ht : t = s
      · subst ht
        simp [h, ih segs]
      · have h' : (t == s) = false := by simpa using ht
        simp [h', ih segs]

theorem one_color (dt : Dt) (n : Nat) (segs : List Nat) (px : List Px) (id s : Nat) (h : s ≠ id) :
    cellColor dt n (replaceOne dt n segs px id) segs s = cellColor dt n px segs s := by
  rw [← color_eq, ← color_eq, one_masked dt n segs px id s h]

theorem loop_spec (dt : Dt) (n : Nat) (segs : List Nat) (flags : List Bool) (hf : flags ≠ []) (ids : List Nat) (hn : ids.Nodup) (i0 : Nat)
    (px : List Px) (hl : segs.length = px.length) :
    ∃ out, npLoop dt n segs flags i0 ids px = some out ∧ out.length = px.length ∧
      ∀ (i : Nat) p s, px[i]? = some p → segs[i]? = some s →
        out[i]? = some (if s ∈ ids ∧ flags.getD ((i0 + ids.idxOf s) % flags.length) false = true then cellColor dt n px segs s else p) := by
  have hf' : flags.length ≠ 0 := by simpa using hf
  induction ids generalizing i0 px with
  | nil => exact ⟨px, rfl, rfl, fun i p s hp _ => by simp [hp]⟩
  | cons id ids ih =>
    rw [List.nodup_cons] at hn
    simp only [npLoop, hf', ↓reduceIte]
    by_cases hfl : flags.getD (i0 % flags.length) false = true
    · rw [if_pos hfl]
      have hlen := one_len dt n segs px id hl
      obtain ⟨out, h1, h2, h3⟩ := ih hn.2 (i0 + 1) (replaceOne dt n segs px id) (by rw [hlen]; exact hl)
      refine ⟨out, h1, by rw [h2, hlen], ?_⟩
      intro i p s hp hs
      rw [h3 i _ s (one_get dt n segs px id i p s hp hs) hs]
      by_cases he : s = id
      · subst he
        simp only [hn.1, false_and, ↓reduceIte, List.mem_cons, true_or, List.idxOf_cons_self, Nat.add_zero, hfl, and_self]
      · have he' : id ≠ s := fun h => he h.symm
        simp only [List.mem_cons, he, false_or, if_false, List.idxOf_cons_ne _ he', one_color dt n segs px id s he]
        rw [show i0 + 1 + ids.idxOf s = i0 + (ids.idxOf s).succ by omega]
    · rw [if_neg hfl]
      obtain ⟨out, h1, h2, h3⟩ := ih hn.2 (i0 + 1) px hl
      refine ⟨out, h1, h2, ?_⟩
      intro i p s hp hs
      rw [h3 i p s hp hs]
      by_cases he : s = id
      · subst he
        simp only [hn.1, false_and, ↓reduceIte, List.mem_cons, true_or, List.idxOf_cons_self, Nat.add_zero, hfl, and_false]
        simp
      · have he' : id ≠ s := fun h => he h.symm
        simp only [List.mem_cons, he, false_or, List.idxOf_cons_ne _ he']
        rw [show i0 + 1 + ids.idxOf s = i0 + (ids.idxOf s).succ by omega]

theorem foldl_max_le (l : List Nat) (a : Nat) : a ≤ l.foldl max a ∧ ∀ s ∈ l, s ≤ l.foldl max a := by
  induction l generalizing a with
  | nil => simp
  | cons b l ih =>
    simp only [List.foldl_cons, List.mem_cons, forall_eq_or_imp]
    have := ih (max a b)
    exact ⟨by omega, by omega, this.2⟩

theorem le_maxId (segs : List Nat) (s : Nat) (h : s ∈ segs) : s ≤ maxId segs := (foldl_max_le segs 0).2 s h

theorem mem_unique (segs : List Nat) (s : Nat) : s ∈ unique segs ↔ s ∈ segs := by
  unfold unique
  simp only [List.mem_filter, List.mem_range, List.contains_iff_mem]
  exact ⟨fun h => h.2, fun h => ⟨by have := le_maxId segs s h; omega, h⟩⟩

theorem unique_nodup (segs : List Nat) : (unique segs).Nodup := List.Nodup.filter _ List.nodup_range

theorem idxOf_unique (segs : List Nat) (s : Nat) (h : s ∈ segs) : (unique segs).idxOf s = rank segs s := by
  have hle := le_maxId segs s h
  unfold unique rank
  obtain ⟨k, hk⟩ : ∃ k, maxId segs + 1 = s + (k + 1) := ⟨maxId segs - s, by omega⟩
  rw [hk, List.range_add, List.filter_append]
  have hnot : s ∉ (List.range s).filter (fun t => segs.contains t) := by simp
  rw [List.idxOf_append_of_notMem hnot]
  rw [List.range_succ_eq_map]
  simp [List.filter_cons, h]

theorem np_spec (dt : Dt) (n : Nat) (px : List Px) (segs : List Nat) (flags : List Bool) (hf : flags ≠ []) (hl : segs.length = px.length) :
    ∃ out, replaceNp dt n px segs (some flags) = some out ∧ out.length = px.length ∧
      ∀ (i : Nat) p s, px[i]? = some p → segs[i]? = some s →
        out[i]? = some (if flags.getD (rank segs s % flags.length) false then cellColor dt n px segs s else p) := by
  obtain ⟨out, h1, h2, h3⟩ := loop_spec dt n segs flags hf (unique segs) (unique_nodup segs) 0 px hl
  refine ⟨out, by simpa [replaceNp] using h1, h2, ?_⟩
  intro i p s hp hs
  have hm : s ∈ segs := List.mem_of_getElem? hs
  rw [h3 i p s hp hs, idxOf_unique segs s hm, Nat.zero_add]
  simp [mem_unique, hm]

theorem np_none (dt : Dt) (n : Nat) (px : List Px) (segs : List Nat) :
    replaceNp dt n px segs none = replaceNp dt n px segs (some (List.replicate (unique segs).length true)) := rfl

/-! The loop that collects sums and counts. -/

theorem fold_spec (l : List (Px × Nat)) (st : Sums) (h : ∀ s, st.counters s = -1 ∨ 0 ≤ st.counters s) (s : Nat) :
    (st.counters s = -1 → (l.foldl collectStep st).counters s = -1) ∧
    (0 ≤ st.counters s →
      (l.foldl collectStep st).counters s = st.counters s + ((l.filter (fun q => q.2 == s)).length : Int) ∧
      ∀ c, (l.foldl collectStep st).colors s c =
        st.colors s c + ((l.filter (fun q => q.2 == s)).map (fun q => ((q.1.getD c 0 : Int) : ℚ))).sum) := by
  induction l generalizing st with
  | nil => simp
  | cons q l ih =>
    rw [List.foldl_cons]
    have hst : ∀ t, (collectStep st q).counters t = -1 ∨ 0 ≤ (collectStep st q).counters t := by
      intro t
      unfold collectStep
      have := h t
      have := h q.2
      split
      · simp only
        split
        · next he => subst he; omega
        · assumption
      · assumption
    have := ih (collectStep st q) hst
    by_cases he : q.2 = s
    · subst he
      have hc := h q.2
      by_cases hm : st.counters q.2 = -1
      · have h1 : collectStep st q = st := by simp [collectStep, hm]
        rw [h1] at this ⊢
        refine ⟨this.1, fun h0 => by omega⟩
      · have hcs : (collectStep st q).counters q.2 = st.counters q.2 + 1 := by simp [collectStep, hm]
        have hcol : ∀ c, (collectStep st q).colors q.2 c = st.colors q.2 c + ((q.1.getD c 0 : Int) : ℚ) := by simp [collectStep, hm]
        refine ⟨fun h1 => absurd h1 hm, fun h0 => ?_⟩
        have h2 := this.2 (by omega)
        rw [hcs] at h2
        have hf : List.filter (fun q' => q'.2 == q.2) (q :: l) = q :: l.filter (fun q' => q'.2 == q.2) := by simp
        rw [hf]
        refine ⟨by rw [h2.1]; push_cast [List.length_cons]; omega, fun c => ?_⟩
        rw [h2.2 c, hcol, List.map_cons, List.sum_cons]
        ring
    · have hcs : (collectStep st q).counters s = st.counters s := by
        unfold collectStep
        split
        · have : ¬ s = q.2 := fun h => he h.symm
          simp [this]
        · rfl
      have hcol : ∀ c, (collectStep st q).colors s c = st.colors s c := by
        intro c
        unfold collectStep
        split
        · have : ¬ s = q.2 := fun h => he h.symm
          simp [this]
        · rfl
      have hf : List.filter (fun q' => q'.2 == s) (q :: l) = l.filter (fun q' => q'.2 == s) := by
        have : (q.2 == s) = false := by simpa using he
        simp [this]
      rw [hf]
      rw [hcs] at this
      refine ⟨this.1, fun h0 => ⟨(this.2 h0).1, fun c => ?_⟩⟩
      rw [(this.2 h0).2 c, hcol]

theorem masked_pos (px : List Px) (segs : List Nat) (i : Nat) (p : Px) (s : Nat) (hp : px[i]? = some p) (hs : segs[i]? = some s) :
    p ∈ masked px segs s := by
  unfold masked
  rw [List.mem_map]
  refine ⟨(p, s), ?_, rfl⟩
  rw [List.mem_filter]
  exact ⟨List.mem_of_getElem? ((List.getElem?_zip_eq_some (z := (p, s))).2 ⟨hp, hs⟩), by simp⟩

theorem collect_spec (dt : Dt) (px : List Px) (segs : List Nat) (flags : List Bool) (s c : Nat)
    (hf : flags.getD (s % flags.length) false = true) (hm : masked px segs s ≠ []) :
    collect dt px segs flags s c = store dt (average (masked px segs s) c) := by
  unfold collect
  have h0 : ∀ t, (collectStart flags).counters t = -1 ∨ 0 ≤ (collectStart flags).counters t := by
    intro t
    unfold collectStart
    simp only
    split <;> simp
  have hs : (collectStart flags).counters s = 0 := by
    unfold collectStart; simp only; rw [if_pos hf]
  obtain ⟨h1, h2⟩ := (fold_spec (px.zip segs) (collectStart flags) h0 s).2 (by omega)
  simp only
  rw [h1, h2 c, hs]
  have hlen : ((px.zip segs).filter (fun q => q.2 == s)).length = (masked px segs s).length := by simp [masked]
  have hpos : 0 < (masked px segs s).length := List.length_pos_iff.2 hm
  have hmax : max ((0 : Int) + (((px.zip segs).filter (fun q => q.2 == s)).length : Int)) 1 = ((masked px segs s).length : Int) := by
    rw [hlen]; omega
  rw [hmax]
  congr 1
  unfold average
  rw [Int.cast_natCast]
  congr 1
  have : (collectStart flags).colors s c = 0 := rfl
  rw [this, zero_add]
  unfold masked
  rw [List.map_map]
  rfl

theorem apply_spec (dt : Dt) (n : Nat) (px : List Px) (segs : List Nat) (flags : List Bool) (i : Nat) (p : Px) (s : Nat)
    (hp : px[i]? = some p) (hs : segs[i]? = some s) :
    (apply n px segs flags (collect dt px segs flags))[i]? =
      some (if flags.getD (s % flags.length) false then cellColor dt n px segs s else p) := by
  unfold apply
  simp only [List.getElem?_zipWith, hp, hs]
  by_cases hf : flags.getD (s % flags.length) false = true
  · rw [if_pos hf, if_pos hf, ← color_eq]
    congr 1
    apply List.map_congr_left
    intro c _
    exact collect_spec dt px segs flags s c hf (List.ne_nil_of_mem (masked_pos px segs i p s hp hs))
  · rw [if_neg hf, if_neg hf]

theorem numba_spec (dt : Dt) (n : Nat) (px : List Px) (segs : List Nat) (flags : List Bool) (hl : segs.length = px.length) :
    (replaceNumba dt n px segs (some flags) (1 + maxId segs)).length = px.length ∧
      ∀ (i : Nat) p s, px[i]? = some p → segs[i]? = some s →
        (replaceNumba dt n px segs (some flags) (1 + maxId segs))[i]? =
          some (if flags.getD (s % flags.length) false then cellColor dt n px segs s else p) := by
  simp only [replaceNumba]
  by_cases h : (flags.take (1 + maxId segs)).any id = false
  · rw [if_pos h]
    refine ⟨rfl, ?_⟩
    intro i p s hp hs
    have hle := le_maxId segs s (List.mem_of_getElem? hs)
    have : flags.getD (s % flags.length) false = false := by
      rw [List.getD_eq_getElem?_getD]
      cases he : flags[s % flags.length]? with
      | none => rfl
      | some b =>
        have hlt : s % flags.length < flags.length := by
          by_contra hc
          rw [List.getElem?_eq_none (by omega)] at he
          simp at he
        have hm := Nat.mod_le s flags.length
        have hmem : b ∈ flags.take (1 + maxId segs) := by
          apply List.mem_of_getElem? (i := s % flags.length)
          rw [List.getElem?_take, if_pos (by omega), he]
        have := List.any_eq_false.1 h b hmem
        simpa using this
    rw [this, hp]; rfl
  · rw [if_neg h]
    exact ⟨by simp [apply, hl], fun i p s hp hs => apply_spec dt n px segs flags i p s hp hs⟩

theorem numba_none (dt : Dt) (n : Nat) (px : List Px) (segs : List Nat) (nb : Nat) (h : 0 < nb) :
    replaceNumba dt n px segs none nb = replaceNumba dt n px segs (some (List.replicate nb true)) nb := by
  simp only [replaceNumba]
  rw [if_neg]
  simp
  omega

theorem rank_contiguous (segs : List Nat) (h : Contiguous segs) (s : Nat) (hs : s ∈ segs) : rank segs s = s := by
  unfold rank
  rw [List.filter_eq_self.2]
  · simp
  · intro t ht
    simp only [List.contains_iff_mem]
    exact h s t hs (by simpa using ht)

theorem rank_lt (segs : List Nat) (s : Nat) (hs : s ∈ segs) : rank segs s < (unique segs).length := by
  rw [← idxOf_unique segs s hs]
  exact List.idxOf_lt_length_iff.2 ((mem_unique segs s).2 hs)

theorem full_not (a : Im) (h : a.Full) : ¬ (a.h = 0 ∨ a.w = 0 ∨ a.c = some 0) := by
  obtain ⟨h1, h2, h3⟩ := h
  intro hc
  rcases hc with hc | hc | hc
  · omega
  · omega
  · exact h3 hc

theorem replaced_unique (chosen : Nat → Bool) (segs : List Nat) (a b b' : Im) (hl : segs.length = a.px.length)
    (h : Replaced chosen segs a b) (h' : Replaced chosen segs a b') : b = b' := by
  obtain ⟨hs, hn, he⟩ := h
  obtain ⟨hs', hn', he'⟩ := h'
  have : b.px = b'.px := by
    apply List.ext_getElem?
    intro i
    by_cases hi' : i < a.px.length
    · rw [he i _ _ (List.getElem?_eq_getElem hi') (List.getElem?_eq_getElem (by omega)),
        he' i _ _ (List.getElem?_eq_getElem hi') (List.getElem?_eq_getElem (by omega))]
    · rw [List.getElem?_eq_none (by omega), List.getElem?_eq_none (by omega)]
  rw [← hs'] at hs
  simp only [Prod.mk.injEq] at hs
  cases b; cases b'
  simp_all

/-! Values of cells. -/

theorem mem_cell (px : List Px) (segs : List Nat) (s c : Nat) (v : Int) :
    v ∈ cell px segs s c ↔ ∃ (i : Nat) (p : Px), px[i]? = some p ∧ segs[i]? = some s ∧ p.getD c 0 = v := by
  unfold cell
  rw [List.mem_filterMap]
  constructor
  · rintro ⟨i, _, h⟩
    split at h
    · next hs =>
      cases hp : px[i]? with
      | none => simp [hp] at h
      | some p => rw [hp] at h; exact ⟨i, p, hp, hs, by simpa using h⟩
    · cases h
  · rintro ⟨i, p, hp, hs, h⟩
    have : i < px.length := by
      by_contra hc
      rw [List.getElem?_eq_none (by omega)] at hp; cases hp
    refine ⟨i, List.mem_range.2 this, ?_⟩
    rw [if_pos hs, hp, Option.map_some, h]

theorem sum_bounds (l : List Int) (a : Int) : ((∀ v ∈ l, a ≤ v) → a * l.length ≤ l.sum) ∧ ((∀ v ∈ l, v ≤ a) → l.sum ≤ a * l.length) := by
  induction l with
  | nil => simp
  | cons b l ih =>
    simp only [List.mem_cons, forall_eq_or_imp, List.length_cons, List.sum_cons]
    push_cast
    constructor
    · rintro ⟨h, h'⟩
      have := ih.1 h'
      linarith
    · rintro ⟨h, h'⟩
      have := ih.2 h'
      linarith

theorem le_mean (l : List Int) (hl : l ≠ []) (a : Int) (h : ∀ v ∈ l, a ≤ v) : (a : ℚ) ≤ mean l := by
  unfold mean
  have h0 : (0 : ℚ) < l.length := by exact_mod_cast List.length_pos_iff.2 hl
  rw [le_div_iff₀ h0]
  have := (sum_bounds l a).1 h
  exact_mod_cast this

theorem mean_le (l : List Int) (hl : l ≠ []) (a : Int) (h : ∀ v ∈ l, v ≤ a) : mean l ≤ a := by
  unfold mean
  have h0 : (0 : ℚ) < l.length := by exact_mod_cast List.length_pos_iff.2 hl
  rw [div_le_iff₀ h0]
  have := (sum_bounds l a).2 h
  exact_mod_cast this

theorem mean_const (l : List Int) (hl : l ≠ []) (a : Int) (h : ∀ v ∈ l, v = a) : mean l = a :=
  le_antisymm (mean_le l hl a (fun v hv => (h v hv).le)) (le_mean l hl a (fun v hv => (h v hv).ge))

theorem exists_le (l : List Int) (hl : l ≠ []) : ∃ v ∈ l, v ≤ pyInt (mean l) := by
  by_contra hc
  push Not at hc
  have h1 : ((pyInt (mean l) + 1 : Int) : ℚ) ≤ mean l := le_mean l hl _ (fun v hv => by have := hc v hv; omega)
  have := Params.le_pyInt h1
  omega

theorem exists_ge (l : List Int) (hl : l ≠ []) : ∃ v ∈ l, pyInt (mean l) ≤ v := by
  by_contra hc
  push Not at hc
  have h1 : mean l ≤ ((pyInt (mean l) - 1 : Int) : ℚ) := mean_le l hl _ (fun v hv => by have := hc v hv; omega)
  have := Params.pyInt_le h1
  omega

theorem color_get (dt : Dt) (n : Nat) (px : List Px) (segs : List Nat) (s c : Nat) (hc : c < n) :
    (cellColor dt n px segs s).getD c 0 =
      if dt = .bool then (if mean (cell px segs s c) = 0 then 0 else 1) else pyInt (mean (cell px segs s c)) := by
  unfold cellColor
  rw [List.getD_eq_getElem?_getD, List.getElem?_map, List.getElem?_range hc]
  rfl

theorem centers_len (h w : Nat) : (centers h w).length = h * w := by
  unfold centers
  induction h with
  | zero => simp
  | succ h ih => rw [List.range_succ, List.flatMap_append, List.length_append, ih]; simp; ring

theorem centers_get (h w x y : Nat) (hx : x < w) (hy : y < h) :
    (centers h w)[y * w + x]? = some ((x : ℚ) + 1 / 2, (y : ℚ) + 1 / 2) := by
  unfold centers
  induction h with
  | zero => omega
  | succ h ih =>
    have hlen := centers_len h w
    unfold centers at hlen
    rw [List.range_succ, List.flatMap_append]
    by_cases hlt : y < h
    · have : y * w + x < h * w := by
        have : (y + 1) * w ≤ h * w := Nat.mul_le_mul_right w hlt
        rw [Nat.add_mul] at this; omega
      rw [List.getElem?_append_left (by rw [hlen]; exact this)]
      exact ih hlt
    · have : y = h := by omega
      subst this
      rw [List.getElem?_append_right (by rw [hlen]; omega), hlen, Nat.add_sub_cancel_left]
      simp [List.getElem?_range hx]

theorem some_replaced (numba : Bool) (a b : Im) (segs : List Nat) (flags : Option (List Bool)) (hl : segs.length = a.px.length)
    (h : replaceSegments numba a segs flags = some b) : ∃ chosen, Replaced chosen segs a b := by
  unfold replaceSegments at h
  split at h
  · cases h
    exact ⟨fun _ => false, rfl, rfl, fun i p s hp _ => by simp [hp]⟩
  · split at h
    · rw [Option.map_eq_some_iff] at h
      obtain ⟨px, h1, rfl⟩ := h
      have key : ∀ fl, replaceNp a.dt a.n a.px segs (some fl) = some px → ∃ chosen, Replaced chosen segs a { a with px := px } := by
        intro fl hfl
        by_cases he : fl = []
        · subst he
          unfold replaceNp at hfl
          simp only [Option.getD_some] at hfl
          cases hu : unique segs with
          | nil =>
            rw [hu] at hfl
            cases hfl
            exact ⟨fun _ => false, rfl, rfl, fun i p s hp _ => by simp [hp]⟩
          | cons x xs => rw [hu] at hfl; simp [npLoop] at hfl
        · obtain ⟨out, h2, h3, h4⟩ := np_spec a.dt a.n a.px segs fl he hl
          rw [hfl] at h2
          cases h2
          exact ⟨_, rfl, h3, h4⟩
      cases flags with
      | some fl => exact key fl h1
      | none => exact key _ h1
    · cases h
      cases flags with
      | some fl =>
        obtain ⟨h3, h4⟩ := numba_spec a.dt a.n a.px segs fl hl
        exact ⟨_, rfl, h3, h4⟩
      | none =>
        rw [numba_none _ _ _ _ _ (by omega)]
        obtain ⟨h3, h4⟩ := numba_spec a.dt a.n a.px segs (List.replicate (1 + maxId segs) true) hl
        exact ⟨_, rfl, h3, h4⟩

/-- The colour of a chosen segment does not change. -/
theorem color_again (chosen : Nat → Bool) (segs : List Nat) (a b : Im) (hg : a.Good) (h : Replaced chosen segs a b) (s : Nat)
    (hc : chosen s = true) (hs : ∃ (i : Nat) (p : Px), a.px[i]? = some p ∧ segs[i]? = some s) :
    cellColor b.dt b.n b.px segs s = cellColor a.dt a.n a.px segs s := by
  obtain ⟨h1, h2, h3⟩ := h
  simp only [Prod.mk.injEq] at h1
  have hn : b.n = a.n := by simp only [Im.n, h1.2.2.1]
  rw [h1.2.2.2, hn]
  unfold cellColor
  apply List.map_congr_left
  intro c hcn
  have hcn := List.mem_range.1 hcn
  obtain ⟨i, p, hp, hsi⟩ := hs
  have hne : cell b.px segs s c ≠ [] := by
    refine List.ne_nil_of_mem ((mem_cell b.px segs s c _).2 ⟨i, _, h3 i p s hp hsi, hsi, rfl⟩)
  have hall : ∀ v ∈ cell b.px segs s c, v = (cellColor a.dt a.n a.px segs s).getD c 0 := by
    intro v hv
    obtain ⟨j, q, hq, hsj, rfl⟩ := (mem_cell b.px segs s c v).1 hv
    have hj : j < a.px.length := by
      rw [← h2]; by_contra hcon; rw [List.getElem?_eq_none (by omega)] at hq; cases hq
    have := h3 j _ s (List.getElem?_eq_getElem hj) hsj
    rw [hq, if_pos hc] at this
    cases this; rfl
  rw [mean_const _ hne _ hall, color_get _ _ _ _ _ _ hcn]
  split
  · split
    · simp
    · simp
  · rw [Dtypes.pyInt_intCast]

/-! Sizes. -/

theorem segments_kept (numba : Bool) (a b : Im) (segs : List Nat) (flags : Option (List Bool))
    (h : replaceSegments numba a segs flags = some b) : b.c = a.c ∧ b.dt = a.dt := by
  unfold replaceSegments at h
  split at h
  · cases h; exact ⟨rfl, rfl⟩
  · split at h
    · obtain ⟨px, _, rfl⟩ := Option.map_eq_some_iff.1 h
      exact ⟨rfl, rfl⟩
    · cases h; exact ⟨rfl, rfl⟩

theorem voronoi_kept (numba : Bool) (nearest : Nearest) (a b : Im) (cells : List Pt) (mask : Option (List Bool))
    (h : segmentVoronoi numba nearest a cells mask = some b) : b.c = a.c ∧ b.dt = a.dt := by
  unfold segmentVoronoi at h
  split at h
  · cases h; exact ⟨rfl, rfl⟩
  · obtain ⟨b', h1, rfl⟩ := Option.map_eq_some_iff.1 h
    exact ⟨rfl, (segments_kept numba _ b' _ _ h1).2⟩

theorem ensure_kept (resize : Resizer) (hr : Resizes resize) (maxSize : Option Nat) (a b : Im) (h : ensureMaxSize resize maxSize a = some b) :
    b.c = a.c ∧ b.dt = a.dt := by
  unfold ensureMaxSize at h
  cases maxSize with
  | none => cases h; exact ⟨rfl, rfl⟩
  | some m =>
    simp only at h
    split at h
    · have := hr _ _ _ _ h
      exact ⟨this.2.2.1, this.2.2.2⟩
    · cases h; exact ⟨rfl, rfl⟩

theorem ensure_small (resize : Resizer) (maxSize : Option Nat) (a : Im) (h : ∀ m, maxSize = some m → max a.h a.w ≤ m) :
    ensureMaxSize resize maxSize a = some a := by
  unfold ensureMaxSize
  cases maxSize with
  | none => rfl
  | some m =>
    simp only
    rw [if_neg]
    have := h m rfl
    omega

theorem restore_kept (resize : Resizer) (hr : Resizes resize) (orig a b : Im) (h : restore resize orig a = some b) (hc : a.c = orig.c)
    (hd : a.dt = orig.dt) : (b.h, b.w, b.c, b.dt) = (orig.h, orig.w, orig.c, orig.dt) := by
  unfold restore at h
  split at h
  · obtain ⟨h1, h2, h3, h4⟩ := hr _ _ _ _ h
    simp only [Prod.mk.injEq]
    exact ⟨by exact_mod_cast h1, by exact_mod_cast h2, by rw [h3, hc], by rw [h4, hd]⟩
  · next hn =>
    cases h
    rw [not_not] at hn
    simp only [Prod.mk.injEq] at hn ⊢
    exact ⟨hn.1.symm, hn.2.1.symm, hc, hd⟩

theorem max_zero (l : List ℚ) (h : ∀ p ∈ l, p = 0) : maxSample l = 0 := by
  have : ∀ (l : List ℚ), (∀ p ∈ l, p = 0) → l.foldl max 0 = 0 := by
    intro l
    induction l with
    | nil => simp
    | cons a l ih =>
      intro h
      rw [List.foldl_cons, h a (by simp), max_self]
      exact ih (fun p hp => h p (by simp [hp]))
  unfold maxSample
  have h0 : l.getD 0 0 = 0 := by
    cases l with
    | nil => rfl
    | cons a l => exact h a (by simp)
  rw [h0]
  exact this l h

/-- A search for the nearest point, as an example. -/
def search : Nearest := fun cells p =>
  ((List.range cells.length).foldl (fun best i => if dist2 p (cells.getD i (0, 0)) < dist2 p (cells.getD best (0, 0)) then i else best) 0)

theorem search_nearest : IsNearest search := by
  intro cells p hne
  have hpos : 0 < cells.length := List.length_pos_iff.2 hne
  have key : ∀ k, (k ≤ cells.length → 0 < k →
      (List.range k).foldl (fun best i => if dist2 p (cells.getD i (0, 0)) < dist2 p (cells.getD best (0, 0)) then i else best) 0 < k ∧
      ∀ i, i < k → dist2 p (cells.getD ((List.range k).foldl (fun best i =>
        if dist2 p (cells.getD i (0, 0)) < dist2 p (cells.getD best (0, 0)) then i else best) 0) (0, 0)) ≤ dist2 p (cells.getD i (0, 0))) := by
    intro k
    induction k with
    | zero => intro _ h; omega
    | succ k ih =>
      intro hk _
      rw [List.range_succ, List.foldl_append, List.foldl_cons, List.foldl_nil]
      by_cases h0 : k = 0
      · subst h0
        simp only [List.range_zero, List.foldl_nil, lt_irrefl, ↓reduceIte]
        refine ⟨by omega, fun i hi => ?_⟩
        rw [show i = 0 by omega]
      · obtain ⟨h1, h2⟩ := ih (by omega) (by omega)
        generalize (List.range k).foldl (fun best i =>
          if dist2 p (cells.getD i (0, 0)) < dist2 p (cells.getD best (0, 0)) then i else best) 0 = b at *
        split
        · next hlt =>
          refine ⟨by omega, fun i hi => ?_⟩
          by_cases he : i = k
          · rw [he]
          · exact hlt.le.trans (h2 i (by omega))
        · next hlt =>
          refine ⟨by omega, fun i hi => ?_⟩
          by_cases he : i = k
          · rw [he]; exact not_lt.1 hlt
          · exact h2 i (by omega)
  obtain ⟨h1, h2⟩ := key cells.length (le_refl _) hpos
  refine ⟨cells[search cells p]'h1, List.getElem?_eq_getElem h1, ?_⟩
  intro d hd
  obtain ⟨i, hi⟩ := List.getElem?_of_mem hd
  have hlt : i < cells.length := by
    by_contra hcon
    rw [List.getElem?_eq_none (by omega)] at hi; cases hi
  have := h2 i hlt
  rw [List.getD_eq_getElem?_getD, List.getD_eq_getElem?_getD, hi, List.getElem?_eq_getElem h1] at this
  exact this

end Imgaug.Segments
