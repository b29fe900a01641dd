import Verif.Proofs.Dtypes
/-! Value ranges of dtypes, clipping and conversion; gating of dtypes. -/
namespace Imgaug.Dtypes
open Imgaug

/-- C53: the ranges of the existing dtypes. -/
theorem value_ranges :
    (lo ⟨.u, 1⟩, hi ⟨.u, 1⟩) = (0, 255) ∧ (lo ⟨.u, 2⟩, hi ⟨.u, 2⟩) = (0, 65535) ∧ (lo ⟨.u, 4⟩, hi ⟨.u, 4⟩) = (0, 4294967295) ∧
    (lo ⟨.u, 8⟩, hi ⟨.u, 8⟩) = (0, 18446744073709551615) ∧ (lo ⟨.i, 1⟩, hi ⟨.i, 1⟩) = (-128, 127) ∧
    (lo ⟨.i, 2⟩, hi ⟨.i, 2⟩) = (-32768, 32767) ∧ (lo ⟨.i, 4⟩, hi ⟨.i, 4⟩) = (-2147483648, 2147483647) ∧
    (lo ⟨.i, 8⟩, hi ⟨.i, 8⟩) = (-9223372036854775808, 9223372036854775807) ∧ (lo ⟨.b, 1⟩, hi ⟨.b, 1⟩) = (0, 1) ∧
    (lo ⟨.f, 2⟩, hi ⟨.f, 2⟩) = (-65504, 65504) := by decide +kernel

/-- C53: clipping an array of a dtype other than the 64 bit integers to the range of an existing dtype brings every value into that
range and moves values as little as possible, if the largest value of the range is stored exactly. -/
theorem clip_to_range (src dst : DType) (hd : dst ∈ all) (hc : clippable src = true) (hf : BoundFits src dst)
    (v : ℚ) (hv : Holds src v) : clip src v (lo dst) (hi dst) = some (clamp dst v) :=
  clip_eq src dst hd hc hf v hv

/-- C53: clamping yields values in the range, leaves values in the range unchanged, is idempotent and monotone. -/
theorem clamp_laws (d : DType) (hd : d ∈ all) (v w : ℚ) :
    (lo d : ℚ) ≤ clamp d v ∧ clamp d v ≤ hi d ∧ ((lo d : ℚ) ≤ v → v ≤ hi d → clamp d v = v) ∧
    clamp d (clamp d v) = clamp d v ∧ (v ≤ w → clamp d v ≤ clamp d w) := by
  have h := lo_le_hi d hd
  have h' : (lo d : ℚ) ≤ hi d := by exact_mod_cast h
  simp only [clamp]
  refine ⟨?_, ?_, ?_, ?_, ?_⟩
  · exact le_min (le_max_right _ _) h'
  · exact min_le_right _ _
  · intro h1 h2; rw [max_eq_left h1, min_eq_left h2]
  · rw [max_eq_left (le_min (le_max_right _ _) h'), min_eq_left (min_le_right _ _)]
  · intro hvw; exact min_le_min_right _ (max_le_max_right _ hvw)

/-- C53: converting a value to another dtype by `change_dtype_` gives the nearest value of the new dtype: the clamped value, after
rounding it if a float is converted to an integer or bool dtype. -/
theorem change_dtype_partial (src dst : DType) (hd : dst ∈ all) (hne : src ≠ dst) (hc : clippable src = true)
    (hf : BoundFits src dst) (v : ℚ) (hv : Holds src v) :
    ∃ w, changeDtype src dst true v = some w ∧ Holds dst w ∧
      w = clamp dst (if src.kind = .f ∧ dst.kind ≠ .f then (npRound v : ℚ) else v) :=
  changeDtype_eq src dst hd hne hc hf v hv

/-- C53: 64 bit integers cannot be converted with clipping; every other dtype can. -/
theorem change_dtype_accepts (src dst : DType) (hs : src ∈ all) (hne : src ≠ dst) (round : Bool) (v : ℚ) :
    changeDtype src dst round v = none ↔ src = ⟨.i, 8⟩ ∨ src = ⟨.u, 8⟩ := by
  simp only [changeDtype, if_neg hne, Option.map_eq_none_iff, clip]
  simp only [all, List.mem_cons, List.not_mem_nil, or_false] at hs
  rcases hs with rfl | rfl | rfl | rfl | rfl | rfl | rfl | rfl | rfl | rfl | rfl | rfl | rfl <;> simp [clippable]

/-- C53: a value that both dtypes can hold survives the conversion. -/
theorem change_dtype_keeps_partial (src dst : DType) (hd : dst ∈ all) (hc : clippable src = true) (hf : BoundFits src dst)
    (v : ℚ) (hv : Holds src v) (hv' : Holds dst v) : changeDtype src dst true v = some v := by
  by_cases hne : src = dst
  · rw [changeDtype, if_pos hne]
  · obtain ⟨w, h1, _, h2⟩ := change_dtype_partial src dst hd hne hc hf v hv
    rw [h1, h2]
    have : (if src.kind = .f ∧ dst.kind ≠ .f then (npRound v : ℚ) else v) = v := by
      split
      · rename_i h
        obtain ⟨n, rfl⟩ := hv'.2.2 h.2
        simp [npRound]
      · rfl
    rw [this, (clamp_laws dst hd v v).2.2.1 hv'.1 hv'.2.1]

/-- C53: the pairs of dtypes where a bound is not stored exactly: float16 and int16, float32 and the integers of 32 and 64 bits, float64
and the integers of 64 bits. -/
theorem bound_does_not_fit (src dst : DType) (hs : src ∈ all) (hd : dst ∈ all) :
    ¬ BoundFits src dst ↔ (src, dst) ∈ [(⟨.f, 2⟩, ⟨.i, 2⟩), (⟨.f, 4⟩, ⟨.i, 4⟩), (⟨.f, 4⟩, ⟨.i, 8⟩), (⟨.f, 4⟩, ⟨.u, 4⟩), (⟨.f, 4⟩, ⟨.u, 8⟩),
      (⟨.f, 8⟩, ⟨.i, 8⟩), (⟨.f, 8⟩, (⟨.u, 8⟩ : DType))] := by
  have key : ∀ src ∈ all, ∀ dst ∈ all, (¬ BoundFits src dst ↔ (src, dst) ∈ [(⟨.f, 2⟩, ⟨.i, 2⟩), (⟨.f, 4⟩, ⟨.i, 4⟩), (⟨.f, 4⟩, ⟨.i, 8⟩),
      (⟨.f, 4⟩, ⟨.u, 4⟩), (⟨.f, 4⟩, ⟨.u, 8⟩), (⟨.f, 8⟩, ⟨.i, 8⟩), (⟨.f, 8⟩, (⟨.u, 8⟩ : DType))]) := by decide +kernel
  exact key src hs dst hd

/-- C53: for these pairs clipping is not enough: there is a value above the range of the new dtype that `change_dtype_` turns into the
smallest value of the new dtype instead of the largest (if an overflow in C wraps around). -/
theorem change_dtype_overflows (src dst : DType) (hs : src ∈ all) (hd : dst ∈ all) (h : ¬ BoundFits src dst) :
    ∃ v, Holds src v ∧ (hi dst : ℚ) < v ∧ changeDtype src dst true v = some (lo dst : ℚ) := by
  refine ⟨stored src (hi dst), ?_⟩
  rw [bound_does_not_fit src dst hs hd] at h
  simp only [List.mem_cons, List.not_mem_nil, or_false, Prod.mk.injEq] at h
  rcases h with ⟨rfl, rfl⟩ | ⟨rfl, rfl⟩ | ⟨rfl, rfl⟩ | ⟨rfl, rfl⟩ | ⟨rfl, rfl⟩ | ⟨rfl, rfl⟩ | ⟨rfl, rfl⟩ <;>
  refine ⟨⟨?_, ?_, fun h => absurd rfl h⟩, ?_, ?_⟩ <;> decide +kernel

example : changeDtype ⟨.f, 4⟩ ⟨.u, 1⟩ true (511 / 2) = some 255 ∧ changeDtype ⟨.i, 2⟩ ⟨.u, 1⟩ true (-3) = some 0 ∧
    changeDtype ⟨.u, 1⟩ ⟨.i, 1⟩ true 200 = some 127 ∧ changeDtype ⟨.f, 4⟩ ⟨.b, 1⟩ true (2 / 5) = some 0 := by decide +kernel

/-- C53: converting a list of arrays converts every value of every array, gives every array its new dtype and changes no length. -/
theorem change_dtypes_list (images : List (DType × List ℚ)) (dsts : List DType) (round : Bool) (r : List (DType × List ℚ))
    (h : changeDtypes images dsts round = some r) :
    r.length = images.length ∧ ∀ (i : Nat) (s d : DType) (vs : List ℚ), images[i]? = some (s, vs) → dsts[i]? = some d →
      ∃ ws, r[i]? = some (d, ws) ∧ ws.length = vs.length ∧
        ∀ (j : Nat) (v : ℚ), vs[j]? = some v → ∃ w, ws[j]? = some w ∧ changeDtype s d round v = some w := by
  simp only [changeDtypes] at h
  split at h
  · rename_i hl
    refine ⟨by rw [mapM_len _ _ _ h, List.length_zip, ← hl, min_self], ?_⟩
    intro i s d vs h1 h2
    have h3 : (images.zip dsts)[i]? = some ((s, vs), d) := by
      rw [List.getElem?_zip_eq_some]; exact ⟨h1, h2⟩
    obtain ⟨q, h4, h5⟩ := mapM_nth _ _ _ h i _ h3
    simp only [Option.map_eq_some_iff] at h5
    obtain ⟨ws, h6, rfl⟩ := h5
    refine ⟨ws, h4, mapM_len _ _ _ h6, ?_⟩
    intro j v hj
    obtain ⟨w, h7, h8⟩ := mapM_nth _ _ _ h6 j v hj
    exact ⟨w, h7, h8⟩
  · exact absurd h (by simp)

/-- C53: without validation `clip_to_dtype_value_range_` brings all values into the range. -/
theorem clip_to_range_list_partial (src dst : DType) (hd : dst ∈ all) (hc : clippable src = true) (hf : BoundFits src dst)
    (vs : List ℚ) (hv : ∀ v ∈ vs, Holds src v) : clipToRange src dst .no vs = some (vs.map (clamp dst)) := by
  simp only [clipToRange, Bool.not_true, Bool.or_self, Bool.false_eq_true, if_false]
  exact mapM_some _ _ _ (fun v h => clip_to_range src dst hd hc hf v (hv v h))

/-- C53: with full validation it accepts exactly the (non-empty) arrays that are in range already, and changes nothing. -/
theorem clip_to_range_validated (src dst : DType) (hd : dst ∈ all) (hc : clippable src = true) (hf : BoundFits src dst)
    (vs : List ℚ) (hv : ∀ v ∈ vs, Holds src v) :
    (clipToRange src dst .yes vs = some vs ↔ vs ≠ [] ∧ ∀ v ∈ vs, (lo dst : ℚ) ≤ v ∧ v ≤ hi dst) ∧
    (clipToRange src dst .yes vs = none ↔ ¬ (vs ≠ [] ∧ ∀ v ∈ vs, (lo dst : ℚ) ≤ v ∧ v ≤ hi dst)) := by
  cases vs with
  | nil => simp [clipToRange]
  | cons v t =>
    have key := folds_in_range v t (lo dst) (hi dst)
    simp only [clipToRange, Bool.false_or]
    by_cases hok : ∀ x ∈ v :: t, (lo dst : ℚ) ≤ x ∧ x ≤ hi dst
    · have hk := key.mpr hok
      simp only [hk, Bool.not_true, Bool.false_eq_true, if_false]
      have : (v :: t).mapM (fun v => clip src v (lo dst) (hi dst)) = some (v :: t) := by
        rw [mapM_some _ (clamp dst) _ (fun x h => clip_to_range src dst hd hc hf x (hv x h))]
        congr 1
        conv_rhs => rw [← List.map_id (v :: t)]
        exact List.map_congr_left (fun x h => (clamp_laws dst hd x x).2.2.1 (hok x h).1 (hok x h).2)
      rw [this]
      simp only [true_iff, reduceCtorEq, false_iff, not_not]
      exact ⟨⟨by simp, hok⟩, ⟨by simp, hok⟩⟩
    · have hk := Bool.eq_false_iff.mpr (fun h => hok (key.mp h))
      simp only [hk, Bool.not_false, if_true, reduceCtorEq, false_iff, true_iff]
      exact ⟨fun h => hok h.2, fun h => hok h.2⟩

/-- C53: with `validate=n` only the first `n` values are looked at: later values out of range are silently clipped. -/
theorem clip_to_range_first (src dst : DType) (hd : dst ∈ all) (hc : clippable src = true) (hf : BoundFits src dst)
    (n : Nat) (hn : 1 ≤ n) (vs : List ℚ) (hv : ∀ v ∈ vs, Holds src v) (hne : vs ≠ [])
    (hok : ∀ v ∈ vs.take n, (lo dst : ℚ) ≤ v ∧ v ≤ hi dst) :
    clipToRange src dst (.first n) vs = some (vs.map (clamp dst)) := by
  have hm := mapM_some _ (clamp dst) vs (fun v h => clip_to_range src dst hd hc hf v (hv v h))
  cases vs with
  | nil => exact absurd rfl hne
  | cons v t =>
    obtain ⟨m, rfl⟩ : ∃ m, n = m + 1 := ⟨n - 1, by omega⟩
    rw [List.take_succ_cons] at hok
    have hk := (folds_in_range v (t.take m) (lo dst) (hi dst)).mpr hok
    simp only [clipToRange, List.take_succ_cons, hk, Bool.not_true, Bool.or_false]
    rw [if_neg (by simp)]
    exact hm

example : clipToRange ⟨.i, 2⟩ ⟨.u, 1⟩ (.first 2) [5, 6, 300] = some [5, 6, 255] ∧
    clipToRange ⟨.i, 2⟩ ⟨.u, 1⟩ .yes [5, 6, 300] = none := by decide +kernel

/-- C53: increasing the itemsize keeps the kind, multiplies the size and never loses values; it fails for bool, for factors other than
1, 2, 4 and 8, and if no such dtype exists. -/
theorem increase_itemsize (d : DType) (hd : d ∈ all) (factor : Nat) (r : DType) (h : increaseItemsize d factor = some r) :
    r ∈ all ∧ r.kind = d.kind ∧ r.bytes = d.bytes * factor ∧ lo r ≤ lo d ∧ hi d ≤ hi r ∧ ∀ v, Holds d v → Holds r v := by
  have key : ∀ f ∈ [1, 2, 4, 8], ∀ d ∈ all, ⟨d.kind, d.bytes * f⟩ ∈ all → lo ⟨d.kind, d.bytes * f⟩ ≤ lo d ∧
      hi d ≤ hi ⟨d.kind, d.bytes * f⟩ := by decide +kernel
  simp only [increaseItemsize] at h
  split at h
  · rename_i hf
    split at h
    · rename_i hm
      cases h
      obtain ⟨h1, h2⟩ := key factor (by simpa using hf.1) d hd hm
      refine ⟨hm, rfl, rfl, h1, h2, ?_⟩
      rintro v ⟨a, b, c⟩
      exact ⟨le_trans (by exact_mod_cast h1) a, le_trans b (by exact_mod_cast h2), c⟩
    · cases h
  · cases h

example : increaseItemsize ⟨.u, 1⟩ 4 = some ⟨.u, 4⟩ ∧ increaseItemsize ⟨.i, 4⟩ 4 = none ∧ increaseItemsize ⟨.b, 1⟩ 1 = none := by decide

/-- C54: the gate accepts silently if and only if every dtype is allowed, raises an error if and only if some dtype is disallowed (and not
also allowed), and otherwise warns about exactly the dtypes that are neither allowed nor disallowed. -/
theorem gate_exhaustive (dtypes allowed disallowed : List DType) :
    (gate dtypes allowed disallowed = .accepted ↔ ∀ d ∈ dtypes, d ∈ allowed) ∧
    (gate dtypes allowed disallowed = .rejected ↔ ∃ d ∈ dtypes, d ∉ allowed ∧ d ∈ disallowed) ∧
    (∀ ws, gate dtypes allowed disallowed = .warned ws → ws ≠ [] ∧ ∀ d, d ∈ ws ↔ d ∈ dtypes ∧ d ∉ allowed ∧ d ∉ disallowed) := by
  simp only [gate, List.isEmpty_iff, List.filter_eq_nil_iff]
  have hb : ∀ l : List DType, (!l.isEmpty) = true ↔ ∃ d, d ∈ l := by
    intro l; cases l with
    | nil => simp
    | cons a t => simp
  by_cases h1 : ∀ a ∈ dtypes, ¬ (!allowed.contains a) = true
  · rw [if_pos h1]
    have h1' : ∀ d ∈ dtypes, d ∈ allowed := by intro d hd; simpa using h1 d hd
    refine ⟨by simpa using h1', ?_, by simp⟩
    simp only [reduceCtorEq, false_iff]
    rintro ⟨d, hd, hn, _⟩
    exact hn (h1' d hd)
  · rw [if_neg h1]
    have h1' : ¬ ∀ d ∈ dtypes, d ∈ allowed := by
      intro h; apply h1; intro a ha; simpa using h a ha
    by_cases h2 : (!(List.filter (fun d => disallowed.contains d) (List.filter (fun d => !allowed.contains d) dtypes)).isEmpty) = true
    · rw [if_pos h2]
      rw [hb] at h2
      obtain ⟨d, hd⟩ := h2
      simp only [List.mem_filter, Bool.not_eq_true', List.contains_eq_mem, decide_eq_false_iff_not, decide_eq_true_eq] at hd
      refine ⟨by simpa using h1', ?_, by simp⟩
      simp only [true_iff]
      exact ⟨d, hd.1.1, hd.1.2, hd.2⟩
    · rw [if_neg h2]
      rw [hb] at h2
      have h3 : ∀ d ∈ dtypes, d ∉ allowed → d ∉ disallowed := by
        intro d hd ha hx
        apply h2
        refine ⟨d, ?_⟩
        simp only [List.mem_filter, Bool.not_eq_true', List.contains_eq_mem, decide_eq_false_iff_not, decide_eq_true_eq]
        exact ⟨⟨hd, ha⟩, hx⟩
      refine ⟨by simpa using h1', ?_, ?_⟩
      · simp only [reduceCtorEq, false_iff]
        rintro ⟨d, hd, hn, hx⟩
        exact h3 d hd hn hx
      · rintro ws hw
        injection hw with hw
        subst hw
        have hmem : ∀ d, d ∈ List.filter (fun d => !disallowed.contains d) (List.filter (fun d => !allowed.contains d) dtypes) ↔
            d ∈ dtypes ∧ d ∉ allowed ∧ d ∉ disallowed := by
          intro d
          simp only [List.mem_filter, Bool.not_eq_true', List.contains_eq_mem, decide_eq_false_iff_not, and_assoc]
        refine ⟨?_, hmem⟩
        intro he
        apply h1'
        intro d hd
        by_contra hn
        have := (hmem d).mpr ⟨hd, hn, h3 d hd hn⟩
        rw [he] at this
        simp at this

/-- C54: a gate whose allowed and disallowed dtypes overlap is rejected as a programming error; otherwise exactly one of the three
outcomes happens. -/
theorem gate_strs (dtypes allowed disallowed : List DType) :
    (gateStrs dtypes allowed disallowed = none ↔ ∃ d ∈ allowed, d ∈ disallowed) ∧
    (∀ g, gateStrs dtypes allowed disallowed = some g →
      (g = .accepted ↔ ∀ d ∈ dtypes, d ∈ allowed) ∧ (g = .rejected ↔ ∃ d ∈ dtypes, d ∈ disallowed)) := by
  have hempty : (allowed.filter (fun d => disallowed.contains d)).isEmpty = true ↔ ¬ ∃ d ∈ allowed, d ∈ disallowed := by
    simp [List.isEmpty_iff, List.filter_eq_nil_iff]
  simp only [gateStrs]
  constructor
  · split
    · rename_i h; rw [hempty] at h; simp only [reduceCtorEq, false_iff]; exact h
    · rename_i h; rw [hempty, not_not] at h; simp only [true_iff]; exact h
  · intro g hg
    split at hg
    · rename_i h
      rw [hempty] at h
      cases hg
      obtain ⟨h1, h2, _⟩ := gate_exhaustive dtypes allowed disallowed
      refine ⟨h1, h2.trans ⟨?_, ?_⟩⟩
      · rintro ⟨d, hd, _, hx⟩; exact ⟨d, hd, hx⟩
      · rintro ⟨d, hd, hx⟩; exact ⟨d, hd, fun ha => h ⟨d, ha, hx⟩, hx⟩
    · cases hg

/-- C54: the dtypes that cannot be clipped are those that the gate of `clip_` rejects. -/
theorem clip_gate (d : DType) (hd : d ∈ all) :
    (gateStrs [d] [⟨.b, 1⟩, ⟨.u, 1⟩, ⟨.u, 2⟩, ⟨.u, 4⟩, ⟨.i, 1⟩, ⟨.i, 2⟩, ⟨.i, 4⟩, ⟨.f, 2⟩, ⟨.f, 4⟩, ⟨.f, 8⟩, ⟨.f, 16⟩] [⟨.u, 8⟩, ⟨.i, 8⟩] =
      some (if clippable d then .accepted else .rejected)) := by
  revert hd; revert d; decide +kernel

example : gateStrs [⟨.u, 1⟩, ⟨.f, 2⟩] [⟨.u, 1⟩] [⟨.i, 8⟩] = some (.warned [⟨.f, 2⟩]) ∧
    gateStrs [⟨.u, 1⟩, ⟨.f, 2⟩] [⟨.u, 1⟩] [⟨.f, 2⟩] = some .rejected := by decide

end Imgaug.Dtypes
