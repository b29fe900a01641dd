import Verif.Spec.Invert
import Verif.Proofs.Dtypes
import Mathlib.Tactic.SplitIfs
/-! Helpers for Props/Invert.lean. -/
namespace Imgaug.Invert
open Imgaug Imgaug.Dtypes

/-- The cached tables are those that would be generated. -/
def Good (c : Cache) : Prop := ∀ p ∈ c, p.2 = table 0 255 p.1.1 p.1.2

theorem lookup_mem {α β : Type} [BEq α] [LawfulBEq α] (k : α) (v : β) : ∀ l : List (α × β), l.lookup k = some v → (k, v) ∈ l := by
  intro l
  induction l with
  | nil => intro h; simp at h
  | cons a t ih =>
    intro h
    rw [List.lookup_cons] at h
    split at h
    · rename_i hk
      have h1 := eq_of_beq hk
      simp only [Option.some.injEq] at h
      subst h1; subst h
      exact List.mem_cons_self
    · exact List.mem_cons_of_mem _ (ih h)

theorem getTable_good (c : Cache) (hc : Good c) (mn mx : ℚ) (t : Option ℚ) (ab : Bool) :
    (getTable c mn mx t ab).1 = table mn mx t ab ∧ Good (getTable c mn mx t ab).2 := by
  rw [getTable]
  split
  · rename_i h
    obtain ⟨rfl, rfl⟩ := h
    split
    · rename_i tab h
      exact ⟨hc _ (lookup_mem _ _ _ h), hc⟩
    · refine ⟨rfl, ?_⟩
      intro p hp
      rcases List.mem_cons.mp hp with rfl | hp
      · rfl
      · exact hc p hp
  · exact ⟨rfl, hc⟩

theorem invertUint8_good (c : Cache) (hc : Good c) (shape : List Nat) (mn mx : ℚ) (t : Option ℚ) (ab : Bool) (vals : List ℚ) :
    (invertUint8 c shape mn mx t ab vals).1 = (invertUint8 [] shape mn mx t ab vals).1 ∧
      Good (invertUint8 c shape mn mx t ab vals).2 := by
  rw [invertUint8, invertUint8]
  split
  · exact ⟨rfl, hc⟩
  · have h1 := getTable_good c hc mn mx t ab
    have h2 := getTable_good [] (by intro p hp; simp at hp) mn mx t ab
    simp only [h1.1, h2.1]
    exact ⟨trivial, h1.2⟩

theorem invert_good (c : Cache) (hc : Good c) (d : DType) (a : Args) (shape : List Nat) (vals : List ℚ) :
    (invert c d a shape vals).1 = (invert [] d a shape vals).1 ∧ Good (invert c d a shape vals).2 := by
  rw [invert, invert]
  split
  · exact ⟨rfl, hc⟩
  · simp only
    split
    · split
      · exact invertUint8_good c hc shape _ _ _ _ _
      · cases a.threshold <;> exact ⟨rfl, hc⟩
    · exact ⟨rfl, hc⟩

theorem customAllowed_iff (d : DType) (hd : d ∈ all) :
    (d ∈ customAllowed) ↔ (d.kind ≠ .b ∧ (d.bytes ≤ 2 ∨ d.bytes = 4)) := by
  revert hd; revert d; decide +kernel

theorem accepted_iff (d : DType) (hd : d ∈ all) (a : Args) : accepted d (lower d a) (upper d a) = true ↔ Acceptable d a := by
  simp only [accepted, Acceptable, Bool.and_eq_true, Bool.or_eq_true, decide_eq_true_eq, ge_iff_le, customAllowed_iff d hd]
  tauto

theorem arange_length : arange.length = 256 := by simp [arange]

theorem tableInv_length (mn mx : ℚ) : (tableInv mn mx).length = 256 := by
  rw [tableInv]; split <;> simp [arange_length]

theorem arange_get (n : Nat) (hn : n < 256) : arange[n]? = some (n : ℚ) := by simp [arange, List.getElem?_range hn]

theorem tableInv_get (mn mx : ℚ) (n : Nat) (hn : n < 256) :
    (tableInv mn mx)[n]? = some (clipQ (mx - |(n : ℚ) - mn|) mn mx) := by
  rw [tableInv]
  split
  · rename_i h
    obtain ⟨rfl, rfl⟩ := h
    rw [List.getElem?_map, List.getElem?_reverse (by rw [arange_length]; exact hn), arange_length, arange_get _ (by omega)]
    simp only [Option.map_some, sub_zero]
    rw [abs_of_nonneg (by positivity), show 256 - 1 - n = 255 - n by omega, Nat.cast_sub (by omega)]
    norm_num
  · rw [List.getElem?_map, List.getElem?_map, arange_get _ hn]; rfl

theorem table_length (mn mx : ℚ) (t : Option ℚ) (ab : Bool) : (table mn mx t ab).length = 256 := by
  have h0 := arange_length
  have h1 := tableInv_length mn mx
  cases t with
  | none => exact h1
  | some t =>
    simp only [table, sliceTo, sliceFrom, h0, h1]
    split <;> split <;> simp only [List.length_append, List.length_take, List.length_drop, h0, h1] <;> omega

theorem table_threshold (mn mx t : ℚ) (ab : Bool) (k : Nat) (hk : t = k) (n : Nat) (hn : n < 256) :
    (table mn mx (some t) ab)[n]? = some (if (ab = true ↔ t ≤ (n : ℚ)) then clipQ (mx - |(n : ℚ) - mn|) mn mx else (n : ℚ)) := by
  have hp : pyInt t = k := by rw [hk]; exact_mod_cast pyInt_intCast (k : Int)
  have hb := tableInv_get mn mx n hn
  have hl := tableInv_length mn mx
  have hiff : (t ≤ (n : ℚ)) ↔ k ≤ n := by rw [hk]; exact_mod_cast Iff.rfl
  have h0 := arange_length
  have h0' := arange_get n hn
  simp only [table, hp, sliceTo, sliceFrom, Nat.cast_nonneg, if_true, Int.toNat_natCast]
  simp only [hiff]
  have app : ∀ a b : List ℚ, a.length = 256 → b.length = 256 → (a.take k ++ b.drop k)[n]? = if n < k then a[n]? else b[n]? := by
    intro a b ha hb'
    by_cases h : n < k
    · rw [List.getElem?_append_left (by simp; omega), if_pos h, List.getElem?_take, if_pos h]
    · rw [List.getElem?_append_right (by simp; omega), if_neg h, List.getElem?_drop]
      congr 1
      simp; omega
  cases ab
  · rw [if_neg (by simp), app _ _ hl h0]
    by_cases h : n < k
    · rw [if_pos h, if_pos (by simp; omega), hb]
    · rw [if_neg h, if_neg (by simp; omega), h0']
  · rw [if_pos rfl, app _ _ h0 hl]
    by_cases h : n < k
    · rw [if_pos h, if_neg (by simp; omega), h0']
    · rw [if_neg h, if_pos (by simp; omega), hb]

theorem clip_mid {v a b : ℚ} (h1 : a ≤ v) (h2 : v ≤ b) : clipQ v a b = v := by
  rw [clipQ, max_eq_left h1, min_eq_left h2]

theorem clip_range {v a b : ℚ} (h : a ≤ b) : a ≤ clipQ v a b ∧ clipQ v a b ≤ b :=
  ⟨le_min (le_max_right _ _) h, min_le_right _ _⟩

theorem dist_mid (d : DType) {v a b : ℚ} (h1 : a ≤ v) (h2 : v ≤ b) : byDistance d a b (clipQ v a b) = mirror a b v := by
  rw [clip_mid h1 h2, byDistance, abs_of_nonneg (by linarith)]
  simp only [mirror]
  split
  · rw [clip_mid (by linarith) (by linarith)]; ring
  · ring

theorem holds_u8 {v : ℚ} (h : Holds ⟨.u, 1⟩ v) : ∃ n : Nat, n < 256 ∧ v = n ∧ (pyInt v).toNat = n := by
  obtain ⟨h1, h2, h3⟩ := h
  obtain ⟨n, rfl⟩ := h3 (by simp)
  have e1 : lo ⟨.u, 1⟩ = 0 := by decide +kernel
  have e2 : hi ⟨.u, 1⟩ = 255 := by decide +kernel
  rw [e1] at h1; rw [e2] at h2
  have h1' : 0 ≤ n := by exact_mod_cast h1
  have h2' : n ≤ 255 := by exact_mod_cast h2
  refine ⟨n.toNat, by omega, ?_, ?_⟩
  · have : ((n.toNat : Int) : ℚ) = (n : ℚ) := by rw [Int.toNat_of_nonneg h1']
    rw [← this]; rfl
  · rw [pyInt_intCast]

theorem lookup_all (mn mx : ℚ) (t : Option ℚ) (ab : Bool) (f : ℚ → ℚ) (vals : List ℚ)
    (hv : ∀ v ∈ vals, Holds ⟨.u, 1⟩ v) (hf : ∀ n : Nat, n < 256 → (n : ℚ) ∈ vals → (table mn mx t ab)[n]? = some (f n)) :
    vals.mapM (fun v => (table mn mx t ab)[(pyInt v).toNat]?) = some (vals.map f) := by
  apply mapM_some
  intro v hm
  obtain ⟨n, h1, h2, h3⟩ := holds_u8 (hv v hm)
  rw [h3, hf n h1 (h2 ▸ hm), h2]

end Imgaug.Invert
namespace Imgaug.Invert
open Imgaug Imgaug.Dtypes

/-- The inversion of one component without threshold. -/
def inv1 (d : DType) (mn mx v : ℚ) : ℚ :=
  if d = ⟨.u, 1⟩ then clipQ (mx - |v - mn|) mn mx else (invertOther d mn mx v).getD 0

theorem other_some (d : DType) (hd : d ∈ all) (a : Args) (ha : Acceptable d a) (v : ℚ) :
    invertOther d (lower d a) (upper d a) v = some ((invertOther d (lower d a) (upper d a) v).getD 0) := by
  obtain ⟨h1, h2, h3, h4⟩ := ha
  rw [invertOther]
  rcases d with ⟨k, n⟩
  cases k
  · simp only; split <;> rfl
  · simp only; split <;> rfl
  · simp only
    have : lower ⟨.b, n⟩ a = 0 ∧ upper ⟨.b, n⟩ a = 1 := by
      rcases h4 with ⟨h5, h6⟩ | ⟨h5, _⟩
      · rw [h5, h6]; simp [lo, hi]
      · simp at h5
    rw [if_pos this]; rfl
  · simp only; split <;> rfl

theorem u8_bounds : lo ⟨.u, 1⟩ = 0 ∧ hi ⟨.u, 1⟩ = 255 := by decide +kernel

theorem invert_none (c : Cache) (hc : Good c) (d : DType) (hd : d ∈ all) (a : Args) (hf : Fits d a) (ha : Acceptable d a) (shape : List Nat)
    (ht : a.threshold = none) (vals : List ℚ) (hv : ∀ v ∈ vals, Holds d v) :
    (invert c d a shape vals).1 = some (vals.map (inv1 d (lower d a) (upper d a))) := by
  rw [(invert_good c hc d a shape vals).1, invert]
  split
  · rename_i h; rw [List.length_eq_zero_iff] at h; subst h; rfl
  · have hacc := (accepted_iff d hd a).mpr ha
    simp only [lower, upper] at hacc
    simp only [hacc, if_true]
    split
    · rename_i hu
      subst hu
      obtain ⟨e1, e2⟩ := u8_bounds
      obtain ⟨h1, h2, h3, _⟩ := ha
      have hint := hf (by simp)
      rw [e1] at h1; rw [e2] at h2
      have hfun : ∀ v, inv1 ⟨.u, 1⟩ (lower ⟨.u, 1⟩ a) (upper ⟨.u, 1⟩ a) v =
          clipQ (upper ⟨.u, 1⟩ a - |v - lower ⟨.u, 1⟩ a|) (lower ⟨.u, 1⟩ a) (upper ⟨.u, 1⟩ a) := by intro v; simp [inv1]
      change (invertUint8 [] shape (lower ⟨.u, 1⟩ a) (upper ⟨.u, 1⟩ a) a.threshold a.above vals).1 = _
      rw [invertUint8]
      split
      · rename_i hcv
        have hmin : lower ⟨.u, 1⟩ a = 0 := by
          simp only [validForCv2, Bool.and_eq_true, beq_iff_eq] at hcv; exact hcv.1.1.2
        refine congrArg some (List.map_congr_left ?_)
        intro v hm
        obtain ⟨n, hn, rfl, _⟩ := holds_u8 (hv v hm)
        obtain ⟨M, hM⟩ := hint.2
        rw [hfun, hmin, hM, pyInt_intCast, sub_zero, abs_of_nonneg (by positivity), clipQ, clipQ]
        rw [hM] at h2
        have hM0 : (0 : ℚ) < M := by rw [hmin, hM] at h3; exact h3
        have hn0 : (0 : ℚ) ≤ n := by positivity
        push_cast at h2
        rw [min_eq_left, min_eq_left]
        · exact max_le (by linarith) (by linarith)
        · exact max_le (by linarith) (by linarith)
      · have hg := getTable_good [] (by intro p hp; simp at hp) (lower ⟨.u, 1⟩ a) (upper ⟨.u, 1⟩ a) a.threshold a.above
        rw [ht] at hg ⊢
        simp only [hg.1]
        apply lookup_all _ _ _ _ _ _ hv
        intro n hn _
        rw [hfun]
        exact tableInv_get _ _ n hn
    · rename_i hu
      rw [ht]
      simp only
      apply mapM_some
      intro v _
      rw [inv1, if_neg hu]
      exact other_some d hd a ha v

theorem invert_some (c : Cache) (hc : Good c) (d : DType) (hd : d ∈ all) (a : Args) (ha : Acceptable d a) (shape : List Nat)
    (t : ℚ) (ht : a.threshold = some t) (hu : d = ⟨.u, 1⟩ → ∃ k : Nat, t = k) (vals : List ℚ) (hv : ∀ v ∈ vals, Holds d v) :
    (invert c d a shape vals).1 = some (vals.map (fun v => if (a.above = true ↔ t ≤ v) then inv1 d (lower d a) (upper d a) v else v)) := by
  rw [(invert_good c hc d a shape vals).1, invert]
  split
  · rename_i h; rw [List.length_eq_zero_iff] at h; subst h; rfl
  · have hacc := (accepted_iff d hd a).mpr ha
    simp only [lower, upper] at hacc
    simp only [hacc, if_true]
    split
    · rename_i hu'
      obtain ⟨k, hk⟩ := hu hu'
      subst hu'
      change (invertUint8 [] shape (lower ⟨.u, 1⟩ a) (upper ⟨.u, 1⟩ a) a.threshold a.above vals).1 = _
      rw [invertUint8, if_neg (by rw [ht]; simp [validForCv2])]
      have hg := getTable_good [] (by intro p hp; simp at hp) (lower ⟨.u, 1⟩ a) (upper ⟨.u, 1⟩ a) a.threshold a.above
      rw [ht] at hg ⊢
      simp only [hg.1]
      apply lookup_all _ _ _ _ _ _ hv
      intro n hn _
      rw [table_threshold _ _ _ _ k hk n hn]
      simp [inv1]
    · rename_i hu'
      rw [ht]
      simp only
      apply mapM_some
      intro v _
      have := other_some d hd a ha v
      simp only [lower, upper] at this
      rw [this]
      simp only [Option.map_some, Option.some.injEq, inv1, if_neg hu', lower, upper]
      cases a.above
      · by_cases h : t ≤ v
        · simp [h]
        · simp [h, not_le.mp h]
      · by_cases h : t ≤ v <;> simp [h]

theorem inv1_mid (d : DType) (hd : d ∈ all) (a : Args) (ha : Acceptable d a) (v : ℚ) (hv : Holds d v)
    (h1 : lower d a ≤ v) (h2 : v ≤ upper d a) :
    inv1 d (lower d a) (upper d a) v = mirror (lower d a) (upper d a) v ∨
      (d.kind = .f ∧ |lower d a + upper d a| ≤ 1 / 100000000 ∧ inv1 d (lower d a) (upper d a) v = -v) := by
  rw [inv1]
  split
  · left
    rw [abs_of_nonneg (by linarith), clip_mid (by linarith) (by linarith), mirror]; ring
  · have hb := ha.2.2.2
    rw [invertOther]
    rcases d with ⟨k, n⟩
    cases k
    · left
      simp only
      split
      · rename_i h
        simp only [Option.getD_some, mirror]
        split
        · rename_i h'; linarith
        · linarith
      · exact (Option.getD_some ..).trans (dist_mid _ h1 h2)
    · left
      simp only
      split
      · rename_i h
        simp only [Option.getD_some, mirror]
        linarith [h.1]
      · exact (Option.getD_some ..).trans (dist_mid _ h1 h2)
    · left
      simp only
      have : lower ⟨.b, n⟩ a = 0 ∧ upper ⟨.b, n⟩ a = 1 := by
        rcases hb with ⟨h5, h6⟩ | ⟨h5, _⟩
        · rw [h5, h6]; simp [lo, hi]
        · simp at h5
      rw [this.1] at h1; rw [this.2] at h2
      rw [if_pos this, this.1, this.2]
      obtain ⟨m, hm⟩ := hv.2.2 (by simp)
      have hm1 : (0 : ℚ) ≤ m := by rw [← hm]; exact h1
      have hm2 : (m : ℚ) ≤ 1 := by rw [← hm]; exact h2
      have hm1' : 0 ≤ m := by exact_mod_cast hm1
      have hm2' : m ≤ 1 := by exact_mod_cast hm2
      have : m = 0 ∨ m = 1 := by omega
      rcases this with rfl | rfl <;> simp [hm, mirror]
    · simp only
      split
      · rename_i h
        right
        refine ⟨trivial, ?_, by simp⟩
        rw [show lower ⟨.f, n⟩ a + upper ⟨.f, n⟩ a = upper ⟨.f, n⟩ a - -1 * lower ⟨.f, n⟩ a by ring]
        exact h
      · left; exact (Option.getD_some ..).trans (dist_mid _ h1 h2)

theorem inv1_holds (d : DType) (hd : d ∈ all) (a : Args) (hf : Fits d a) (ha : Acceptable d a) (v : ℚ) (hv : Holds d v)
    (h1 : lower d a ≤ v) (h2 : v ≤ upper d a) : Holds d (inv1 d (lower d a) (upper d a) v) := by
  have a1 := ha.1
  have a2 := ha.2.1
  rcases inv1_mid d hd a ha v hv h1 h2 with h | ⟨hk, _, h⟩
  · rw [h, mirror]
    refine ⟨by linarith, by linarith, ?_⟩
    intro hk
    obtain ⟨⟨m, hm⟩, n, hn⟩ := hf hk
    obtain ⟨k, hk⟩ := hv.2.2 hk
    exact ⟨m + n - k, by rw [hm, hn, hk]; push_cast; ring⟩
  · rw [h]
    have e : ∀ d ∈ all, d.kind = .f → lo d = -hi d := by decide +kernel
    have e' : (lo d : ℚ) = -hi d := by exact_mod_cast e d hd hk
    obtain ⟨v1, v2, _⟩ := hv
    exact ⟨by linarith, by linarith, fun h => absurd hk h⟩

end Imgaug.Invert
