import Verif.Spec.Dtypes
import Verif.Proofs.Num
/-! Helpers for Props/Dtypes.lean. -/
namespace Imgaug.Dtypes
open Imgaug

theorem lo_le_hi (d : DType) (hd : d ∈ all) : lo d ≤ hi d := by
  revert hd; revert d; decide +kernel

theorem clip_eq (src dst : DType) (hd : dst ∈ all) (hc : clippable src = true) (hf : BoundFits src dst)
    (v : ℚ) (hv : Holds src v) : clip src v (lo dst) (hi dst) = some (clamp dst v) := by
  obtain ⟨h1, h2, _⟩ := hv
  simp only [clip, hc, if_true, npClip, clamp]
  congr 1
  have hlh : (lo dst : ℚ) ≤ hi dst := by exact_mod_cast lo_le_hi dst hd
  split_ifs with ha hb hb
  · have h3 : (lo dst : ℚ) < lo src := by exact_mod_cast hb
    have h4 : (hi src : ℚ) < hi dst := by exact_mod_cast ha
    simp only; rw [max_eq_left (by linarith), min_eq_left (by linarith)]
  · have h4 : (hi src : ℚ) < hi dst := by exact_mod_cast ha
    simp only; rw [hf.1 (not_lt.mp hb), min_eq_left (max_le (by linarith) hlh)]
  · have h3 : (lo dst : ℚ) < lo src := by exact_mod_cast hb
    simp only; rw [hf.2 (not_lt.mp ha), max_eq_left (by linarith)]
  · simp only; rw [hf.1 (not_lt.mp hb), hf.2 (not_lt.mp ha)]

theorem wrap_id (d : DType) (n : Int) (h1 : lo d ≤ n) (h2 : n ≤ hi d) : wrap d n = n := by
  rw [wrap, Int.emod_eq_of_lt (by omega) (by omega)]; omega

theorem pyInt_intCast (n : Int) : pyInt (n : ℚ) = n := by
  rw [pyInt]; split
  · rw [show (-(n : ℚ)) = ((-n : Int) : ℚ) by push_cast; ring, Int.floor_intCast]; omega
  · rw [Int.floor_intCast]

theorem clamp_int (d : DType) (n : Int) : clamp d (n : ℚ) = ((min (max n (lo d)) (hi d) : Int) : ℚ) := by
  simp only [clamp]; push_cast; rfl

theorem clamp_range (d : DType) (hd : d ∈ all) (v : ℚ) : (lo d : ℚ) ≤ clamp d v ∧ clamp d v ≤ hi d := by
  have h' : (lo d : ℚ) ≤ hi d := by exact_mod_cast lo_le_hi d hd
  exact ⟨le_min (le_max_right _ _) h', min_le_right _ _⟩

theorem bool_range (d : DType) (h : d.kind = .b) : lo d = 0 ∧ hi d = 1 := by simp [lo, hi, h]

/-- Converting an integer in range to a dtype changes nothing. -/
theorem astype_int (d : DType) (n : Int) (h1 : lo d ≤ n) (h2 : n ≤ hi d) : astype d (n : ℚ) = n := by
  simp only [astype]
  split
  · rw [pyInt_intCast, wrap_id d n h1 h2]
  · rw [pyInt_intCast, wrap_id d n h1 h2]
  · rename_i hk
    obtain ⟨a, b⟩ := bool_range d hk
    rw [a] at h1; rw [b] at h2
    have : n = 0 ∨ n = 1 := by omega
    rcases this with rfl | rfl <;> simp
  · rfl

theorem npRound_holds (d : DType) (v : ℚ) (h1 : (lo d : ℚ) ≤ v) (h2 : v ≤ hi d) :
    lo d ≤ npRound v ∧ npRound v ≤ hi d := ⟨Props.le_npRound h1, Props.npRound_le h2⟩

theorem changeDtype_eq (src dst : DType) (hd : dst ∈ all) (hne : src ≠ dst) (hc : clippable src = true)
    (hf : BoundFits src dst) (v : ℚ) (hv : Holds src v) :
    ∃ w, changeDtype src dst true v = some w ∧ Holds dst w ∧
      w = clamp dst (if src.kind = .f ∧ dst.kind ≠ .f then (npRound v : ℚ) else v) := by
  have hcond : ((true && src.kind == .f && dst.kind != .f) = true) ↔ (src.kind = .f ∧ dst.kind ≠ .f) := by simp
  obtain ⟨x, hx⟩ : ∃ x, x = (if src.kind = .f ∧ dst.kind ≠ .f then (npRound v : ℚ) else v) := ⟨_, rfl⟩
  have hx2 : (if (true && src.kind == .f && dst.kind != .f) = true then (npRound v : ℚ) else v) = x := by
    rw [hx]; simp only [hcond]
  have hxh : Holds src x := by
    rw [hx]
    split
    · rename_i h
      obtain ⟨a, b⟩ := npRound_holds src v hv.1 hv.2.1
      exact ⟨by exact_mod_cast a, by exact_mod_cast b, fun _ => ⟨_, rfl⟩⟩
    · exact hv
  rw [changeDtype, if_neg hne]
  simp only [hx2, clip_eq src dst hd hc hf x hxh, Option.map_some, Option.some.injEq, exists_eq_left', ← hx]
  obtain ⟨r1, r2⟩ := clamp_range dst hd x
  by_cases hk : dst.kind = .f
  · have : astype dst (clamp dst x) = clamp dst x := by simp [astype, hk]
    rw [this]
    exact ⟨⟨r1, r2, fun h => absurd hk h⟩, rfl⟩
  · obtain ⟨n, hn⟩ : ∃ n : Int, x = n := by
      rw [hx]
      by_cases hs' : src.kind = .f
      · rw [if_pos ⟨hs', hk⟩]; exact ⟨_, rfl⟩
      · rw [if_neg (fun h => hs' h.1)]; exact hv.2.2 hs'
    rw [hn, clamp_int] at r1 r2 ⊢
    have r1' : lo dst ≤ min (max n (lo dst)) (hi dst) := by exact_mod_cast r1
    have r2' : min (max n (lo dst)) (hi dst) ≤ hi dst := by exact_mod_cast r2
    rw [astype_int dst _ r1' r2']
    exact ⟨⟨r1, r2, fun _ => ⟨_, rfl⟩⟩, rfl⟩

theorem mapM_len {α β : Type} (f : α → Option β) : ∀ (l : List α) (r : List β), l.mapM f = some r → r.length = l.length := by
  intro l
  induction l with
  | nil => intro r h; simp at h; simp [← h]
  | cons a t ih =>
    intro r h
    simp only [List.mapM_cons, Option.bind_eq_bind, Option.bind_eq_some_iff, Option.pure_def, Option.some.injEq] at h
    obtain ⟨b, _, bs, h2, rfl⟩ := h
    simp [ih bs h2]

theorem mapM_nth {α β : Type} (f : α → Option β) : ∀ (l : List α) (r : List β), l.mapM f = some r → ∀ (i : Nat) (a : α), l[i]? = some a →
    ∃ b, r[i]? = some b ∧ f a = some b := by
  intro l
  induction l with
  | nil => intro r _ i a h; simp at h
  | cons a t ih =>
    intro r h i x hx
    simp only [List.mapM_cons, Option.bind_eq_bind, Option.bind_eq_some_iff, Option.pure_def, Option.some.injEq] at h
    obtain ⟨b, h1, bs, h2, rfl⟩ := h
    cases i with
    | zero => simp only [List.getElem?_cons_zero, Option.some.injEq] at hx; subst hx; exact ⟨b, rfl, h1⟩
    | succ i => rw [List.getElem?_cons_succ] at hx; obtain ⟨c, h3, h4⟩ := ih bs h2 i x hx; exact ⟨c, by simpa using h3, h4⟩

theorem mapM_some {α β : Type} (f : α → Option β) (g : α → β) : ∀ (l : List α), (∀ a ∈ l, f a = some (g a)) → l.mapM f = some (l.map g) := by
  intro l
  induction l with
  | nil => intro _; rfl
  | cons a t ih =>
    intro h
    rw [List.mapM_cons, h a (by simp), ih (fun x hx => h x (by simp [hx]))]; rfl

theorem foldl_min_le (t : List ℚ) : ∀ v : ℚ, (∀ (L : ℚ), L ≤ t.foldl min v ↔ L ≤ v ∧ ∀ x ∈ t, L ≤ x) := by
  induction t with
  | nil => simp
  | cons a t ih => intro v L; simp only [List.foldl_cons, ih, le_min_iff, List.mem_cons, forall_eq_or_imp, and_assoc]

theorem foldl_max_le (t : List ℚ) : ∀ v : ℚ, (∀ (L : ℚ), t.foldl max v ≤ L ↔ v ≤ L ∧ ∀ x ∈ t, x ≤ L) := by
  induction t with
  | nil => simp
  | cons a t ih => intro v L; simp only [List.foldl_cons, ih, max_le_iff, List.mem_cons, forall_eq_or_imp, and_assoc]

theorem foldl_min_mem (t : List ℚ) (v : ℚ) : t.foldl min v ≤ v := ((foldl_min_le t v _).mp le_rfl).1
theorem foldl_max_mem (t : List ℚ) (v : ℚ) : v ≤ t.foldl max v := ((foldl_max_le t v _).mp le_rfl).1

theorem folds_in_range (v : ℚ) (t : List ℚ) (L H : Int) :
    ((decide ((L : ℚ) ≤ t.foldl min v) && decide (t.foldl min v ≤ (H : ℚ)) && decide ((L : ℚ) ≤ t.foldl max v) && decide (t.foldl max v ≤ (H : ℚ))) = true)
      ↔ ∀ x ∈ v :: t, (L : ℚ) ≤ x ∧ x ≤ H := by
  simp only [Bool.and_eq_true, decide_eq_true_eq]
  constructor
  · rintro ⟨⟨⟨h1, _⟩, _⟩, h4⟩ x hx
    rw [foldl_min_le] at h1
    rw [foldl_max_le] at h4
    rcases List.mem_cons.mp hx with rfl | hx
    · exact ⟨h1.1, h4.1⟩
    · exact ⟨h1.2 x hx, h4.2 x hx⟩
  · intro h
    have hv := h v (by simp)
    have a : (L : ℚ) ≤ t.foldl min v := by rw [foldl_min_le]; exact ⟨hv.1, fun x hx => (h x (by simp [hx])).1⟩
    have b : t.foldl max v ≤ (H : ℚ) := by rw [foldl_max_le]; exact ⟨hv.2, fun x hx => (h x (by simp [hx])).2⟩
    exact ⟨⟨⟨a, le_trans (foldl_min_mem t v) hv.2⟩, le_trans hv.1 (foldl_max_mem t v)⟩, b⟩

end Imgaug.Dtypes
