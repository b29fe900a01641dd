import Verif.Spec.Handle
import Verif.Proofs.Params
/-! Lemmas for Props/Handle.lean. -/
namespace Imgaug.Params
open Imgaug Imgaug.Dtypes
variable {σ : Type}

theorem mapM_asNum (fl : Bool) : ∀ (l : List Atom) (ns : List Num), l.mapM (asNumOrInt fl) = some ns ↔
    l = ns.map Atom.num ∧ ∀ n ∈ ns, fl = true ∨ n.isInt = true := by
  intro l
  induction l with
  | nil =>
    intro ns
    simp only [List.mapM_nil, Option.pure_def, Option.some.injEq]
    constructor
    · rintro rfl; simp
    · rintro ⟨h, -⟩; cases ns with
      | nil => rfl
      | cons a t => simp at h
  | cons a l ih =>
    intro ns
    simp only [List.mapM_cons, Option.bind_eq_bind, Option.bind_eq_some_iff, Option.pure_def, Option.some.injEq]
    constructor
    · rintro ⟨n, h1, t, h2, rfl⟩
      obtain ⟨e, h⟩ := (ih t).mp h2
      cases a <;> simp only [asNumOrInt, reduceCtorEq] at h1
      split_ifs at h1 with c
      simp only [Option.some.injEq] at h1
      subst h1
      refine ⟨by rw [List.map_cons, e], fun m hm => ?_⟩
      rcases List.mem_cons.mp hm with rfl | hm
      · simpa using c
      · exact h m hm
    · rintro ⟨e, h⟩
      cases ns with
      | nil => simp at e
      | cons n t =>
        simp only [List.map_cons, List.cons.injEq] at e
        obtain ⟨rfl, e⟩ := e
        refine ⟨n, ?_, t, (ih t).mpr ⟨e, fun m hm => h m (List.mem_cons_of_mem _ hm)⟩, rfl⟩
        have := h n List.mem_cons_self
        simp only [asNumOrInt, Bool.or_eq_true, if_pos this]

theorem asNum_eq : asNum = asNumOrInt true := by
  funext a; cases a <;> simp [asNum, asNumOrInt]

theorem mapM_num (l : List Atom) (ns : List Num) : l.mapM asNum = some ns ↔ l = ns.map Atom.num := by
  rw [asNum_eq, mapM_asNum]; simp

theorem allNum_iff (fl : Bool) (l : List Atom) : (∀ a ∈ l, ∃ n : Num, a = .num n ∧ (fl = true ∨ n.isInt = true)) ↔
    ∃ ns : List Num, l = ns.map Atom.num ∧ ∀ n ∈ ns, fl = true ∨ n.isInt = true := by
  constructor
  · intro h
    induction l with
    | nil => exact ⟨[], rfl, by simp⟩
    | cons a l ih =>
      obtain ⟨ns, e, h2⟩ := ih (fun b hb => h b (List.mem_cons_of_mem _ hb))
      obtain ⟨n, e1, h1⟩ := h a List.mem_cons_self
      refine ⟨n :: ns, by rw [List.map_cons, ← e, e1], fun m hm => ?_⟩
      rcases List.mem_cons.mp hm with rfl | hm
      · exact h1
      · exact h2 m hm
  · rintro ⟨ns, rfl, h⟩ a ha
    obtain ⟨n, hn, rfl⟩ := List.mem_map.mp ha
    exact ⟨n, rfl, h n hn⟩

theorem mem_numbers_map (n : Num) (ns : List Num) : Atom.num n ∈ ns.map Atom.num ↔ n ∈ ns := by
  constructor
  · intro h
    obtain ⟨m, hm, e⟩ := List.mem_map.mp h
    cases e; exact hm
  · exact fun h => List.mem_map_of_mem h

theorem pyInt_le {q : ℚ} {n : Int} (h : q ≤ n) : pyInt q ≤ n := by
  have h1 : (n : ℚ) < 0 ∨ 0 ≤ (n : ℚ) := lt_or_ge _ _
  rw [pyInt]
  split_ifs with c
  · have : -n ≤ ⌊-q⌋ := Int.le_floor.mpr (by push_cast; linarith)
    omega
  · have : (⌊q⌋ : ℚ) ≤ n := (Int.floor_le q).trans h
    exact_mod_cast this

theorem le_pyInt {q : ℚ} {n : Int} (h : (n : ℚ) ≤ q) : n ≤ pyInt q := by
  rw [pyInt]
  split_ifs with c
  · have : (⌊-q⌋ : ℚ) ≤ -n := (Int.floor_le _).trans (by linarith)
    have : ⌊-q⌋ ≤ -n := by exact_mod_cast this
    omega
  · exact Int.le_floor.mpr h

theorem deterministic_yields (n : Num) (h : n.Fits) : Yields (deterministic n.isInt n.q : Param σ) {n.q} := by
  intro size s r s' hd v hv
  simp only [deterministic, full, Option.some.injEq, Prod.mk.injEq] at hd
  rw [← hd.1] at hv
  rw [List.eq_of_mem_replicate hv]
  exact astype_holds n.q h

theorem fits_f32 {n : Num} (h : n.Fits) : Holds f32 n.q := by
  simp only [Num.Fits] at h
  split_ifs at h with c
  · obtain ⟨h1, h2, -⟩ := h
    have a : ((lo f32 : Int) : ℚ) ≤ (lo i32 : Int) := by exact_mod_cast (by decide +kernel : lo f32 ≤ lo i32)
    have b : ((hi i32 : Int) : ℚ) ≤ (hi f32 : Int) := by exact_mod_cast (by decide +kernel : hi i32 ≤ hi f32)
    exact ⟨a.trans h1, h2.trans b, fun hk => absurd rfl hk⟩
  · exact h

theorem fits_to32 (l : List Num) (h : ∀ n ∈ l, n.Fits) : ∀ v ∈ l.map (·.q), Holds (to32 (numsDt l)) v := by
  intro v hv
  obtain ⟨n, hn, rfl⟩ := List.mem_map.mp hv
  simp only [numsDt]
  split_ifs with c
  · have hi := List.all_eq_true.mp c n hn
    have := h n hn
    simp only [Num.Fits, hi, if_true] at this
    exact this
  · exact fits_f32 (h n hn)

end Imgaug.Params
