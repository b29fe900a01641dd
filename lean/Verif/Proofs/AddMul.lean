import Verif.Spec.AddMul
import Verif.Proofs.Dtypes
import Verif.Props.Dtypes
import Mathlib.Tactic.SplitIfs
/-! Helpers for Props/AddMul.lean. -/
namespace Imgaug.AddMul
open Imgaug Imgaug.Dtypes

/-- What is needed of a pair of dtypes. -/
def Nice (d T : DType) : Prop :=
  let P := promote d T
  P ∈ all ∧ clippable P = true ∧ BoundFits P d ∧ lo P ≤ lo d ∧ hi d ≤ hi P ∧ lo P ≤ lo T ∧ hi T ≤ hi P ∧
    (P.kind = .f ↔ d.kind = .f ∨ T.kind = .f)

instance (d T : DType) : Decidable (Nice d T) := inferInstanceAs (Decidable (_ ∧ _))

theorem nice_add (d vd : DType) (hd : d ∈ gated) (hv : vd ∈ all) (hne : d ≠ ⟨.u, 1⟩) (hT : targetAdd d vd ∈ all)
    (hc : clippable vd = true) (h : ¬ (d = ⟨.i, 2⟩ ∧ vd.kind = .u)) : Nice d (targetAdd d vd) := by
  revert hc h hT hne; revert hv; revert vd; revert hd; revert d; decide +kernel

theorem nice_mul (d vd : DType) (hd : d ∈ gated) (hv : vd ∈ all) (hne : d ≠ ⟨.u, 1⟩) (hT : targetMul d vd ∈ all)
    (hc : clippable vd = true) : Nice d (targetMul d vd) := by
  revert hc hT hne; revert hv; revert vd; revert hd; revert d; decide +kernel

theorem fits_add (d vd : DType) (hd : d ∈ gated) (hv : vd ∈ all) (hT : targetAdd d vd ∈ all) : BoundFits vd (targetAdd d vd) := by
  revert hT; revert hv; revert vd; revert hd; revert d; decide +kernel

theorem fits_mul (d vd : DType) (hd : d ∈ gated) (hv : vd ∈ all) (hT : targetMul d vd ∈ all) : BoundFits vd (targetMul d vd) := by
  revert hT; revert hv; revert vd; revert hd; revert d; decide +kernel

theorem gated_all (d : DType) (hd : d ∈ gated) : d ∈ all := by revert hd; revert d; decide +kernel

theorem astype_holds (P : DType) (x : ℚ) (h1 : (lo P : ℚ) ≤ x) (h2 : x ≤ hi P) (h3 : P.kind ≠ .f → ∃ n : Int, x = n) : astype P x = x := by
  by_cases hk : P.kind = .f
  · simp [astype, hk]
  · obtain ⟨n, rfl⟩ := h3 hk
    exact astype_int P n (by exact_mod_cast h1) (by exact_mod_cast h2)

/-- One component. -/
theorem op_component (op : ℚ → ℚ → ℚ) (hop : ∀ m n : Int, ∃ k : Int, op m n = k) (d T : DType) (hd : d ∈ all) (hn : Nice d T) (v x : ℚ)
    (hv : Holds d v) (hx1 : (lo T : ℚ) ≤ x) (hx2 : x ≤ hi T) (hx3 : T.kind ≠ .f → ∃ n : Int, x = n)
    (hr1 : (lo (promote d T) : ℚ) ≤ op v x) (hr2 : op v x ≤ hi (promote d T)) :
    changeDtype (promote d T) d true (astype (promote d T) (op (astype (promote d T) v) (astype (promote d T) x))) = some (fitted d (op v x)) := by
  obtain ⟨hP, hc, hb, a1, a2, a3, a4, hk⟩ := hn
  obtain ⟨v1, v2, v3⟩ := hv
  have b1 : (lo (promote d T) : ℚ) ≤ lo d := by exact_mod_cast a1
  have b2 : (hi d : ℚ) ≤ hi (promote d T) := by exact_mod_cast a2
  have b3 : (lo (promote d T) : ℚ) ≤ lo T := by exact_mod_cast a3
  have b4 : (hi T : ℚ) ≤ hi (promote d T) := by exact_mod_cast a4
  have hkd : (promote d T).kind ≠ .f → d.kind ≠ .f := fun h h' => h (hk.mpr (Or.inl h'))
  have hkT : (promote d T).kind ≠ .f → T.kind ≠ .f := fun h h' => h (hk.mpr (Or.inr h'))
  rw [astype_holds _ v (by linarith) (by linarith) (fun h => v3 (hkd h)),
    astype_holds _ x (by linarith) (by linarith) (fun h => hx3 (hkT h))]
  have hint : (promote d T).kind ≠ .f → ∃ n : Int, op v x = n := by
    intro h
    obtain ⟨m, rfl⟩ := v3 (hkd h)
    obtain ⟨n, rfl⟩ := hx3 (hkT h)
    exact hop m n
  rw [astype_holds _ _ hr1 hr2 hint]
  by_cases he : promote d T = d
  · rw [changeDtype, if_pos he, fitted, clamp]
    rw [he] at hr1 hr2 hint
    split
    · rw [max_eq_left hr1, min_eq_left hr2]
    · rename_i h
      obtain ⟨n, h'⟩ := hint h
      rw [h', Props.npRound_int]
      rw [h'] at hr1 hr2
      rw [max_eq_left hr1, min_eq_left hr2]
  · obtain ⟨w, h1, _, h2⟩ := changeDtype_eq (promote d T) d hd he hc hb (op v x) ⟨hr1, hr2, hint⟩
    rw [h1, h2, fitted]
    congr 2
    by_cases hf : d.kind = .f
    · simp [hf]
    · by_cases hPf : (promote d T).kind = .f
      · simp [hf, hPf]
      · obtain ⟨n, h'⟩ := hint hPf
        simp [hf, hPf, h', Props.npRound_int]

theorem getD_mem (l : List ℚ) (i : Nat) (h : i < l.length) : l.getD i 0 ∈ l := by
  rw [List.getD_eq_getElem?_getD, List.getElem?_eq_getElem h]; exact List.getElem_mem h

theorem clip_some (vd T : DType) (hT : T ∈ all) (hc : clippable vd = true) (hb : BoundFits vd T) (vals : List ℚ) (hv : ∀ v ∈ vals, Holds vd v)
    (hne : vals ≠ []) (hr : ∀ v ∈ vals, (lo T : ℚ) ≤ v ∧ v ≤ hi T) : clipToRange vd T .yes vals = some vals :=
  (clip_to_range_validated vd T hT hc hb vals hv).1.mpr ⟨hne, hr⟩

theorem at_eq (o : Operand) (img : Img) (hf : o.vals.length = 1 ∨ o.vals.length = img.c) (i : Nat) :
    o.vals.getD (i % o.vals.length) 0 = o.at img.c i := by
  rw [Operand.at]
  split
  · rename_i h; rw [h, Nat.mod_one]
  · rename_i h
    rw [hf.resolve_left h]

theorem at_mem (o : Operand) (img : Img) (hf : o.vals.length = 1 ∨ o.vals.length = img.c) (hne : o.vals ≠ []) (i : Nat) : o.at img.c i ∈ o.vals := by
  rw [← at_eq o img hf]
  exact getD_mem _ _ (Nat.mod_lt _ (List.length_pos_of_ne_nil hne))

theorem opNonUint8_eq (op : ℚ → ℚ → ℚ) (hop : ∀ m n : Int, ∃ k : Int, op m n = k) (img : Img) (o : Operand) (T : DType) (hd : img.dt ∈ all)
    (hk : T.kind = o.dt.kind) (hn : Nice img.dt T) (hT : T ∈ all) (hc : clippable o.dt = true) (hb : BoundFits o.dt T) (hflat : img.flat = false)
    (hf : o.vals.length = 1 ∨ o.vals.length = img.c) (hne : o.vals ≠ [])
    (hiv : ∀ v ∈ img.vals, Holds img.dt v) (hov : ∀ x ∈ o.vals, Holds o.dt x)
    (hr : ∀ x ∈ o.vals, (lo T : ℚ) ≤ x ∧ x ≤ hi T)
    (hs : ∀ v ∈ img.vals, ∀ x ∈ o.vals, (lo (promote img.dt T) : ℚ) ≤ op v x ∧ op v x ≤ hi (promote img.dt T)) :
    opNonUint8 op T img o = some (img.vals.zipIdx.map (fun p => fitted img.dt (op p.1 (o.at img.c p.2)))) := by
  rw [opNonUint8, if_neg (by simp [hflat]), if_neg (by tauto), if_neg (by simp [hT]), clip_some o.dt T hT hc hb o.vals hov hne hr]
  simp only [Option.bind_some]
  apply mapM_some
  rintro ⟨v, i⟩ hp
  have hv : v ∈ img.vals := List.fst_mem_of_mem_zipIdx hp
  simp only
  rw [at_eq o img hf]
  have hx := at_mem o img hf hne i
  exact op_component op hop img.dt T hd hn v _ (hiv v hv) (hr _ hx).1 (hr _ hx).2 (fun h => (hov _ hx).2.2 (hk ▸ h)) (hs v hv _ hx).1 (hs v hv _ hx).2

theorem clip_none (vd T : DType) (vals : List ℚ) (hc : clippable vd = false) : clipToRange vd T .yes vals = none := by
  rw [clipToRange]
  cases vals with
  | nil => simp
  | cons a t =>
    simp only [List.mapM_cons, clip, hc]
    simp

theorem mapM_isSome {α β : Type} (f : α → Option β) (l : List α) : (l.mapM f).isSome = true ↔ ∀ a ∈ l, (f a).isSome = true := by
  induction l with
  | nil => simp
  | cons a t ih =>
    rw [List.mapM_cons]
    cases h : f a with
    | none => simp [h]
    | some b =>
      cases h2 : t.mapM f with
      | none => simp [h, h2] at ih ⊢; exact ih
      | some r => simp [h, h2] at ih ⊢; exact ih

theorem opNonUint8_isSome (op : ℚ → ℚ → ℚ) (img : Img) (o : Operand) (T : DType) (hP : promote img.dt T ∈ all) (hi0 : img.vals ≠ [])
    (hb : T ∈ all → BoundFits o.dt T) (hov : ∀ x ∈ o.vals, Holds o.dt x) :
    (opNonUint8 op T img o).isSome = true ↔ img.flat = false ∧ (o.vals.length = 1 ∨ o.vals.length = img.c) ∧ T ∈ all ∧ clippable o.dt = true ∧
      (o.vals ≠ [] ∧ ∀ x ∈ o.vals, (lo T : ℚ) ≤ x ∧ x ≤ hi T) ∧
      (promote img.dt T = img.dt ∨ (promote img.dt T ≠ ⟨.i, 8⟩ ∧ promote img.dt T ≠ ⟨.u, 8⟩)) := by
  rw [opNonUint8]
  split
  · rename_i h; simp [h]
  rename_i h1
  rw [Bool.not_eq_true] at h1
  split
  · rename_i h
    simp only [Option.isSome_none, Bool.false_eq_true, h1, true_and, false_iff]
    rintro ⟨h', _⟩
    rcases h' with h' | h'
    · exact h.1 h'
    · exact h.2 h'
  rename_i h2
  have h2' : o.vals.length = 1 ∨ o.vals.length = img.c := by by_contra hc; exact h2 ⟨fun e => hc (Or.inl e), fun e => hc (Or.inr e)⟩
  split
  · rename_i h; simp [h]
  rename_i h3
  rw [not_not] at h3
  simp only [h1, h2', h3, true_and]
  by_cases hc : clippable o.dt = true
  · have hval := clip_to_range_validated o.dt T h3 hc (hb h3) o.vals hov
    by_cases hr : o.vals ≠ [] ∧ ∀ x ∈ o.vals, (lo T : ℚ) ≤ x ∧ x ≤ hi T
    · rw [hval.1.mpr hr]
      simp only [Option.bind_some, hc, true_and, mapM_isSome]
      have key : ∀ y, (changeDtype (promote img.dt T) img.dt true y).isSome = true ↔
          (promote img.dt T = img.dt ∨ (promote img.dt T ≠ ⟨.i, 8⟩ ∧ promote img.dt T ≠ ⟨.u, 8⟩)) := by
        intro y
        by_cases he : promote img.dt T = img.dt
        · simp [changeDtype, he]
        · rw [← Option.ne_none_iff_isSome, Ne, change_dtype_accepts _ _ hP he]
          simp [he]
      simp only [key]
      constructor
      · intro h
        obtain ⟨a, t, e⟩ := List.exists_cons_of_ne_nil hi0
        refine ⟨hr, h (a, 0) ?_⟩
        simp [e]
      · rintro ⟨_, h⟩ _ _; exact h
    · rw [hval.2.mpr hr]
      simp [hr]
  · rw [clip_none _ _ _ (by simpa using hc)]
    simp [hc]

theorem add_target (d vd : DType) (hd : d ∈ gated) (hv : vd ∈ all) :
    promote d (targetAdd d vd) ∈ all ∨ vd.kind = .b := by
  revert hv; revert vd; revert hd; revert d; decide +kernel

theorem add_target_mem (d vd : DType) (hd : d ∈ gated) (hv : vd ∈ all) : targetAdd d vd ∈ all ↔ vd.kind ≠ .b := by
  revert hv; revert vd; revert hd; revert d; decide +kernel

theorem add_promoted (d vd : DType) (hd : d ∈ gated) (hne : d ≠ ⟨.u, 1⟩) (hv : vd ∈ all) (hb : vd.kind ≠ .b) :
    (promote d (targetAdd d vd) = d ∨ (promote d (targetAdd d vd) ≠ ⟨.i, 8⟩ ∧ promote d (targetAdd d vd) ≠ ⟨.u, 8⟩)) ↔
      ¬ (d = ⟨.i, 2⟩ ∧ vd.kind = .u) := by
  revert hb; revert hv; revert vd; revert hne; revert hd; revert d; decide +kernel

theorem mul_target_mem (d vd : DType) (hd : d ∈ gated) (hv : vd ∈ all) : targetMul d vd ∈ all ↔ ¬ (vd.kind = .b ∧ d.bytes ≠ 1) := by
  revert hv; revert vd; revert hd; revert d; decide +kernel

theorem mul_promoted (d vd : DType) (hd : d ∈ gated) (hv : vd ∈ all) :
    promote d (targetMul d vd) ∈ all ∧
    promote d (targetMul d vd) ≠ ⟨.i, 8⟩ ∧ promote d (targetMul d vd) ≠ ⟨.u, 8⟩ := by
  revert hv; revert vd; revert hd; revert d; decide +kernel

theorem add_room (d vd : DType) (hd : d ∈ gated) (hne : d ≠ ⟨.u, 1⟩) (hv : vd ∈ all) (hc : clippable vd = true) (hb : vd.kind ≠ .b)
    (h : ¬ (d = ⟨.i, 2⟩ ∧ vd.kind = .u)) :
    32000 + hi d ≤ hi (promote d (targetAdd d vd)) ∧
      (lo (promote d (targetAdd d vd)) ≤ lo d - 32000 ∨ (vd.kind = .u ∧ lo (promote d (targetAdd d vd)) ≤ lo d)) ∧
      (32000 ≤ hi (targetAdd d vd)) ∧ (lo (targetAdd d vd) ≤ -32000 ∨ (vd.kind = .u ∧ lo (targetAdd d vd) = 0)) := by
  revert h hc hb; revert hv; revert vd; revert hne; revert hd; revert d; decide +kernel

theorem saturate_int (n : Int) : saturate (n : ℚ) = clamp ⟨.u, 1⟩ (n : ℚ) := by
  rw [saturate, Props.npRound_int, clamp]
  have h : lo ⟨.u, 1⟩ = 0 ∧ hi ⟨.u, 1⟩ = 255 := by decide +kernel
  rw [h.1, h.2]; norm_num

theorem saturate_eq (x : ℚ) : saturate x = fitted ⟨.u, 1⟩ x := by
  rw [saturate, fitted, clamp]
  have h : lo ⟨.u, 1⟩ = 0 ∧ hi ⟨.u, 1⟩ = 255 := by decide +kernel
  rw [h.1, h.2]; simp

theorem mapIdx_const {α β : Type} (f : α → β) (l : List α) : l.zipIdx.map (fun p => f p.1) = l.map f := by
  rw [show (fun p : α × Nat => f p.1) = f ∘ Prod.fst from rfl, ← List.map_map, List.zipIdx_map_fst]

end Imgaug.AddMul
