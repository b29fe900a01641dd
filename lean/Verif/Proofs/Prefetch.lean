import Verif.Spec.Prefetch
import Verif.Model.Prefetch
import Mathlib.Data.List.Perm.Subperm
import Mathlib.Tactic.Common
/-! Helper lemmas for Props/Prefetch.lean. -/
namespace Imgaug.Props
open Imgaug
variable {S V A : Type}

theorem logged_sized (p : Param S V) (h : Sized p) : Sized (logged p) := fun n s => h n s.1

/-- What one request does, in terms of the samples drawn from the wrapped parameter: they are added behind the unused ones;
the output is cut off at the front, or comes directly from the wrapped parameter. -/
theorem take_spec (P : Nat) (p : Param S V) (hp : Sized p) (n : Nat) (pf : PF V) (s : S) (hn : n < P) :
    ∃ new s', (PF.take P p n pf s).1 ++ (PF.take P p n pf s).2.1.unused = pf.unused ++ new ∧
      (PF.take P p n pf s).1.length = n ∧
      (PF.take P p n pf s).2.1.lastIdx = pf.lastIdx ∧
      (PF.take P p n pf s).2.2 = s' ∧
      ((new = [] ∧ s' = s ∧ n < pf.unused.length) ∨ (new = (p.draw P s).1 ∧ s' = (p.draw P s).2 ∧ pf.unused.length ≤ n)) := by
  unfold PF.take
  by_cases h : ((pf.samples.getD []).length : Int) - pf.index - n ≤ 0
  · simp only [if_pos h]
    have hu : pf.unused.length ≤ n := by unfold PF.unused; rw [List.length_drop]; omega
    have hsamp : (PF.prefetch P p pf s).1.samples.getD [] = pf.unused ++ (p.draw P s).1 := by
      unfold PF.prefetch PF.unused
      cases pf.samples <;> simp
    refine ⟨(p.draw P s).1, (p.draw P s).2, ?_, ?_, rfl, rfl, Or.inr ⟨rfl, rfl, hu⟩⟩
    · show ((PF.prefetch P p pf s).1.samples.getD [] |>.drop 0).take n ++
        ((PF.prefetch P p pf s).1.samples.getD []).drop (0 + n) = _
      rw [hsamp]; simp
    · show (((PF.prefetch P p pf s).1.samples.getD [] |>.drop 0).take n).length = n
      rw [hsamp]
      have := hp P s
      simp only [List.drop_zero, List.length_take, List.length_append]
      omega
  · simp only [if_neg h]
    have hu : n < pf.unused.length := by unfold PF.unused; rw [List.length_drop]; omega
    refine ⟨[], s, ?_, ?_, by trivial, by trivial, Or.inl ⟨rfl, rfl, hu⟩⟩
    · show ((pf.samples.getD []).drop pf.index).take n ++ (pf.samples.getD []).drop (pf.index + n) = _
      rw [← List.drop_drop]
      unfold PF.unused
      rw [List.take_append_drop]; simp
    · show (((pf.samples.getD []).drop pf.index).take n).length = n
      unfold PF.unused at hu
      rw [List.length_take]; omega

/-- Effect of one request in all cases. `new` are the samples drawn from the wrapped parameter by this request. -/
inductive Effect (P : Nat) (en : Bool) (idx n : Nat) (pf : PF V) (out new : List V) (pf' : PF V) : Prop
  /-- directly from the wrapped parameter; the buffer is kept -/
  | direct (h1 : out = new) (h2 : pf' = pf) (h3 : en = true → pf.lastIdx = some idx ∧ P ≤ n)
  /-- directly from the wrapped parameter; the buffer is dropped because the generator is another one -/
  | switch (h1 : out = new) (h2 : pf'.unused = []) (h3 : pf'.lastIdx = some idx) (h4 : pf.lastIdx ≠ some idx)
  /-- from the buffer -/
  | buffered (h1 : out ++ pf'.unused = pf.unused ++ new) (h2 : pf'.lastIdx = some idx) (h3 : pf.lastIdx = some idx)
      (h4 : n < P) (h5 : pf'.unused.length ≤ max pf.unused.length P)

theorem drawSamples_spec (P : Nat) (p : Param S V) (hp : Sized p) (en : Bool) (idx n : Nat) (pf : PF V) (s : S × List V) :
    (PF.drawSamples P (logged p) en idx n pf s).1.length = n ∧
    ∃ new, (PF.drawSamples P (logged p) en idx n pf s).2.2.2 = s.2 ++ new ∧
      Effect P en idx n pf (PF.drawSamples P (logged p) en idx n pf s).1 new (PF.drawSamples P (logged p) en idx n pf s).2.1 := by
  unfold PF.drawSamples
  have hlp := logged_sized p hp
  split
  · rename_i he
    exact ⟨hlp n s, (p.draw n s.1).1, rfl, .direct rfl rfl (fun h => by simp [h] at he)⟩
  split
  · rename_i hne
    exact ⟨hlp n s, (p.draw n s.1).1, rfl, .switch rfl (by simp [PF.unused]) rfl hne⟩
  rename_i hne
  have hidx : pf.lastIdx = some idx := by simpa using hne
  split
  · rename_i hP
    exact ⟨hlp n s, (p.draw n s.1).1, rfl, .direct rfl rfl (fun _ => ⟨hidx, hP⟩)⟩
  rename_i hP
  have hn : n < P := by omega
  split
  · rename_i hnone
    have hun : pf.unused = [] := by
      unfold PF.unused; cases h : pf.samples <;> simp [h] at hnone ⊢
    have hs0 : pf.samples = none := by cases h : pf.samples <;> simp [h] at hnone ⊢
    have hpu : (PF.prefetch P (logged p) pf s).1.unused = (p.draw P s.1).1 := by
      simp [PF.prefetch, PF.unused, hs0, logged]
    have hlen : (PF.prefetch P (logged p) pf s).1.unused.length = P := by rw [hpu]; exact hp P s.1
    obtain ⟨new, s', h1, h2, h3, h4, h5⟩ := take_spec P (logged p) hlp n (PF.prefetch P (logged p) pf s).1
      (PF.prefetch P (logged p) pf s).2 hn
    refine ⟨h2, ?_⟩
    rcases h5 with ⟨rfl, rfl, h6⟩ | ⟨-, -, h6⟩
    · refine ⟨(p.draw P s.1).1, ?_, .buffered ?_ ?_ hidx hn ?_⟩
      · show (PF.take P (logged p) n (PF.prefetch P (logged p) pf s).1 (PF.prefetch P (logged p) pf s).2).2.2.2 = _
        rw [h4]; rfl
      · show (PF.take P (logged p) n (PF.prefetch P (logged p) pf s).1 (PF.prefetch P (logged p) pf s).2).1 ++
          (PF.take P (logged p) n (PF.prefetch P (logged p) pf s).1 (PF.prefetch P (logged p) pf s).2).2.1.unused = _
        rw [h1, hpu, hun]; simp
      · exact h3.trans hidx
      · have := congrArg List.length h1
        simp only [List.length_append, h2, hlen, List.length_nil] at this
        show (PF.take P (logged p) n (PF.prefetch P (logged p) pf s).1 (PF.prefetch P (logged p) pf s).2).2.1.unused.length ≤ _
        omega
    · omega
  · obtain ⟨new, s', h1, h2, h3, h4, h5⟩ := take_spec P (logged p) hlp n pf s hn
    refine ⟨h2, ?_⟩
    rcases h5 with ⟨rfl, rfl, h6⟩ | ⟨rfl, rfl, h6⟩
    · refine ⟨[], by rw [h4]; simp, .buffered h1 (h3.trans hidx) hidx hn ?_⟩
      have := congrArg List.length h1
      simp only [List.length_append, h2, List.length_nil] at this
      omega
    · refine ⟨(p.draw P s.1).1, by rw [h4]; rfl, .buffered h1 (h3.trans hidx) hidx hn ?_⟩
      have := congrArg List.length h1
      simp only [List.length_append, h2, hlp P s] at this
      omega

theorem bufferOf_eq (i : Nat) (pf : PF V) (h : pf.lastIdx = some i) : bufferOf i pf = pf.unused := by
  simp [bufferOf, h]

theorem bufferOf_ne (i : Nat) (pf : PF V) (h : pf.lastIdx ≠ some i) : bufferOf i pf = [] := by
  unfold bufferOf
  cases hl : pf.lastIdx with
  | none => rfl
  | some j => 
    have : j ≠ i := by rintro rfl; exact h hl
    simp [this]

theorem outputsOf_cons (i : Nat) (en : Bool) (idx n : Nat) (reqs : List (Bool × Nat × Nat)) (out : List V)
    (outs : List (List V)) :
    outputsOf i ((en, idx, n) :: reqs) (out :: outs) = (if idx = i then out else []) ++ outputsOf i reqs outs := by
  unfold outputsOf
  rw [List.zip_cons_cons, List.filter_cons]
  by_cases h : idx = i <;> simp [h]

theorem run_invariant (P : Nat) (p : Param S V) (hp : Sized p) (reqs : List (Bool × Nat × Nat)) (pf : PF V)
    (st : Nat → S × List V) (i : Nat) (hold : List V) (hinv : (hold ++ bufferOf i pf).Subperm (st i).2) :
    (hold ++ outputsOf i reqs (PF.run P (logged p) reqs pf st).1 ++
      bufferOf i (PF.run P (logged p) reqs pf st).2.1).Subperm ((PF.run P (logged p) reqs pf st).2.2 i).2 := by
  induction reqs generalizing pf st hold with
  | nil => simpa [PF.run, outputsOf] using hinv
  | cons rq reqs ih =>
    obtain ⟨en, idx, n⟩ := rq
    obtain ⟨hlen, new, hlog, heff⟩ := drawSamples_spec P p hp en idx n pf (st idx)
    have hrec := ih (PF.drawSamples P (logged p) en idx n pf (st idx)).2.1
      (fun (j : Nat) => if j = idx then (PF.drawSamples P (logged p) en idx n pf (st idx)).2.2 else st j)
      (hold ++ if idx = i then (PF.drawSamples P (logged p) en idx n pf (st idx)).1 else []) ?_
    · simp only [PF.run]
      rw [outputsOf_cons]
      rw [← List.append_assoc]
      exact hrec
    · generalize PF.drawSamples P (logged p) en idx n pf (st idx) = r at *
      by_cases h : idx = i
      · subst h
        simp only [if_true]
        rw [hlog]
        refine List.Subperm.trans ?_ ((List.subperm_append_right new).2 hinv)
        rw [List.append_assoc, List.append_assoc]
        refine (List.subperm_append_left hold).2 (List.Perm.subperm ?_)
        cases heff with
        | direct h1 h2 => rw [h1, h2]; exact List.perm_append_comm
        | switch h1 h2 h3 h4 => rw [h1, bufferOf_eq _ _ h3, h2, bufferOf_ne _ _ h4]; simp
        | buffered h1 h2 h3 => rw [bufferOf_eq _ _ h2, bufferOf_eq _ _ h3, h1]
      · simp only [if_neg h, if_neg (Ne.symm h), List.append_nil]
        cases heff with
        | direct h1 h2 => rw [h2]; exact hinv
        | switch h1 h2 h3 h4 =>
          rw [bufferOf_ne _ _ (by rw [h3]; simpa using h)]
          refine List.Subperm.trans ?_ hinv
          simp
          exact (List.sublist_append_left _ _).subperm
        | buffered h1 h2 h3 =>
          rw [bufferOf_ne _ _ (by rw [h2]; simpa using h)]
          rw [bufferOf_ne _ _ (by rw [h3]; simpa using h)] at hinv
          exact hinv

theorem run_lengths (P : Nat) (p : Param S V) (hp : Sized p) (reqs : List (Bool × Nat × Nat)) (pf : PF V)
    (st : Nat → S × List V) :
    (PF.run P (logged p) reqs pf st).1.map List.length = reqs.map (fun r => r.2.2) ∧
    (pf.unused.length ≤ P → (PF.run P (logged p) reqs pf st).2.1.unused.length ≤ P) := by
  induction reqs generalizing pf st with
  | nil => simp [PF.run]
  | cons rq reqs ih =>
    obtain ⟨en, idx, n⟩ := rq
    obtain ⟨hlen, new, hlog, heff⟩ := drawSamples_spec P p hp en idx n pf (st idx)
    obtain ⟨h1, h2⟩ := ih (PF.drawSamples P (logged p) en idx n pf (st idx)).2.1
      (fun (j : Nat) => if j = idx then (PF.drawSamples P (logged p) en idx n pf (st idx)).2.2 else st j)
    simp only [PF.run]
    refine ⟨by simp only [List.map_cons, hlen, h1], fun hu => h2 ?_⟩
    cases heff with
    | direct h1 h2 => rw [h2]; exact hu
    | switch h1 h2 h3 h4 => rw [h2]; simp
    | buffered h1 h2 h3 h4 h5 => omega

theorem run_order (P : Nat) (p : Param S V) (hp : Sized p) (idx : Nat) (reqs : List Nat) (hsmall : ∀ n ∈ reqs, n < P)
    (pf : PF V) (hpf : pf.lastIdx = some idx) (st : Nat → S × List V) (hold : List V)
    (h : hold ++ pf.unused = (st idx).2) :
    let r := PF.run P (logged p) (reqs.map (fun n => (true, idx, n))) pf st
    hold ++ r.1.flatten ++ r.2.1.unused = (r.2.2 idx).2 := by
  induction reqs generalizing pf st hold with
  | nil => simpa [PF.run] using h
  | cons n reqs ih =>
    obtain ⟨hlen, new, hlog, heff⟩ := drawSamples_spec P p hp true idx n pf (st idx)
    have hn := hsmall n (by simp)
    simp only [List.map_cons, PF.run, List.flatten_cons]
    rw [← List.append_assoc]
    cases heff with
    | direct h1 h2 h3 => have := (h3 rfl).2; omega
    | switch h1 h2 h3 h4 => exact absurd hpf h4
    | buffered h1 h2 h3 h4 h5 =>
      refine ih (fun m hm => hsmall m (by simp [hm])) _ h2 _ _ ?_
      simp only [if_true]
      rw [hlog, List.append_assoc, h1, ← List.append_assoc, h]

theorem prefetch_logged (P : Nat) (p : Param S V) (pf : PF V) (s : S × List V) :
    (PF.prefetch P (logged p) pf s).1 = (PF.prefetch P p pf s.1).1 ∧
    (PF.prefetch P (logged p) pf s).2.1 = (PF.prefetch P p pf s.1).2 := ⟨rfl, rfl⟩

theorem take_logged (P : Nat) (p : Param S V) (n : Nat) (pf : PF V) (s : S × List V) :
    (PF.take P (logged p) n pf s).1 = (PF.take P p n pf s.1).1 ∧
    (PF.take P (logged p) n pf s).2.1 = (PF.take P p n pf s.1).2.1 ∧
    (PF.take P (logged p) n pf s).2.2.1 = (PF.take P p n pf s.1).2.2 := by
  unfold PF.take
  by_cases h : ((pf.samples.getD []).length : Int) - pf.index - n ≤ 0
  · simp only [if_pos h]; exact ⟨rfl, rfl, rfl⟩
  · simp only [if_neg h]; exact ⟨trivial, trivial, trivial⟩

theorem drawSamples_logged (P : Nat) (p : Param S V) (en : Bool) (idx n : Nat) (pf : PF V) (s : S × List V) :
    (PF.drawSamples P (logged p) en idx n pf s).1 = (PF.drawSamples P p en idx n pf s.1).1 ∧
    (PF.drawSamples P (logged p) en idx n pf s).2.1 = (PF.drawSamples P p en idx n pf s.1).2.1 ∧
    (PF.drawSamples P (logged p) en idx n pf s).2.2.1 = (PF.drawSamples P p en idx n pf s.1).2.2 := by
  unfold PF.drawSamples
  split
  · exact ⟨rfl, rfl, rfl⟩
  split
  · exact ⟨rfl, rfl, rfl⟩
  split
  · exact ⟨rfl, rfl, rfl⟩
  split
  · exact take_logged P p n _ _
  · exact take_logged P p n _ _

theorem counting_sized : Sized counting := by intro n s; simp [counting]

theorem drawSamples_disabled (P : Nat) (p : Param S V) (idx n : Nat) (pf : PF V) (s : S) :
    PF.drawSamples P p false idx n pf s = ((p.draw n s).1, pf, (p.draw n s).2) := by
  unfold PF.drawSamples; rw [if_pos (by rfl)]

/-- Two prefetchers that behave alike from now on: same buffered samples. -/
def Alike (a b : PF V) : Prop := a.lastIdx = b.lastIdx ∧ a.samples = b.samples ∧ (a.samples ≠ none → a.index = b.index)

theorem drawSamples_alike (P : Nat) (p : Param S V) (en : Bool) (idx n : Nat) (a b : PF V) (h : Alike a b) (s : S) :
    (PF.drawSamples P p en idx n a s).1 = (PF.drawSamples P p en idx n b s).1 ∧
    (PF.drawSamples P p en idx n a s).2.2 = (PF.drawSamples P p en idx n b s).2.2 ∧
    Alike (PF.drawSamples P p en idx n a s).2.1 (PF.drawSamples P p en idx n b s).2.1 := by
  obtain ⟨l1, s1, i1⟩ := a
  obtain ⟨l2, s2, i2⟩ := b
  obtain ⟨h1, h2, h3⟩ := h
  simp only at h1 h2 h3
  subst h1 h2
  cases hs : s1 with
  | some x =>
    have := h3 (by simp [hs])
    subst this
    exact ⟨rfl, rfl, rfl, rfl, fun _ => rfl⟩
  | none =>
    cases en with
    | false => rw [drawSamples_disabled, drawSamples_disabled]; exact ⟨rfl, rfl, rfl, rfl, by simp⟩
    | true =>
      unfold PF.drawSamples
      simp only [Bool.not_true, Bool.false_eq_true, if_false]
      by_cases hl : l1 ≠ some idx
      · rw [if_pos hl, if_pos hl]; exact ⟨rfl, rfl, rfl, rfl, by simp⟩
      · rw [if_neg hl, if_neg hl]
        by_cases hP : n ≥ P
        · rw [if_pos hP, if_pos hP]; exact ⟨rfl, rfl, rfl, rfl, by simp⟩
        · rw [if_neg hP, if_neg hP]
          exact ⟨rfl, rfl, rfl, rfl, fun _ => rfl⟩

theorem run_alike (P : Nat) (p : Param S V) (reqs : List (Bool × Nat × Nat)) (a b : PF V) (h : Alike a b) (st : Nat → S) :
    (PF.run P p reqs a st).1 = (PF.run P p reqs b st).1 := by
  induction reqs generalizing a b st with
  | nil => rfl
  | cons rq reqs ih =>
    obtain ⟨en, idx, n⟩ := rq
    obtain ⟨h1, h2, h3⟩ := drawSamples_alike P p en idx n a b h (st idx)
    simp only [PF.run]
    rw [h1, h2, ih _ _ h3]

theorem run_disabled (P : Nat) (p : Nat → Param S V) (idx idx' : Nat) (prog : Prog V A) (pfs pfs' : Nat → PF V) (s : S) :
    (prog.run P p false idx pfs s).1 = (prog.run P p false idx' pfs' s).1 ∧
    (prog.run P p false idx pfs s).2.2 = (prog.run P p false idx' pfs' s).2.2 ∧
    (prog.run P p false idx pfs s).2.1 = pfs := by
  induction prog generalizing pfs pfs' s with
  | ret a => exact ⟨rfl, rfl, rfl⟩
  | raise => exact ⟨rfl, rfl, rfl⟩
  | draw i n k ih =>
    simp only [Prog.run, drawSamples_disabled]
    have hu : ∀ f : Nat → PF V, Prog.upd f i (f i) = f := by
      intro f; funext j; unfold Prog.upd; split <;> simp_all
    rw [hu, hu]
    exact ih _ _ _ _

theorem legacyColumns_disabled (P : Nat) (p : Nat → Param S V) (idx : Nat) (m : Bool) (progs : List (Prog V A))
    (pfs : Nat → PF V) (s : S) :
    (Prog.legacyColumns P p true idx m progs pfs s).1 =
      progs.mapM (fun c => (c.run P p false idx pfs s).1) := by
  induction progs generalizing pfs with
  | nil => rfl
  | cons c cs ih =>
    simp only [Prog.legacyColumns, Bool.not_true, Bool.true_or, if_true]
    rw [List.mapM_cons]
    obtain ⟨-, -, h3⟩ := run_disabled P p idx idx c pfs pfs s
    cases hr : (c.run P p false idx pfs s).1 with
    | none => simp
    | some a =>
      simp only [h3, ih pfs]
      cases cs.mapM (fun c => (c.run P p false idx pfs s).1) <;> rfl

end Imgaug.Props
