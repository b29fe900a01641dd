import Verif.Spec.Pool
import Verif.Model.Pool
import Verif.Spec.Prefetch
import Mathlib.Data.List.Perm.Subperm
import Mathlib.Data.List.Forall2
import Mathlib.Tactic.Common
/-! Helper lemmas for Props/Pool.lean. -/
namespace Imgaug.Props
open Imgaug Imgaug.Pool
variable {S V A : Type}

/-- Two prefetchers, in worlds where ids from `c1` and `c2` on are new: both unused since then, or in the same state. -/
def PfSim (c1 c2 n : Nat) (a b : PF V) : Prop :=
  ((∀ l, a.lastIdx = some l → l < c1) ∧ ∀ l, b.lastIdx = some l → l < c2) ∨
  ∃ o < n, a.lastIdx = some (c1 + o) ∧ b.lastIdx = some (c2 + o) ∧ a.samples = b.samples ∧ (a.samples ≠ none → a.index = b.index)

/-- Two `RNG` objects, in worlds where ids from `c1` and `c2` on are new. -/
def RngSim (c1 c2 n : Nat) (a b : Nat × S) : Prop := a.2 = b.2 ∧ ∃ o < n, a.1 = c1 + o ∧ b.1 = c2 + o

structure Sim (env : Env S V) (c1 c2 n : Nat) (w1 w2 : World S V) : Prop where
  cnt1 : w1.counter = c1 + n
  cnt2 : w2.counter = c2 + n
  states : ∀ j < env.size, (w1.nodes j).2 = (w2.nodes j).2
  nodes : ∀ j < env.size, env.det j = false → RngSim c1 c2 n (w1.nodes j) (w2.nodes j)
  temps : List.Forall₂ (RngSim c1 c2 n) w1.temps w2.temps
  global : w1.global.2 = w2.global.2
  pfs : ∀ k, PfSim c1 c2 n (w1.pfs k) (w2.pfs k)

theorem RngSim.mono {c1 c2 n m : Nat} {a b : Nat × S} (h : RngSim c1 c2 n a b) (hm : n ≤ m) : RngSim c1 c2 m a b := by
  obtain ⟨h1, o, h2, h3⟩ := h
  exact ⟨h1, o, by omega, h3⟩

theorem PfSim.mono {c1 c2 n m : Nat} {a b : PF V} (h : PfSim c1 c2 n a b) (hm : n ≤ m) : PfSim c1 c2 m a b := by
  rcases h with h | ⟨o, h2, h3⟩
  · exact .inl h
  · exact .inr ⟨o, by omega, h3⟩

theorem drawSamples_switch (P : Nat) (p : Param S V) (idx n : Nat) (pf : PF V) (s : S) (h : pf.lastIdx ≠ some idx) :
    PF.drawSamples P p true idx n pf s =
      ((p.draw n s).1, { pf with lastIdx := some idx, samples := none }, (p.draw n s).2) := by
  unfold PF.drawSamples
  rw [if_neg (by simp), if_pos h]

theorem drawSamples_big (P : Nat) (p : Param S V) (idx n : Nat) (pf : PF V) (s : S) (h : pf.lastIdx = some idx) (hP : n ≥ P) :
    PF.drawSamples P p true idx n pf s = ((p.draw n s).1, pf, (p.draw n s).2) := by
  unfold PF.drawSamples
  rw [if_neg (by simp), if_neg (by simpa using h), if_pos hP]

theorem drawSamples_small (P : Nat) (p : Param S V) (idx n : Nat) (pf : PF V) (s : S) (h : pf.lastIdx = some idx)
    (hP : ¬n ≥ P) :
    PF.drawSamples P p true idx n pf s =
      if pf.samples.isNone then PF.take P p n (PF.prefetch P p pf s).1 (PF.prefetch P p pf s).2 else PF.take P p n pf s := by
  unfold PF.drawSamples
  rw [if_neg (by simp), if_neg (by simpa using h), if_neg hP]

theorem take_relabel (P : Nat) (p : Param S V) (n : Nat) (l1 l2 : Option Nat) (x : Option (List V)) (i : Nat) (s : S) :
    (PF.take P p n ⟨l1, x, i⟩ s).1 = (PF.take P p n ⟨l2, x, i⟩ s).1 ∧
    (PF.take P p n ⟨l1, x, i⟩ s).2.2 = (PF.take P p n ⟨l2, x, i⟩ s).2.2 ∧
    (PF.take P p n ⟨l1, x, i⟩ s).2.1.lastIdx = l1 ∧ (PF.take P p n ⟨l2, x, i⟩ s).2.1.lastIdx = l2 ∧
    (PF.take P p n ⟨l1, x, i⟩ s).2.1.samples = (PF.take P p n ⟨l2, x, i⟩ s).2.1.samples ∧
    (PF.take P p n ⟨l1, x, i⟩ s).2.1.index = (PF.take P p n ⟨l2, x, i⟩ s).2.1.index := by
  unfold PF.take
  by_cases h : ((x.getD []).length : Int) - i - n ≤ 0
  · simp only [if_pos h]; exact ⟨rfl, rfl, rfl, rfl, rfl, rfl⟩
  · simp only [if_neg h]; exact ⟨trivial, trivial, trivial, trivial, trivial, trivial⟩

theorem drawSamples_sim (P : Nat) (p : Param S V) (en : Bool) (i1 i2 n c1 c2 m : Nat) (a b : PF V) (s : S)
    (h : PfSim c1 c2 m a b) (hi : en = true → ∃ o < m, i1 = c1 + o ∧ i2 = c2 + o) :
    (PF.drawSamples P p en i1 n a s).1 = (PF.drawSamples P p en i2 n b s).1 ∧
    (PF.drawSamples P p en i1 n a s).2.2 = (PF.drawSamples P p en i2 n b s).2.2 ∧
    PfSim c1 c2 m (PF.drawSamples P p en i1 n a s).2.1 (PF.drawSamples P p en i2 n b s).2.1 := by
  cases en with
  | false =>
    unfold PF.drawSamples
    rw [if_pos (by rfl), if_pos (by rfl)]
    exact ⟨rfl, rfl, h⟩
  | true =>
    obtain ⟨o, ho, rfl, rfl⟩ := hi rfl
    by_cases hl : a.lastIdx = some (c1 + o)
    · rcases h with ⟨h1, h2⟩ | ⟨o', ho', h1, h2, h3, h4⟩
      · have := h1 _ hl; omega
      · have : o' = o := by rw [h1] at hl; simpa using hl
        subst this
        by_cases hP : n ≥ P
        · rw [drawSamples_big P p _ n a s h1 hP, drawSamples_big P p _ n b s h2 hP]
          exact ⟨rfl, rfl, .inr ⟨o', ho', h1, h2, h3, h4⟩⟩
        · rw [drawSamples_small P p _ n a s h1 hP, drawSamples_small P p _ n b s h2 hP]
          obtain ⟨la, sa, ia⟩ := a
          obtain ⟨lb, sb, ib⟩ := b
          simp only at h1 h2 h3 h4
          subst h1 h2 h3
          cases hs : sa with
          | none =>
            obtain ⟨t1, t2, t3, t4, t5, t6⟩ := take_relabel P p n (some (c1 + o')) (some (c2 + o')) (some (p.draw P s).1) 0
              (p.draw P s).2
            exact ⟨t1, t2, .inr ⟨o', ho', t3, t4, t5, fun _ => t6⟩⟩
          | some x =>
            have := h4 (by simp [hs])
            subst this
            obtain ⟨t1, t2, t3, t4, t5, t6⟩ := take_relabel P p n (some (c1 + o')) (some (c2 + o')) (some x) ia s
            exact ⟨t1, t2, .inr ⟨o', ho', t3, t4, t5, fun _ => t6⟩⟩
    · have hl2 : b.lastIdx ≠ some (c2 + o) := by
        intro hb
        rcases h with ⟨h1, h2⟩ | ⟨o', ho', h1, h2, h3, h4⟩
        · have := h2 _ hb; omega
        · have : o' = o := by rw [h2] at hb; simpa using hb
          subst this; exact hl h1
      rw [drawSamples_switch P p _ n a s hl, drawSamples_switch P p _ n b s hl2]
      exact ⟨rfl, rfl, .inr ⟨o, ho, rfl, rfl, rfl, by simp⟩⟩

theorem upd_same {α : Type} (f : Nat → α) (i : Nat) (v : α) : upd f i v i = v := by simp [upd]

theorem upd_other {α : Type} (f : Nat → α) (i j : Nat) (v : α) (h : j ≠ i) : upd f i v j = f j := by simp [upd, h]

theorem Sim.setPf {env : Env S V} {c1 c2 n : Nat} {w1 w2 : World S V} (h : Sim env c1 c2 n w1 w2) (k : Nat) (a b : PF V)
    (hab : PfSim c1 c2 n a b) : Sim env c1 c2 n { w1 with pfs := upd w1.pfs k a } { w2 with pfs := upd w2.pfs k b } :=
  ⟨h.cnt1, h.cnt2, h.states, h.nodes, h.temps, h.global, fun i => by
    by_cases hi : i = k
    · subst hi; simpa [upd] using hab
    · simpa [upd, hi] using h.pfs i⟩

theorem Sim.setState {env : Env S V} {c1 c2 n : Nat} {w1 w2 : World S V} (h : Sim env c1 c2 n w1 w2) (j : Nat) (s t : S)
    (hst : s = t) : Sim env c1 c2 n { w1 with nodes := upd w1.nodes j ((w1.nodes j).1, s) }
      { w2 with nodes := upd w2.nodes j ((w2.nodes j).1, t) } := by
  subst hst
  refine ⟨h.cnt1, h.cnt2, fun i hi => ?_, fun i hi hd => ?_, h.temps, h.global, h.pfs⟩
  · by_cases hij : i = j
    · subst hij; simp [upd]
    · simpa [upd, hij] using h.states i hi
  · by_cases hij : i = j
    · subst hij
      obtain ⟨_, o⟩ := h.nodes i hi hd
      simpa [upd, RngSim] using o
    · simpa [upd, hij] using h.nodes i hi hd

theorem forall2_set {α β : Type} {R : α → β → Prop} {l1 : List α} {l2 : List β} (h : List.Forall₂ R l1 l2) (i : Nat) (a : α)
    (b : β) (hab : R a b) : List.Forall₂ R (l1.set i a) (l2.set i b) := by
  induction h generalizing i with
  | nil => simp
  | cons h1 h2 ih =>
    cases i with
    | zero => exact .cons hab h2
    | succ i => exact .cons h1 (ih i)

theorem forall2_get {α β : Type} {R : α → β → Prop} {l1 : List α} {l2 : List β} (h : List.Forall₂ R l1 l2) (i : Nat)
    (h1 : i < l1.length) (h2 : i < l2.length) : R l1[i] l2[i] := by
  induction h generalizing i with
  | nil => simp at h1
  | cons h3 h4 ih =>
    cases i with
    | zero => exact h3
    | succ i => exact ih i _ _

theorem Sim.fresh {env : Env S V} {c1 c2 n : Nat} {w1 w2 : World S V} (h : Sim env c1 c2 n w1 w2) (s t : S) (hst : s = t) :
    Sim env c1 c2 (n + 1) { w1 with temps := w1.temps ++ [(w1.counter, s)], counter := w1.counter + 1 }
      { w2 with temps := w2.temps ++ [(w2.counter, t)], counter := w2.counter + 1 } := by
  subst hst
  refine ⟨by simp [h.cnt1]; omega, by simp [h.cnt2]; omega, h.states, fun i hi hd => (h.nodes i hi hd).mono (by omega), ?_,
    h.global, fun k => (h.pfs k).mono (by omega)⟩
  refine List.rel_append (h.temps.imp fun _ _ hr => hr.mono (by omega)) ?_
  exact .cons ⟨rfl, n, by omega, h.cnt1, h.cnt2⟩ .nil

theorem Sim.restoreDet {env : Env S V} {c1 c2 n : Nat} {w1 w2 v1 v2 : World S V} (h : Sim env c1 c2 n w1 w2)
    (hv : ∀ j < env.size, (v1.nodes j).2 = (v2.nodes j).2) (i : Nat) (hi : i < env.size) :
    Sim env c1 c2 n (Pool.restoreDet env i v1 w1) (Pool.restoreDet env i v2 w2) := by
  unfold Pool.restoreDet
  by_cases hd : env.det i = true
  · rw [if_pos hd, if_pos hd]; exact h.setState i _ _ (hv i hi)
  · rw [if_neg hd, if_neg hd]; exact h

theorem restoreDet_det (env : Env S V) (i : Nat) (v w : World S V) (hd : env.det i = true) :
    ((restoreDet env i v w).nodes i).2 = (v.nodes i).2 := by simp [restoreDet, hd, upd]

theorem restoreDet_other (env : Env S V) (i j : Nat) (v w : World S V) (h : j ≠ i) :
    (restoreDet env i v w).nodes j = w.nodes j := by
  unfold restoreDet
  split
  · simp [upd, h]
  · rfl

theorem restoreDet_pfs (env : Env S V) (i : Nat) (v w : World S V) :
    (restoreDet env i v w).pfs = w.pfs ∧ (restoreDet env i v w).counter = w.counter := by
  unfold restoreDet
  split <;> exact ⟨rfl, rfl⟩

theorem run_sim (env : Env S V) (code : Code S V A) (hlocal : LocalOnly code) (c1 c2 : Nat) (j : Nat) (hj : j < env.size)
    (n : Nat) (w1 w2 : World S V) (h : Sim env c1 c2 n w1 w2) :
    (code.run env j w1).1 = (code.run env j w2).1 ∧ ∃ m ≥ n, Sim env c1 c2 m (code.run env j w1).2 (code.run env j w2).2 := by
  induction code generalizing j n w1 w2 with
  | ret a => exact ⟨rfl, n, Nat.le_refl n, h⟩
  | raise => exact ⟨rfl, n, Nat.le_refl n, h⟩
  | draw param k0 k ih =>
    obtain ⟨d1, d2, d3⟩ := drawSamples_sim env.P (env.params param) (!env.det j) (w1.nodes j).1 (w2.nodes j).1 k0 c1 c2 n
      (w1.pfs param) (w2.pfs param) (w1.nodes j).2 (h.pfs param) (fun hd => (h.nodes j hj (by simpa using hd)).2)
    rw [h.states j hj] at d1 d2 d3
    simp only [Code.run, drawWith]
    rw [h.states j hj, d1]
    refine ih _ (hlocal _) j hj n _ _ ?_
    exact (h.setState j _ _ d2).setPf param _ _ d3
  | drawTemp t param k0 k ih =>
    have hlen := h.temps.length_eq
    simp only [Code.run, drawWith]
    by_cases ht : t < w1.temps.length
    · have ht2 : t < w2.temps.length := by omega
      rw [dif_pos ht, dif_pos ht2]
      have hr := forall2_get h.temps t ht ht2
      obtain ⟨d1, d2, d3⟩ := drawSamples_sim env.P (env.params param) (!env.det j) w1.temps[t].1 w2.temps[t].1 k0 c1 c2 n
        (w1.pfs param) (w2.pfs param) w1.temps[t].2 (h.pfs param) (fun _ => hr.2)
      rw [hr.1] at d1 d2 d3
      rw [hr.1, d1]
      refine ih _ (hlocal _) j hj n _ _ ?_
      have h2 := h.setPf param _ _ d3
      exact ⟨h2.cnt1, h2.cnt2, h2.states, h2.nodes, forall2_set h.temps t _ _ ⟨d2, hr.2⟩, h2.global, h2.pfs⟩
    · rw [dif_neg ht, dif_neg (by omega)]
      exact ⟨rfl, n, Nat.le_refl n, h⟩
  | spawn f k ih =>
    simp only [Code.run]
    rw [h.temps.length_eq, h.states j hj]
    obtain ⟨e1, m, hm, e2⟩ := ih w2.temps.length (hlocal _) j hj (n + 1) _ _
      ((h.fresh (f (w2.nodes j).2).1 (f (w2.nodes j).2).1 rfl).setState j (f (w2.nodes j).2).2 (f (w2.nodes j).2).2 rfl)
    exact ⟨e1, m, by omega, e2⟩
  | spawnTemp t f k ih =>
    have hlen := h.temps.length_eq
    simp only [Code.run]
    by_cases ht : t < w1.temps.length
    · have ht2 : t < w2.temps.length := by omega
      rw [dif_pos ht, dif_pos ht2, hlen]
      have hr := forall2_get h.temps t ht ht2
      rw [hr.1]
      have h2 : Sim env c1 c2 n { w1 with temps := w1.temps.set t (w1.temps[t].1, (f w2.temps[t].2).2) }
          { w2 with temps := w2.temps.set t (w2.temps[t].1, (f w2.temps[t].2).2) } :=
        ⟨h.cnt1, h.cnt2, h.states, h.nodes, forall2_set h.temps t _ _ ⟨rfl, hr.2⟩, h.global, h.pfs⟩
      obtain ⟨e1, m, hm, e2⟩ := ih w2.temps.length (hlocal _) j hj (n + 1) _ _
        (h2.fresh (f w2.temps[t].2).1 (f w2.temps[t].2).1 rfl)
      exact ⟨e1, m, by omega, e2⟩
    · rw [dif_neg ht, dif_neg (by omega)]
      exact ⟨rfl, n, Nat.le_refl n, h⟩
  | drawGlobal dist k0 k ih =>
    simp only [Code.run]
    rw [h.global]
    exact ih _ (hlocal _) j hj n _ _ ⟨h.cnt1, h.cnt2, h.states, h.nodes, h.temps, rfl, h.pfs⟩
  | drawGlobalParam param k0 k ih => exact absurd hlocal (by simp [LocalOnly])
  | block i body k ihb ih =>
    simp only [Code.run]
    by_cases hi : i < env.size
    · rw [if_pos hi, if_pos hi]
      obtain ⟨e1, m, hm, e2⟩ := ihb hlocal.1 i hi n w1 w2 h
      rw [e1]
      obtain ⟨f1, m', hm', f2⟩ := ih (body.run env i w2).1 (hlocal.2 _) j hj m
        (restoreDet env i w1 (body.run env i w1).2) (restoreDet env i w2 (body.run env i w2).2)
        (e2.restoreDet h.states i hi)
      exact ⟨f1, m', by omega, f2⟩
    · rw [if_neg hi, if_neg hi]
      exact ⟨rfl, n, Nat.le_refl n, h⟩

/-- Augmenters other than `j` that are deterministic keep their states. -/
theorem run_det (env : Env S V) (code : Code S V A) (j : Nat) (w : World S V) (i : Nat) (hij : i ≠ j) (hd : env.det i = true) :
    ((code.run env j w).2.nodes i).2 = (w.nodes i).2 := by
  induction code generalizing j w with
  | ret a => rfl
  | raise => rfl
  | draw param k0 k ih =>
    simp only [Code.run]
    rw [ih _ _ _ hij]; simp [upd, hij]
  | drawTemp t param k0 k ih =>
    simp only [Code.run]
    split
    · rw [ih _ _ _ hij]; rfl
    · rfl
  | spawn f k ih =>
    simp only [Code.run]
    rw [ih _ _ _ hij]; simp [upd, hij]
  | spawnTemp t f k ih =>
    simp only [Code.run]
    split
    · rw [ih _ _ _ hij]
    · rfl
  | drawGlobal dist k0 k ih =>
    simp only [Code.run]
    rw [ih _ _ _ hij]
  | drawGlobalParam param k0 k ih =>
    simp only [Code.run]
    rw [ih _ _ _ hij]; rfl
  | block b body k ihb ih =>
    simp only [Code.run]
    split
    · rw [ih _ _ _ hij]
      by_cases hib : i = b
      · subst hib; exact restoreDet_det env i w _ hd
      · rw [restoreDet_other env b i w _ hib]; exact ihb b w hib
    · rfl

theorem seedNode_sim (det : Nat → Bool) (num c1 c2 n : Nat) (s : S) (f1 f2 : Nat → Nat × S) :
    (seedNode det num (c1 + n) s f1).num = num + 1 ∧ (seedNode det num (c2 + n) s f2).num = num + 1 ∧
    ∃ m ≥ n, (seedNode det num (c1 + n) s f1).cnt = c1 + m ∧ (seedNode det num (c2 + n) s f2).cnt = c2 + m ∧
      (∀ j, j ≠ num ∨ det j = true → (seedNode det num (c1 + n) s f1).nodes j = f1 j ∧ (seedNode det num (c2 + n) s f2).nodes j = f2 j) ∧
      (det num = false → RngSim c1 c2 m ((seedNode det num (c1 + n) s f1).nodes num) ((seedNode det num (c2 + n) s f2).nodes num)) := by
  unfold seedNode
  by_cases hd : det num = true
  · rw [if_pos hd, if_pos hd]
    exact ⟨rfl, rfl, n, Nat.le_refl n, rfl, rfl, fun _ _ => ⟨rfl, rfl⟩, fun h => by simp [h] at hd⟩
  · rw [if_neg hd, if_neg hd]
    refine ⟨rfl, rfl, n + 1, by omega, by simp only; omega, by simp only; omega, fun j hj => ?_, fun _ => ?_⟩
    · have : j ≠ num := by rintro rfl; rcases hj with hj | hj; exact hj rfl; exact hd hj
      simp [upd, this]
    · simp only [upd, if_true]
      exact ⟨rfl, n, by omega, rfl, rfl⟩

theorem seedForest_sim (derive : S → S × S) (det : Nat → Bool) (fo : Forest) (num c1 c2 n : Nat) (s : S) (f1 f2 : Nat → Nat × S) :
    (seedForest derive det fo num (c1 + n) s f1).num = num + fo.size ∧
    (seedForest derive det fo num (c2 + n) s f2).num = num + fo.size ∧
    ∃ m ≥ n, (seedForest derive det fo num (c1 + n) s f1).cnt = c1 + m ∧
      (seedForest derive det fo num (c2 + n) s f2).cnt = c2 + m ∧
      (∀ j, j < num ∨ num + fo.size ≤ j ∨ det j = true →
        (seedForest derive det fo num (c1 + n) s f1).nodes j = f1 j ∧
        (seedForest derive det fo num (c2 + n) s f2).nodes j = f2 j) ∧
      (∀ j, num ≤ j → j < num + fo.size → det j = false →
        RngSim c1 c2 m ((seedForest derive det fo num (c1 + n) s f1).nodes j)
          ((seedForest derive det fo num (c2 + n) s f2).nodes j)) := by
  induction fo generalizing num n s f1 f2 with
  | nil =>
    simp only [seedForest, Forest.size, Nat.add_zero]
    exact ⟨trivial, trivial, n, Nat.le_refl n, rfl, rfl, fun _ _ => ⟨trivial, trivial⟩, fun j h1 h2 => by omega⟩
  | cons ch sib ihc ihs =>
    simp only [seedForest, Forest.size]
    obtain ⟨a1, a2, m1, hm1, a3, a4, a5, a6⟩ := seedNode_sim det num c1 c2 (n + 1) (derive s).1 f1 f2
    rw [show c1 + (n + 1) = c1 + n + 1 from rfl, show c2 + (n + 1) = c2 + n + 1 from rfl] at *
    generalize (seedNode det num (c1 + n + 1) (derive s).1 f1) = x1 at *
    generalize (seedNode det num (c2 + n + 1) (derive s).1 f2) = x2 at *
    rw [a1, a2, a3, a4]
    obtain ⟨b1, b2, m2, hm2, b3, b4, b5, b6⟩ := ihc (num + 1) m1 (derive s).1 x1.nodes x2.nodes
    rw [b1, b2, b3, b4]
    generalize seedForest derive det ch (num + 1) (c1 + m1) (derive s).1 x1.nodes = y1 at *
    generalize seedForest derive det ch (num + 1) (c2 + m1) (derive s).1 x2.nodes = y2 at *
    obtain ⟨d1, d2, m3, hm3, d3, d4, d5, d6⟩ := ihs (num + 1 + ch.size) m2 (derive s).2 y1.nodes y2.nodes
    refine ⟨by rw [d1]; omega, by rw [d2]; omega, m3, by omega, d3, d4, fun j hj => ?_, fun j h1 h2 hd => ?_⟩
    · obtain ⟨e1, e2⟩ := d5 j (by rcases hj with h | h | h <;> [left; (right; left); (right; right)] <;> first | exact h | omega)
      obtain ⟨e3, e4⟩ := b5 j (by rcases hj with h | h | h <;> [left; (right; left); (right; right)] <;> first | exact h | omega)
      obtain ⟨e5, e6⟩ := a5 j (by rcases hj with h | h | h <;> [left; left; right] <;> first | exact h | omega)
      exact ⟨e1.trans (e3.trans e5), e2.trans (e4.trans e6)⟩
    · by_cases h3 : num + 1 + ch.size ≤ j
      · exact d6 j h3 (by omega) hd
      · obtain ⟨e1, e2⟩ := d5 j (by omega)
        rw [e1, e2]
        by_cases h4 : num + 1 ≤ j
        · exact (b6 j h4 (by omega) hd).mono hm3
        · obtain ⟨e3, e4⟩ := b5 j (by omega)
          have : j = num := by omega
          subst this
          rw [e3, e4]
          exact (a6 hd).mono (by omega)

theorem reseed_sim (env : Env S V) (start i : Int) (d0 : Nat → S) (w1 w2 : World S V) (h1 : Possible env d0 w1)
    (h2 : Possible env d0 w2) :
    ∃ m, Sim env w1.counter w2.counter m (forgetTemps (reseed env start i w1)) (forgetTemps (reseed env start i w2)) := by
  simp only [reseed, seedTree, seedGlobal]
  obtain ⟨a1, a2, m1, hm1, a3, a4, a5, a6⟩ := seedNode_sim env.det 0 w1.counter w2.counter 1 (env.ofSeed (localSeed start i))
    w1.nodes w2.nodes
  rw [a1, a2, a3, a4]
  generalize seedNode env.det 0 (w1.counter + 1) (env.ofSeed (localSeed start i)) w1.nodes = x1 at *
  generalize seedNode env.det 0 (w2.counter + 1) (env.ofSeed (localSeed start i)) w2.nodes = x2 at *
  obtain ⟨b1, b2, m2, hm2, b3, b4, b5, b6⟩ := seedForest_sim env.derive env.det env.children (0 + 1) w1.counter w2.counter m1
    (env.ofSeed (localSeed start i)) x1.nodes x2.nodes
  have key : ∀ j < env.size, env.det j = false → RngSim w1.counter w2.counter m2
      ((seedForest env.derive env.det env.children (0 + 1) (w1.counter + m1) (env.ofSeed (localSeed start i)) x1.nodes).nodes j)
      ((seedForest env.derive env.det env.children (0 + 1) (w2.counter + m1) (env.ofSeed (localSeed start i)) x2.nodes).nodes j) := by
    intro j hj hd
    by_cases hj0 : j = 0
    · subst hj0
      obtain ⟨e1, e2⟩ := b5 0 (by omega)
      rw [e1, e2]
      exact (a6 hd).mono hm2
    · exact b6 j (by omega) (by unfold Env.size at hj; omega) hd
  refine ⟨m2, b3, b4, fun j hj => ?_, key, .nil, rfl, fun k => .inl ⟨fun l hl => h1.1 k l hl, fun l hl => h2.1 k l hl⟩⟩
  cases hd : env.det j with
  | false => exact (key j hj hd).1
  | true =>
    obtain ⟨e1, e2⟩ := b5 j (by simp [hd])
    obtain ⟨e3, e4⟩ := a5 j (by simp [hd])
    simp only [forgetTemps]
    rw [e1, e2, e3, e4, h1.2 j hj hd, h2.2 j hj hd]

theorem reseed_det (env : Env S V) (start i : Int) (w : World S V) (j : Nat) (hd : env.det j = true) :
    (reseed env start i w).nodes j = w.nodes j := by
  simp only [reseed, seedTree, seedGlobal]
  obtain ⟨a1, a2, m1, hm1, a3, a4, a5, a6⟩ := seedNode_sim env.det 0 w.counter w.counter 1 (env.ofSeed (localSeed start i))
    w.nodes w.nodes
  rw [a1, a3]
  obtain ⟨b1, b2, m2, hm2, b3, b4, b5, b6⟩ := seedForest_sim env.derive env.det env.children (0 + 1) w.counter w.counter m1
    (env.ofSeed (localSeed start i)) (seedNode env.det 0 (w.counter + 1) (env.ofSeed (localSeed start i)) w.nodes).nodes
    (seedNode env.det 0 (w.counter + 1) (env.ofSeed (localSeed start i)) w.nodes).nodes
  rw [(b5 j (by simp [hd])).1, (a5 j (by simp [hd])).1]

def IdsInv (s : Ids) : Prop :=
  ((∀ (g left : Nat), s.gens[g]? ≠ some (true, left)) ∧ s.out = List.range s.idx) ∨
  ∃ g : Nat, (∀ (g' left : Nat), s.gens[g']? = some (true, left) → g' = g) ∧ (∃ left, s.gens[g]? = some (true, left)) ∧
    s.out = List.range (s.idx + 1)

theorem range_append_map (n m : Nat) : List.range n ++ (List.range m).map (n + ·) = List.range (n + m) := by
  rw [List.range_add]

theorem ids_step_inv (s : Ids) (op : IdOp) (h : IdsInv s)
    (ho : ∀ g left, s.gens[g]? = some (true, left) → op = .next g) : IdsInv (s.step op) := by
  have nopend : (∀ g, op ≠ .next g) → (∀ (g left : Nat), s.gens[g]? ≠ some (true, left)) ∧ s.out = List.range s.idx := by
    intro hop
    rcases h with h | ⟨g, -, ⟨left, hg⟩, -⟩
    · exact h
    · exact absurd (ho g left hg) (hop g)
  cases op with
  | map n =>
    obtain ⟨h1, h2⟩ := nopend (by simp)
    refine .inl ⟨h1, ?_⟩
    simp only [Ids.step]
    rw [h2, range_append_map]
  | imap n =>
    obtain ⟨h1, h2⟩ := nopend (by simp)
    refine .inl ⟨fun g left hg => ?_, h2⟩
    simp only [Ids.step] at hg
    rw [List.getElem?_append] at hg
    split at hg
    · exact h1 g left hg
    · rw [List.getElem?_singleton] at hg
      split at hg <;> simp at hg
  | next g =>
    simp only [Ids.step]
    cases hg : s.gens[g]? with
    | none => exact h
    | some x =>
      obtain ⟨pend, left⟩ := x
      have hlt : g < s.gens.length := by
        rcases Nat.lt_or_ge g s.gens.length with h | h
        · exact h
        · rw [List.getElem?_eq_none h] at hg; simp at hg
      have hout : s.out = List.range (if pend then s.idx + 1 else s.idx) := by
        rcases h with ⟨h1, h2⟩ | ⟨g', h1, ⟨l', h2⟩, h3⟩
        · cases pend with
          | false => simpa using h2
          | true => exact absurd hg (h1 g left)
        · have := ho g' l' h2
          have hgg : g' = g := by simpa using this.symm
          subst hgg
          rw [h2] at hg
          have : pend = true := by simp at hg; exact hg.1
          subst this
          simpa using h3
      have hoth : ∀ (g' left' : Nat), s.gens[g']? = some (true, left') → g' = g := by
        intro g' l' h2
        have := ho g' l' h2
        simpa using this.symm
      cases left with
      | zero =>
        refine .inl ⟨fun g' left' hg' => ?_, hout⟩
        by_cases hgg : g' = g
        · subst hgg; rw [List.getElem?_set_self hlt] at hg'; simp at hg'
        · rw [List.getElem?_set_ne (Ne.symm hgg)] at hg'
          exact hgg (hoth g' left' hg')
      | succ left =>
        refine .inr ⟨g, fun g' left' hg' => ?_, ⟨left, List.getElem?_set_self hlt⟩, ?_⟩
        · by_contra hgg
          rw [List.getElem?_set_ne (Ne.symm hgg)] at hg'
          exact hgg (hoth g' left' hg')
        · simp only
          rw [hout, List.range_succ]

theorem ids_run_inv (ops : List IdOp) (s : Ids) (h : IdsInv s) (ho : Orderly s ops) : IdsInv (Ids.run s ops) := by
  induction ops generalizing s with
  | nil => exact h
  | cons op ops ih => exact ih (s.step op) (ids_step_inv s op h ho.1) ho.2

end Imgaug.Props
