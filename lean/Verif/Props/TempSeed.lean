import Verif.Spec.TempSeed
import Mathlib.Tactic.SplitIfs
/-! Temporary seeds. -/
namespace Imgaug.TempSeed
variable {σ : Type}

/-- C63: a program leaves the fields of the context objects that it does not use. -/
theorem avoids_old (E : Env σ) (i : Nat) : ∀ (c : Code σ) (s : St σ), c.Avoids i → (exec E c s).st.old i = s.old i := by
  intro c
  induction c with
  | draw => intro s _; rfl
  | change f => intro s _; rfl
  | raise => intro s _; rfl
  | seq a b iha ihb =>
    intro s h
    simp only [exec]
    split_ifs
    · exact iha s h.1
    · exact (ihb _ h.2).trans (iha s h.1)
  | tryExcept a b iha ihb =>
    intro s h
    simp only [exec]
    split_ifs
    · exact (ihb _ h.2).trans (iha s h.1)
    · exact iha s h.1
  | withCtx j body ih =>
    intro s h
    simp only [exec]
    split
    · exact ih s h.2
    · split
      · exact Function.update_of_ne (Ne.symm h.1) _ _
      · rename_i g _
        have e := (ih ⟨g, Function.update s.old j (some s.glob)⟩ h.2).trans (Function.update_of_ne (Ne.symm h.1) _ _)
        simp only [exitCtx]
        split <;> exact e

/-- C63: after the block the global state is what it was before, whatever is done in the block, and also if it raises. Exceptions are passed on.
(The block must not use the same context object again, see `reentry_not_restored`.) -/
theorem restored_partial (E : Env σ) (i : Nat) (body : Code σ) (s : St σ) (he : (E.entropy i).isSome = true) (hb : body.Avoids i) :
    (exec E (.withCtx i body) s).st.glob = s.glob ∧
    ∀ e g, E.entropy i = some e → E.seed e = some g →
      (exec E (.withCtx i body) s).raised = (exec E body ⟨g, Function.update s.old i (some s.glob)⟩).raised ∧
      (exec E (.withCtx i body) s).log = (exec E body ⟨g, Function.update s.old i (some s.glob)⟩).log := by
  obtain ⟨e, h⟩ := Option.isSome_iff_exists.mp he
  have key : ∀ g, (exec E body ⟨g, Function.update s.old i (some s.glob)⟩).st.old i = some s.glob := by
    intro g
    rw [avoids_old E i body _ hb]
    exact Function.update_self _ _ _
  simp only [exec, h]
  constructor
  · cases hs : E.seed e with
    | none => rfl
    | some g =>
      simp only [exitCtx, key g]
  · rintro e' g ⟨⟩ hg
    simp only [hg, exitCtx, key g]
    exact ⟨trivial, trivial⟩

/-- C63: a context without entropy changes nothing: the block works on the global state, and that is not restored. -/
theorem no_entropy (E : Env σ) (i : Nat) (body : Code σ) (s : St σ) (h : E.entropy i = none) : exec E (.withCtx i body) s = exec E body s := by
  simp only [exec, h]

/-- C63: a rejected seed raises an exception and leaves the global state as it was. -/
theorem rejected_seed (E : Env σ) (i : Nat) (body : Code σ) (s : St σ) (e : Nat) (h : E.entropy i = some e) (hs : E.seed e = none) :
    (exec E (.withCtx i body) s).raised = true ∧ (exec E (.withCtx i body) s).st.glob = s.glob := by
  simp only [exec, h, hs]
  exact ⟨trivial, trivial⟩

/-- C63: what a program draws, whether it raises and in which global state it ends is determined by the global state in which it starts: the fields of the
context objects do not matter. -/
theorem depends_on_global (E : Env σ) : ∀ (c : Code σ) (s s' : St σ), c.NoReentry → s.glob = s'.glob →
    (exec E c s).log = (exec E c s').log ∧ (exec E c s).raised = (exec E c s').raised ∧ (exec E c s).st.glob = (exec E c s').st.glob := by
  intro c
  induction c with
  | draw => intro s s' _ h; simp only [exec, h]; exact ⟨trivial, trivial, trivial⟩
  | change f => intro s s' _ h; simp only [exec, h]; exact ⟨trivial, trivial, trivial⟩
  | raise => intro s s' _ h; simp only [exec, h]; exact ⟨trivial, trivial, trivial⟩
  | seq a b iha ihb =>
    intro s s' hn h
    obtain ⟨a1, a2, a3⟩ := iha s s' hn.1 h
    obtain ⟨b1, b2, b3⟩ := ihb _ _ hn.2 a3
    simp only [exec, a2]
    split_ifs
    · exact ⟨a1, a2, a3⟩
    · exact ⟨by rw [a1, b1], b2, b3⟩
  | tryExcept a b iha ihb =>
    intro s s' hn h
    obtain ⟨a1, a2, a3⟩ := iha s s' hn.1 h
    obtain ⟨b1, b2, b3⟩ := ihb _ _ hn.2 a3
    simp only [exec, a2]
    split_ifs
    · exact ⟨by rw [a1, b1], b2, b3⟩
    · exact ⟨a1, a2, a3⟩
  | withCtx i body ih =>
    intro s s' hn h
    cases he : E.entropy i with
    | none => rw [no_entropy E i body s he, no_entropy E i body s' he]; exact ih s s' hn.2 h
    | some e =>
      obtain ⟨r1, r2⟩ := restored_partial E i body s (by rw [he]; rfl) hn.1
      obtain ⟨r1', r2'⟩ := restored_partial E i body s' (by rw [he]; rfl) hn.1
      cases hs : E.seed e with
      | none =>
        simp only [exec, he, hs, h]
        exact ⟨trivial, trivial, trivial⟩
      | some g =>
        obtain ⟨q1, q2⟩ := r2 e g he hs
        obtain ⟨q1', q2'⟩ := r2' e g he hs
        obtain ⟨k1, k2, -⟩ := ih ⟨g, Function.update s.old i (some s.glob)⟩ ⟨g, Function.update s'.old i (some s'.glob)⟩ hn.2 rfl
        exact ⟨by rw [q2, q2', k1], by rw [q1, q1', k2], by rw [r1, r1', h]⟩

/-- C63: in a block with entropy the same numbers are drawn, whatever the global state was before. -/
theorem block_reproducible (E : Env σ) (i : Nat) (body : Code σ) (s s' : St σ) (he : (E.entropy i).isSome = true) (hn : (Code.withCtx i body).NoReentry) :
    (exec E (.withCtx i body) s).log = (exec E (.withCtx i body) s').log ∧ (exec E (.withCtx i body) s).raised = (exec E (.withCtx i body) s').raised := by
  obtain ⟨e, h⟩ := Option.isSome_iff_exists.mp he
  cases hs : E.seed e with
  | none => simp only [exec, h, hs]; exact ⟨trivial, trivial⟩
  | some g =>
    obtain ⟨q1, q2⟩ := (restored_partial E i body s he hn.1).2 e g h hs
    obtain ⟨q1', q2'⟩ := (restored_partial E i body s' he hn.1).2 e g h hs
    obtain ⟨k1, k2, -⟩ := depends_on_global E body ⟨g, Function.update s.old i (some s.glob)⟩ ⟨g, Function.update s'.old i (some s'.glob)⟩ hn.2 rfl
    exact ⟨by rw [q2, q2', k1], by rw [q1, q1', k2]⟩

/-- C63: at `__exit__` the old state is there. -/
theorem exit_state (E : Env σ) (i : Nat) (c : Code σ) : ∀ (s : St σ), (s.old i).isSome = true → ((exec E c s).st.old i).isSome = true := by
  induction c with
  | draw => intro s h; exact h
  | change f => intro s h; exact h
  | raise => intro s h; exact h
  | seq a b iha ihb =>
    intro s h
    simp only [exec]
    split_ifs
    · exact iha s h
    · exact ihb _ (iha s h)
  | tryExcept a b iha ihb =>
    intro s h
    simp only [exec]
    split_ifs
    · exact ihb _ (iha s h)
    · exact iha s h
  | withCtx j body ih =>
    intro s h
    have hu : (Function.update s.old j (some s.glob) i).isSome = true := by
      by_cases hj : i = j
      · subst hj; rw [Function.update_self]; rfl
      · rw [Function.update_of_ne hj]; exact h
    simp only [exec]
    split
    · exact ih s h
    · split
      · exact hu
      · rename_i g _
        have e := ih ⟨g, Function.update s.old j (some s.glob)⟩ hu
        simp only [exitCtx]
        split <;> exact e

/-- A generator that counts. -/
def counter : Env Nat := ⟨fun s => (s, s + 1), fun e => some e, fun i => some (5 + i)⟩

/-- C63: one context object used within its own block: afterwards the state is not the one before the block. -/
theorem reentry_not_restored : (exec counter (.withCtx 0 (.seq .draw (.withCtx 0 .draw))) ⟨100, fun _ => none⟩).st.glob = 6 := rfl

/-! The hypotheses can be met: nested blocks with draws and an exception. -/

example : (Code.withCtx 0 (.seq .draw (.seq (.withCtx 1 .draw) (.tryExcept .raise (.seq .draw .raise)))) : Code Nat).NoReentry := by
  simp [Code.NoReentry, Code.Avoids]

example : let o := exec counter (.withCtx 0 (.seq .draw (.seq (.withCtx 1 .draw) (.tryExcept .raise (.seq .draw .raise))))) ⟨100, fun _ => none⟩
    o.st.glob = 100 ∧ o.raised = true ∧ o.log = [5, 6, 6] := ⟨rfl, rfl, rfl⟩

end Imgaug.TempSeed
