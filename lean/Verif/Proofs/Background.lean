import Verif.Spec.Background
import Verif.Model.Background
import Mathlib.Data.List.Perm.Subperm
import Mathlib.Data.List.Range
import Mathlib.Data.List.Nodup
import Mathlib.Tactic.Common
/-! Helper lemmas for Props/Background.lean. -/
namespace Imgaug.Props
open Imgaug Imgaug.Background

/-- Batch that a worker process has. -/
def heldOf : WSt → List Nat
  | .has b => [b]
  | .dead b => [b]
  | _ => []

/-- Whether the worker has seen the end of the source. -/
def seenEnd : WSt → Bool
  | .gotNone => true
  | .ending => true
  | .done => true
  | _ => false

def held (n : Nat) (f : Nat → WSt) : List Nat := (List.range n).flatMap fun w => heldOf (f w)

/-- All batches in the system. -/
def everything (n : Nat) (s : St) : List Nat :=
  s.out ++ s.res.filterMap (·.2) ++ held n s.workers ++ s.src.filterMap id ++ s.left

theorem held_setW (n : Nat) (f : Nat → WSt) (w : Nat) (v : WSt) (hw : w < n) :
    (held n (setW f w v) ++ heldOf (f w)).Perm (held n f ++ heldOf v) := by
  induction n with
  | zero => omega
  | succ n ih =>
    have e : ∀ g : Nat → WSt, held (n + 1) g = held n g ++ heldOf (g n) := by
      intro g; simp [held, List.range_succ]
    rw [e, e]
    by_cases h : w = n
    · subst h
      have : held w (setW f w v) = held w f := by
        unfold held
        refine List.flatMap_congr fun x hx => ?_
        have := List.mem_range.1 hx
        simp [setW, show x ≠ w by omega]
      rw [this, show setW f w v w = v by simp [setW]]
      rw [List.append_assoc, List.append_assoc]
      exact List.perm_append_comm.append_left _
    · rw [show setW f w v n = f n by simp [setW, Ne.symm h]]
      have := ih (by omega)
      rw [List.append_assoc, List.append_assoc]
      refine (List.perm_append_comm.append_left _).trans ?_
      rw [← List.append_assoc]
      refine (this.append_right _).trans ?_
      rw [List.append_assoc]
      exact List.perm_append_comm.append_left _

theorem held_same (n : Nat) (f : Nat → WSt) (w : Nat) (v : WSt) (hw : w < n) (h : heldOf (f w) = heldOf v) :
    (held n (setW f w v)).Perm (held n f) := by
  have := held_setW n f w v hw
  rw [h] at this
  exact (List.perm_append_right_iff _).1 this

theorem held_add (n : Nat) (f : Nat → WSt) (w : Nat) (v : WSt) (hw : w < n) (h : heldOf (f w) = []) :
    (held n (setW f w v)).Perm (held n f ++ heldOf v) := by
  have := held_setW n f w v hw
  rw [h] at this
  simpa using this

theorem held_rem (n : Nat) (f : Nat → WSt) (w : Nat) (v : WSt) (hw : w < n) (h : heldOf v = []) :
    (held n (setW f w v) ++ heldOf (f w)).Perm (held n f) := by
  have := held_setW n f w v hw
  rw [h] at this
  simpa using this

/-- Nothing gets lost or duplicated. -/
theorem everything_step (n Q : Nat) (c : Bool) (s t : St) (h : Step n Q c s t) : (everything n t).Perm (everything n s) := by
  cases h with
  | load b l h =>
    simp only [everything, h, List.filterMap_append]
    simp
  | loadEnd h h2 => simp [everything]
  | get w b l hw h hs =>
    have e := held_add n s.workers w (.has b) hw (by simp [h, heldOf])
    simp only [everything, hs, List.filterMap_cons, id]
    refine List.Perm.append_right _ ?_
    refine (List.Perm.append_right _ (List.Perm.append_left _ e)).trans ?_
    simp [heldOf]
  | getNone w l hw h hs =>
    have e := held_same n s.workers w .gotNone hw (by simp [h, heldOf])
    simp only [everything, hs, List.filterMap_cons, id]
    exact List.Perm.append_right _ (List.Perm.append_right _ (List.Perm.append_left _ e))
  | put w b hw h hq =>
    have e := held_rem n s.workers w .idle hw rfl
    rw [h] at e
    simp only [everything, List.filterMap_append]
    refine List.Perm.append_right _ (List.Perm.append_right _ ?_)
    simp only [List.filterMap_cons, List.filterMap_nil, List.append_assoc]
    refine List.Perm.append_left _ (List.Perm.append_left _ ?_)
    exact List.perm_append_comm.trans e
  | putBack w hw h =>
    have e := held_same n s.workers w .ending hw (by simp [h, heldOf])
    simp only [everything, List.filterMap_append, List.filterMap_cons, List.filterMap_nil, id, List.append_nil]
    exact List.Perm.append_right _ (List.Perm.append_right _ (List.Perm.append_left _ e))
  | putNone w hw h hq =>
    have e := held_same n s.workers w .done hw (by simp [h, heldOf])
    simp only [everything, List.filterMap_append, List.filterMap_cons, List.filterMap_nil, List.append_nil]
    exact List.Perm.append_right _ (List.Perm.append_right _ (List.Perm.append_left _ e))
  | recv w b l1 l2 hr hf hn =>
    simp only [everything, hr, List.filterMap_append, List.filterMap_cons]
    refine List.Perm.append_right _ (List.Perm.append_right _ (List.Perm.append_right _ ?_))
    rw [List.append_assoc]
    refine List.Perm.append_left _ ?_
    simpa using List.perm_middle.symm
  | recvNone w l1 l2 hr hf hn => simp [everything, hr]
  | crash w b hw h hc =>
    have e := held_same n s.workers w (.dead b) hw (by simp [h, heldOf])
    simp only [everything]
    exact List.Perm.append_right _ (List.Perm.append_right _ (List.Perm.append_left _ e))

theorem everything_reach (n Q : Nat) (c : Bool) (batches : List Nat) (s : St) (h : Reach n Q c (init batches) s) :
    (everything n s).Perm batches := by
  induction h with
  | refl =>
    have : held n (fun _ => WSt.idle) = [] := by simp [held, heldOf]
    simp [everything, init, this]
  | step s t _ hst ih => exact (everything_step n Q c s t hst).trans ih

/-- The end marker of the source. -/
def SrcInv (n : Nat) (s : St) : Prop :=
  (s.loaderDone = false → (∃ bs : List Nat, s.src = bs.map some) ∧ ∀ w < n, seenEnd (s.workers w) = false) ∧
  (s.loaderDone = true → s.left = [] ∧
    ((∃ bs : List Nat, s.src = bs.map some ++ [none] ∧ (bs ≠ [] → ∀ w < n, seenEnd (s.workers w) = false) ∧
        ∀ w < n, s.workers w ≠ .gotNone) ∨
      (s.src = [] ∧ ∃ w < n, s.workers w = .gotNone ∧ ∀ w' < n, s.workers w' = .gotNone → w' = w)))

theorem setW_same (f : Nat → WSt) (w : Nat) (v : WSt) : setW f w v w = v := by simp [setW]

theorem setW_other (f : Nat → WSt) (w i : Nat) (v : WSt) (h : i ≠ w) : setW f w v i = f i := by simp [setW, h]

/-- A step of a worker that neither sees the end nor leaves the state `gotNone` keeps the invariant of the source. -/
theorem srcInv_setW (n : Nat) (s t : St) (w : Nat) (v : WSt) (h : SrcInv n s) (h1 : t.left = s.left)
    (h2 : t.loaderDone = s.loaderDone) (h3 : t.src = s.src) (h4 : t.workers = setW s.workers w v)
    (h5 : seenEnd v = seenEnd (s.workers w)) (h6 : v ≠ .gotNone) (h7 : s.workers w ≠ .gotNone) : SrcInv n t := by
  have hs : ∀ w', seenEnd (t.workers w') = seenEnd (s.workers w') := by
    intro w'
    rw [h4]
    by_cases hw : w' = w
    · subst hw; rw [setW_same]; exact h5
    · rw [setW_other _ _ _ _ hw]
  have hg : ∀ w', t.workers w' = .gotNone ↔ s.workers w' = .gotNone := by
    intro w'
    rw [h4]
    by_cases hw : w' = w
    · subst hw; rw [setW_same]; exact ⟨fun h => absurd h h6, fun h => absurd h h7⟩
    · rw [setW_other _ _ _ _ hw]
  unfold SrcInv
  rw [h1, h2, h3]
  simp only [hs, ne_eq, hg]
  exact h

theorem srcInv_step (n Q : Nat) (c : Bool) (s t : St) (h : Step n Q c s t) (hi : SrcInv n s) : SrcInv n t := by
  cases h with
  | load b l h =>
    cases hd : s.loaderDone with
    | true => have := (hi.2 hd).1; rw [h] at this; simp at this
    | false =>
      obtain ⟨⟨bs, h1⟩, h2⟩ := hi.1 hd
      exact ⟨fun _ => ⟨⟨bs ++ [b], by simp [h1]⟩, h2⟩, fun h => by simp at h⟩
  | loadEnd h h2 =>
    obtain ⟨⟨bs, h1⟩, h3⟩ := hi.1 h2
    refine ⟨by simp, fun _ => ⟨h, .inl ⟨bs, by simp [h1], fun _ => h3, fun w hw hg => ?_⟩⟩⟩
    have := h3 w hw
    simp only at hg
    rw [hg] at this; simp [seenEnd] at this
  | get w b l hw h hs =>
    constructor
    · intro hd
      obtain ⟨⟨bs, h1⟩, h2⟩ := hi.1 hd
      cases bs with
      | nil => rw [hs] at h1; simp at h1
      | cons b' bs =>
        rw [hs] at h1
        simp at h1
        refine ⟨⟨bs, h1.2⟩, fun w' hw' => ?_⟩
        simp only
        by_cases hww : w' = w
        · subst hww; rw [setW_same]; rfl
        · rw [setW_other _ _ _ _ hww]; exact h2 w' hw'
    · intro hd
      obtain ⟨h1, h2⟩ := hi.2 hd
      refine ⟨h1, ?_⟩
      rcases h2 with ⟨bs, h2, h3, h4⟩ | ⟨h2, -⟩
      · left
        cases bs with
        | nil => rw [hs] at h2; simp at h2
        | cons b' bs =>
          rw [hs] at h2
          simp at h2
          refine ⟨bs, h2.2, fun _ w' hw' => ?_, fun w' hw' => ?_⟩
          · simp only
            by_cases hww : w' = w
            · subst hww; rw [setW_same]; rfl
            · rw [setW_other _ _ _ _ hww]; exact h3 (by simp) w' hw'
          · simp only
            by_cases hww : w' = w
            · subst hww; rw [setW_same]; simp
            · rw [setW_other _ _ _ _ hww]; exact h4 w' hw'
      · rw [hs] at h2; simp at h2
  | getNone w l hw h hs =>
    constructor
    · intro hd
      obtain ⟨⟨bs, h1⟩, h2⟩ := hi.1 hd
      rw [hs] at h1
      cases bs <;> simp at h1
    · intro hd
      obtain ⟨h1, h2⟩ := hi.2 hd
      refine ⟨h1, .inr ?_⟩
      rcases h2 with ⟨bs, h2, h3, h4⟩ | ⟨h2, -⟩
      · cases bs with
        | cons b' bs => rw [hs] at h2; simp at h2
        | nil =>
          rw [hs] at h2
          simp at h2
          refine ⟨h2, w, hw, setW_same _ _ _, fun w' hw' hg => ?_⟩
          by_contra hww
          simp only at hg
          rw [setW_other _ _ _ _ hww] at hg
          exact h4 w' hw' hg
      · rw [hs] at h2; simp at h2
  | put w b hw h hq => exact srcInv_setW n s _ w .idle hi rfl rfl rfl rfl (by simp [h, seenEnd]) (by simp) (by simp [h])
  | putBack w hw h =>
    constructor
    · intro hd
      have := (hi.1 hd).2 w hw
      rw [h] at this; simp [seenEnd] at this
    · intro hd
      obtain ⟨h1, h2⟩ := hi.2 hd
      refine ⟨h1, .inl ?_⟩
      rcases h2 with ⟨bs, h2, h3, h4⟩ | ⟨h2, w0, hw0, h3, h4⟩
      · exact absurd h (h4 w hw)
      · refine ⟨[], by simp [h2], by simp, fun w' hw' hg => ?_⟩
        have e1 := h4 w hw h
        simp only at hg
        by_cases hww : w' = w
        · subst hww; rw [setW_same] at hg; simp at hg
        · rw [setW_other _ _ _ _ hww] at hg
          exact hww ((h4 w' hw' hg).trans e1.symm)
  | putNone w hw h hq => exact srcInv_setW n s _ w .done hi rfl rfl rfl rfl (by simp [h, seenEnd]) (by simp) (by simp [h])
  | recv w b l1 l2 hr hf hn => exact hi
  | recvNone w l1 l2 hr hf hn => exact hi
  | crash w b hw h hc => exact srcInv_setW n s _ w (.dead b) hi rfl rfl rfl rfl (by simp [h, seenEnd]) (by simp) (by simp [h])

/-- Entries of worker `w` in the result queue. -/
def entries (w : Nat) (res : List (Nat × Option Nat)) : List (Nat × Option Nat) := res.filter (fun p => p.1 == w)

/-- The end markers of the results. -/
structure ResInv (n : Nat) (s : St) : Prop where
  lt : ∀ p ∈ s.res, p.1 < n
  closedLt : ∀ w ∈ s.closed, w < n
  nodup : s.closed.Nodup
  closed : ∀ w ∈ s.closed, s.workers w = .done ∧ entries w s.res = []
  open' : ∀ w < n, w ∉ s.closed → s.workers w = .done →
    ∃ bs : List Nat, entries w s.res = bs.map (fun b => (w, some b)) ++ [(w, none)]
  running : ∀ w < n, s.workers w ≠ .done → (w, none) ∉ s.res

theorem entries_append (w : Nat) (a b : List (Nat × Option Nat)) : entries w (a ++ b) = entries w a ++ entries w b := by
  simp [entries]

theorem entries_cons_same (w : Nat) (x : Option Nat) (b : List (Nat × Option Nat)) :
    entries w ((w, x) :: b) = (w, x) :: entries w b := by simp [entries]

theorem entries_cons_other (w w' : Nat) (x : Option Nat) (b : List (Nat × Option Nat)) (h : w' ≠ w) :
    entries w ((w', x) :: b) = entries w b := by simp [entries, h]

theorem entries_none (w : Nat) (a : List (Nat × Option Nat)) (h : ∀ p ∈ a, p.1 ≠ w) : entries w a = [] := by
  simp only [entries, List.filter_eq_nil_iff]
  intro p hp; simpa using h p hp

theorem mem_entries (w : Nat) (x : Option Nat) (a : List (Nat × Option Nat)) : (w, x) ∈ entries w a ↔ (w, x) ∈ a := by
  simp [entries]

/-- A step that changes one worker between running states keeps the invariant of the results. -/
theorem resInv_setW (n : Nat) (s t : St) (w : Nat) (v : WSt) (hi : ResInv n s) (h1 : t.res = s.res)
    (h2 : t.closed = s.closed) (h3 : t.workers = setW s.workers w v) (h4 : v ≠ .done) (h5 : s.workers w ≠ .done) :
    ResInv n t := by
  have hd : ∀ w', t.workers w' = .done ↔ s.workers w' = .done := by
    intro w'
    rw [h3]
    by_cases hw : w' = w
    · subst hw; rw [setW_same]; exact ⟨fun h => absurd h h4, fun h => absurd h h5⟩
    · rw [setW_other _ _ _ _ hw]
  refine ⟨by rw [h1]; exact hi.lt, by rw [h2]; exact hi.closedLt, by rw [h2]; exact hi.nodup, ?_, ?_, ?_⟩
  · rw [h1, h2]; intro w' hw'; rw [hd]; exact hi.closed w' hw'
  · rw [h1, h2]; intro w' hw' hc; rw [hd]; exact hi.open' w' hw' hc
  · rw [h1]; intro w' hw'; rw [ne_eq, hd]; exact hi.running w' hw'

theorem resInv_step (n Q : Nat) (c : Bool) (s t : St) (h : Step n Q c s t) (hi : ResInv n s) : ResInv n t := by
  cases h with
  | load b l h => exact ⟨hi.lt, hi.closedLt, hi.nodup, hi.closed, hi.open', hi.running⟩
  | loadEnd h h2 => exact ⟨hi.lt, hi.closedLt, hi.nodup, hi.closed, hi.open', hi.running⟩
  | get w b l hw h hs => exact resInv_setW n s _ w (.has b) hi rfl rfl rfl (by simp) (by simp [h])
  | getNone w l hw h hs => exact resInv_setW n s _ w .gotNone hi rfl rfl rfl (by simp) (by simp [h])
  | putBack w hw h => exact resInv_setW n s _ w .ending hi rfl rfl rfl (by simp) (by simp [h])
  | crash w b hw h hc => exact resInv_setW n s _ w (.dead b) hi rfl rfl rfl (by simp) (by simp [h])
  | put w b hw h hq =>
    have hnc : w ∉ s.closed := fun hc => by have := (hi.closed w hc).1; rw [h] at this; simp at this
    refine ⟨?_, hi.closedLt, hi.nodup, ?_, ?_, ?_⟩
    · intro p hp
      simp only [List.mem_append, List.mem_singleton] at hp
      rcases hp with hp | rfl
      · exact hi.lt p hp
      · exact hw
    · intro w' hw'
      have hne : w' ≠ w := fun e => hnc (e ▸ hw')
      simp only
      rw [setW_other _ _ _ _ hne, entries_append, entries_cons_other w' w _ _ (Ne.symm hne)]
      obtain ⟨a, b⟩ := hi.closed w' hw'
      exact ⟨a, by rw [b]; rfl⟩
    · intro w' hw' hc' hd'
      simp only at hd' ⊢
      by_cases hne : w' = w
      · subst hne; rw [setW_same] at hd'; simp at hd'
      · rw [setW_other _ _ _ _ hne] at hd'
        rw [entries_append, entries_cons_other w' w _ _ (Ne.symm hne)]
        obtain ⟨bs, e⟩ := hi.open' w' hw' hc' hd'
        exact ⟨bs, by rw [e]; simp [entries]⟩
    · intro w' hw' hd'
      simp only at hd' ⊢
      simp only [List.mem_append, List.mem_singleton, Prod.mk.injEq, reduceCtorEq, and_false, or_false]
      refine hi.running w' hw' ?_
      by_cases hne : w' = w
      · subst hne; rw [h]; simp
      · rwa [setW_other _ _ _ _ hne] at hd'
  | putNone w hw h hq =>
    have hnc : w ∉ s.closed := fun hc => by have := (hi.closed w hc).1; rw [h] at this; simp at this
    refine ⟨?_, hi.closedLt, hi.nodup, ?_, ?_, ?_⟩
    · intro p hp
      simp only [List.mem_append, List.mem_singleton] at hp
      rcases hp with hp | rfl
      · exact hi.lt p hp
      · exact hw
    · intro w' hw'
      have hne : w' ≠ w := fun e => hnc (e ▸ hw')
      simp only
      rw [setW_other _ _ _ _ hne, entries_append, entries_cons_other w' w _ _ (Ne.symm hne)]
      obtain ⟨a, b⟩ := hi.closed w' hw'
      exact ⟨a, by rw [b]; rfl⟩
    · intro w' hw' hc' hd'
      simp only at hd' ⊢
      by_cases hne : w' = w
      · subst hne
        have hno := hi.running w' hw' (by rw [h]; simp)
        refine ⟨(entries w' s.res).filterMap (·.2), ?_⟩
        rw [entries_append, entries_cons_same]
        simp only [show entries w' [] = [] from rfl]
        congr 1
        have : ∀ p ∈ entries w' s.res, ∃ b, p = (w', some b) := by
          intro p hp
          obtain ⟨a, x⟩ := p
          have h1 := List.mem_filter.1 hp
          simp only [beq_iff_eq] at h1
          obtain ⟨h2, rfl⟩ := h1
          cases x with
          | none => exact absurd h2 hno
          | some b => exact ⟨b, rfl⟩
        generalize entries w' s.res = l at this
        clear hno
        induction l with
        | nil => rfl
        | cons p l ih =>
          obtain ⟨b, rfl⟩ := this p (by simp)
          simp only [List.filterMap_cons, List.map_cons]
          rw [← ih (fun q hq => this q (by simp [hq]))]
      · rw [setW_other _ _ _ _ hne] at hd'
        rw [entries_append, entries_cons_other w' w _ _ (Ne.symm hne)]
        obtain ⟨bs, e⟩ := hi.open' w' hw' hc' hd'
        exact ⟨bs, by rw [e]; simp [entries]⟩
    · intro w' hw' hd'
      simp only at hd' ⊢
      have hne : w' ≠ w := by rintro rfl; rw [setW_same] at hd'; exact hd' rfl
      rw [setW_other _ _ _ _ hne] at hd'
      simp only [List.mem_append, List.mem_singleton, Prod.mk.injEq, and_true]
      rintro (h | h)
      · exact hi.running w' hw' hd' h
      · exact hne h
  | recv w b l1 l2 hr hf hn =>
    have hmem : ∀ p ∈ l1 ++ l2, p ∈ s.res := by
      intro p hp
      rw [hr]
      simp only [List.mem_append, List.mem_cons] at hp ⊢
      tauto
    have hent : ∀ w', w' ≠ w → entries w' (l1 ++ l2) = entries w' s.res := by
      intro w' hne
      rw [hr, entries_append, entries_append, entries_cons_other w' w _ _ (Ne.symm hne)]
    have hown : entries w s.res = (w, some b) :: entries w l2 := by
      rw [hr, entries_append, entries_none w l1 hf, entries_cons_same]; rfl
    have hown2 : entries w (l1 ++ l2) = entries w l2 := by
      rw [entries_append, entries_none w l1 hf]; rfl
    refine ⟨fun p hp => hi.lt p (hmem p hp), hi.closedLt, hi.nodup, ?_, ?_, ?_⟩
    · intro w' hw'
      obtain ⟨a, e⟩ := hi.closed w' hw'
      have hne : w' ≠ w := by rintro rfl; rw [hown] at e; simp at e
      exact ⟨a, by rw [hent w' hne]; exact e⟩
    · intro w' hw' hc' hd'
      obtain ⟨bs, e⟩ := hi.open' w' hw' hc' hd'
      by_cases hne : w' = w
      · subst hne
        rw [hown] at e
        cases bs with
        | nil => simp at e
        | cons b' bs =>
          simp at e
          exact ⟨bs, by simp only; rw [hown2, e.2]⟩
      · exact ⟨bs, by simp only; rw [hent w' hne]; exact e⟩
    · intro w' hw' hd' hm
      exact hi.running w' hw' hd' (hmem _ hm)
  | recvNone w l1 l2 hr hf hn =>
    have hmem : ∀ p ∈ l1 ++ l2, p ∈ s.res := by
      intro p hp
      rw [hr]
      simp only [List.mem_append, List.mem_cons] at hp ⊢
      tauto
    have hent : ∀ w', w' ≠ w → entries w' (l1 ++ l2) = entries w' s.res := by
      intro w' hne
      rw [hr, entries_append, entries_append, entries_cons_other w' w _ _ (Ne.symm hne)]
    have hown : entries w s.res = (w, none) :: entries w l2 := by
      rw [hr, entries_append, entries_none w l1 hf, entries_cons_same]; rfl
    have hown2 : entries w (l1 ++ l2) = entries w l2 := by
      rw [entries_append, entries_none w l1 hf]; rfl
    have hw : w < n := hi.lt (w, none) (by rw [hr]; simp)
    have hdone : s.workers w = .done := by
      by_contra hnd
      exact hi.running w hw hnd (by rw [hr]; simp)
    have hnc : w ∉ s.closed := fun hc => by have := (hi.closed w hc).2; rw [hown] at this; simp at this
    have hempty : entries w l2 = [] := by
      obtain ⟨bs, e⟩ := hi.open' w hw hnc hdone
      rw [hown] at e
      cases bs with
      | nil => simpa using e
      | cons b bs => simp at e
    refine ⟨fun p hp => hi.lt p (hmem p hp), ?_, ?_, ?_, ?_, fun w' hw' hd' hm => hi.running w' hw' hd' (hmem _ hm)⟩
    · intro w' hw'
      simp only [List.mem_append, List.mem_singleton] at hw'
      rcases hw' with hw' | rfl
      · exact hi.closedLt w' hw'
      · exact hw
    · refine List.nodup_append.2 ⟨hi.nodup, by simp, ?_⟩
      intro a ha b hb
      simp only [List.mem_singleton] at hb
      subst hb
      exact fun e => hnc (e ▸ ha)
    · intro w' hw'
      simp only [List.mem_append, List.mem_singleton] at hw'
      simp only
      by_cases hne : w' = w
      · subst hne; exact ⟨hdone, by rw [hown2, hempty]⟩
      · rcases hw' with hw' | hw'
        · obtain ⟨a, e⟩ := hi.closed w' hw'
          exact ⟨a, by rw [hent w' hne]; exact e⟩
        · exact absurd hw' hne
    · intro w' hw' hc' hd'
      simp only [List.mem_append, List.mem_singleton, not_or] at hc'
      obtain ⟨bs, e⟩ := hi.open' w' hw' hc'.1 hd'
      exact ⟨bs, by simp only; rw [hent w' hc'.2]; exact e⟩

theorem reach_srcInv (n Q : Nat) (c : Bool) (batches : List Nat) (s : St) (h : Reach n Q c (init batches) s) : SrcInv n s := by
  induction h with
  | refl => exact ⟨fun _ => ⟨⟨[], rfl⟩, fun _ _ => rfl⟩, fun h => by simp [init] at h⟩
  | step s t _ hst ih => exact srcInv_step n Q c s t hst ih

theorem reach_resInv (n Q : Nat) (c : Bool) (batches : List Nat) (s : St) (h : Reach n Q c (init batches) s) : ResInv n s := by
  induction h with
  | refl => exact ⟨by simp [init], by simp [init], by simp [init], by simp [init], by simp [init], by simp [init]⟩
  | step s t _ hst ih => exact resInv_step n Q c s t hst ih

theorem closed_all (n : Nat) (s : St) (hi : ResInv n s) (h : s.closed.length = n) : ∀ w < n, w ∈ s.closed := by
  have hsub : s.closed.Subperm (List.range n) :=
    List.subperm_of_subset hi.nodup (fun w hw => List.mem_range.2 (hi.closedLt w hw))
  have hperm : s.closed.Perm (List.range n) := hsub.perm_of_length_le (by simp [h])
  intro w hw
  exact hperm.mem_iff.2 (List.mem_range.2 hw)

theorem workers_sum (n : Nat) (f : Nat → WSt) (w : Nat) (v : WSt) (hw : w < n) :
    ((List.range n).map fun i => workerSteps (setW f w v i)).sum + workerSteps (f w) =
      ((List.range n).map fun i => workerSteps (f i)).sum + workerSteps v := by
  induction n with
  | zero => omega
  | succ n ih =>
    simp only [List.range_succ, List.map_append, List.sum_append, List.map_cons, List.map_nil, List.sum_cons, List.sum_nil]
    by_cases h : w = n
    · subst h
      have : (List.range w).map (fun i => workerSteps (setW f w v i)) = (List.range w).map fun i => workerSteps (f i) := by
        refine List.map_congr_left fun x hx => ?_
        have := List.mem_range.1 hx
        simp [setW, show x ≠ w by omega]
      rw [this, setW_same]; omega
    · have := ih (by omega)
      rw [setW_other _ _ _ _ (Ne.symm h)]; omega

theorem reach_trans (n Q : Nat) (c : Bool) (s t u : St) (h1 : Reach n Q c s t) (h2 : Reach n Q c t u) : Reach n Q c s u := by
  induction h2 with
  | refl => exact h1
  | step a b _ hst ih => exact .step a b ih hst

end Imgaug.Props
