import Verif.Spec.Loader
import Mathlib.Algebra.BigOperators.Group.Finset.Basic
import Mathlib.Algebra.BigOperators.Intervals
import Mathlib.Tactic.Common
namespace Imgaug.Loader

/-- The batches of worker `w` in the internal queue. -/
def inner (w : Nat) (l : List (Nat × Option Nat)) : List Nat := l.filterMap (fun e => if e.1 = w then e.2 else none)

def held (w : Nat) : MSt → List Nat
  | .hold e | .drainHold e => if e.1 = w then [e.2] else []
  | _ => []

def rest : WSt → List Nat
  | .loading l => valid l
  | _ => []

theorem inner_append (w : Nat) (l m : List (Nat × Option Nat)) : inner w (l ++ m) = inner w l ++ inner w m := List.filterMap_append
theorem ofWorker_append (w : Nat) (l m : List (Option (Nat × Nat))) : ofWorker w (l ++ m) = ofWorker w l ++ ofWorker w m := List.filterMap_append

theorem inner_none (w : Nat) (l : List (Nat × Option Nat)) (h : ∀ e ∈ l, e.1 ≠ w) : inner w l = [] := by
  unfold inner
  rw [List.filterMap_eq_nil_iff]
  intro e he
  rw [if_neg (h e he)]

theorem inner_filter_ne (v w : Nat) (l : List (Nat × Option Nat)) (h : w ≠ v) : inner w (l.filter (fun e => e.1 ≠ v)) = inner w l := by
  induction l with
  | nil => rfl
  | cons e l ih =>
    by_cases he : e.1 = v
    · rw [List.filter_cons_of_neg (by simp [he])]
      have : inner w (e :: l) = inner w l := by
        simp [inner, List.filterMap_cons, he, Ne.symm h]
      rw [this, ih]
    · rw [List.filter_cons_of_pos (by simp [he])]
      have : ∀ l, inner w (e :: l) = inner w [e] ++ inner w l := fun l => inner_append w [e] l
      rw [this, this l, ih]

theorem inner_filter_self (v : Nat) (l : List (Nat × Option Nat)) : inner v (l.filter (fun e => e.1 ≠ v)) = [] := by
  apply inner_none
  intro e he
  simpa using (List.mem_filter.1 he).2

/-- All batches of worker `w` that are on their way, in order. -/
def chain (w : Nat) (s : St) : List Nat :=
  ofWorker w s.delivered ++ (held w s.main ++ (inner w s.pipe ++ (inner w s.buf ++ rest (s.ws w))))

/-- Nothing is lost before the signal is set. -/
def Inv1 (c : Conf) (load : Nat → List (Option Nat)) (s : St) : Prop :=
  ∀ w < c.n, ∃ r, chain w s ++ r = valid (load w) ∧ (s.caller = .run → r = [])

theorem inv1_same (c : Conf) (load) (s t : St) (h : Inv1 c load s) (hc : ∀ w < c.n, chain w t = chain w s) (hr : t.caller = .run → s.caller = .run) :
    Inv1 c load t := by
  intro w hw
  obtain ⟨r, h1, h2⟩ := h w hw
  exact ⟨r, by rw [hc w hw, h1], fun h => h2 (hr h)⟩

theorem inv1_step (c : Conf) (load : Nat → List (Option Nat)) (s t : St) (h : Inv1 c load s) (hst : Step c s t) : Inv1 c load t := by
  cases hst with
  | put v b l hw hl hq =>
    intro w hw'
    obtain ⟨r, h1, h2⟩ := h w hw'
    by_cases hvw : w = v
    · subst hvw
      have e1 : chain w s = ofWorker w s.delivered ++ (held w s.main ++ (inner w s.pipe ++ (inner w s.buf ++ b :: valid l))) := by
        simp [chain, hl, rest, valid]
      by_cases hc : s.caller = .run
      · refine ⟨r, ?_, h2⟩
        rw [← h1, e1]
        simp [chain, St.delivered, inner_append, inner, hc, rest]
      · refine ⟨valid l ++ r, ?_, fun h => absurd h hc⟩
        rw [← h1, e1]
        simp [chain, St.delivered, inner_append, inner, hc, rest]
    · refine ⟨r, ?_, h2⟩
      rw [← h1]
      simp [chain, St.delivered, inner_append, inner, Function.update_of_ne hvw, Ne.symm hvw]
  | quit v l hw hl hc =>
    intro w hw'
    obtain ⟨r, h1, h2⟩ := h w hw'
    by_cases hvw : w = v
    · subst hvw
      refine ⟨valid l ++ r, ?_, fun h => absurd h hc⟩
      rw [← h1]
      simp [chain, St.delivered, hl, rest]
    · refine ⟨r, ?_, h2⟩
      rw [← h1]
      simp [chain, St.delivered, Function.update_of_ne hvw]
  | loaded v hw hl =>
    refine inv1_same c load s _ h (fun w _ => ?_) id
    by_cases hvw : w = v
    · subst hvw; simp [chain, St.delivered, hl, rest, valid]
    · simp [chain, St.delivered, Function.update_of_ne hvw]
  | raised v l hw hl =>
    refine inv1_same c load s _ h (fun w _ => ?_) id
    by_cases hvw : w = v
    · subst hvw; simp [chain, St.delivered, hl, rest, valid]
    · simp [chain, St.delivered, Function.update_of_ne hvw]
  | putEnd v hw hl hq =>
    refine inv1_same c load s _ h (fun w _ => ?_) id
    by_cases hvw : w = v
    · subst hvw; simp [chain, St.delivered, hl, rest, inner_append, inner]
    · simp [chain, St.delivered, Function.update_of_ne hvw, inner_append, inner]
  | die v hw hl hb =>
    refine inv1_same c load s _ h (fun w _ => ?_) id
    by_cases hvw : w = v
    · subst hvw; simp [chain, St.delivered, hl, rest]
    · simp [chain, St.delivered, Function.update_of_ne hvw]
  | flush v x l1 l2 hb hl1 ht =>
    refine inv1_same c load s _ h (fun w _ => ?_) id
    have e : inner w s.pipe ++ inner w [(v, x)] ++ (inner w l1 ++ inner w l2) = inner w s.pipe ++ (inner w l1 ++ (inner w [(v, x)] ++ inner w l2)) := by
      by_cases hvw : w = v
      · subst hvw; rw [inner_none w l1 hl1]; simp
      · have : inner w [(v, x)] = [] := inner_none w _ (by simpa using Ne.symm hvw)
        rw [this]; simp
    have e2 : inner w ((v, x) :: l2) = inner w [(v, x)] ++ inner w l2 := inner_append w [(v, x)] l2
    simp only [chain, St.delivered, hb, inner_append, e2]
    rw [← List.append_assoc (inner w s.pipe ++ _), e]
    simp only [List.append_assoc]
  | get v b l hm hp =>
    refine inv1_same c load s _ h (fun w _ => ?_) id
    have e2 : inner w ((v, some b) :: l) = inner w [(v, some b)] ++ inner w l := inner_append w [(v, some b)] l
    have e3 : inner w [(v, some b)] = if v = w then [b] else [] := by by_cases hv : v = w <;> simp [inner, hv]
    simp [chain, St.delivered, hm, hp, e2, e3, held]
  | getEnd v l hm hp =>
    refine inv1_same c load s _ h (fun w _ => ?_) id
    have e2 : inner w ((v, none) :: l) = inner w l := by simp [inner]
    simp [chain, St.delivered, hp, e2]
  | move e hm hq =>
    refine inv1_same c load s _ h (fun w _ => ?_) id
    have e3 : ofWorker w [some e] = if e.1 = w then [e.2] else [] := by by_cases hv : e.1 = w <;> simp [ofWorker, hv]
    simp [chain, St.delivered, hm, ofWorker_append, e3, held]
  | leave hm hd =>
    exact inv1_same c load s _ h (fun w _ => by simp [chain, St.delivered, hm, held]) id
  | drainGet v b l hm hp =>
    refine inv1_same c load s _ h (fun w _ => ?_) id
    have e2 : inner w ((v, some b) :: l) = inner w [(v, some b)] ++ inner w l := inner_append w [(v, some b)] l
    have e3 : inner w [(v, some b)] = if v = w then [b] else [] := by by_cases hv : v = w <;> simp [inner, hv]
    simp [chain, St.delivered, hm, hp, e2, e3, held]
  | drainEnd v l hm hp =>
    refine inv1_same c load s _ h (fun w _ => ?_) id
    have e2 : inner w ((v, none) :: l) = inner w l := by simp [inner]
    simp [chain, St.delivered, hp, e2]
  | drainMove e hm hq =>
    refine inv1_same c load s _ h (fun w _ => ?_) id
    have e3 : ofWorker w [some e] = if e.1 = w then [e.2] else [] := by by_cases hv : e.1 = w <;> simp [ofWorker, hv]
    simp [chain, St.delivered, hm, ofWorker_append, e3, held]
  | empty hm hp hb =>
    exact inv1_same c load s _ h (fun w _ => by simp [chain, St.delivered, hm, held]) id
  | putNone hm hq =>
    refine inv1_same c load s _ h (fun w _ => ?_) id
    have e3 : ofWorker w [none] = [] := rfl
    simp [chain, St.delivered, hm, ofWorker_append, e3, held]
  | take x l hq hc =>
    refine inv1_same c load s _ h (fun w _ => ?_) id
    simp [chain, St.delivered, hq]
  | terminate hc =>
    exact inv1_same c load s _ h (fun w _ => rfl) (fun h => by cases h)
  | joinMain hc hm =>
    exact inv1_same c load s _ h (fun w _ => rfl) (fun h => by cases h)
  | kill v hw hc ht hd =>
    intro w hw'
    obtain ⟨r, h1, h2⟩ := h w hw'
    by_cases hvw : w = v
    · subst hvw
      refine ⟨inner w s.buf ++ rest (s.ws w) ++ r, ?_, fun h => by rw [hc] at h; cases h⟩
      rw [← h1]
      simp only [chain, St.delivered, inner_filter_self, Function.update_self, rest]
      simp
    · refine ⟨r, ?_, h2⟩
      rw [← h1]
      simp only [chain, St.delivered, inner_filter_ne v w s.buf hvw, Function.update_of_ne hvw]
  | joinWorkers hc hd =>
    exact inv1_same c load s _ h (fun w _ => rfl) (fun h => by cases h)

theorem inv1_reach (c : Conf) (load : Nat → List (Option Nat)) (s : St) (h : Reach c (init load) s) : Inv1 c load s := by
  induction h with
  | refl => intro w _; exact ⟨[], by simp [chain, init, St.delivered, ofWorker, held, inner, rest], fun _ => rfl⟩
  | step s t _ hst ih => exact inv1_step c load s t ih hst

/-- The thread between the queues has left its first loop. -/
def MSt.late : MSt → Bool
  | .poll | .hold _ => false
  | _ => true

/-- Who is where. -/
structure Inv2 (c : Conf) (s : St) : Prop where
  buf : ∀ e ∈ s.buf, e.1 < c.n
  pipe : ∀ e ∈ s.pipe, e.1 < c.n
  /-- dead processes have written everything -/
  flushed : c.threaded = false → ∀ w, s.ws w = .dead → ∀ e ∈ s.buf, e.1 ≠ w
  late : s.caller = .run → s.main.late = true → ∀ w < c.n, s.ws w = .dead
  /-- in the end nothing is left, unless the feeder is late -/
  rest : s.caller = .run → (c.threaded = false ∨ c.prompt = true) → s.main = .last ∨ s.main = .done → s.pipe = [] ∧ s.buf = []
  cap : s.buf.length + s.pipe.length ≤ c.Q
  capQ : s.queue.length ≤ c.Q
  noNone : s.main ≠ .done → none ∉ s.delivered
  oneNone : s.main = .done → ∃ l, s.delivered = l ++ [none] ∧ none ∉ l
  closed : s.caller = .joinWorkers ∨ s.caller = .closed → s.main = .done
  allDead : s.caller = .closed → ∀ w < c.n, s.ws w = .dead

theorem ws_update (s : St) (v : Nat) (x : WSt) (w : Nat) (h : Function.update s.ws v x w = .dead) : (w = v ∧ x = .dead) ∨ (w ≠ v ∧ s.ws w = .dead) := by
  by_cases hv : w = v
  · subst hv; left; simpa using h
  · right; exact ⟨hv, by simpa [Function.update_of_ne hv] using h⟩

theorem inv2_buf (c : Conf) (s t : St) (h : Inv2 c s) (hst : Step c s t) : ∀ e ∈ t.buf, e.1 < c.n := by
  have hb := h.buf
  cases hst with
  | put v b l hw hl hq =>
    intro e he
    rcases List.mem_append.1 he with he | he
    · exact hb e he
    · simp at he; subst he; exact hw
  | putEnd v hw hl hq =>
    intro e he
    rcases List.mem_append.1 he with he | he
    · exact hb e he
    · simp at he; subst he; exact hw
  | flush v x l1 l2 hb' hl1 ht =>
    intro e he
    refine hb e ?_
    rw [hb']
    rcases List.mem_append.1 he with he | he <;> simp [he]
  | kill v hw hc ht hd => intro e he; exact hb e (List.mem_filter.1 he).1
  | _ => exact hb

theorem inv2_pipe (c : Conf) (s t : St) (h : Inv2 c s) (hst : Step c s t) : ∀ e ∈ t.pipe, e.1 < c.n := by
  have hb := h.buf
  have hp := h.pipe
  cases hst with
  | flush v x l1 l2 hb' hl1 ht =>
    intro e he
    rcases List.mem_append.1 he with he | he
    · exact hp e he
    · refine hb e ?_
      rw [hb']
      simp at he; simp [he]
  | get v b l hm hp' => intro e he; exact hp e (by rw [hp']; exact List.mem_cons_of_mem _ he)
  | getEnd v l hm hp' => intro e he; exact hp e (by rw [hp']; exact List.mem_cons_of_mem _ he)
  | drainGet v b l hm hp' => intro e he; exact hp e (by rw [hp']; exact List.mem_cons_of_mem _ he)
  | drainEnd v l hm hp' => intro e he; exact hp e (by rw [hp']; exact List.mem_cons_of_mem _ he)
  | _ => exact hp

theorem inv2_flushed (c : Conf) (s t : St) (h : Inv2 c s) (hst : Step c s t) (ht : c.threaded = false) :
    ∀ w, t.ws w = .dead → ∀ e ∈ t.buf, e.1 ≠ w := by
  have hf := h.flushed ht
  cases hst with
  | put v b l hw hl hq =>
    intro w hd e he
    rcases ws_update s v _ w hd with ⟨_, hx⟩ | ⟨hv, hd'⟩
    · split at hx <;> cases hx
    · rcases List.mem_append.1 he with he | he
      · exact hf w hd' e he
      · simp at he; subst he; exact Ne.symm hv
  | quit v l hw hl hc =>
    intro w hd
    rcases ws_update s v _ w hd with ⟨_, hx⟩ | ⟨hv, hd'⟩
    · cases hx
    · exact hf w hd'
  | loaded v hw hl =>
    intro w hd
    rcases ws_update s v _ w hd with ⟨_, hx⟩ | ⟨hv, hd'⟩
    · cases hx
    · exact hf w hd'
  | raised v l hw hl =>
    intro w hd
    rcases ws_update s v _ w hd with ⟨_, hx⟩ | ⟨hv, hd'⟩
    · cases hx
    · exact hf w hd'
  | putEnd v hw hl hq =>
    intro w hd e he
    rcases ws_update s v _ w hd with ⟨_, hx⟩ | ⟨hv, hd'⟩
    · cases hx
    · rcases List.mem_append.1 he with he | he
      · exact hf w hd' e he
      · simp at he; subst he; exact Ne.symm hv
  | die v hw hl hb =>
    intro w hd
    rcases ws_update s v _ w hd with ⟨rfl, _⟩ | ⟨hv, hd'⟩
    · exact hb ht
    · exact hf w hd'
  | flush v x l1 l2 hb' hl1 _ =>
    intro w hd e he
    refine hf w hd e ?_
    rw [hb']
    rcases List.mem_append.1 he with he | he <;> simp [he]
  | kill v hw hc _ hd' =>
    intro w hd e he
    rcases ws_update s v _ w hd with ⟨rfl, _⟩ | ⟨hv, hd'⟩
    · simpa using (List.mem_filter.1 he).2
    · exact hf w hd' e (List.mem_filter.1 he).1
  | _ => exact hf

theorem inv2_late (c : Conf) (s t : St) (h : Inv2 c s) (hst : Step c s t) : t.caller = .run → t.main.late = true → ∀ w < c.n, t.ws w = .dead := by
  have hl' := h.late
  intro hc hm
  cases hst with
  | put v b l hw hl hq => have := hl' hc hm v hw; rw [hl] at this; cases this
  | quit v l hw hl _ => have := hl' hc hm v hw; rw [hl] at this; cases this
  | loaded v hw hl => have := hl' hc hm v hw; rw [hl] at this; cases this
  | raised v l hw hl => have := hl' hc hm v hw; rw [hl] at this; cases this
  | putEnd v hw hl hq => have := hl' hc hm v hw; rw [hl] at this; cases this
  | die v hw hl hb => have := hl' hc hm v hw; rw [hl] at this; cases this
  | get v b l hm' hp' => cases hm
  | move e hm' hq => cases hm
  | leave hm' hd => exact hd.resolve_right (fun h => h hc)
  | drainGet v b l hm' hp' => exact hl' hc (by rw [hm']; rfl)
  | drainMove e hm' hq => exact hl' hc (by rw [hm']; rfl)
  | empty hm' hp hb => exact hl' hc (by rw [hm']; rfl)
  | putNone hm' hq => exact hl' hc (by rw [hm']; rfl)
  | kill v hw hc' _ hd' => have : s.caller = .run := hc; rw [hc'] at this; cases this
  | terminate h => cases hc
  | joinMain h _ => cases hc
  | joinWorkers h _ => cases hc
  | _ => exact hl' hc hm

theorem inv2_rest (c : Conf) (s t : St) (h : Inv2 c s) (hst : Step c s t) :
    t.caller = .run → (c.threaded = false ∨ c.prompt = true) → t.main = .last ∨ t.main = .done → t.pipe = [] ∧ t.buf = [] := by
  have hr := h.rest
  have hl' := h.late
  intro hc ht hm
  have hlate : ∀ m : MSt, m = .last ∨ m = .done → m.late = true := by rintro m (rfl | rfl) <;> rfl
  cases hst with
  | put v b l hw hl hq => have := hl' hc (hlate _ hm) v hw; rw [hl] at this; cases this
  | putEnd v hw hl hq => have := hl' hc (hlate _ hm) v hw; rw [hl] at this; cases this
  | flush v x l1 l2 hb' hl1 _ => have := (hr hc ht hm).2; rw [hb'] at this; simp at this
  | get v b l hm' hp' => rcases hm with hm | hm <;> cases hm
  | getEnd v l hm' hp' => have := (hr hc ht hm).1; rw [hp'] at this; cases this
  | move e hm' hq => rcases hm with hm | hm <;> cases hm
  | leave hm' hd => rcases hm with hm | hm <;> cases hm
  | drainGet v b l hm' hp' => rcases hm with hm | hm <;> cases hm
  | drainEnd v l hm' hp' => have := (hr hc ht hm).1; rw [hp'] at this; cases this
  | drainMove e hm' hq => rcases hm with hm | hm <;> cases hm
  | empty hm' hp hb =>
    refine ⟨hp, ?_⟩
    rcases ht with ht | ht
    · show s.buf = []
      rw [List.eq_nil_iff_forall_not_mem]
      intro e he
      exact h.flushed ht e.1 (hl' hc (by rw [hm']; rfl) e.1 (h.buf e he)) e he rfl
    · exact hb ht
  | putNone hm' hq => exact hr hc ht (Or.inl hm')
  | kill v hw hc' _ hd' => have : s.caller = .run := hc; rw [hc'] at this; cases this
  | terminate h => cases hc
  | joinMain h _ => cases hc
  | joinWorkers h _ => cases hc
  | _ => exact hr hc ht hm

theorem inv2_cap (c : Conf) (s t : St) (h : Inv2 c s) (hst : Step c s t) : t.buf.length + t.pipe.length ≤ c.Q := by
  have hc := h.cap
  cases hst with
  | put v b l hw hl hq => simp; omega
  | putEnd v hw hl hq => simp; omega
  | flush v x l1 l2 hb' hl1 _ => rw [hb'] at hc; simp at hc ⊢; omega
  | get v b l hm' hp' => rw [hp'] at hc; simp at hc ⊢; omega
  | getEnd v l hm' hp' => rw [hp'] at hc; simp at hc ⊢; omega
  | drainGet v b l hm' hp' => rw [hp'] at hc; simp at hc ⊢; omega
  | drainEnd v l hm' hp' => rw [hp'] at hc; simp at hc ⊢; omega
  | kill v hw hc' _ hd' =>
    have := List.length_filter_le (fun e : Nat × Option Nat => decide (e.1 ≠ v)) s.buf
    show (s.buf.filter (fun e : Nat × Option Nat => decide (e.1 ≠ v))).length + s.pipe.length ≤ c.Q
    omega
  | _ => exact hc

theorem inv2_capQ (c : Conf) (s t : St) (h : Inv2 c s) (hst : Step c s t) : t.queue.length ≤ c.Q := by
  have hc := h.capQ
  cases hst with
  | move e hm' hq => simp; omega
  | drainMove e hm' hq => simp; omega
  | putNone hm' hq => simp; omega
  | take x l hq _ => rw [hq] at hc; simp at hc ⊢; omega
  | _ => exact hc

theorem inv2_noNone (c : Conf) (s t : St) (h : Inv2 c s) (hst : Step c s t) : t.main ≠ .done → none ∉ t.delivered := by
  have hn := h.noNone
  have he : ∀ l m : List (Option (Nat × Nat)), ∀ e, none ∉ l ++ m → none ∉ l ++ (m ++ [some e]) := by intro l m e h; simpa using h
  intro hm
  cases hst with
  | get v b l hm' hp' => exact hn (by rw [hm']; simp)
  | move e hm' hq => exact he _ _ _ (hn (by rw [hm']; simp))
  | leave hm' hd => exact hn (by rw [hm']; simp)
  | drainGet v b l hm' hp' => exact hn (by rw [hm']; simp)
  | drainMove e hm' hq => exact he _ _ _ (hn (by rw [hm']; simp))
  | empty hm' hp hb => exact hn (by rw [hm']; simp)
  | putNone hm' hq => exact absurd rfl hm
  | take x l hq _ =>
    have := hn hm
    simp only [St.delivered, hq] at this ⊢
    simpa using this
  | _ => exact hn hm

theorem inv2_oneNone (c : Conf) (s t : St) (h : Inv2 c s) (hst : Step c s t) : t.main = .done → ∃ l, t.delivered = l ++ [none] ∧ none ∉ l := by
  have hn := h.oneNone
  intro hm
  cases hst with
  | get v b l hm' hp' => cases hm
  | move e hm' hq => cases hm
  | leave hm' hd => cases hm
  | drainGet v b l hm' hp' => cases hm
  | drainMove e hm' hq => cases hm
  | empty hm' hp hb => cases hm
  | putNone hm' hq =>
    have := h.noNone (by rw [hm']; simp)
    exact ⟨s.delivered, by simp [St.delivered], this⟩
  | take x l hq _ =>
    obtain ⟨m, h1, h2⟩ := hn hm
    refine ⟨m, ?_, h2⟩
    rw [← h1]
    simp [St.delivered, hq]
  | _ => exact hn hm

theorem inv2_closed (c : Conf) (s t : St) (h : Inv2 c s) (hst : Step c s t) : t.caller = .joinWorkers ∨ t.caller = .closed → t.main = .done := by
  have hn := h.closed
  intro hc
  cases hst with
  | get v b l hm' hp' => have := hn hc; rw [hm'] at this; cases this
  | move e hm' hq => have := hn hc; rw [hm'] at this; cases this
  | leave hm' hd => have := hn hc; rw [hm'] at this; cases this
  | drainGet v b l hm' hp' => have := hn hc; rw [hm'] at this; cases this
  | drainMove e hm' hq => have := hn hc; rw [hm'] at this; cases this
  | empty hm' hp hb => have := hn hc; rw [hm'] at this; cases this
  | putNone hm' hq => rfl
  | terminate h => rcases hc with hc | hc <;> cases hc
  | joinMain h hm => exact hm
  | joinWorkers h hd => exact hn (Or.inl h)
  | _ => exact hn hc

theorem inv2_allDead (c : Conf) (s t : St) (h : Inv2 c s) (hst : Step c s t) : t.caller = .closed → ∀ w < c.n, t.ws w = .dead := by
  have hn := h.allDead
  intro hc
  cases hst with
  | put v b l hw hl hq => have := hn hc v hw; rw [hl] at this; cases this
  | quit v l hw hl _ => have := hn hc v hw; rw [hl] at this; cases this
  | loaded v hw hl => have := hn hc v hw; rw [hl] at this; cases this
  | raised v l hw hl => have := hn hc v hw; rw [hl] at this; cases this
  | putEnd v hw hl hq => have := hn hc v hw; rw [hl] at this; cases this
  | die v hw hl hb => have := hn hc v hw; rw [hl] at this; cases this
  | kill v hw hc' _ hd' => have : s.caller = .closed := hc; rw [hc'] at this; cases this
  | terminate h => cases hc
  | joinMain h hm => cases hc
  | joinWorkers h hd => exact hd
  | _ => exact hn hc

theorem inv2_reach (c : Conf) (load : Nat → List (Option Nat)) (s : St) (h : Reach c (init load) s) : Inv2 c s := by
  induction h with
  | refl => constructor <;> simp [init, MSt.late, St.delivered]
  | step s t _ hst ih =>
    exact ⟨inv2_buf c s t ih hst, inv2_pipe c s t ih hst, inv2_flushed c s t ih hst, inv2_late c s t ih hst, inv2_rest c s t ih hst,
      inv2_cap c s t ih hst, inv2_capQ c s t ih hst, inv2_noNone c s t ih hst, inv2_oneNone c s t ih hst, inv2_closed c s t ih hst,
      inv2_allDead c s t ih hst⟩

def workerWeight : WSt → Nat
  | .loading l => 5 * l.length + 5
  | .ending => 4
  | .leaving => 1
  | .dead => 0

def bufWeight (e : Nat × Option Nat) : Nat := if e.2.isSome then 4 else 2
def pipeWeight (e : Nat × Option Nat) : Nat := if e.2.isSome then 3 else 1

def mainWeight : MSt → Nat
  | .poll => 4
  | .hold _ => 6
  | .drain => 3
  | .drainHold _ => 5
  | .last => 2
  | .done => 0

def callerWeight : CSt → Nat
  | .run => 3
  | .joinMain => 2
  | .joinWorkers => 1
  | .closed => 0

/-- A bound for the number of further steps. -/
def stepsLeft (n : Nat) (s : St) : Nat :=
  ∑ w ∈ Finset.range n, workerWeight (s.ws w) + (s.buf.map bufWeight).sum + (s.pipe.map pipeWeight).sum + mainWeight s.main + s.queue.length +
    callerWeight s.caller

theorem sum_update (n : Nat) (f : Nat → WSt) (v : Nat) (hv : v < n) (x : WSt) :
    ∑ w ∈ Finset.range n, workerWeight (Function.update f v x w) + workerWeight (f v) =
      ∑ w ∈ Finset.range n, workerWeight (f w) + workerWeight x := by
  have hm : v ∈ Finset.range n := Finset.mem_range.2 hv
  rw [← Finset.add_sum_erase _ _ hm, ← Finset.add_sum_erase _ (fun w => workerWeight (f w)) hm]
  have : ∑ w ∈ (Finset.range n).erase v, workerWeight (Function.update f v x w) = ∑ w ∈ (Finset.range n).erase v, workerWeight (f w) := by
    refine Finset.sum_congr rfl (fun w hw => ?_)
    rw [Function.update_of_ne (Finset.ne_of_mem_erase hw)]
  rw [this]
  simp only [Function.update_self]
  omega

theorem filter_weight (v : Nat) (l : List (Nat × Option Nat)) : ((l.filter (fun e => e.1 ≠ v)).map bufWeight).sum ≤ (l.map bufWeight).sum := by
  induction l with
  | nil => simp
  | cons e l ih =>
    rw [List.filter_cons]
    split
    · simp only [List.map_cons, List.sum_cons]; omega
    · simp only [List.map_cons, List.sum_cons]; omega

theorem step_decreases (c : Conf) (s t : St) (h : Step c s t) : stepsLeft c.n t < stepsLeft c.n s := by
  cases h with
  | put v b l hw hl hq =>
    have := sum_update c.n s.ws v hw (if s.caller = .run then .loading l else .ending)
    rw [hl] at this
    by_cases hc : s.caller = .run
    · simp only [hc, if_true] at this ⊢
      simp [stepsLeft, workerWeight, bufWeight, hc] at this ⊢
      omega
    · simp only [hc, if_false] at this ⊢
      simp [stepsLeft, workerWeight, bufWeight] at this ⊢
      omega
  | quit v l hw hl hc =>
    have := sum_update c.n s.ws v hw .ending
    rw [hl] at this
    simp [stepsLeft, workerWeight] at this ⊢
    omega
  | loaded v hw hl =>
    have := sum_update c.n s.ws v hw .ending
    rw [hl] at this
    simp [stepsLeft, workerWeight] at this ⊢
    omega
  | raised v l hw hl =>
    have := sum_update c.n s.ws v hw .ending
    rw [hl] at this
    simp [stepsLeft, workerWeight] at this ⊢
    omega
  | putEnd v hw hl hq =>
    have := sum_update c.n s.ws v hw .leaving
    rw [hl] at this
    simp [stepsLeft, workerWeight, bufWeight] at this ⊢
    omega
  | die v hw hl hb =>
    have := sum_update c.n s.ws v hw .dead
    rw [hl] at this
    simp [stepsLeft, workerWeight] at this ⊢
    omega
  | flush v x l1 l2 hb hl1 ht =>
    cases x <;> simp [stepsLeft, hb, bufWeight, pipeWeight] <;> omega
  | get v b l hm hp => simp [stepsLeft, hm, hp, mainWeight, pipeWeight]; omega
  | getEnd v l hm hp => simp [stepsLeft, hm, hp, mainWeight, pipeWeight]
  | move e hm hq => simp [stepsLeft, hm, mainWeight]; omega
  | leave hm hd => simp [stepsLeft, hm, mainWeight]
  | drainGet v b l hm hp => simp [stepsLeft, hm, hp, mainWeight, pipeWeight]; omega
  | drainEnd v l hm hp => simp [stepsLeft, hm, hp, mainWeight, pipeWeight]
  | drainMove e hm hq => simp [stepsLeft, hm, mainWeight]; omega
  | empty hm hp hb => simp [stepsLeft, hm, mainWeight]
  | putNone hm hq => simp [stepsLeft, hm, mainWeight]; omega
  | take x l hq hc => simp [stepsLeft, hq]
  | terminate hc => simp [stepsLeft, hc, callerWeight]
  | joinMain hc hm => simp [stepsLeft, hc, callerWeight]
  | kill v hw hc ht hd =>
    have := sum_update c.n s.ws v hw .dead
    have hf := filter_weight v s.buf
    have hpos : 0 < workerWeight (s.ws v) := by
      cases hx : s.ws v with
      | dead => exact absurd hx hd
      | _ => simp [workerWeight]
    have hz : workerWeight .dead = 0 := rfl
    rw [hz] at this
    simp only [stepsLeft]
    simp only [ne_eq, decide_not] at hf ⊢
    omega
  | joinWorkers hc hd => simp [stepsLeft, hc, callerWeight]

/-- Only workers that exist. -/
def Known (c : Conf) (s : St) : Prop := (∀ e, some e ∈ s.delivered → e.1 < c.n) ∧ ∀ e, s.main = .hold e ∨ s.main = .drainHold e → e.1 < c.n

theorem known_step (c : Conf) (s t : St) (h2 : Inv2 c s) (h : Known c s) (hst : Step c s t) : Known c t := by
  obtain ⟨k1, k2⟩ := h
  cases hst with
  | get v b l hm hp =>
    refine ⟨k1, fun e he => ?_⟩
    simp at he
    subst he
    exact h2.pipe (v, some b) (by simp [hp])
  | drainGet v b l hm hp =>
    refine ⟨k1, fun e he => ?_⟩
    simp at he
    subst he
    exact h2.pipe (v, some b) (by simp [hp])
  | move e hm hq =>
    refine ⟨fun e' he' => ?_, fun e' he' => by simp at he'⟩
    simp only [St.delivered, List.mem_append, List.mem_singleton, Option.some.injEq] at he' k1
    rcases he' with he' | he' | he'
    · exact k1 _ (Or.inl he')
    · exact k1 _ (Or.inr he')
    · subst he'; exact k2 _ (Or.inl hm)
  | drainMove e hm hq =>
    refine ⟨fun e' he' => ?_, fun e' he' => by simp at he'⟩
    simp only [St.delivered, List.mem_append, List.mem_singleton, Option.some.injEq] at he' k1
    rcases he' with he' | he' | he'
    · exact k1 _ (Or.inl he')
    · exact k1 _ (Or.inr he')
    · subst he'; exact k2 _ (Or.inr hm)
  | leave hm hd => exact ⟨k1, fun e he => by simp at he⟩
  | empty hm hp hb => exact ⟨k1, fun e he => by simp at he⟩
  | putNone hm hq =>
    refine ⟨fun e' he' => ?_, fun e' he' => by simp at he'⟩
    simp only [St.delivered, List.mem_append, List.mem_singleton, reduceCtorEq, or_false] at he' k1
    exact k1 _ he'
  | take x l hq hc =>
    refine ⟨fun e' he' => ?_, k2⟩
    refine k1 e' ?_
    simpa [St.delivered, hq] using he'
  | _ => exact ⟨k1, k2⟩

theorem known_reach (c : Conf) (load : Nat → List (Option Nat)) (s : St) (h : Reach c (init load) s) : Known c s := by
  induction h with
  | refl => exact ⟨by simp [init, St.delivered], by simp [init]⟩
  | step s t hr hst ih => exact known_step c s t (inv2_reach c load s hr) ih hst

theorem count_workers (n b : Nat) (l : List (Option (Nat × Nat))) (h : ∀ e, some e ∈ l → e.1 < n) :
    (batches l).count b = ∑ w ∈ Finset.range n, (ofWorker w l).count b := by
  induction l with
  | nil => simp [batches, ofWorker]
  | cons x l ih =>
    have ih' := ih (fun e he => h e (List.mem_cons_of_mem _ he))
    cases x with
    | none => simpa [batches, ofWorker] using ih'
    | some e =>
      have hm : e.1 ∈ Finset.range n := Finset.mem_range.2 (h e (by simp))
      have e1 : (batches (some e :: l)).count b = (if e.2 = b then 1 else 0) + (batches l).count b := by
        simp [batches, List.count_cons, Nat.add_comm]
      have e2 : ∀ w, (ofWorker w (some e :: l)).count b = (if w = e.1 then (if e.2 = b then 1 else 0) else 0) + (ofWorker w l).count b := by
        intro w
        by_cases hw : w = e.1
        · simp [ofWorker, hw, List.count_cons, Nat.add_comm]
        · simp [ofWorker, hw, Ne.symm hw]
      rw [e1, ih']
      simp only [e2]
      rw [Finset.sum_add_distrib, Finset.sum_ite_eq' _ e.1, if_pos hm]

theorem reach_trans (c : Conf) (s t u : St) (h : Reach c s t) (h' : Reach c t u) : Reach c s u := by
  induction h' with
  | refl => exact h
  | step a b _ hst ih => exact .step a b ih hst

end Imgaug.Loader
