import Verif.Proofs.Loader
/-! C92: `BatchLoader`. -/
namespace Imgaug.Loader.Props

/-- C92: in every interleaving, with threads and processes, also after `terminate` and if load functions raise: what is delivered of a worker are the
first batches that its load function yields, in this order and each once. Nothing else is delivered. -/
theorem worker_order (c : Conf) (load : Nat → List (Option Nat)) (s : St) (h : Reach c (init load) s) :
    (∀ w < c.n, ofWorker w s.delivered <+: valid (load w)) ∧ ∀ e, some e ∈ s.delivered → e.1 < c.n := by
  refine ⟨fun w hw => ?_, (known_reach c load s h).1⟩
  obtain ⟨r, hr, _⟩ := inv1_reach c load s h w hw
  exact ⟨held w s.main ++ (inner w s.pipe ++ (inner w s.buf ++ rest (s.ws w))) ++ r, by rw [← hr]; simp [chain]⟩

/-- C92: `None` is delivered at most once, and after it nothing comes. -/
theorem none_is_last (c : Conf) (load : Nat → List (Option Nat)) (s t : St) (h : Reach c (init load) s) (hn : none ∈ s.out) (ht : Reach c s t) :
    s.out.count none = 1 ∧ t.out = s.out ∧ t.queue = [] := by
  have key : ∀ u, Reach c (init load) u → none ∈ u.out → u.main = .done ∧ u.queue = [] ∧ u.out.count none = 1 := by
    intro u hu hn
    have h2 := inv2_reach c load u hu
    have hm : u.main = .done := by
      by_contra hm
      exact h2.noNone hm (by simp [St.delivered, hn])
    obtain ⟨l, hl, hl'⟩ := h2.oneNone hm
    obtain ⟨a, b, hab⟩ := List.append_of_mem hn
    have hb : b ++ u.queue = [] := by
      rcases List.eq_nil_or_concat (b ++ u.queue) with hb | ⟨d, x, hd⟩
      · exact hb
      · exfalso
        apply hl'
        have e1 : u.delivered = a ++ none :: (b ++ u.queue) := by simp [St.delivered, hab]
        rw [e1, hd] at hl
        have e2 : (a ++ none :: d) ++ [x] = l ++ [none] := by simpa using hl
        have := (List.append_inj' e2 rfl).1
        rw [← this]
        simp
    have hq : u.queue = [] := (List.append_eq_nil_iff.1 hb).2
    refine ⟨hm, hq, ?_⟩
    have e3 : u.out = l ++ [none] := by rw [← hl, St.delivered, hq, List.append_nil]
    rw [e3, List.count_append, List.count_eq_zero.2 hl']
    rfl
  obtain ⟨k1, k2, k3⟩ := key s h hn
  refine ⟨k3, ?_⟩
  have hm : ∀ t, Reach c s t → t.out = s.out ∧ t.queue = [] ∧ t.main = .done := by
    intro t ht
    induction ht with
    | refl => exact ⟨rfl, k2, k1⟩
    | step a b _ hst ih =>
      obtain ⟨i1, i2, i3⟩ := ih
      cases hst with
      | get v b l hm hp => rw [i3] at hm; cases hm
      | move e hm hq => rw [i3] at hm; cases hm
      | leave hm hd => rw [i3] at hm; cases hm
      | drainGet v b l hm hp => rw [i3] at hm; cases hm
      | drainMove e hm hq => rw [i3] at hm; cases hm
      | empty hm hp hb => rw [i3] at hm; cases hm
      | putNone hm hq => rw [i3] at hm; cases hm
      | take x l hq hc => rw [i2] at hq; cases hq
      | _ => exact ⟨i1, i2, i3⟩
  exact ⟨(hm t ht).1, (hm t ht).2.1⟩

/-- C92 (partial): with processes (or if the feeder thread of the queue is always fast enough), when the user receives `None` and did not call
`terminate`, every batch of every worker was delivered, in every interleaving. Missing: threads, `threads_lose_batches`. -/
theorem complete_partial (c : Conf) (hc : c.threaded = false ∨ c.prompt = true) (load : Nat → List (Option Nat)) (s : St)
    (h : Reach c (init load) s) (hr : s.caller = .run) (hn : none ∈ s.out) : ∀ w < c.n, ofWorker w s.out = valid (load w) := by
  intro w hw
  have h2 := inv2_reach c load s h
  obtain ⟨r, h1, hr'⟩ := inv1_reach c load s h w hw
  have hm : s.main = .done := by
    by_contra hm
    exact h2.noNone hm (by simp [St.delivered, hn])
  obtain ⟨e1, e2⟩ := h2.rest hr hc (Or.inr hm)
  have e3 := h2.late hr (by rw [hm]; rfl) w hw
  have e4 := (none_is_last c load s s h hn .refl).2.2
  rw [hr' hr] at h1
  rw [← h1]
  simp [chain, St.delivered, e1, e2, e3, e4, hm, held, inner, rest, ofWorker]

/-- C92: with processes each worker loads all batches: the user receives each batch once per worker. -/
theorem once_per_worker (c : Conf) (hc : c.threaded = false) (l : List (Option Nat)) (s : St) (h : Reach c (init (fun _ => l)) s)
    (hr : s.caller = .run) (hn : none ∈ s.out) (b : Nat) : (batches s.out).count b = c.n * (valid l).count b := by
  rw [count_workers c.n b s.out (fun e he => (known_reach c _ s h).1 e (by simp [St.delivered, he]))]
  rw [Finset.sum_congr rfl (fun w hw => by
    rw [complete_partial c (Or.inl hc) _ s h hr hn w (Finset.mem_range.1 hw)])]
  rw [Finset.sum_const, Finset.card_range]
  rfl

/-- C92: there are never more than `queue_size` batches in both queues together. -/
theorem stored_at_most (c : Conf) (size : Nat) (hs : c.Q = size / 2) (load : Nat → List (Option Nat)) (s : St) (h : Reach c (init load) s) :
    s.stored ≤ size := by
  have h2 := inv2_reach c load s h
  have h3 := h2.cap
  have h4 := h2.capQ
  have l1 := List.length_filter_le (fun e : Nat × Option Nat => e.2.isSome) s.buf
  have l2 := List.length_filter_le (fun e : Nat × Option Nat => e.2.isSome) s.pipe
  have l3 := List.length_filter_le (fun e : Option (Nat × Nat) => e.isSome) s.queue
  unfold St.stored
  omega

/-- C92: every execution is finite: each step lowers `stepsLeft`. -/
theorem executions_end (c : Conf) (s t : St) (h : Step c s t) : stepsLeft c.n t < stepsLeft c.n s := step_decreases c s t h

/-- C92: as long as the user takes batches and has not received `None`, someone can make a step (other than calling `terminate`). -/
theorem never_stuck (c : Conf) (hQ : 0 < c.Q) (load : Nat → List (Option Nat)) (s : St) (h : Reach c (init load) s) (hr : s.caller = .run)
    (hn : none ∉ s.out) : ∃ t, Step c s t ∧ t.caller = .run := by
  have h2 := inv2_reach c load s h
  cases hq : s.queue with
  | cons x l => exact ⟨_, .take s x l hq (Or.inl hr), hr⟩
  | nil =>
    have hq0 : s.queue.length < c.Q := by rw [hq]; exact hQ
    cases hm : s.main with
    | hold e => exact ⟨_, .move s e hm hq0, hr⟩
    | drainHold e => exact ⟨_, .drainMove s e hm hq0, hr⟩
    | last => exact ⟨_, .putNone s hm hq0, hr⟩
    | done =>
      exfalso
      obtain ⟨l, hl, _⟩ := h2.oneNone hm
      rw [St.delivered, hq, List.append_nil] at hl
      exact hn (by rw [hl]; simp)
    | poll =>
      cases hp : s.pipe with
      | cons e l =>
        obtain ⟨w, x⟩ := e
        cases x with
        | none => exact ⟨_, .getEnd s w l hm hp, hr⟩
        | some b => exact ⟨_, .get s w b l hm hp, hr⟩
      | nil =>
        cases hb : s.buf with
        | cons e l => exact ⟨_, .flush s e.1 e.2 [] l (by simpa using hb) (by simp) (fun _ => rfl), hr⟩
        | nil =>
          have hcap : s.buf.length + s.pipe.length < c.Q := by rw [hb, hp]; exact hQ
          by_cases hd : ∀ w < c.n, s.ws w = .dead
          · exact ⟨_, .leave s hm (Or.inl hd), hr⟩
          · push Not at hd
            obtain ⟨w, hw, hd⟩ := hd
            cases hs : s.ws w with
            | dead => exact absurd hs hd
            | leaving => exact ⟨_, .die s w hw hs (by simp [hb]), hr⟩
            | ending => exact ⟨_, .putEnd s w hw hs hcap, hr⟩
            | loading l =>
              cases l with
              | nil => exact ⟨_, .loaded s w hw hs, hr⟩
              | cons x l =>
                cases x with
                | none => exact ⟨_, .raised s w l hw hs, hr⟩
                | some b => exact ⟨_, .put s w b l hw hs hcap, hr⟩
    | drain =>
      cases hp : s.pipe with
      | cons e l =>
        obtain ⟨w, x⟩ := e
        cases x with
        | none => exact ⟨_, .drainEnd s w l hm hp, hr⟩
        | some b => exact ⟨_, .drainGet s w b l hm hp, hr⟩
      | nil =>
        cases hb : s.buf with
        | cons e l => exact ⟨_, .flush s e.1 e.2 [] l (by simpa using hb) (by simp) (fun _ => rfl), hr⟩
        | nil => exact ⟨_, .empty s hm hp (fun _ => hb), hr⟩

/-- C92: a user who keeps taking batches receives `None` in the end, from every state that occurs. -/
theorem finishes (c : Conf) (hQ : 0 < c.Q) (load : Nat → List (Option Nat)) (s : St) (h : Reach c (init load) s) (hr : s.caller = .run) :
    ∃ t, Reach c s t ∧ t.caller = .run ∧ none ∈ t.out := by
  generalize hk : stepsLeft c.n s = k
  induction k using Nat.strongRecOn generalizing s with
  | ind k ih =>
    by_cases hn : none ∈ s.out
    · exact ⟨s, .refl, hr, hn⟩
    · obtain ⟨t, hst, hr'⟩ := never_stuck c hQ load s h hr hn
      obtain ⟨u, h1, h2, h3⟩ := ih _ (hk ▸ step_decreases c s t hst) t (.step s t h hst) hr' rfl
      exact ⟨u, reach_trans c s t u (.step s t .refl hst) h1, h2, h3⟩

/-- C92 is false of threads: the thread between the queues waits only 5 ms for further batches when all workers have ended; if the feeder thread of the
queue has not written by then, `None` is delivered and the batches are lost. -/
theorem threads_lose_batches : ∃ s, Reach ⟨1, 2, true, false, false⟩ (init (fun _ => [some 7])) s ∧ s.caller = .run ∧ s.out = [none] := by
  let c : Conf := ⟨1, 2, true, false, false⟩
  have s0 : Reach c (init (fun _ => [some 7])) (init (fun _ => [some 7])) := .refl
  have s1 := Reach.step _ _ s0 (Step.put _ 0 7 [] (by decide) rfl (by decide))
  have s2 := Reach.step _ _ s1 (Step.loaded _ 0 (by decide) (by simp [init]))
  have s3 := Reach.step _ _ s2 (Step.putEnd _ 0 (by decide) (by simp) (by decide))
  have s4 := Reach.step _ _ s3 (Step.die _ 0 (by decide) (by simp) (by simp [c]))
  have s5 := Reach.step _ _ s4 (Step.leave _ rfl (Or.inl (by intro w hw; have : w = 0 := by simp [c] at hw; exact hw
                                                             subst this; simp)))
  have s6 := Reach.step _ _ s5 (Step.empty _ rfl rfl (by simp [c]))
  have s7 := Reach.step _ _ s6 (Step.putNone _ rfl (by decide))
  have s8 := Reach.step _ _ s7 (Step.take _ none [] rfl (Or.inl rfl))
  exact ⟨_, s8, rfl, rfl⟩

/-- C92 (partial): with processes, and if others go on taking batches, `terminate` always ends. Missing: `terminate_hangs`, `terminate_hangs_threads`. -/
theorem terminate_ends_partial (c : Conf) (hQ : 0 < c.Q) (ht : c.threaded = false) (ho : c.others = true) (load : Nat → List (Option Nat)) (s : St)
    (h : Reach c (init load) s) (hr : s.caller ≠ .run) : ∃ t, Reach c s t ∧ t.caller = .closed ∧ ∀ w < c.n, t.ws w = .dead := by
  have prog : ∀ s, Reach c (init load) s → s.caller ≠ .run → s.caller ≠ .closed → ∃ t, Step c s t ∧ t.caller ≠ .run := by
    intro s h hr hcl
    have h2 := inv2_reach c load s h
    cases hc : s.caller with
    | run => exact absurd hc hr
    | closed => exact absurd hc hcl
    | joinWorkers =>
      by_cases hd : ∀ w < c.n, s.ws w = .dead
      · exact ⟨_, .joinWorkers s hc hd, by simp⟩
      · push Not at hd
        obtain ⟨w, hw, hd⟩ := hd
        exact ⟨_, .kill s w hw hc ht hd, hr⟩
    | joinMain =>
      cases hq : s.queue with
      | cons x l => exact ⟨_, .take s x l hq (Or.inr ho), hr⟩
      | nil =>
        have hq0 : s.queue.length < c.Q := by rw [hq]; exact hQ
        cases hm : s.main with
        | hold e => exact ⟨_, .move s e hm hq0, hr⟩
        | drainHold e => exact ⟨_, .drainMove s e hm hq0, hr⟩
        | last => exact ⟨_, .putNone s hm hq0, hr⟩
        | done => exact ⟨_, .joinMain s hc hm, by simp⟩
        | poll => exact ⟨_, .leave s hm (Or.inr hr), hr⟩
        | drain =>
          cases hp : s.pipe with
          | cons e l =>
            obtain ⟨w, x⟩ := e
            cases x with
            | none => exact ⟨_, .drainEnd s w l hm hp, hr⟩
            | some b => exact ⟨_, .drainGet s w b l hm hp, hr⟩
          | nil =>
            cases hb : s.buf with
            | cons e l => exact ⟨_, .flush s e.1 e.2 [] l (by simpa using hb) (by simp) (fun _ => rfl), hr⟩
            | nil => exact ⟨_, .empty s hm hp (fun _ => hb), hr⟩
  generalize hk : stepsLeft c.n s = k
  induction k using Nat.strongRecOn generalizing s with
  | ind k ih =>
    by_cases hcl : s.caller = .closed
    · exact ⟨s, .refl, hcl, (inv2_reach c load s h).allDead hcl⟩
    · obtain ⟨t, hst, hr'⟩ := prog s h hr hcl
      obtain ⟨u, h1, h2⟩ := ih _ (hk ▸ step_decreases c s t hst) t (.step s t h hst) hr' rfl
      exact ⟨u, reach_trans c s t u (.step s t .refl hst) h1, h2⟩

/-- C92 is false of `terminate`: if it is called while the queue is full and another batch is on its way, and nobody else takes batches, it never
returns: it waits for a thread that waits for room in the queue. -/
theorem terminate_hangs (c : Conf) (ho : c.others = false) (s : St) (hc : s.caller = .joinMain) (hq : c.Q ≤ s.queue.length) (e : Nat × Nat)
    (hm : s.main = .hold e) (t : St) (ht : Reach c s t) : t.caller = .joinMain := by
  have : t.caller = .joinMain ∧ t.queue = s.queue ∧ t.main = s.main := by
    induction ht with
    | refl => exact ⟨hc, rfl, rfl⟩
    | step a b _ hst ih =>
      obtain ⟨i1, i2, i3⟩ := ih
      rw [hm] at i3
      cases hst with
      | get v b l hm' hp => rw [i3] at hm'; cases hm'
      | move e' hm' hq' => rw [i2] at hq'; omega
      | leave hm' hd => rw [i3] at hm'; cases hm'
      | drainGet v b l hm' hp => rw [i3] at hm'; cases hm'
      | drainMove e hm' hq' => rw [i3] at hm'; cases hm'
      | empty hm' hp hb => rw [i3] at hm'; cases hm'
      | putNone hm' hq' => rw [i3] at hm'; cases hm'
      | take x l hq' hc' =>
        rcases hc' with hc' | hc'
        · rw [i1] at hc'; cases hc'
        · rw [ho] at hc'; cases hc'
      | terminate hc' => rw [i1] at hc'; cases hc'
      | joinMain hc' hm' => rw [i3] at hm'; cases hm'
      | kill v hw hc' _ _ => rw [i1] at hc'; cases hc'
      | joinWorkers hc' _ => rw [i1] at hc'; cases hc'
      | _ => exact ⟨i1, i2, by rw [hm]; exact i3⟩
  exact this.1

/-- Such a state occurs, with threads and with processes. -/
example (threaded : Bool) : ∃ s, Reach ⟨1, 1, threaded, false, false⟩ (init (fun _ => [some 7, some 8, some 9])) s ∧ s.caller = .joinMain ∧
    1 ≤ s.queue.length ∧ s.main = .hold (0, 8) := by
  have s0 : Reach ⟨1, 1, threaded, false, false⟩ (init (fun _ => [some 7, some 8, some 9])) (init (fun _ => [some 7, some 8, some 9])) := .refl
  have s1 := Reach.step _ _ s0 (Step.put _ 0 7 [some 8, some 9] Nat.zero_lt_one rfl (by simp [init]))
  have s2 := Reach.step _ _ s1 (Step.flush _ 0 (some 7) [] [] rfl (by simp) (fun _ => rfl))
  have s3 := Reach.step _ _ s2 (Step.get _ 0 7 [] rfl rfl)
  have s4 := Reach.step _ _ s3 (Step.move _ (0, 7) rfl (by simp [init]))
  have s5 := Reach.step _ _ s4 (Step.put _ 0 8 [some 9] Nat.zero_lt_one (by simp [init]) (by simp))
  have s6 := Reach.step _ _ s5 (Step.flush _ 0 (some 8) [] [] rfl (by simp) (fun _ => rfl))
  have s7 := Reach.step _ _ s6 (Step.get _ 0 8 [] rfl rfl)
  have s8 := Reach.step _ _ s7 (Step.terminate _ rfl)
  exact ⟨_, s8, rfl, by decide, rfl⟩

/-- C92 is false of `terminate` with threads also if others take batches: once the thread between the queues has ended, nobody reads the internal queue;
a worker that cannot put its end marker, because the queue is full of end markers of others, is waited for forever. -/
theorem terminate_hangs_threads (c : Conf) (hth : c.threaded = true) (s : St) (hc : s.caller = .joinWorkers) (hm : s.main = .done)
    (hq : c.Q ≤ s.buf.length + s.pipe.length) (v : Nat) (hv : v < c.n) (hw : s.ws v = .ending) (t : St) (ht : Reach c s t) :
    t.caller = .joinWorkers := by
  have : t.caller = .joinWorkers ∧ t.main = .done ∧ c.Q ≤ t.buf.length + t.pipe.length ∧ t.ws v = .ending := by
    induction ht with
    | refl => exact ⟨hc, hm, hq, hw⟩
    | step a b _ hst ih =>
      obtain ⟨i1, i2, i3, i4⟩ := ih
      have up : ∀ (w : Nat) (x : WSt), a.ws w ≠ .ending → Function.update a.ws w x v = .ending := by
        intro w x hne
        rw [Function.update_of_ne (by rintro rfl; exact hne i4)]
        exact i4
      cases hst with
      | put w b l hw' hl hq' => omega
      | quit w l hw' hl hc' => exact ⟨i1, i2, i3, up w _ (by rw [hl]; simp)⟩
      | loaded w hw' hl => exact ⟨i1, i2, i3, up w _ (by rw [hl]; simp)⟩
      | raised w l hw' hl => exact ⟨i1, i2, i3, up w _ (by rw [hl]; simp)⟩
      | putEnd w hw' hl hq' => omega
      | die w hw' hl hb => exact ⟨i1, i2, i3, up w _ (by rw [hl]; simp)⟩
      | flush w x l1 l2 hb hl1 _ =>
        refine ⟨i1, i2, ?_, i4⟩
        rw [hb] at i3
        simp at i3 ⊢
        omega
      | get w b l hm' hp => rw [i2] at hm'; cases hm'
      | getEnd w l hm' hp => rw [i2] at hm'; cases hm'
      | move e' hm' hq' => rw [i2] at hm'; cases hm'
      | leave hm' hd => rw [i2] at hm'; cases hm'
      | drainGet w b l hm' hp => rw [i2] at hm'; cases hm'
      | drainEnd w l hm' hp => rw [i2] at hm'; cases hm'
      | drainMove e hm' hq' => rw [i2] at hm'; cases hm'
      | empty hm' hp hb => rw [i2] at hm'; cases hm'
      | putNone hm' hq' => rw [i2] at hm'; cases hm'
      | take x l hq' hc' => exact ⟨i1, i2, i3, i4⟩
      | terminate hc' => rw [i1] at hc'; cases hc'
      | joinMain hc' hm' => rw [i1] at hc'; cases hc'
      | kill w hw' hc' ht' _ => rw [hth] at ht'; cases ht'
      | joinWorkers hc' hd => have := hd v hv; rw [i4] at this; cases this
  exact this.1

/-- Such a state occurs. -/
example : ∃ s, Reach ⟨2, 1, true, true, true⟩ (init (fun _ => [some 7])) s ∧ s.caller = .joinWorkers ∧ s.main = .done ∧
    1 ≤ s.buf.length + s.pipe.length ∧ s.ws 1 = .ending := by
  have s0 : Reach ⟨2, 1, true, true, true⟩ (init (fun _ => [some 7])) (init (fun _ => [some 7])) := .refl
  have s1 := Reach.step _ _ s0 (Step.terminate _ rfl)
  have s2 := Reach.step _ _ s1 (Step.leave _ rfl (Or.inr (by simp)))
  have s3 := Reach.step _ _ s2 (Step.empty _ rfl rfl (fun _ => rfl))
  have s4 := Reach.step _ _ s3 (Step.putNone _ rfl (by simp [init]))
  have s5 := Reach.step _ _ s4 (Step.joinMain _ rfl rfl)
  have s6 := Reach.step _ _ s5 (Step.quit _ 0 [some 7] (by decide) rfl (by simp))
  have s7 := Reach.step _ _ s6 (Step.quit _ 1 [some 7] (by decide) (by simp [init]) (by simp))
  have s8 := Reach.step _ _ s7 (Step.putEnd _ 0 (by decide) (by simp [Function.update]) (by simp [init]))
  exact ⟨_, s8, rfl, rfl, by simp [init], by simp [Function.update]⟩

/-- A complete run with processes. -/
example : ∃ s, Reach ⟨1, 1, false, false, false⟩ (init (fun _ => [some 7])) s ∧ s.caller = .run ∧ none ∈ s.out :=
  finishes _ (by decide) _ _ .refl rfl

end Imgaug.Loader.Props
