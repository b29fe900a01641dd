import Verif.Proofs.Pool
import Verif.Spec.Pool
import Verif.Model.Pool
import Verif.Spec.Prefetch
import Mathlib.Data.List.Perm.Subperm
import Mathlib.Data.List.Forall2
import Mathlib.Tactic.Common
/-! Properties C24-C27: seeds, schedules and batch ids of `Pool`. -/
namespace Imgaug.Props
open Imgaug Imgaug.Pool
variable {S V A : Type}

/-! ### C24, C26: seeds -/

/-- C24: the seeds of a batch are always valid: they lie in `[SEED_MIN_VALUE, SEED_MAX_VALUE - 1]`, for every start seed
(also such that `Pool` does not accept) and every batch id. -/
theorem worker_seeds_valid (start i : Int) :
    (0 ≤ localSeed start i ∧ localSeed start i ≤ 2 ^ 31 - 2) ∧ (0 ≤ globalSeed start i ∧ globalSeed start i ≤ 2 ^ 31 - 2) := by
  unfold localSeed globalSeed deriveSeed seedMin seedMax
  omega

/-- C24: `Pool` accepts exactly the seeds from 0 to `2^31 - 1`. -/
theorem pool_accepts_seed (seed : Int) : acceptsSeed seed = true ↔ 0 ≤ seed ∧ seed ≤ 2 ^ 31 - 1 := by
  unfold acceptsSeed seedMin seedMax
  rw [decide_eq_true_iff]
  omega

/-- C26: two batches get the same augmenter seed exactly if their ids differ by a multiple of `2^31 - 1`; in particular
batches in a window of `2^31 - 1` ids get different seeds. The same holds for the seeds of the global generator. -/
theorem worker_seeds_distinct (start i j : Int) :
    (localSeed start i = localSeed start j ↔ (2 ^ 31 - 1 : Int) ∣ i - j) ∧
    (globalSeed start i = globalSeed start j ↔ (2 ^ 31 - 1 : Int) ∣ i - j) ∧
    (i ≠ j → i < j + (2 ^ 31 - 1) → j < i + (2 ^ 31 - 1) →
      localSeed start i ≠ localSeed start j ∧ globalSeed start i ≠ globalSeed start j) := by
  unfold localSeed globalSeed deriveSeed seedMin seedMax
  omega

/-- C26: the global generator and the augmenters never get the same seed for a batch. -/
theorem worker_seeds_global_local (start i : Int) : localSeed start i ≠ globalSeed start i := by
  unfold localSeed globalSeed deriveSeed seedMin seedMax
  omega

example : localSeed 2147483647 0 = 0 ∧ localSeed 2147483646 0 = 2147483646 ∧ globalSeed 0 0 = 1147483647 := by decide

/-! ### C25: the schedule does not matter -/

/-- C25 for one batch: the result of augmenting the batch with id `i` in a worker process is the same for all worlds the
process may have, whatever it did before, and the process is again in a possible world afterwards. -/
theorem worker_history_independent (env : Env S V) (start i : Int) (d0 : Nat → S) (code : Code S V A) (hlocal : LocalOnly code)
    (w1 w2 : World S V) (h1 : Possible env d0 w1) (h2 : Possible env d0 w2) :
    (worker env start i code w1).1 = (worker env start i code w2).1 ∧ Possible env d0 (worker env start i code w1).2 := by
  have h0 : 0 < env.size := by unfold Env.size; omega
  constructor
  · obtain ⟨m, hs⟩ := reseed_sim env start i d0 w1 w2 h1 h2
    exact (run_sim env code hlocal _ _ 0 h0 m _ _ hs).1
  · obtain ⟨m, hs⟩ := reseed_sim env start i d0 w1 w1 h1 h1
    obtain ⟨-, m', hm', hs'⟩ := run_sim env code hlocal _ _ 0 h0 m _ _ hs
    have hdet : ∀ j, j ≠ 0 → env.det j = true →
        ((code.run env 0 (forgetTemps (reseed env start i w1))).2.nodes j).2 = (w1.nodes j).2 := by
      intro j hj hd
      rw [run_det env code 0 _ j hj hd]
      show ((reseed env start i w1).nodes j).2 = _
      rw [reseed_det env start i w1 j hd]
    unfold worker augmentBatch
    constructor
    · intro k l hl
      have hp := hs'.pfs k
      have hc := hs'.cnt1
      simp only at hl ⊢
      rw [(restoreDet_pfs env 0 _ _).1] at hl
      rw [(restoreDet_pfs env 0 _ _).2, hc]
      rcases hp with ⟨hp, -⟩ | ⟨o, ho, hp, -⟩
      · have := hp l hl; omega
      · rw [hl] at hp
        have : l = w1.counter + o := by simpa using hp
        omega
    · intro j hj hd
      by_cases hj0 : j = 0
      · subst hj0
        rw [restoreDet_det env 0 _ _ hd]
        show ((reseed env start i w1).nodes 0).2 = _
        rw [reseed_det env start i w1 0 hd]
        exact h1.2 0 hj hd
      · rw [restoreDet_other env 0 j _ _ hj0, hdet j hj0 hd, h1.2 j hj hd]

/-- C25: the results of a pool with a seed do not depend on the schedule. For every number of processes, every assignment of
batches to processes, every order of execution, also with restarts of processes and with failing batches, the result of every
batch is the one that it has when it is the only batch that is ever augmented, in any possible world. So it depends only
on the seed, the batch id, the augmenters and the batch. Missing: augmentations that draw from parameters with the global generator, for which it is false, see
`pool_global_parameter`. -/
theorem pool_schedule_independent_partial (env : Env S V) (start : Int) (d0 : Nat → S) (w0 : World S V) (h0 : Possible env d0 w0)
    (es : List (Event S V A)) (hes : Schedule env d0 es) (ws : Nat → World S V) (hws : ∀ p, Possible env d0 (ws p)) :
    runPool env start es ws = resultsAlone env start w0 es := by
  induction es generalizing ws with
  | nil => rfl
  | cons e es ih =>
    have hes' : Schedule env d0 es := ⟨fun p i c h => hes.1 p i c (by simp [h]), fun p w h => hes.2 p w (by simp [h])⟩
    cases e with
    | task p i code =>
      have hc := hes.1 p i code (by simp)
      simp only [runPool, resultsAlone]
      rw [(worker_history_independent env start i d0 code hc (ws p) w0 (hws p) h0).1]
      congr 1
      refine ih hes' _ fun q => ?_
      by_cases hq : q = p
      · subst hq
        rw [upd_same]
        exact (worker_history_independent env start i d0 code hc (ws q) w0 (hws q) h0).2
      · rw [upd_other _ _ _ _ hq]; exact hws q
    | restart p w =>
      simp only [runPool, resultsAlone]
      refine ih hes' _ fun q => ?_
      by_cases hq : q = p
      · subst hq; rw [upd_same]; exact hes.2 q w (by simp)
      · rw [upd_other _ _ _ _ hq]; exact hws q

theorem demo_schedule : Possible demoEnv (fun _ => 0) demoWorld ∧ Schedule demoEnv (fun _ => 0)
    [.task 0 3 demoCode, .task 1 4 demoCode, .restart 0 demoWorld, .task 0 5 demoCode, .task 1 3 demoCode] := by
  refine ⟨⟨fun k l h => by simp [demoWorld, PF.fresh] at h, fun j _ _ => rfl⟩, fun p i code h => ?_, fun p w h => ?_⟩
  · have : code = demoCode := by simp at h; tauto
    subst this
    simp [demoCode, LocalOnly]
  · have : w = demoWorld := by simp at h; tauto
    subst this
    exact ⟨fun k l h => by simp [demoWorld, PF.fresh] at h, fun j _ _ => rfl⟩

example : runPool demoEnv 100 [.task 0 3 demoCode, .task 1 4 demoCode, .restart 0 demoWorld, .task 0 5 demoCode,
      .task 1 3 demoCode] (fun _ => demoWorld) =
    [(3, some [103, 104, 103000, 103001, 103002, 112, 113, 114, 115, 1147483750, 1147483751]),
     (4, some [104, 105, 104000, 104001, 104002, 113, 114, 115, 116, 1147483751, 1147483752]),
     (5, some [105, 106, 105000, 105001, 105002, 114, 115, 116, 117, 1147483752, 1147483753]),
     (3, some [103, 104, 103000, 103001, 103002, 112, 113, 114, 115, 1147483750, 1147483751])] := by
  decide +kernel

/-- C25 fails for augmentations that draw from a parameter with the global generator (for instance a `Lambda` augmenter
whose function calls `param.draw_samples(n)` without a generator): the global generator is reseeded in place, so samples
prefetched for the previous batch of the same process are used. Batch 5 gives other results in a new process than after
batch 4. -/
theorem pool_global_parameter :
    let code : Code Nat Nat (List Nat) := .drawGlobalParam 0 1 fun a => .drawGlobalParam 0 1 fun b => .ret (a ++ b)
    runPool demoEnv 100 [.task 0 4 code, .task 0 5 code] (fun _ => demoWorld) =
      [(4, some [1147483751, 1147483752]), (5, some [1147483753, 1147483754])] ∧
    runPool demoEnv 100 [.task 0 4 code, .task 1 5 code] (fun _ => demoWorld) =
      [(4, some [1147483751, 1147483752]), (5, some [1147483752, 1147483753])] := by
  decide +kernel

/-- C25: worlds that are not possible for forked processes may occur if processes are spawned: the augmenters are then pickled with
their prefetchers, but the counter for `RNG` ids starts anew. If the id remembered by a prefetcher is given out again its
samples, here 77, are used for a batch of the pool. -/
theorem pool_spawn_collision :
    let code : Code Nat Nat (List Nat) := .draw 0 1 .ret
    let pickled : World Nat Nat := { demoWorld with counter := 2, pfs := fun _ => ⟨some 3, some [77, 78], 0⟩ }
    runPool demoEnv 100 [.task 0 4 code] (fun _ => pickled) = [(4, some [77])] ∧
    runPool demoEnv 100 [.task 0 4 code] (fun _ => demoWorld) = [(4, some [104])] := by
  decide +kernel

/-! ### C27: batch ids -/

/-- C27, what holds: if no other call is made to the pool between a generator yielding a batch id and being resumed (in
particular if the batches of each call are completely consumed before the next call) the ids are `0, 1, 2, ...`. Missing:
calls that overlap, for which it is false, see `batch_ids_duplicate`. -/
theorem batch_ids_consecutive_partial (ops : List IdOp) (h : Orderly Ids.init ops) :
    (Ids.run Ids.init ops).out = List.range (Ids.run Ids.init ops).out.length ∧ (Ids.run Ids.init ops).out.Nodup := by
  have := ids_run_inv ops Ids.init (.inl ⟨by simp [Ids.init], rfl⟩) h
  rcases this with ⟨-, h⟩ | ⟨g, -, -, h⟩ <;> rw [h] <;> exact ⟨by simp, List.nodup_range⟩

example : Orderly Ids.init [.map 2, .imap 2, .next 0, .next 0, .next 0, .map 1] ∧
    (Ids.run Ids.init [.map 2, .imap 2, .next 0, .next 0, .next 0, .map 1]).out = [0, 1, 2, 3, 4] := by
  refine ⟨?_, by decide⟩
  simp only [Orderly, Ids.step, Ids.init]
  refine ⟨fun g l h => ?_, fun g l h => ?_, fun g l h => ?_, fun g l h => ?_, fun g l h => ?_, fun g l h => ?_, trivial⟩ <;>
    rcases g with _ | g <;> simp at h ⊢

/-- C27 is false if calls overlap: two generators that are consumed alternately, or `map_batches` while `imap_batches` is
running, use the same ids, so different batches are augmented with the same seeds. -/
theorem batch_ids_duplicate :
    (Ids.run Ids.init [.imap 2, .imap 2, .next 0, .next 1, .next 0, .next 1]).out = [0, 0, 1, 2] ∧
    (Ids.run Ids.init [.imap 2, .next 0, .map 2, .next 0]).out = [0, 0, 1, 3] := by
  decide

end Imgaug.Props
