import Verif.Proofs.Prefetch
import Verif.Spec.Prefetch
import Verif.Model.Prefetch
import Mathlib.Data.List.Perm.Subperm
import Mathlib.Tactic.Common
/-! Properties C31-C35: prefetching, reseeding, deterministic mode. -/
namespace Imgaug.Props
open Imgaug
variable {S V A : Type}

/-- C31: the prefetching parameter hands out samples of the wrapped parameter. Whatever the sequence of requests (also if
prefetching is switched on and off and generators change in between): every request gets the number of samples it asked for;
for every generator the samples handed out for it, together with those still in the buffer, are distinct draws of the wrapped
parameter made with that generator (as a multiset: no draw is used twice); and at most `nb_prefetch` samples are buffered. -/
theorem prefetch_stream (P : Nat) (p : Param S V) (hp : Sized p) (reqs : List (Bool × Nat × Nat)) (s : Nat → S) :
    let r := PF.run P (logged p) reqs PF.fresh (fun i => (s i, []))
    r.1.map List.length = reqs.map (fun q => q.2.2) ∧
    (∀ i, (outputsOf i reqs r.1 ++ bufferOf i r.2.1).Subperm (r.2.2 i).2) ∧
    r.2.1.unused.length ≤ P := by
  obtain ⟨h1, h2⟩ := run_lengths P p hp reqs PF.fresh (fun i => (s i, []))
  refine ⟨h1, fun i => ?_, h2 (by simp [PF.unused, PF.fresh])⟩
  have := run_invariant P p hp reqs PF.fresh (fun i => (s i, [])) i [] (by simp [bufferOf, PF.fresh])
  simpa using this

/-- C31: with one generator and requests below the prefetch size the samples are handed out exactly in the order in which
the wrapped parameter produced them, without gaps. -/
theorem prefetch_order (P : Nat) (p : Param S V) (hp : Sized p) (idx : Nat) (reqs : List Nat) (hsmall : ∀ n ∈ reqs, n < P)
    (s : Nat → S) :
    let r := PF.run P (logged p) (reqs.map (fun n => (true, idx, n))) PF.fresh (fun i => (s i, []))
    r.1.flatten ++ r.2.1.unused = (r.2.2 idx).2 := by
  cases reqs with
  | nil => simp [PF.run, PF.fresh, PF.unused]
  | cons n reqs =>
    obtain ⟨hlen, new, hlog, heff⟩ := drawSamples_spec P p hp true idx n PF.fresh (s idx, [])
    simp only [List.map_cons, PF.run, List.flatten_cons]
    cases heff with
    | direct h1 h2 h3 => have := (h3 rfl).1; simp [PF.fresh] at this
    | buffered h1 h2 h3 h4 h5 => simp [PF.fresh] at h3
    | switch h1 h2 h3 h4 =>
      refine run_order P p hp idx reqs (fun m hm => hsmall m (by simp [hm])) _ h3 _ _ ?_
      simp only [if_true]
      rw [hlog, h1, h2]; simp

example : ∃ p : Param Nat Nat, Sized p := ⟨counting, counting_sized⟩

/-- C31: recording the draws does not change what is handed out. -/
theorem prefetch_logged_outputs (P : Nat) (p : Param S V) (reqs : List (Bool × Nat × Nat)) (pf : PF V)
    (st : Nat → S × List V) :
    (PF.run P (logged p) reqs pf st).1 = (PF.run P p reqs pf (fun i => (st i).1)).1 := by
  induction reqs generalizing pf st with
  | nil => rfl
  | cons rq reqs ih =>
    obtain ⟨en, idx, n⟩ := rq
    obtain ⟨h1, h2, h3⟩ := drawSamples_logged P p en idx n pf (st idx)
    simp only [PF.run]
    rw [h1, h2, ih]
    congr 4
    funext j
    by_cases hj : j = idx
    · simp [hj, h3]
    · simp [hj]

/-- C31: requests of at least the prefetch size are not answered from the buffer, so that the order of the stream is lost
there: here samples 10 to 18 are handed out before sample 6. -/
theorem prefetch_order_big_requests : (PF.run 4 counting [(true, 7, 2), (true, 7, 1), (true, 7, 3), (true, 7, 9), (true, 7, 1)] PF.fresh (fun _ => 0)).1 =
    [[0, 1], [2], [3, 4, 5], [10, 11, 12, 13, 14, 15, 16, 17, 18], [6]] := by decide

/-! ### C32: reseeding -/

/-- C32, what holds: if after the reseeding samples are drawn with a new generator object (as `Augmenter.seed_` does it), or
if prefetching is disabled, the samples depend only on the states of the generators and on the requests, not on what was
drawn from the parameter before. Missing: the case that generators are reseeded in place, which `imgaug.seed` does; it is
false, see `reseed_in_place_stale`. -/
theorem reseed_partial (P : Nat) (p : Param S V) (reqs : List (Bool × Nat × Nat)) (pf1 pf2 : PF V) (st : Nat → S)
    (h : (∀ r ∈ reqs, r.1 = false) ∨
      (∀ r ∈ reqs, pf1.lastIdx ≠ some r.2.1 ∧ pf2.lastIdx ≠ some r.2.1)) :
    (PF.run P p reqs pf1 st).1 = (PF.run P p reqs pf2 st).1 := by
  rcases h with h | h
  · induction reqs generalizing pf1 pf2 st with
    | nil => rfl
    | cons rq reqs ih =>
      obtain ⟨en, idx, n⟩ := rq
      have : en = false := h (en, idx, n) (by simp)
      subst this
      simp only [PF.run, drawSamples_disabled]
      rw [ih _ _ _ (fun r hr => h r (by simp [hr]))]
  · induction reqs generalizing pf1 pf2 st with
    | nil => rfl
    | cons rq reqs ih =>
      obtain ⟨en, idx, n⟩ := rq
      cases en with
      | false =>
        simp only [PF.run, drawSamples_disabled]
        rw [ih _ _ _ (fun r hr => h r (by simp [hr]))]
      | true =>
        obtain ⟨h1, h2⟩ := h (true, idx, n) (by simp)
        simp only at h1 h2
        have e : ∀ pf : PF V, pf.lastIdx ≠ some idx → PF.drawSamples P p true idx n pf (st idx) =
            ((p.draw n (st idx)).1, { pf with lastIdx := some idx, samples := none }, (p.draw n (st idx)).2) := by
          intro pf hpf
          unfold PF.drawSamples
          rw [if_neg (by simp), if_pos hpf]
        simp only [PF.run]
        rw [e pf1 h1, e pf2 h2]
        simp only
        congr 1
        exact run_alike P p reqs { pf1 with lastIdx := some idx, samples := none }
          { pf2 with lastIdx := some idx, samples := none } ⟨rfl, rfl, by simp⟩ _

/-- C32 is false for `imgaug.seed`: it sets the state of the global generator in place, so buffered samples of the time before
are still handed out. Here 0, 1, 2 were drawn with generator 1, its state is then set to 100 (as `seed` does), and the next
sample is 3 although a fresh parameter gives 100. -/
theorem reseed_in_place_stale :
    let before := PF.run 10 counting [(true, 1, 1), (true, 1, 1), (true, 1, 1)] PF.fresh (fun _ => 0)
    (PF.run 10 counting [(true, 1, 1)] before.2.1 (fun _ => 100)).1 = [[3]] ∧
    (PF.run 10 counting [(true, 1, 1)] PF.fresh (fun _ => 100)).1 = [[100]] := by
  decide

example : ∃ pf1 pf2 : PF Nat, pf1 ≠ pf2 ∧ ∀ r ∈ [(true, 5, 2), (true, 5, 3)], pf1.lastIdx ≠ some r.2.1 ∧ pf2.lastIdx ≠ some r.2.1 :=
  ⟨⟨some 1, some [3, 4], 1⟩, PF.fresh, by decide, by decide⟩

/-! ### C35: the flag -/

/-- C35: a `with toggled_prefetching(e)` or `with no_prefetching()` block leaves the flag as it was before the block: for
every body, with nested blocks and exceptions anywhere. -/
theorem prefetching_flag_restored (e : Bool) (body : FlagProg) (flag : Bool) :
    ((FlagProg.withToggled e body).run flag).1 = flag ∧
    ((FlagProg.withToggled e body).run flag).2 = (body.run e).2 := ⟨rfl, rfl⟩

/-- C35: code that changes the flag only by context managers leaves it unchanged, however it is nested and wherever it
raises. -/
theorem prefetching_flag_unchanged (c : FlagProg) (h : OnlyContexts c) (flag : Bool) : (c.run flag).1 = flag := by
  induction c generalizing flag with
  | skip => rfl
  | raise => rfl
  | seq a b iha ihb =>
    simp only [FlagProg.run]
    split
    · rw [ihb h.2, iha h.1]
    · exact iha h.1 flag
  | set e => exact absurd h (by simp [OnlyContexts])
  | withToggled e b ih => rfl

/-! ### C34: deterministic mode -/

/-- C34: a call of a deterministic augmenter leaves the state of its generator and all buffers unchanged, also when it fails,
and its result is a function of the generator state and the input alone (not of the buffers or the generator object). -/
theorem deterministic_call (P : Nat) (p : Nat → Param S V) (idx idx' : Nat) (prog : Prog V A) (pfs pfs' : Nat → PF V) (s : S) :
    (prog.callAug P p true idx pfs s).2 = (pfs, s) ∧
    (prog.callAug P p true idx pfs s).1 = (prog.callAug P p true idx' pfs' s).1 := by
  obtain ⟨h1, h2, h3⟩ := run_disabled P p idx idx' prog pfs pfs' s
  constructor
  · simp only [Prog.callAug, Bool.not_true, if_true]
    rw [h3]
  · exact h1

/-- C34: in any sequence of calls of a deterministic augmenter each result is what the same input gives when it is the only
call: order, number and failures of other calls do not matter. -/
theorem deterministic_calls (P : Nat) (p : Nat → Param S V) (idx : Nat) (progs : List (Prog V A)) (pfs : Nat → PF V) (s : S) :
    callMany P p true idx progs pfs s = progs.map (fun c => (c.callAug P p true idx pfs s).1) := by
  induction progs with
  | nil => rfl
  | cons c cs ih =>
    simp only [callMany, List.map_cons]
    obtain ⟨h1, -⟩ := deterministic_call P p idx idx c pfs pfs s
    rw [h1, ih]

/-- Without deterministic mode results of equal calls differ. -/
example : callMany 4 (fun _ => counting) false 1 [.draw 0 2 .ret, .draw 0 2 .ret] (fun _ => PF.fresh) 0 =
    [some [0, 1], some [2, 3]] ∧
  callMany 4 (fun _ => counting) true 1 [.draw 0 2 .ret, .raise, .draw 0 2 .ret] (fun _ => PF.fresh) 0 =
    [some [0, 1], none, some [0, 1]] := by decide

/-! ### C33: alignment of columns -/

/-- C33, what holds for augmenters that augment each column by its own code (the legacy `_augment_batch_`, e.g. of
`AffineCv2`): in deterministic mode all columns are augmented from the same generator state without buffers, so columns whose
code draws the same samples get equal samples. Missing: augmenters that are not in deterministic mode, for which it is
false, see `legacy_misaligned`. -/
theorem legacy_aligned_partial (P : Nat) (p : Nat → Param S V) (advance : S → S) (idx : Nat) (progs : List (Prog V A))
    (pfs : Nat → PF V) (s : S) :
    (Prog.legacy P p advance true idx progs pfs s).1 = progs.mapM (fun c => (c.callAug P p true idx pfs s).1) := by
  simp only [Prog.legacy]
  rw [legacyColumns_disabled]
  rfl

/-- C33 is false for legacy augmenters outside deterministic mode: in the second batch the images get samples 2, 3 and the
keypoints samples 4, 5, because the generator is reset between the columns but the buffer is not. -/
theorem legacy_misaligned :
    let call := fun (pfs : Nat → PF Nat) s =>
      Prog.legacy 100 (fun _ => counting) (fun s => s + 1000) false 1 [.draw 0 2 .ret, .draw 0 2 .ret] pfs s
    let first := call (fun _ => PF.fresh) 0
    first.1 = some [[0, 1], [0, 1]] ∧ (call first.2.1 first.2.2).1 = some [[2, 3], [4, 5]] := by
  decide

/-- C33: augmenters that override `_augment_batch_` draw the samples once and use them for every column: whatever the state of
generator and buffers, and also with prefetching, all columns are functions of the same samples. -/
theorem new_style_aligned {B C : Type} (P : Nat) (p : Nat → Param S V) (det : Bool) (idx : Nat) (draws : Prog V A)
    (apply : A → B → C) (cols : List B) (pfs : Nat → PF V) (s : S) :
    ((draws.map (fun a => cols.map (apply a))).callAug P p det idx pfs s).1 =
      (draws.callAug P p det idx pfs s).1.map (fun a => cols.map (apply a)) := by
  have h : ∀ (pfs : Nat → PF V) (s : S), ((draws.map (fun a => cols.map (apply a))).run P p (!det) idx pfs s).1 =
      (draws.run P p (!det) idx pfs s).1.map (fun a => cols.map (apply a)) := by
    induction draws with
    | ret a => intros; rfl
    | raise => intros; rfl
    | draw i n k ih => intro pfs s; exact ih _ _ _
  exact h pfs s

/-- C33, C34: the generator of a legacy augmenter after a call that did not fail. In deterministic mode it has the state it
had before. Otherwise, with several columns, it is advanced once from the state it had before, however much the columns drew;
with one column it has the state in which the code of that column left it. -/
theorem legacy_generator (P : Nat) (p : Nat → Param S V) (advance : S → S) (det : Bool) (idx : Nat) (progs : List (Prog V A))
    (pfs : Nat → PF V) (s : S) (hok : (Prog.legacy P p advance det idx progs pfs s).1.isSome = true) :
    (det = true → (Prog.legacy P p advance det idx progs pfs s).2.2 = s) ∧
    (det = false → 1 < progs.length → (Prog.legacy P p advance det idx progs pfs s).2.2 = advance s) ∧
    (∀ c, det = false → progs = [c] →
      (Prog.legacy P p advance det idx progs pfs s).2.2 = (c.run P p true idx pfs s).2.2) := by
  have key : ∀ (m : Bool) (progs : List (Prog V A)) (pfs : Nat → PF V), (det || m) = true →
      (Prog.legacyColumns P p det idx m progs pfs s).2.2 = s := by
    intro m progs
    induction progs with
    | nil => intros; rfl
    | cons c cs ih =>
      intro pfs hm
      rw [Prog.legacyColumns]
      simp only [hm, if_true]
      cases (c.run P p (!det) idx pfs s).1 with
      | none => rfl
      | some a => exact ih _ hm
  unfold Prog.legacy at hok ⊢
  simp only at hok ⊢
  refine ⟨?_, ?_, ?_⟩
  · rintro rfl
    simp only [Bool.not_true, Bool.and_false, Bool.false_eq_true, if_false]
    exact key _ _ _ (by simp)
  · rintro rfl hl
    have hl' : decide (progs.length > 1) = true := decide_eq_true hl
    rw [hl'] at hok ⊢
    rw [if_pos (by rw [hok]; rfl), key true _ _ rfl]
  · rintro c rfl rfl
    have hl' : decide ([c].length > 1) = false := rfl
    rw [hl']
    simp only [Bool.and_false, Bool.false_and, Bool.false_eq_true, if_false]
    rw [Prog.legacyColumns]
    simp only [Bool.or_self, Bool.false_eq_true, if_false, Bool.not_false]
    cases (c.run P p true idx pfs s).1 <;> rfl

/-- With two columns the generator ends at `s + 1000` (`advance`), with one column where the two samples leave it. -/
example : (Prog.legacy 100 (fun _ => counting) (fun s => s + 1000) false 1 [.draw 0 2 .ret, .draw 0 2 .ret]
      (fun _ => PF.fresh) 5).2.2 = 1005 ∧
    (Prog.legacy 100 (fun _ => counting) (fun s => s + 1000) false 1 [.draw 0 2 .ret, .draw 0 2 .ret]
      (fun _ => PF.fresh) 5).1.isSome = true := by
  decide

end Imgaug.Props
