import Verif.Proofs.Imap
import Verif.Spec.Imap
import Verif.Model.Imap
import Mathlib.Data.List.Perm.Subperm
import Mathlib.Data.List.Range
import Mathlib.Tactic.Common
/-! Properties C28 and C29: buffer limit, order and deadlocks of `imap_batches`. -/
namespace Imgaug.Props
open Imgaug Imgaug.Imap

/-- C28: with `output_buffer_size = b` at every moment at most `b` batches have been handed over to the pool and have not yet
been yielded to the caller, in every interleaving. -/
theorem imap_buffer_bound (cfg : Cfg) (hc : 0 < cfg.chunk) (b : Nat) (hb : cfg.B = some b) (s : St) (h : Reach cfg s) :
    s.loaded ≤ s.out.length + b := by
  have hi := reach_inv cfg hc s h
  have h1 := hi.bound b hb
  have h2 := hi.rel1
  omega

/-- C28: no batch is yielded twice and none is invented; `imap_batches` yields them in the order of the source. -/
theorem imap_yields (cfg : Cfg) (hc : 0 < cfg.chunk) (s : St) (h : Reach cfg s) :
    s.out.Nodup ∧ (∀ x ∈ s.out, x < cfg.N) ∧ (cfg.ordered = true → s.out = List.range s.out.length) := by
  have hi := reach_inv cfg hc s h
  have hsub : s.out.Sublist (pipeline s) := by
    unfold pipeline
    rw [List.append_assoc, List.append_assoc]
    exact List.sublist_append_left _ _
  refine ⟨hsub.nodup (hi.perm.nodup_iff.2 List.nodup_range), fun x hx => ?_, fun ho => ?_⟩
  · have : x ∈ List.range s.loaded := hi.perm.mem_iff.1 (hsub.subset hx)
    have h1 := List.mem_range.1 this
    have h2 := hi.loaded
    omega
  · have hpre : s.out <+: List.range s.loaded := by
      rw [← hi.order ho]
      unfold pipeline
      rw [List.append_assoc, List.append_assoc]
      exact List.prefix_append _ _
    have := List.prefix_iff_eq_take.1 hpre
    have hle : s.out.length ≤ s.loaded := by have := hpre.length_le; simpa using this
    rw [List.take_range, Nat.min_eq_left hle] at this
    exact this

/-- C29: the loading thread, the workers and the caller make at most `5 N + 1` steps, in every interleaving (`remaining` is a
bound that every step lowers). -/
theorem imap_terminates (cfg : Cfg) (hc : 0 < cfg.chunk) :
    remaining cfg init = 5 * cfg.N + 1 ∧
    ∀ s t, Reach cfg s → Step cfg s t → remaining cfg t < remaining cfg s :=
  ⟨by simp [remaining, init], fun s t hs hst => remaining_lt cfg s t (reach_inv cfg hc s hs) hst⟩

/-- C28, C29, what holds: with no buffer limit, or a limit that is at least the chunk size or the number of batches, the
participants get stuck in no interleaving before the caller has received all batches (`imap_batches`: in the order of the
source). Missing: smaller limits, for which it is false, see `imap_deadlock`. -/
theorem imap_complete_partial (cfg : Cfg) (hc : 0 < cfg.chunk) (hB : ∀ b, cfg.B = some b → cfg.chunk ≤ b ∨ cfg.N ≤ b)
    (s : St) (h : Reach cfg s) (hno : ¬CanStep cfg s) :
    s.out.Perm (List.range cfg.N) ∧ (cfg.ordered = true → s.out = List.range cfg.N) := by
  have hi := reach_inv cfg hc s h
  obtain ⟨h1, h2, h3, h4⟩ := progress cfg hB s hi hno
  have hN := (hi.ended h1).1
  have e : pipeline s = s.out := by simp [pipeline, h2, h3, h4]
  exact ⟨by rw [← hN, ← e]; exact hi.perm, fun ho => by rw [← hN, ← e]; exact hi.order ho⟩

/-- C29 is false if the buffer limit is smaller than the chunk size and there are more batches than the limit: the caller
never receives any batch, because the first chunk is never complete; and the participants do get stuck. -/
theorem imap_deadlock (cfg : Cfg) (b : Nat) (hb : cfg.B = some b) (h1 : b < cfg.chunk) (h2 : b < cfg.N) :
    (∀ s, Reach cfg s → s.out = []) ∧ ∃ s, Reach cfg s ∧ ¬CanStep cfg s := by
  have inv : ∀ s, Reach cfg s → s.out = [] ∧ s.cur = [] ∧ s.sent = [] ∧ s.released = 0 ∧ s.ended = false ∧
      s.buf.length = s.loaded ∧ s.loaded ≤ b := by
    intro s hs
    induction hs with
    | init => simp [init]
    | step s t _ hst ih =>
      obtain ⟨a1, a2, a3, a4, a5, a6, a7⟩ := ih
      cases hst with
      | load h hB =>
        have := hB b hb
        unfold St.load
        rw [if_neg (by simp; omega)]
        refine ⟨a1, a2, a3, a4, a5, by simp; omega, by simp only; omega⟩
      | finish h he => omega
      | work i c h => rw [a3] at h; simp at h
      | fetch i c h ho hcur hr => rw [a3] at h; simp at h
      | yield x xs h hr => rw [a2] at h; simp at h
      | resume h => rw [a1] at h; simp at h
  refine ⟨fun s hs => (inv s hs).1, ?_⟩
  have ex : ∀ k ≤ b, ∃ s, Reach cfg s ∧ s.loaded = k := by
    intro k
    induction k with
    | zero => intro _; exact ⟨init, .init, rfl⟩
    | succ k ih =>
      intro hk
      obtain ⟨s, hs, hl⟩ := ih (by omega)
      obtain ⟨a1, a2, a3, a4, a5, a6, a7⟩ := inv s hs
      refine ⟨s.load cfg, .step s _ hs (.load s (by omega) fun b' hb' => ?_), ?_⟩
      · have : b' = b := by rw [hb] at hb'; simpa using hb'.symm
        omega
      · unfold St.load
        split <;> simp [hl]
  obtain ⟨s, hs, hl⟩ := ex b (Nat.le_refl b)
  obtain ⟨a1, a2, a3, a4, a5, a6, a7⟩ := inv s hs
  refine ⟨s, hs, ?_⟩
  rintro ⟨t, hst⟩
  cases hst with
  | load h hB => have := hB b hb; omega
  | finish h he => omega
  | work i c h => rw [a3] at h; simp at h
  | fetch i c h ho hcur hr => rw [a3] at h; simp at h
  | yield x xs h hr => rw [a2] at h; simp at h
  | resume h => rw [a1] at h; simp at h

/-- A limit smaller than the chunk size, and one that is not. -/
example : (∃ s, Reach ⟨10, 4, some 3, true⟩ s ∧ ¬CanStep ⟨10, 4, some 3, true⟩ s) ∧
    ∀ b, (⟨10, 4, some 5, true⟩ : Cfg).B = some b → (4 : Nat) ≤ b ∨ (10 : Nat) ≤ b :=
  ⟨(imap_deadlock ⟨10, 4, some 3, true⟩ 3 rfl (by decide) (by decide)).2, by intro b hb; simp at hb; omega⟩

/-- C29: an exact criterion: a call of `imap_batches` can get stuck before all batches were received if and only if the
buffer limit is smaller than the chunk size and smaller than the number of batches. -/
theorem imap_deadlock_iff (cfg : Cfg) (hc : 0 < cfg.chunk) :
    (∃ s, Reach cfg s ∧ ¬CanStep cfg s ∧ s.out.length < cfg.N) ↔ ∃ b, cfg.B = some b ∧ b < cfg.chunk ∧ b < cfg.N := by
  constructor
  · rintro ⟨s, hs, hno, hlt⟩
    by_contra hne
    have := (imap_complete_partial cfg hc (fun b hb => by
      by_contra hcon
      exact hne ⟨b, hb, by omega, by omega⟩) s hs hno).1.length_eq
    simp at this
    omega
  · rintro ⟨b, hb, h1, h2⟩
    obtain ⟨h3, s, hs, hno⟩ := imap_deadlock cfg b hb h1 h2
    exact ⟨s, hs, hno, by rw [h3 s hs]; simp; omega⟩

end Imgaug.Props
