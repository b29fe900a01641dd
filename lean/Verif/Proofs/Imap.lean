import Verif.Spec.Imap
import Verif.Model.Imap
import Mathlib.Data.List.Perm.Subperm
import Mathlib.Data.List.Range
import Mathlib.Tactic.Common
/-! Helper lemmas for Props/Imap.lean. -/
namespace Imgaug.Props
open Imgaug Imgaug.Imap

/-- All batches in the pipeline, from the caller to the source. -/
def pipeline (s : St) : List Nat := s.out ++ s.cur ++ (s.sent.map (·.2)).flatten ++ s.buf

structure ImapInv (cfg : Cfg) (s : St) : Prop where
  loaded : s.loaded ≤ cfg.N
  rel1 : s.released ≤ s.out.length
  rel2 : s.out.length ≤ s.released + 1
  bufl : s.buf.length < cfg.chunk
  bound : ∀ b, cfg.B = some b → s.loaded ≤ s.released + b
  perm : (pipeline s).Perm (List.range s.loaded)
  order : cfg.ordered = true → pipeline s = List.range s.loaded
  ended : s.ended = true → s.loaded = cfg.N ∧ s.buf = []
  nonempty : ∀ p ∈ s.sent, p.2 ≠ []

theorem flatten_eraseIdx_perm (l : List (Bool × List Nat)) (i : Nat) (b : Bool) (c : List Nat) (h : l[i]? = some (b, c)) :
    (c ++ ((l.eraseIdx i).map (·.2)).flatten).Perm (l.map (·.2)).flatten := by
  induction l generalizing i with
  | nil => simp at h
  | cons x l ih =>
    cases i with
    | zero => simp at h; subst h; simp
    | succ i =>
      simp at h
      simp only [List.eraseIdx_cons_succ, List.map_cons, List.flatten_cons]
      refine List.Perm.trans ?_ ((ih i h).append_left x.2)
      rw [← List.append_assoc, ← List.append_assoc]
      exact List.perm_append_comm.append_right _

theorem flatten_set (l : List (Bool × List Nat)) (i : Nat) (b b' : Bool) (c : List Nat) (h : l[i]? = some (b, c)) :
    (l.set i (b', c)).map (·.2) = l.map (·.2) := by
  induction l generalizing i with
  | nil => simp
  | cons x l ih =>
    cases i with
    | zero => simp at h; subst h; simp
    | succ i => simp at h; simp [ih i h]

theorem load_inv (cfg : Cfg) (s : St) (hi : ImapInv cfg s) (h : s.loaded < cfg.N)
    (hB : ∀ b, cfg.B = some b → s.loaded < s.released + b) (hc : 0 < cfg.chunk) : ImapInv cfg (s.load cfg) := by
  have hend : s.ended = true → False := fun he => by have := (hi.ended he).1; omega
  have hp : (pipeline s ++ [s.loaded]).Perm (List.range (s.loaded + 1)) := by
    rw [List.range_succ]; exact hi.perm.append_right _
  have ho : cfg.ordered = true → pipeline s ++ [s.loaded] = List.range (s.loaded + 1) := by
    intro ho; rw [List.range_succ, hi.order ho]
  unfold St.load
  by_cases hl : (s.buf ++ [s.loaded]).length = cfg.chunk
  · rw [if_pos hl]
    have e : ∀ (o : List Nat), o = s.out ++ s.cur ++ ((s.sent ++ [(false, s.buf ++ [s.loaded])]).map (·.2)).flatten ++ [] →
        o = pipeline s ++ [s.loaded] := by intro o ho; rw [ho]; simp [pipeline]
    refine ⟨h, hi.rel1, hi.rel2, hc, fun b hb => hB b hb, ?_, fun hord => ?_, fun he => absurd he hend, ?_⟩
    · unfold pipeline; simp only; rw [e _ rfl]; exact hp
    · unfold pipeline; simp only; rw [e _ rfl]; exact ho hord
    · intro p hp
      simp only [List.mem_append, List.mem_singleton] at hp
      rcases hp with hp | rfl
      · exact hi.nonempty p hp
      · simp
  · rw [if_neg hl]
    have hb := hi.bufl
    refine ⟨h, hi.rel1, hi.rel2, ?_, fun b hb => hB b hb, ?_, fun hord => ?_, fun he => absurd he hend, hi.nonempty⟩
    · simp only [List.length_append, List.length_singleton] at hl ⊢; omega
    · unfold pipeline at hp ⊢; simp only; rw [← List.append_assoc]; exact hp
    · unfold pipeline at ho ⊢; simp only; rw [← List.append_assoc]; exact ho hord

theorem step_inv (cfg : Cfg) (hc : 0 < cfg.chunk) (s t : St) (hi : ImapInv cfg s) (hst : Step cfg s t) : ImapInv cfg t := by
  cases hst with
  | load h hB => exact load_inv cfg s hi h hB hc
  | finish h he =>
    unfold St.finish
    split
    · rename_i hb
      exact ⟨hi.loaded, hi.rel1, hi.rel2, hi.bufl, hi.bound, hi.perm, hi.order, fun _ => ⟨h, hb⟩, hi.nonempty⟩
    · rename_i hb
      have e : pipeline { s with buf := [], sent := s.sent ++ [(false, s.buf)], ended := true } = pipeline s := by
        simp [pipeline]
      refine ⟨hi.loaded, hi.rel1, hi.rel2, hc, hi.bound, by rw [e]; exact hi.perm, fun ho => by rw [e]; exact hi.order ho,
        fun _ => ⟨h, rfl⟩, ?_⟩
      intro p hp
      simp only [List.mem_append, List.mem_singleton] at hp
      rcases hp with hp | rfl
      · exact hi.nonempty p hp
      · exact hb
  | work i c h =>
    have e : pipeline { s with sent := s.sent.set i (true, c) } = pipeline s := by
      simp only [pipeline]; rw [flatten_set s.sent i false true c h]
    refine ⟨hi.loaded, hi.rel1, hi.rel2, hi.bufl, hi.bound, by rw [e]; exact hi.perm, fun ho => by rw [e]; exact hi.order ho,
      hi.ended, ?_⟩
    intro p hp
    rcases List.mem_or_eq_of_mem_set hp with hp | rfl
    · exact hi.nonempty p hp
    · exact hi.nonempty (false, c) (List.mem_of_getElem? h)
  | fetch i c h ho hcur hr =>
    refine ⟨hi.loaded, hi.rel1, hi.rel2, hi.bufl, hi.bound, ?_, fun hord => ?_, hi.ended,
      fun p hp => hi.nonempty p (List.mem_of_mem_eraseIdx hp)⟩
    · refine List.Perm.trans ?_ hi.perm
      simp only [pipeline, hcur, List.append_nil]
      refine List.Perm.append_right _ ?_
      rw [List.append_assoc]
      exact (flatten_eraseIdx_perm s.sent i true c h).append_left _
    · rw [← hi.order hord]
      have hi0 := ho hord
      subst hi0
      cases hsent : s.sent with
      | nil => rw [hsent] at h; simp at h
      | cons x l =>
        rw [hsent] at h
        simp at h
        simp [pipeline, hcur, hsent, h]
  | yield x xs h hr =>
    have e : pipeline { s with cur := xs, out := s.out ++ [x] } = pipeline s := by simp [pipeline, h]
    refine ⟨hi.loaded, ?_, ?_, hi.bufl, hi.bound, by rw [e]; exact hi.perm, fun ho => by rw [e]; exact hi.order ho,
      hi.ended, hi.nonempty⟩
    · simp only [List.length_append, List.length_singleton]; omega
    · simp only [List.length_append, List.length_singleton]; omega
  | resume h =>
    exact ⟨hi.loaded, h, by have := hi.rel2; simp only; omega, hi.bufl, fun b hb => by have := hi.bound b hb; simp only; omega,
      hi.perm, hi.order, hi.ended, hi.nonempty⟩

theorem reach_inv (cfg : Cfg) (hc : 0 < cfg.chunk) (s : St) (h : Reach cfg s) : ImapInv cfg s := by
  induction h with
  | init =>
    exact ⟨Nat.zero_le _, Nat.le_refl _, by simp [init], hc, fun _ _ => Nat.zero_le _, by simp [pipeline, init],
      fun _ => by simp [pipeline, init], by simp [init], by simp [init]⟩
  | step s t _ hst ih => exact step_inv cfg hc s t ih hst

theorem progress (cfg : Cfg) (hB : ∀ b, cfg.B = some b → cfg.chunk ≤ b ∨ cfg.N ≤ b) (s : St)
    (hi : ImapInv cfg s) (hno : ¬CanStep cfg s) : s.ended = true ∧ s.sent = [] ∧ s.cur = [] ∧ s.buf = [] := by
  have hrel : s.released = s.out.length := by
    rcases Nat.lt_or_ge s.released s.out.length with h | h
    · exact absurd ⟨_, .resume s h⟩ hno
    · have := hi.rel1; omega
  have hcur : s.cur = [] := by
    cases hcur : s.cur with
    | nil => rfl
    | cons x xs => exact absurd ⟨_, .yield s x xs hcur hrel⟩ hno
  have hsent : s.sent = [] := by
    cases hsent : s.sent with
    | nil => rfl
    | cons x xs =>
      obtain ⟨d, c⟩ := x
      cases d with
      | false => exact absurd ⟨_, .work s 0 c (by simp [hsent])⟩ hno
      | true => exact absurd ⟨_, .fetch s 0 c (by simp [hsent]) (fun _ => rfl) hcur hrel⟩ hno
  have hlen : s.out.length + s.buf.length = s.loaded := by
    have := hi.perm.length_eq
    simpa [pipeline, hcur, hsent] using this
  have hld : s.loaded = cfg.N := by
    rcases Nat.lt_or_ge s.loaded cfg.N with h | h
    · refine absurd ⟨_, .load s h fun b hb => ?_⟩ hno
      have h1 := hi.bufl
      rcases hB b hb with h2 | h2
      · omega
      · omega
    · have := hi.loaded; omega
  have hend : s.ended = true := by
    cases he : s.ended with
    | true => rfl
    | false => exact absurd ⟨_, .finish s hld he⟩ hno
  exact ⟨hend, hsent, hcur, (hi.ended hend).2⟩

theorem sum_set (l : List (Bool × List Nat)) (i : Nat) (c : List Nat) (h : l[i]? = some (false, c)) :
    ((l.set i (true, c)).map fun p => 3 * p.2.length + (if p.1 then 0 else 1)).sum + 1 =
      (l.map fun p => 3 * p.2.length + (if p.1 then 0 else 1)).sum := by
  induction l generalizing i with
  | nil => simp at h
  | cons x l ih =>
    cases i with
    | zero => simp at h; subst h; simp; omega
    | succ i =>
      simp only [List.getElem?_cons_succ] at h
      have := ih i h
      simp only [List.set_cons_succ, List.map_cons, List.sum_cons]; omega

theorem sum_erase (l : List (Bool × List Nat)) (i : Nat) (c : List Nat) (h : l[i]? = some (true, c)) :
    ((l.eraseIdx i).map fun p => 3 * p.2.length + (if p.1 then 0 else 1)).sum + 3 * c.length =
      (l.map fun p => 3 * p.2.length + (if p.1 then 0 else 1)).sum := by
  induction l generalizing i with
  | nil => simp at h
  | cons x l ih =>
    cases i with
    | zero => simp at h; subst h; simp; omega
    | succ i =>
      simp only [List.getElem?_cons_succ] at h
      have := ih i h
      simp only [List.eraseIdx_cons_succ, List.map_cons, List.sum_cons]; omega

theorem remaining_lt (cfg : Cfg) (s t : St) (hi : ImapInv cfg s) (hst : Step cfg s t) : remaining cfg t < remaining cfg s := by
  cases hst with
  | load h hB =>
    unfold St.load
    split
    · simp [remaining]; omega
    · simp [remaining]; omega
  | finish h he =>
    unfold St.finish
    split
    · simp [remaining, he]
    · rename_i hb
      have : 0 < s.buf.length := List.length_pos_iff.2 hb
      simp [remaining, he]; omega
  | work i c h =>
    have := sum_set s.sent i c h
    simp only [remaining]; omega
  | fetch i c h ho hcur hr =>
    have h1 := sum_erase s.sent i c h
    have h2 : 0 < c.length := List.length_pos_iff.2 (hi.nonempty (true, c) (List.mem_of_getElem? h))
    simp only [remaining, hcur, List.length_nil]; omega
  | yield x xs h hr =>
    simp [remaining, h, hr]; omega
  | resume h =>
    simp only [remaining]; omega

end Imgaug.Props
