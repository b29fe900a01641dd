import Verif.Proofs.Background
import Verif.Spec.Background
import Verif.Model.Background
import Mathlib.Data.List.Perm.Subperm
import Mathlib.Data.List.Range
import Mathlib.Data.List.Nodup
import Mathlib.Tactic.Common
/-! Property C30: `BackgroundAugmenter`. -/
namespace Imgaug.Props
open Imgaug Imgaug.Background

/-- C30: `get_batch` never returns a batch twice and returns only batches of the source, in every interleaving, also if
workers crash. -/
theorem background_no_duplicates (n Q : Nat) (crashes : Bool) (batches : List Nat) (s : St)
    (h : Reach n Q crashes (init batches) s) : s.out.Subperm batches ∧ (batches.Nodup → s.out.Nodup) := by
  have hp := everything_reach n Q crashes batches s h
  have hs : s.out.Sublist (everything n s) := by
    unfold everything
    rw [List.append_assoc, List.append_assoc, List.append_assoc]
    exact List.sublist_append_left _ _
  have hsub : s.out.Subperm batches := (List.Sublist.subperm hs).trans hp.subperm
  exact ⟨hsub, fun hn => hs.nodup (hp.nodup_iff.2 hn)⟩

/-- C30: when `get_batch` returns `None` every batch of the source has been returned exactly once, in every interleaving of the
loader, the workers and the caller, for every number of workers and every queue size. -/
theorem background_complete (n Q : Nat) (hn : 0 < n) (crashes : Bool) (batches : List Nat) (s : St)
    (h : Reach n Q crashes (init batches) s) (hf : s.allFinished n = true) : s.out.Perm batches := by
  have hp := everything_reach n Q crashes batches s h
  have hS := reach_srcInv n Q crashes batches s h
  have hR := reach_resInv n Q crashes batches s h
  have hall := closed_all n s hR (by simpa [St.allFinished] using hf)
  have hdone : ∀ w < n, s.workers w = .done := fun w hw => (hR.closed w (hall w hw)).1
  have hres : s.res = [] := by
    cases hr : s.res with
    | nil => rfl
    | cons p l =>
      have hlt := hR.lt p (by rw [hr]; simp)
      have := (hR.closed p.1 (hall p.1 hlt)).2
      rw [hr] at this
      simp [entries] at this
  have hheld : held n s.workers = [] := by
    simp only [held, List.flatMap_eq_nil_iff]
    intro w hw
    rw [hdone w (List.mem_range.1 hw)]; rfl
  have hld : s.loaderDone = true := by
    cases hd : s.loaderDone with
    | true => rfl
    | false =>
      have := (hS.1 hd).2 0 hn
      rw [hdone 0 hn] at this; simp [seenEnd] at this
  obtain ⟨hleft, hsrc⟩ := hS.2 hld
  have hsrc' : s.src.filterMap id = [] := by
    rcases hsrc with ⟨bs, h1, h2, -⟩ | ⟨h1, -⟩
    · cases bs with
      | nil => simp [h1]
      | cons b bs =>
        have := h2 (by simp) 0 hn
        rw [hdone 0 hn] at this; simp [seenEnd] at this
    · simp [h1]
  unfold everything at hp
  rw [hsrc', hheld, hres, hleft] at hp
  simpa using hp

/-- C30: the caller is never stuck: as long as no augmentation fails and `get_batch` has not returned `None`, the loader, a
worker or the caller can make a step, and only finitely many steps are possible (`stepsLeft` decreases). -/
theorem background_progress (n Q : Nat) (hQ : 0 < Q) (batches : List Nat) (s : St)
    (h : Reach n Q false (init batches) s) (hf : s.allFinished n = false) : ∃ t, Step n Q false s t := by
  have hS := reach_srcInv n Q false batches s h
  have hR := reach_resInv n Q false batches s h
  have hne : s.closed.length ≠ n := by simpa [St.allFinished] using hf
  by_contra hno
  have hres : s.res = [] := by
    cases hr : s.res with
    | nil => rfl
    | cons p l =>
      obtain ⟨w, x⟩ := p
      cases x with
      | none => exact absurd ⟨_, .recvNone s w [] l (by simpa using hr) (by simp) hne⟩ hno
      | some b => exact absurd ⟨_, .recv s w b [] l (by simpa using hr) (by simp) hne⟩ hno
  have hq : s.res.length < Q := by rw [hres]; exact hQ
  have hdead : ∀ w b, s.workers w ≠ .dead b := by
    clear hno hres hq hne hf hR hS
    induction h with
    | refl => simp [init]
    | step s t _ hst ih =>
      have key : ∀ (w' : Nat) (v : WSt), (∀ b, v ≠ .dead b) → ∀ w b, setW s.workers w' v w ≠ .dead b := by
        intro w' v hv w b
        unfold setW
        split
        · exact hv b
        · exact ih w b
      cases hst with
      | load b l h => exact ih
      | loadEnd h h2 => exact ih
      | recv w b l1 l2 hr hf hn => exact ih
      | recvNone w l1 l2 hr hf hn => exact ih
      | crash w b hw h hc => simp at hc
      | get w' b l hw h hs => exact key _ _ (by simp)
      | getNone w' l hw h hs => exact key _ _ (by simp)
      | put w' b hw h hq => exact key _ _ (by simp)
      | putBack w' hw h => exact key _ _ (by simp)
      | putNone w' hw h hq => exact key _ _ (by simp)
  have hst : ∀ w < n, s.workers w = .idle ∨ s.workers w = .done := by
    intro w hw
    cases hww : s.workers w with
    | idle => exact .inl rfl
    | has b => exact absurd ⟨_, .put s w b hw hww hq⟩ hno
    | gotNone => exact absurd ⟨_, .putBack s w hw hww⟩ hno
    | ending => exact absurd ⟨_, .putNone s w hw hww hq⟩ hno
    | done => exact .inr rfl
    | dead b => exact absurd hww (hdead w b)
  -- some worker is idle
  have hidle : ∃ w < n, s.workers w = .idle := by
    by_contra hnone
    have hdone : ∀ w < n, s.workers w = .done := by
      intro w hw
      rcases hst w hw with h | h
      · exact absurd ⟨w, hw, h⟩ hnone
      · exact h
    have hcl : ∀ w < n, w ∈ s.closed := by
      intro w hw
      by_contra hc
      obtain ⟨bs, e⟩ := hR.open' w hw hc (hdone w hw)
      rw [hres] at e
      simp [entries] at e
    have h1 : (List.range n).Subperm s.closed :=
      List.subperm_of_subset List.nodup_range (fun w hw => hcl w (List.mem_range.1 hw))
    have h2 : s.closed.Subperm (List.range n) :=
      List.subperm_of_subset hR.nodup (fun w hw => List.mem_range.2 (hR.closedLt w hw))
    have h3 := h1.length_le
    have h4 := h2.length_le
    simp at h3 h4
    omega
  obtain ⟨w, hw, hidle⟩ := hidle
  cases hsrc : s.src with
  | cons x l =>
    cases x with
    | none => exact hno ⟨_, .getNone s w l hw hidle hsrc⟩
    | some b => exact hno ⟨_, .get s w b l hw hidle hsrc⟩
  | nil =>
    cases hd : s.loaderDone with
    | false =>
      cases hl : s.left with
      | nil => exact hno ⟨_, .loadEnd s hl hd⟩
      | cons b l => exact hno ⟨_, .load s b l hl⟩
    | true =>
      rcases (hS.2 hd).2 with ⟨bs, h1, -⟩ | ⟨-, w', hw', h2, -⟩
      · rw [hsrc] at h1; simp at h1
      · rcases hst w' hw' with h | h <;> rw [h2] at h <;> simp at h

/-- C30: whatever the interleaving, every step of the loader, a worker or the caller lowers the bound `stepsLeft`, which is
`4 * (number of batches + number of workers) + 1` at the start. So every execution ends, and by `background_progress` and
`background_complete` it ends with all batches returned. -/
theorem background_terminates (n Q : Nat) (crashes : Bool) (batches : List Nat) :
    stepsLeft n (init batches) = 4 * (batches.length + n) + 1 ∧
    ∀ s t, Step n Q crashes s t → stepsLeft n t < stepsLeft n s := by
  constructor
  · simp [stepsLeft, init, workerSteps]; omega
  · intro s t h
    cases h with
    | load b l h => simp [stepsLeft, h]; omega
    | loadEnd h h2 => simp [stepsLeft, h2]
    | get w b l hw h hs =>
      have := workers_sum n s.workers w (.has b) hw
      rw [h] at this
      simp [stepsLeft, hs, workerSteps] at this ⊢; omega
    | getNone w l hw h hs =>
      have := workers_sum n s.workers w .gotNone hw
      rw [h] at this
      simp [stepsLeft, hs, workerSteps] at this ⊢; omega
    | put w b hw h hq =>
      have := workers_sum n s.workers w .idle hw
      rw [h] at this
      simp [stepsLeft, workerSteps] at this ⊢; omega
    | putBack w hw h =>
      have := workers_sum n s.workers w .ending hw
      rw [h] at this
      simp [stepsLeft, workerSteps] at this ⊢; omega
    | putNone w hw h hq =>
      have := workers_sum n s.workers w .done hw
      rw [h] at this
      simp [stepsLeft, workerSteps] at this ⊢; omega
    | recv w b l1 l2 hr hf hn => simp [stepsLeft, hr]
    | recvNone w l1 l2 hr hf hn => simp [stepsLeft, hr]
    | crash w b hw h hc =>
      have := workers_sum n s.workers w (.dead b) hw
      rw [h] at this
      simp [stepsLeft, workerSteps] at this ⊢; omega

/-- C30: from every state that occurs the end can be reached, and there all batches have been returned. -/
theorem background_finishes (n Q : Nat) (hn : 0 < n) (hQ : 0 < Q) (batches : List Nat) (s : St)
    (h : Reach n Q false (init batches) s) :
    ∃ t, Reach n Q false s t ∧ t.allFinished n = true ∧ t.out.Perm batches := by
  generalize hk : stepsLeft n s = k
  induction k using Nat.strongRecOn generalizing s with
  | ind k ih =>
    cases hf : s.allFinished n with
    | true => exact ⟨s, .refl, hf, background_complete n Q hn false batches s h hf⟩
    | false =>
      obtain ⟨t, ht⟩ := background_progress n Q hQ batches s h hf
      have hlt := (background_terminates n Q false batches).2 s t ht
      obtain ⟨u, hu, h1, h2⟩ := ih (stepsLeft n t) (by omega) t (.step s t h ht) rfl
      exact ⟨u, reach_trans n Q false s t u (.step s t .refl ht) hu, h1, h2⟩

example : ∃ t, Reach 3 2 false (init [10, 11, 12, 13]) t ∧ t.allFinished 3 = true ∧ t.out.Perm [10, 11, 12, 13] :=
  background_finishes 3 2 (by decide) (by decide) _ _ .refl

/-- C30: if the augmentation of a batch fails in a worker process, `get_batch` never returns `None` (it waits forever for the
end marker of that process once everything else is done). -/
theorem background_crash (n Q : Nat) (batches : List Nat) (s t : St) (w b : Nat) (hw : w < n)
    (h : Reach n Q true (init batches) s) (hd : s.workers w = .dead b) (ht : Reach n Q true s t) :
    t.allFinished n = false := by
  have hdt : t.workers w = .dead b ∧ Reach n Q true (init batches) t := by
    induction ht with
    | refl => exact ⟨hd, h⟩
    | step t u htt hst ih =>
      refine ⟨?_, .step t u ih.2 hst⟩
      have e := ih.1
      cases hst with
      | load b l h => exact e
      | loadEnd h h2 => exact e
      | recv w b l1 l2 hr hf hn => exact e
      | recvNone w l1 l2 hr hf hn => exact e
      | crash w' b' hw' h hc =>
        have : w ≠ w' := by rintro rfl; rw [e] at h; simp at h
        simpa [setW, this] using e
      | get w' b' l hw' h hs =>
        have : w ≠ w' := by rintro rfl; rw [e] at h; simp at h
        simpa [setW, this] using e
      | getNone w' l hw' h hs =>
        have : w ≠ w' := by rintro rfl; rw [e] at h; simp at h
        simpa [setW, this] using e
      | put w' b' hw' h hq =>
        have : w ≠ w' := by rintro rfl; rw [e] at h; simp at h
        simpa [setW, this] using e
      | putBack w' hw' h =>
        have : w ≠ w' := by rintro rfl; rw [e] at h; simp at h
        simpa [setW, this] using e
      | putNone w' hw' h hq =>
        have : w ≠ w' := by rintro rfl; rw [e] at h; simp at h
        simpa [setW, this] using e
  have hR := reach_resInv n Q true batches t hdt.2
  by_contra hf
  have hall := closed_all n t hR (by simpa [St.allFinished] using hf)
  have := (hR.closed w (hall w hw)).1
  rw [hdt.1] at this
  simp at this

example : ∃ s, Reach 2 5 true (init [10, 11]) s ∧ s.workers 1 = .dead 10 :=
  ⟨_, .step _ _ (.step _ _ (.step _ _ .refl (.load _ 10 [11] rfl)) (.get _ 1 10 [] (by decide) rfl rfl))
    (.crash _ 1 10 (by decide) (by simp [setW]) rfl), by simp [setW]⟩

end Imgaug.Props
