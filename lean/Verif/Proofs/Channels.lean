import Verif.Spec.Channels
import Verif.Proofs.Normalize
namespace Imgaug.Channels
open Imgaug
variable {α β : Type}

theorem resolve_iff (c : Nat) (i : Int) (k : Nat) : resolve c i = some k ↔ Denotes c i k := by
  unfold resolve Denotes
  constructor
  · intro h
    split at h
    · simp at h; omega
    · split at h
      · simp at h; omega
      · simp at h
  · rintro ⟨h1, h2 | h2⟩
    · rw [if_pos (by omega)]; simp; omega
    · rw [if_neg (by omega), if_pos (by omega)]; simp; omega

theorem mapM_get {α β : Type} {f : α → Option β} {l : List α} {m : List β} (h : l.mapM f = some m) :
    m.length = l.length ∧ ∀ (j : Nat) (a : α), l[j]? = some a → ∃ b, m[j]? = some b ∧ f a = some b := by
  induction l generalizing m with
  | nil => simp at h; subst h; simp
  | cons x xs ih =>
    rw [List.mapM_cons] at h
    cases hx : f x with
    | none => simp [hx] at h
    | some b =>
      cases hxs : xs.mapM f with
      | none => simp [hx, hxs] at h
      | some bs =>
        simp [hx, hxs] at h
        subst h
        obtain ⟨h1, h2⟩ := ih hxs
        refine ⟨by simp [h1], ?_⟩
        intro j a hj
        cases j with
        | zero => simp at hj; subst hj; exact ⟨b, by simp, hx⟩
        | succ j => simp at hj; simpa using h2 j a hj

theorem mapM_get' {α β : Type} {f : α → Option β} {l : List α} {m : List β} (h : l.mapM f = some m)
    (j : Nat) (b : β) (hj : m[j]? = some b) : ∃ a, l[j]? = some a ∧ f a = some b := by
  obtain ⟨h1, h2⟩ := mapM_get h
  have hlt : j < l.length := by
    rw [← h1]; exact (List.getElem?_eq_some_iff.1 hj).1
  obtain ⟨b', hb', hf⟩ := h2 j l[j] (List.getElem?_eq_getElem hlt)
  rw [hb'] at hj
  injection hj with hj
  subst hj
  exact ⟨_, List.getElem?_eq_getElem hlt, hf⟩

theorem select_selected (im s : CImg α) (l : List Int) (h : select im l = some s) : Selected l im s := by
  unfold select at h
  cases hm : l.mapM (resolve im.c) with
  | none => simp [hm] at h
  | some idx =>
    simp [hm] at h
    subst h
    obtain ⟨h1, h2⟩ := mapM_get hm
    refine ⟨rfl, rfl, rfl, h1, ?_⟩
    intro j i hj
    obtain ⟨k, hk, hr⟩ := h2 j i hj
    refine ⟨k, (resolve_iff _ _ _).1 hr, ?_⟩
    intro y x
    simp [hk]

theorem assign_from (v : Nat → α) (k : Nat) (idx : List Nat) (n : Nat) (old : α) :
    ((∀ i ∈ idx, i ≠ k) → (idx.zipIdx n).foldl (fun acc p => if p.1 = k then v p.2 else acc) old = old) ∧
    (∀ j, idx[j]? = some k → (∀ j', j < j' → idx[j']? ≠ some k) →
      (idx.zipIdx n).foldl (fun acc p => if p.1 = k then v p.2 else acc) old = v (n + j)) := by
  induction idx generalizing n old with
  | nil => simp
  | cons i is ih =>
    rw [List.zipIdx_cons, List.foldl_cons]
    constructor
    · intro h
      dsimp only
      rw [if_neg (h i (by simp))]
      exact (ih (n + 1) old).1 (fun i hi => h i (by simp [hi]))
    · intro j hj hlast
      cases j with
      | zero =>
        simp at hj
        dsimp only
        rw [if_pos hj]
        rw [(ih (n + 1) (v n)).1]
        · rfl
        · intro i hi e
          subst e
          obtain ⟨j', hj', e⟩ := List.getElem_of_mem hi
          exact hlast (j' + 1) (by omega) (by simp [hj', e])
      | succ j =>
        simp at hj
        rw [(ih (n + 1) _).2 j hj (fun j' h' => by have := hlast (j' + 1) (by omega); simpa using this)]
        congr 1
        omega

theorem write_replaced (im a r : CImg α) (l : List Int) (h : write im l a = some r) : Replaced l im a r := by
  unfold write at h
  cases hm : l.mapM (resolve im.c) with
  | none => simp [hm] at h
  | some idx =>
    rw [hm, Option.bind_some] at h
    split at h
    · rename_i hc
      simp at h
      subst h
      obtain ⟨h1, h2⟩ := mapM_get hm
      refine ⟨rfl, rfl, rfl, rfl, by omega, ?_, ?_⟩
      · intro k hk y x
        refine (assign_from (fun j => a.px y x (if a.c = 1 then 0 else j)) k idx 0 (im.px y x k)).1 ?_
        intro i hi e
        subst e
        obtain ⟨j, hj, e⟩ := List.getElem_of_mem hi
        obtain ⟨i', hi', hr⟩ := mapM_get' hm j i (by simp [hj, e])
        exact hk i' (List.mem_of_getElem? hi') ((resolve_iff _ _ _).1 hr)
      · intro j i k hj hd hlast y x
        obtain ⟨k', hk', hr⟩ := h2 j i hj
        have hkk : k' = k := by
          have := (resolve_iff _ _ _).2 hd
          rw [hr] at this; simpa using this
        subst hkk
        have := (assign_from (fun j => a.px y x (if a.c = 1 then 0 else j)) k' idx 0 (im.px y x k')).2 j hk' (by
          intro j' hjj e
          obtain ⟨i', hi', hr'⟩ := mapM_get' hm j' k' e
          exact hlast j' i' hjj hi' ((resolve_iff _ _ _).1 hr'))
        simp only [assign]
        rw [this]
        congr 1
        have hjl : j < l.length := (List.getElem?_eq_some_iff.1 hj).1
        split <;> split <;> omega
    · simp at h

theorem permFull_get (c : Nat) (l p : List Int) (idx : List Nat) (full : List Int) (hlen : p.length = l.length)
    (hm : l.mapM (resolve c) = some idx) (hnd : idx.Nodup) (hc : full.length = c) :
    ∃ out, permFull c full l p = some out ∧ out.length = c ∧
      (∀ (j : Nat) (k : Nat), idx[j]? = some k → out[k]? = p[j]?) ∧ (∀ k, k ∉ idx → out[k]? = full[k]?) := by
  induction l generalizing p idx full with
  | nil =>
    simp at hm
    subst hm
    exact ⟨full, by simp [permFull], hc, by simp, by simp⟩
  | cons i l ih =>
    cases p with
    | nil => simp at hlen
    | cons q p =>
      rw [List.mapM_cons] at hm
      cases hi : resolve c i with
      | none => simp [hi] at hm
      | some k0 =>
        cases hl : l.mapM (resolve c) with
        | none => simp [hi, hl] at hm
        | some idx' =>
          simp [hi, hl] at hm
          subst hm
          have hk0 : k0 < c := ((resolve_iff _ _ _).1 hi).1
          obtain ⟨out, h1, h2, h3, h4⟩ := ih p idx' (full.set k0 q) (by simpa using hlen) hl
            (List.nodup_cons.1 hnd).2 (by simpa using hc)
          have hk0' := (List.nodup_cons.1 hnd).1
          refine ⟨out, by simp [permFull, hi, h1], h2, ?_, ?_⟩
          · intro j k hj
            cases j with
            | zero =>
              simp at hj
              subst hj
              rw [h4 _ hk0']
              simp [hc, hk0]
            | succ j => simp at hj; simpa using h3 j k hj
          · intro k hk
            simp at hk
            rw [h4 k hk.2, List.getElem?_set_ne (by omega)]

theorem mapM_exists {A B : Type} (f : A → Option B) (l : List A) (h : ∀ a ∈ l, ∃ b, f a = some b) : ∃ r, l.mapM f = some r := by
  induction l with
  | nil => exact ⟨[], rfl⟩
  | cons a l ih =>
    obtain ⟨b, hb⟩ := h a (by simp)
    obtain ⟨r, hr⟩ := ih (fun x hx => h x (by simp [hx]))
    exact ⟨b :: r, by rw [List.mapM_cons, hb, hr]; rfl⟩

end Imgaug.Channels
