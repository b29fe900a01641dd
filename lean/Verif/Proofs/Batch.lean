import Verif.Spec.Batch
import Verif.Model.Batch
import Mathlib.Tactic.Common
/-! Helper lemmas for Props/Batch.lean. -/
namespace Imgaug.Props
open Imgaug Imgaug.Batch
variable {ρ κ δ : Type}

theorem traverse_eq {α : Type} (f : ColName → Option α) (g : ColName → α) (h : ∀ n, f n = some (g n)) :
    traverse f = some g := by
  unfold traverse
  simp only [h, Option.bind_eq_bind, Option.bind_some, Option.pure_def, Option.some.injEq]
  funext n; cases n <;> rfl

theorem traverse_some {α : Type} (f : ColName → Option α) (g : ColName → α) (h : traverse f = some g) (n : ColName) :
    f n = some (g n) := by
  unfold traverse at h
  simp only [Option.bind_eq_bind, Option.pure_def, Option.bind_eq_some_iff] at h
  obtain ⟨a, ha, b, hb, c, hc, d, hd, e, he, p, hp, q, hq, hg⟩ := h
  cases hg
  cases n <;> assumption

theorem pickRows_eq (rows : List ρ) (indices : List Nat) (h : ∀ i ∈ indices, i < rows.length) :
    ∃ r, pickRows rows indices = some r ∧ r.length = indices.length ∧
      ∀ j (hj : j < indices.length), r[j]? = rows[indices[j]]? := by
  unfold pickRows
  induction indices with
  | nil => exact ⟨[], rfl, rfl, by simp⟩
  | cons i is ih =>
    obtain ⟨r, hr, hl, hget⟩ := ih (fun j hj => h j (by simp [hj]))
    have hi := h i (by simp)
    refine ⟨rows[i] :: r, ?_, by simp [hl], ?_⟩
    · rw [List.mapM_cons, hr, List.getElem?_eq_getElem hi]; rfl
    · intro j hj
      cases j with
      | zero => simp [List.getElem?_eq_getElem hi]
      | succ j => simpa using hget j (by simpa using hj)

theorem assignRows_spec (rows : List ρ) (indices : List Nat) (vals : List ρ) (h : ∀ i ∈ indices, i < rows.length)
    (hl : indices.length ≤ vals.length) (hnd : indices.Nodup) :
    ∃ r, assignRows rows indices vals = some r ∧ r.length = rows.length ∧
      (∀ j (hj : j < indices.length), r[indices[j]]? = vals[j]?) ∧
      (∀ i, i ∉ indices → r[i]? = rows[i]?) := by
  induction indices generalizing rows vals with
  | nil => exact ⟨rows, by unfold assignRows; rfl, rfl, by simp, by simp⟩
  | cons i is ih =>
    cases vals with
    | nil => simp at hl
    | cons v vs =>
      have hi := h i (by simp)
      obtain ⟨hni, hnd'⟩ := List.nodup_cons.1 hnd
      obtain ⟨r, hr, hlen, hget, hother⟩ := ih (rows.set i v) vs
        (fun j hj => by simpa using h j (by simp [hj])) (by simpa using hl) hnd'
      refine ⟨r, by unfold assignRows; rw [if_pos hi]; exact hr, by simpa using hlen, ?_, ?_⟩
      · intro j hj
        cases j with
        | zero =>
          simp only [List.getElem_cons_zero, List.getElem?_cons_zero]
          rw [hother i hni]; simp [hi]
        | succ j => simpa using hget j (by simpa using hj)
      · intro k hk
        simp only [List.mem_cons, not_or] at hk
        rw [hother k hk.2, List.getElem?_set]
        simp [Ne.symm hk.1]

theorem sameKind_eq [DecidableEq κ] (kindOf : ρ → κ) (k : κ) (rows : List ρ) (s : Col ρ κ) :
    sameKind kindOf k s = arrayPossible kindOf (.arr k rows) s := by
  cases s with
  | arr => rfl
  | lst r => rw [Bool.eq_iff_iff]; simp [sameKind, arrayPossible]

theorem pickRows_length (rows : List ρ) (indices : List Nat) (vals : List ρ) (hp : pickRows rows indices = some vals) :
    vals.length = indices.length := by
  unfold pickRows at hp
  induction indices generalizing vals with
  | nil => simp at hp; simp [hp]
  | cons i is ih =>
    rw [List.mapM_cons] at hp
    cases hi : rows[i]? with
    | none => simp [hi] at hp
    | some v =>
      cases hr : is.mapM (fun (i : Nat) => rows[i]?) with
      | none => simp [hi, hr] at hp
      | some vs =>
        simp [hi, hr] at hp
        subst hp
        simp [ih vs hr]

theorem assign_pick (rows : List ρ) (indices : List Nat) (vals : List ρ) (hp : pickRows rows indices = some vals) :
    assignRows rows indices vals = some rows := by
  unfold pickRows at hp
  induction indices generalizing vals with
  | nil => unfold assignRows; rfl
  | cons i is ih =>
    rw [List.mapM_cons] at hp
    cases hi : rows[i]? with
    | none => simp [hi] at hp
    | some v =>
      cases hr : is.mapM (fun (i : Nat) => rows[i]?) with
      | none => simp [hi, hr] at hp
      | some vs =>
        simp [hi, hr] at hp
        subst hp
        obtain ⟨hlt, he⟩ := List.getElem?_eq_some_iff.1 hi
        unfold assignRows
        rw [if_pos hlt]
        have : rows.set i v = rows := by rw [← he]; exact List.set_getElem_self hlt
        rw [this]
        exact ih vs hr

theorem foldl_setCol_none (l : List (ColName × Col ρ κ)) (b : Batch ρ κ δ) (n : ColName) :
    (l.foldl (fun b (x : ColName × Col ρ κ) => b.setCol x.1 none) b).col n =
      if n ∈ l.map Prod.fst then none else b.col n := by
  induction l generalizing b with
  | nil => simp
  | cons x l ih =>
    rw [List.foldl_cons, ih]
    simp only [setCol, List.map_cons, List.mem_cons]
    by_cases h1 : n ∈ l.map Prod.fst <;> by_cases h2 : n = x.1 <;> simp [h1, h2]

theorem foldl_setCol_some (l : List (ColName × Col ρ κ)) (b : Batch ρ κ δ) (n : ColName) (hnd : (l.map Prod.fst).Nodup) :
    (∀ c, (n, c) ∈ l → (l.foldl (fun b (x : ColName × Col ρ κ) => b.setCol x.1 (some x.2)) b).col n = some c) ∧
    (n ∉ l.map Prod.fst → (l.foldl (fun b (x : ColName × Col ρ κ) => b.setCol x.1 (some x.2)) b).col n = b.col n) := by
  induction l generalizing b with
  | nil => simp
  | cons x l ih =>
    rw [List.map_cons, List.nodup_cons] at hnd
    obtain ⟨ih1, ih2⟩ := ih (b.setCol x.1 (some x.2)) hnd.2
    constructor
    · intro c hc
      rw [List.foldl_cons]
      rcases List.mem_cons.1 hc with h | h
      · subst h
        rw [ih2 hnd.1]; simp [setCol]
      · exact ih1 c h
    · intro hn
      rw [List.map_cons, List.mem_cons, not_or] at hn
      rw [List.foldl_cons, ih2 hn.2]
      simp [setCol, hn.1]

theorem columns_mem (b : Batch ρ κ δ) (n : ColName) (c : Col ρ κ) :
    (n, c) ∈ b.columns ↔ b.col n = some c ∧ c.rows.length > 0 := by
  unfold columns
  rw [List.mem_filterMap]
  constructor
  · rintro ⟨m, -, hm⟩
    cases hc : b.col m with
    | none => simp [hc] at hm
    | some c' =>
      simp only [hc] at hm
      split at hm
      · rename_i h
        cases hm; exact ⟨hc, h⟩
      · cases hm
  · rintro ⟨h1, h2⟩
    refine ⟨n, by cases n <;> simp [ColName.all], ?_⟩
    simp [h1, h2]

theorem columns_nodup (b : Batch ρ κ δ) : (b.columns.map Prod.fst).Nodup := by
  have hsub : (b.columns.map Prod.fst).Sublist ColName.all := by
    unfold columns
    generalize ColName.all = l
    induction l with
    | nil => simp
    | cons n l ih =>
      rw [List.filterMap_cons]
      split
      · exact ih.cons _
      · rename_i x hx
        have : x.1 = n := by
          cases hc : b.col n with
          | none => simp [hc] at hx
          | some c =>
            simp only [hc] at hx
            split at hx
            · cases hx; rfl
            · cases hx
        rw [List.map_cons, this]
        exact ih.cons_cons _
  exact hsub.nodup (by decide)

end Imgaug.Props
