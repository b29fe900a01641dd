import Verif.Proofs.Batch
import Verif.Spec.Batch
import Verif.Model.Batch
import Mathlib.Tactic.Common
/-! Properties C22 (row subselection) and the propagation part of C39. -/
namespace Imgaug.Props
open Imgaug Imgaug.Batch
variable {ρ κ δ : Type}

/-- C22: subselecting rows. If all indices are row indices of every column, the call succeeds, and column by column the
result is `None` if the column was `None` or no rows were selected, and otherwise a column of the same type with exactly the
selected rows in the given order. -/
theorem subselect_spec (b : Batch ρ κ δ) (indices : List Nat)
    (h : ∀ n c, b.col n = some c → ∀ i ∈ indices, i < c.rows.length) :
    ∃ r, b.subselect indices = some r ∧ r.data = b.data ∧ ∀ n,
      (b.col n = none → r.col n = none) ∧
      (indices = [] → r.col n = none) ∧
      (∀ c, b.col n = some c → indices ≠ [] → ∃ rows, rows.length = indices.length ∧
        (∀ j (hj : j < indices.length), rows[j]? = c.rows[indices[j]]?) ∧
        r.col n = some (c.withRows rows)) := by
  have key : ∀ n, ∃ v, subCol indices (b.col n) = some v ∧
      (b.col n = none → v = none) ∧ (indices = [] → v = none) ∧
      (∀ c, b.col n = some c → indices ≠ [] → ∃ rows, rows.length = indices.length ∧
        (∀ j (hj : j < indices.length), rows[j]? = c.rows[indices[j]]?) ∧
        v = some (c.withRows rows)) := by
    intro n
    cases hc : b.col n with
    | none => exact ⟨none, rfl, by simp, by simp, by simp⟩
    | some c =>
      obtain ⟨r, hr, hl, hget⟩ := pickRows_eq c.rows indices (h n c hc)
      by_cases h0 : indices = []
      · refine ⟨none, ?_, by simp, by simp, by simp [h0]⟩
        have hl0 : r.length = 0 := by rw [hl, h0]; rfl
        simp only [subCol, hr, Option.map_some, if_pos hl0]
      · have hne : ¬ r.length = 0 := by rw [hl]; simpa using h0
        refine ⟨some (c.withRows r), ?_, by simp, by simp [h0], ?_⟩
        · simp only [subCol, hr, Option.map_some, if_neg hne]
        · intro c' hc' _
          cases hc'
          exact ⟨r, hl, hget, rfl⟩
  choose g hg using key
  refine ⟨⟨g, b.data⟩, ?_, rfl, fun n => (hg n).2⟩
  unfold subselect
  rw [traverse_eq _ g (fun n => (hg n).1)]
  rfl

/-- C22: writing back a subselection. For distinct row indices, and any batch `sub` whose columns are `None` or have one row
per index, exactly the rows at the indices are replaced, by the rows of `sub` in order; all other rows of all columns, the
number of rows, and columns that `sub` does not have stay as they are. An image array stays an array if the shapes and
dtypes of its rows allow it and becomes a list otherwise. -/
theorem invert_subselect_spec [DecidableEq κ] (kindOf : ρ → κ) (b sub : Batch ρ κ δ) (indices : List Nat)
    (hnd : indices.Nodup) (h : ∀ n c, b.col n = some c → ∀ i ∈ indices, i < c.rows.length)
    (hsub : ∀ n c, sub.col n = some c → c.rows.length = indices.length) :
    ∃ r, b.invSubselect kindOf indices sub = some r ∧ r.data = b.data ∧ ∀ n,
      (b.col n = none → r.col n = none) ∧
      (sub.col n = none → r.col n = b.col n) ∧
      (∀ c s, b.col n = some c → sub.col n = some s → ∃ c', r.col n = some c' ∧ c'.rows.length = c.rows.length ∧
        (∀ j (hj : j < indices.length), c'.rows[indices[j]]? = s.rows[j]?) ∧
        (∀ i, i ∉ indices → c'.rows[i]? = c.rows[i]?) ∧
        (c' = if arrayPossible kindOf c s then c.withRows c'.rows else .lst c'.rows)) := by
  have key : ∀ n, ∃ v, invCol kindOf indices (b.col n) (sub.col n) = some v ∧
      (b.col n = none → v = none) ∧ (sub.col n = none → v = b.col n) ∧
      (∀ c s, b.col n = some c → sub.col n = some s → ∃ c', v = some c' ∧ c'.rows.length = c.rows.length ∧
        (∀ j (hj : j < indices.length), c'.rows[indices[j]]? = s.rows[j]?) ∧
        (∀ i, i ∉ indices → c'.rows[i]? = c.rows[i]?) ∧
        (c' = if arrayPossible kindOf c s then c.withRows c'.rows else .lst c'.rows)) := by
    intro n
    cases hc : b.col n with
    | none => exact ⟨none, by simp [invCol], by simp, by simp, by simp⟩
    | some c =>
      cases hs : sub.col n with
      | none => exact ⟨some c, by cases c <;> rfl, by simp, by simp, by simp⟩
      | some s =>
        obtain ⟨r, hr, hl, hget, hother⟩ := assignRows_spec c.rows indices s.rows (h n c hc)
          (Nat.le_of_eq (hsub n s hs).symm) hnd
        cases c with
        | lst rows =>
          refine ⟨some (.lst r), ?_, by simp, by simp, ?_⟩
          · simp only [invCol]; rw [show assignRows rows indices s.rows = some r from hr]; rfl
          · intro c s' hc' hs'; cases hc'; cases hs'; exact ⟨.lst r, rfl, hl, hget, hother, by simp [arrayPossible, Col.withRows, Col.rows]⟩
        | arr k rows =>
          have hr : assignRows rows indices s.rows = some r := hr
          have hlen := hsub n s hs
          simp only [invCol]
          by_cases hsame : sameKind kindOf k s = true
          · refine ⟨some (.arr k r), ?_, by simp, by simp, ?_⟩
            · rw [if_pos hsame, if_pos hlen, hr]; rfl
            · intro c s' hc' hs'; cases hc'; cases hs'; exact ⟨.arr k r, rfl, hl, hget, hother, by rw [if_pos (by rw [← sameKind_eq]; exact hsame)]; rfl⟩
          · refine ⟨some (.lst r), ?_, by simp, by simp, ?_⟩
            · rw [if_neg hsame, hr]; rfl
            · intro c s' hc' hs'; cases hc'; cases hs'; exact ⟨.lst r, rfl, hl, hget, hother, by rw [if_neg (by rw [← sameKind_eq]; exact hsame)]; rfl⟩
  choose g hg using key
  refine ⟨⟨g, b.data⟩, ?_, rfl, fun n => (hg n).2⟩
  unfold invSubselect
  rw [traverse_eq _ g (fun n => (hg n).1)]
  rfl

/-- C22: writing back an unchanged subselection restores the batch, for every list of indices (also repeated ones). -/
theorem subselect_roundtrip [DecidableEq κ] (kindOf : ρ → κ) (b sub : Batch ρ κ δ) (indices : List Nat)
    (hs : b.subselect indices = some sub) :
    b.invSubselect kindOf indices sub = some b := by
  unfold subselect at hs
  obtain ⟨g, hg, he⟩ := Option.map_eq_some_iff.1 hs
  have hg := traverse_some _ _ hg
  have hsc : ∀ n, sub.col n = g n := by intro n; rw [← he]
  unfold invSubselect
  rw [traverse_eq _ b.col]
  · rfl
  · intro n
    have := hg n
    rw [hsc n]
    cases hc : b.col n with
    | none => simp [invCol]
    | some c =>
      rw [hc] at this
      simp only [subCol] at this
      obtain ⟨r, hr, hv⟩ := Option.map_eq_some_iff.1 this
      have hlen : r.length = indices.length := by
        exact pickRows_length _ _ _ hr
      split at hv
      · rw [← hv]; cases c <;> rfl
      · rw [← hv]
        cases c with
        | lst rows =>
          simp only [invCol, Col.withRows]
          rw [show (Col.lst r : Col ρ κ).rows = r from rfl, assign_pick rows indices r hr]; rfl
        | arr k rows =>
          show (if sameKind kindOf k (.arr k r) = true then if r.length = indices.length then _ else _ else _) = _
          have hk : sameKind kindOf k (Col.arr k r) = true := by simp [sameKind]
          rw [if_pos hk, if_pos hlen]
          rw [show ((Col.arr k rows : Col ρ κ).withRows r).rows = r from rfl, assign_pick rows indices r hr]; rfl

example : ∃ (b : Batch Nat Nat Unit) (sub : Batch Nat Nat Unit), b.subselect [2, 0] = some sub ∧
    sub.col .images = some (.arr 0 [12, 10]) ∧ sub.col .keypoints = some (.lst [22, 20]) := by
  refine ⟨⟨fun | .images => some (.arr 0 [10, 11, 12]) | .keypoints => some (.lst [20, 21, 22]) | _ => none, ()⟩, _, rfl, ?_, ?_⟩
  · rfl
  · rfl

/-- Replacing rows 2 and 0 of an array of images by one of another kind turns the column into a list. -/
example : ∃ r, Batch.invSubselect (fun v => v / 100) (⟨fun | .images => some (.arr 0 [10, 11, 12]) | _ => none, ()⟩ : Batch Nat Nat Unit)
    [2, 0] ⟨fun | .images => some (.lst [70, 170]) | _ => none, ()⟩ = some r ∧ r.col .images = some (.lst [170, 11, 70]) :=
  ⟨_, rfl, rfl⟩

/-! ### C39: propagation hooks -/

/-- C39: propagation hooks. Inside the block a rejected (non-empty) column is `None`, other columns are as they are; after
the block, whatever the block did, rejected columns have their old value and the others the value the block left. -/
theorem propagation_hooks_spec (isProp : Col ρ κ → Bool) (b : Batch ρ κ δ) (body : Batch ρ κ δ → Batch ρ κ δ) (n : ColName) :
    (∀ c, b.col n = some c → c.rows.length > 0 → isProp c = false →
      (applyHooks isProp b).1.col n = none ∧ (hooksCtx (some isProp) b body).col n = some c) ∧
    ((∀ c, b.col n = some c → c.rows.length > 0 → isProp c = true) →
      (applyHooks isProp b).1.col n = b.col n ∧
      (hooksCtx (some isProp) b body).col n = (body (applyHooks isProp b).1).col n) := by
  have hnd : ((b.columns.filter (fun (x : ColName × Col ρ κ) => !isProp x.2)).map Prod.fst).Nodup :=
    ((List.filter_sublist).map Prod.fst).nodup (columns_nodup b)
  have hmem : ∀ c, (n, c) ∈ b.columns.filter (fun (x : ColName × Col ρ κ) => !isProp x.2) ↔
      b.col n = some c ∧ c.rows.length > 0 ∧ isProp c = false := by
    intro c; rw [List.mem_filter, columns_mem]; simp [and_assoc]
  have happ : (applyHooks isProp b).1.col n = if n ∈ (b.columns.filter (fun (x : ColName × Col ρ κ) => !isProp x.2)).map Prod.fst
      then none else b.col n := foldl_setCol_none _ b n
  have hinv := foldl_setCol_some (b.columns.filter (fun (x : ColName × Col ρ κ) => !isProp x.2))
    (body (applyHooks isProp b).1) n hnd
  constructor
  · intro c hc hl hp
    have hm := (hmem c).2 ⟨hc, hl, hp⟩
    refine ⟨?_, hinv.1 c hm⟩
    rw [happ, if_pos (List.mem_map.2 ⟨(n, c), hm, rfl⟩)]
  · intro hall
    have hnot : n ∉ (b.columns.filter (fun (x : ColName × Col ρ κ) => !isProp x.2)).map Prod.fst := by
      intro h
      obtain ⟨⟨m, c⟩, hm, rfl⟩ := List.mem_map.1 h
      have := (hmem c).1 hm
      rw [hall c this.1 this.2.1] at this
      cases this.2.2
    refine ⟨?_, hinv.2 hnot⟩
    rw [happ, if_neg hnot]

example : let b : Batch Nat Nat Unit := ⟨fun | .images => some (.lst [1, 2]) | .polygons => some (.lst [3, 4]) | _ => none, ()⟩
    (hooksCtx (some (fun c => c.rows.length = 2 && c.rows.head? = some 1)) b
      (fun b => ⟨fun n => (b.col n).map (fun c => c.withRows (c.rows.map (· + 10))), ()⟩)).col .images = some (.lst [11, 12]) := by
  decide

/-- C39: without hooks the block runs on the batch itself. -/
theorem propagation_no_hooks (b : Batch ρ κ δ) (body : Batch ρ κ δ → Batch ρ κ δ) :
    hooksCtx none b body = body b := rfl

end Imgaug.Props
