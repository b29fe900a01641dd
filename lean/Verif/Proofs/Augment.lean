import Verif.Model.Augment
import Verif.Proofs.Channels
/-! Helper lemmas for Props/Augment.lean. -/
namespace Imgaug.Aug
open Imgaug
variable {V N S : Type}

theorem traverse_iff {α : Type} (f : ColName → Option α) (g : ColName → α) :
    Batch.traverse f = some g ↔ ∀ c, f c = some (g c) := by
  unfold Batch.traverse
  constructor
  · intro h
    simp only [Option.bind_eq_bind, Option.bind_eq_some_iff, Option.pure_def, Option.some.injEq] at h
    obtain ⟨a, ha, b, hb, c, hc, d, hd, e, he, g', hg, k, hk, h⟩ := h
    subst h
    intro c
    cases c <;> assumption
  · intro h
    simp only [h, Option.bind_eq_bind, Option.bind_some, Option.pure_def, Option.some.injEq]
    funext c
    cases c <;> rfl

theorem get_of_mem (kwargs : List (Key × V)) (hnd : (kwargs.map Prod.fst).Nodup) (k : Key) (x : V) (h : (k, x) ∈ kwargs) :
    get kwargs k = some x := by
  unfold get
  induction kwargs with
  | nil => simp at h
  | cons p ps ih =>
    rw [List.map_cons, List.nodup_cons] at hnd
    rw [List.mem_cons] at h
    rw [List.find?_cons]
    by_cases hp : p.1 = k
    · rcases h with rfl | h
      · simp
      · exact absurd (List.mem_map_of_mem (f := Prod.fst) h) (by rw [← hp]; exact hnd.1)
    · have : (p.1 == k) = false := by simpa using hp
      rw [this]
      rcases h with rfl | h
      · exact absurd rfl hp
      · exact ih hnd.2 h

theorem get_none (kwargs : List (Key × V)) (k : Key) (h : k ∉ kwargs.map Prod.fst) : get kwargs k = none := by
  unfold get
  rw [Option.map_eq_none_iff, List.find?_eq_none]
  intro p hp e
  exact h (List.mem_map.2 ⟨p, hp, by simpa using e⟩)

theorem columns_spec (C : Codec V N S) (kwargs : List (Key × V)) (hnd : (kwargs.map Prod.fst).Nodup)
    (h2 : ¬ (Key.image ∈ kwargs.map Prod.fst ∧ Key.col .images ∈ kwargs.map Prod.fst)) :
    (∀ x, (Key.image, x) ∈ kwargs → columns C kwargs .images = some (C.wrap x)) ∧
    (∀ c x, (Key.col c, x) ∈ kwargs → columns C kwargs c = some x) ∧
    (∀ c, Key.col c ∉ kwargs.map Prod.fst → (c = .images → Key.image ∉ kwargs.map Prod.fst) → columns C kwargs c = none) := by
  refine ⟨?_, ?_, ?_⟩
  · intro x hx
    simp [columns, get_of_mem kwargs hnd _ _ hx]
  · intro c x hx
    cases c with
    | images =>
      have : get kwargs .image = none := get_none _ _ (fun hi => h2 ⟨hi, List.mem_map.2 ⟨_, hx, rfl⟩⟩)
      simp [columns, this, get_of_mem kwargs hnd _ _ hx]
    | _ => simp [columns, get_of_mem kwargs hnd _ _ hx]
  · intro c hc hi
    cases c with
    | images => simp [columns, get_none _ _ hc, get_none _ _ (hi rfl)]
    | _ => simp [columns, get_none _ _ hc]

theorem get_isSome (kwargs : List (Key × V)) (k : Key) : (get kwargs k).isSome = true ↔ k ∈ kwargs.map Prod.fst := by
  constructor
  · intro h
    by_contra hn
    rw [get_none _ _ hn] at h
    simp at h
  · intro h
    obtain ⟨p, hp, rfl⟩ := List.mem_map.1 h
    unfold get
    rw [Option.isSome_map, List.find?_isSome]
    exact ⟨p, hp, by simp⟩

end Imgaug.Aug
