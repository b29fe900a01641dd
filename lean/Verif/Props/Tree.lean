import Verif.Proofs.Tree
/-! Property C40: the functions that list, find and remove augmenters in a tree. -/
namespace Imgaug.Tree.Props
open Imgaug.Tree
variable {σ : Type}

/-- C40: every tree has exactly one listing of its positions in depth-first order (so that the next theorems are about
something). -/
theorem preorder_exists_unique (a : Aug σ) : ∃! ps, IsPreorder a ps :=
  ⟨posAug a, posAug_preorder a, fun _ h => preorder_eq h⟩

/-- C40 (partial): `get_all_children(flat=True)`, preceded by the augmenter itself, lists the augmenters at all positions,
each position once, in depth-first order. Missing: augmenters that serve as children list of another one have no position;
see `list_augmenter_not_found`. -/
theorem get_all_children_partial (a : Aug σ) (ps : List Pos) (h : IsPreorder a ps) :
    (flat a).map some = ps.map (nodeAt a) := by
  rw [preorder_eq h]
  unfold flat
  rw [all_walk a [], walk_eq, List.map_flatMap, List.map_eq_flatMap]
  apply List.flatMap_congr
  intro p hp
  obtain ⟨x, hx⟩ := Option.isSome_iff_exists.1 ((posAug_complete a p).1 hp)
  simp [valAt, hx]

/-- C40 (partial): `find_augmenters` returns exactly the augmenters that satisfy the predicate, together with their parents
from the top, in depth-first order. -/
theorem find_augmenters_partial (f : Aug σ → List (Aug σ) → Bool) (a : Aug σ) (ps : List Pos) (h : IsPreorder a ps) :
    find f a [] = ps.filterMap (fun p => (nodeAt a p).filter (fun x => f x (ancestors a p))) := by
  rw [preorder_eq h, find_walk, walk_eq, filterMap_eq_flatMap]
  apply List.flatMap_congr
  intro p hp
  obtain ⟨x, hx⟩ := Option.isSome_iff_exists.1 ((posAug_complete a p).1 hp)
  simp only [valAt, hx, Option.map_some, Option.getD_some, List.nil_append, Option.filter]
  split <;> rfl

/-- C40 (partial): finding by names is filtering all augmenters by name. -/
theorem find_by_names_partial (names : List String) (a : Aug σ) :
    findByNames names a = (flat a).filter (fun x => names.contains x.info.name) := by
  unfold findByNames flat
  rw [find_walk, walk_eq, all_walk a [], walk_eq, List.filter_flatMap]
  apply List.flatMap_congr
  intro p hp
  obtain ⟨x, hx⟩ := Option.isSome_iff_exists.1 ((posAug_complete a p).1 hp)
  simp [valAt, hx, List.filter_cons]

/-- C40 (partial): after `remove_augmenters_` the tree consists of exactly those augmenters for which neither the augmenter
itself nor anything above it (except for the topmost augmenter) satisfies the predicate. They are in the same order and under
the same ancestors as before. -/
theorem remove_augmenters_partial (f : Info σ → List (Info σ) → Bool) (a : Aug σ) (ps qs : List Pos)
    (hp : IsPreorder a ps) (hq : IsPreorder (remove f a []) qs) :
    qs.filterMap (trail (remove f a [])) = (ps.filterMap (trail a)).filter (survives f) := by
  rw [preorder_eq hp, preorder_eq hq, filterMap_trail, filterMap_trail]
  have := remove_trails f a [] [] rfl
  simp only [List.map_nil, List.length_nil, Nat.zero_add] at this
  rw [this]
  apply List.filter_congr
  intro t _
  rw [survives_eq]

/-- C40 (partial): nothing below the topmost augmenter satisfies the predicate any more. -/
theorem remove_augmenters_none_left_partial (f : Info σ → List (Info σ) → Bool) (a : Aug σ) (p : Pos) (hp : p ≠ [])
    (x : Aug σ) (hx : nodeAt (remove f a []) p = some x) :
    f x.info ((ancestors (remove f a []) p).map Aug.info) = false := by
  have h := remove_augmenters_partial f a _ _ (posAug_preorder a) (posAug_preorder (remove f a []))
  have hmem : (ancestors (remove f a []) p).map Aug.info ++ [x.info] ∈
      (posAug (remove f a [])).filterMap (trail (remove f a [])) := by
    rw [List.mem_filterMap]
    exact ⟨p, (posAug_complete _ p).2 (by rw [hx]; rfl), by simp [trail, hx]⟩
  rw [h, List.mem_filter, survives_cons] at hmem
  have hl : 0 < (ancestors (remove f a []) p).length := by
    cases p with
    | nil => exact absurd rfl hp
    | cons k p => simp [ancestors]
  have := hmem.2 (ancestors (remove f a []) p).length x.info hl (by simp)
  simpa [List.take_append_of_le_length] using this

/-- C40: `remove_augmenters` on the topmost augmenter, and the other cases. -/
theorem remove_augmenters_cases (f : Info σ → List (Info σ) → Bool) (copy identityIfTop : Bool) (a : Aug σ) :
    (f a.info [] = false → removeAugmenters f copy identityIfTop a = some (.aug (remove f a []))) ∧
    (f a.info [] = true → removeAugmenters f true true a = some .identity ∧
      removeAugmenters f true false a = some .none ∧ removeAugmenters f false identityIfTop a = none) := by
  unfold removeAugmenters
  constructor
  · intro h; simp [h]
  · intro h; simp [h]

/-- A pipeline: `Sequential([Fliplr, Sometimes(0.5, OneOf([Blur, Noise]), Crop)])`. -/
def demo : Aug Nat :=
  .node ⟨"seq", .global, false⟩ [.group none [
    .node ⟨"flip", .loc 3, false⟩ [],
    .node ⟨"sometimes", .global, false⟩ [
      .group (some ⟨"oneof", .global, false⟩) [.node ⟨"blur", .global, false⟩ [], .node ⟨"noise", .loc 4, true⟩ []],
      .group (some ⟨"sometimes-else", .global, false⟩) [.node ⟨"crop", .global, false⟩ []]]]]

example : ((flat demo).map (fun x => x.info.name)) = ["seq", "flip", "sometimes", "blur", "noise", "crop"] := by
  decide +kernel

example : (flat (remove (fun i _ => i.name == "blur" || i.name == "flip") demo [])).map (fun x => x.info.name) =
    ["seq", "sometimes", "noise", "crop"] := by
  decide +kernel

/-- C40 is false for augmenters that are passed as children list of another augmenter: the `OneOf` of the example is part of
the pipeline, but it is neither found nor removed by name. -/
theorem list_augmenter_not_found :
    HasListAugmenter demo ⟨"oneof", .global, false⟩ ∧ findByNames ["oneof"] demo = [] ∧
    HasListAugmenter (remove (fun i _ => i.name == "oneof") demo []) ⟨"oneof", .global, false⟩ := by
  refine ⟨⟨[(0, 1)], _, _, rfl, List.mem_cons_self .., rfl⟩, ?_, ⟨[(0, 1)], _, _, rfl, List.mem_cons_self .., rfl⟩⟩
  rw [find_by_names_partial, List.filter_eq_nil_iff]
  intro x hx
  have : x.info.name ∈ (flat demo).map (fun x => x.info.name) := List.mem_map_of_mem (f := fun x : Aug Nat => x.info.name) hx
  have e : (flat demo).map (fun x => x.info.name) = ["seq", "flip", "sometimes", "blur", "noise", "crop"] := by decide +kernel
  rw [e] at this
  simp at this ⊢
  rcases this with h | h | h | h | h | h <;> rw [h] <;> decide

end Imgaug.Tree.Props
