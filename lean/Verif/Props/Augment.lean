import Verif.Spec.Augment
import Verif.Proofs.Augment
import Verif.Model.Augment
import Verif.Proofs.Channels
/-! C59: what the call `augment(image=..., keypoints=..., …)` returns. -/
namespace Imgaug.Aug
open Imgaug
variable {V N S : Type}

/-- C59: `augment` with keyword arguments returns one result per argument, in the order in which the arguments were passed:
the value itself if there is one argument, a tuple otherwise. The result for an argument is what one gets by normalising the
passed value, augmenting the standard form of the whole batch in one call, and inverting the normalisation for the passed
value. Columns that were not passed are given to the augmentation as `None`. -/
theorem augment_results (C : Codec V N S) (run : (ColName → Option N) → Option (ColName → Option N)) (kwargs : List (Key × V))
    (hnd : (kwargs.map Prod.fst).Nodup) (out : Out V) (h : augment C run false kwargs = some out) :
    ∃ n a l, run n = some a ∧
      (∀ c, Key.col c ∉ kwargs.map Prod.fst → (c = .images → Key.image ∉ kwargs.map Prod.fst) →
        C.norm c none (if c = .images then none else (n .images).map C.shapes) = some (n c)) ∧
      l.length = kwargs.length ∧
      (∀ (i : Nat) (k : Key) (x : V), kwargs[i]? = some (k, x) → ∃ v, l[i]? = some v ∧ IsResult C n a (n .images) k x v) ∧
      ((∃ v, l = [v] ∧ out = .single v) ∨ (l.length ≠ 1 ∧ out = .tuple l)) := by
  unfold augment at h
  split at h
  · simp at h
  · split at h
    · simp at h
    · split at h
      · simp at h
      · rename_i h0 h1 h2
        rw [get_isSome, get_isSome] at h2
        obtain ⟨aug, haug, h⟩ := Option.bind_eq_some_iff.1 h
        simp only [Bool.false_eq_true, if_false] at h
        obtain ⟨l, hl, hout⟩ := Option.map_eq_some_iff.1 h
        unfold augmentUnnormalized at haug
        obtain ⟨n, hn, haug⟩ := Option.bind_eq_some_iff.1 haug
        obtain ⟨a, ha, haug⟩ := Option.bind_eq_some_iff.1 haug
        unfold toNormalized at hn
        obtain ⟨im, him, hn⟩ := Option.bind_eq_some_iff.1 hn
        rw [traverse_iff] at hn haug
        have hin : n .images = im := by
          have := hn .images
          simpa using this.symm
        have hnn : ∀ c, C.norm c (columns C kwargs c) (if c = .images then none else (n .images).map C.shapes) = some (n c) := by
          intro c
          by_cases hc : c = .images
          · subst hc
            rw [if_pos rfl, him, hin]
          · have := hn c
            rw [if_neg hc] at this
            rw [if_neg hc, hin, this]
        obtain ⟨c1, c2, c3⟩ := columns_spec C kwargs hnd h2
        refine ⟨n, a, l, ha, ?_, (Channels.mapM_get hl).1, ?_, ?_⟩
        · intro c hc hi
          have := hnn c
          rwa [c3 c hc hi] at this
        · intro i k x hi
          obtain ⟨v, hv, hp⟩ := (Channels.mapM_get hl).2 i (k, x) hi
          refine ⟨v, hv, ?_⟩
          have hmem := List.mem_of_getElem? hi
          cases k with
          | image =>
            have e := c1 x hmem
            have h3 := hnn .images
            rw [e, if_pos rfl] at h3
            have h4 := haug .images
            rw [e] at h4
            refine ⟨h3, ?_⟩
            simp only [pick] at hp
            obtain ⟨l', hl', hp⟩ := Option.bind_eq_some_iff.1 hp
            obtain ⟨y, hy, rfl⟩ := Option.map_eq_some_iff.1 hp
            exact ⟨l', y, by rw [h4, hl'], hy, rfl⟩
          | col c =>
            have e := c2 c x hmem
            have h3 := hnn c
            rw [e] at h3
            have h4 := haug c
            rw [e] at h4
            refine ⟨h3, ?_⟩
            simp only [pick, Option.some.injEq] at hp
            rw [h4, hp]
          | unknown s => simp [pick] at hp
        · match l, hout with
          | [v], hout => exact Or.inl ⟨v, rfl, hout.symm⟩
          | [], hout => exact Or.inr ⟨by simp, hout.symm⟩
          | _ :: _ :: _, hout => exact Or.inr ⟨by simp, hout.symm⟩

/-- C59: a call without any known argument, with an unknown one, or with both `image` and `images` raises. -/
theorem augment_rejects (C : Codec V N S) (run : (ColName → Option N) → Option (ColName → Option N)) (rb : Bool)
    (kwargs : List (Key × V))
    (h : kwargs = [] ∨ (∃ s, Key.unknown s ∈ kwargs.map Prod.fst) ∨
      (Key.image ∈ kwargs.map Prod.fst ∧ Key.col .images ∈ kwargs.map Prod.fst)) :
    augment C run rb kwargs = none := by
  unfold augment
  rcases h with rfl | ⟨s, hs⟩ | h
  · simp
  · have : kwargs.any (fun p => p.1.isUnknown) = true := by
      obtain ⟨p, hp, e⟩ := List.mem_map.1 hs
      rw [List.any_eq_true]
      exact ⟨p, hp, by simp [e, Key.isUnknown]⟩
    simp [this]
  · split
    · rfl
    · split
      · rfl
      · rw [if_pos]
        rw [get_isSome, get_isSome]
        exact h

/-- C59: `return_batch=True` gives the batch that contains the passed values, and for every passed column the same result as
the call without `return_batch`. -/
theorem augment_return_batch (C : Codec V N S) (run : (ColName → Option N) → Option (ColName → Option N))
    (kwargs : List (Key × V)) (hnd : (kwargs.map Prod.fst).Nodup) (l : List (Option V))
    (h : augment C run false kwargs = some (.tuple l)) :
    ∃ unaug aug, augment C run true kwargs = some (.batch unaug aug) ∧
      ∀ (i : Nat) (c : ColName) (x : V), kwargs[i]? = some (.col c, x) → unaug c = some x ∧ l[i]? = some (aug c) := by
  unfold augment at h ⊢
  split at h
  · simp at h
  · rename_i h0
    rw [if_neg h0]
    split at h
    · simp at h
    · rename_i h1
      rw [if_neg h1]
      split at h
      · simp at h
      · rename_i h2
        rw [if_neg h2]
        rw [get_isSome, get_isSome] at h2
        obtain ⟨aug, haug, h⟩ := Option.bind_eq_some_iff.1 h
        rw [haug, Option.bind_some, if_pos rfl]
        refine ⟨_, aug, rfl, ?_⟩
        intro i c x hi
        refine ⟨(columns_spec C kwargs hnd h2).2.1 c x (List.mem_of_getElem? hi), ?_⟩
        simp only [Bool.false_eq_true, if_false] at h
        obtain ⟨l', hl', hout⟩ := Option.map_eq_some_iff.1 h
        obtain ⟨v, hv, hp⟩ := (Channels.mapM_get hl').2 i _ hi
        simp only [pick, Option.some.injEq] at hp
        match l', hout with
        | [], hout => simp at hv
        | [_], hout => simp at hout
        | _ :: _ :: _, hout => simp only [Out.tuple.injEq] at hout; rw [← hout, hv, hp]

/-- A toy family of values: texts; standard forms are lists of texts. -/
def exCodec : Codec String (List String) Nat where
  wrap := fun v => "[" ++ v ++ "]"
  first := fun v => some ("first of " ++ v)
  shapes := fun l => l.length
  norm := fun _ v _ => some (v.map (fun x => [x]))
  inv := fun _ n _ => some (n.map (fun l => String.join l))

example : augment exCodec (fun n => some (fun c => (n c).map (fun l => l ++ ["'"]))) false
      [(.col .keypoints, "kps"), (.image, "img"), (.col .boundingBoxes, "bbs")] =
    some (.tuple [some "kps'", some "first of [img]'", some "bbs'"]) := by rfl

end Imgaug.Aug
