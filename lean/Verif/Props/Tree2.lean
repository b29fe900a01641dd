import Verif.Proofs.Tree2
import Verif.Props.Tree
/-! Property C60: seeding, localizing and copying random states. -/
namespace Imgaug.Tree.Props
open Imgaug.Tree
variable {σ : Type}

/-- C60 (partial): `seed_` gives each augmenter (except for deterministic ones, unless `deterministic_too`) the random state
that belongs to its position: the seed itself at the top, and at each step down the state derived for that child. Nothing else
changes. Missing: augmenters that serve as children list, see `seed_keeps_list_augmenters`. -/
theorem seed_partial (derive : σ → σ × σ) (tooDet : Bool) (a : Aug σ) (s : σ) (p : Pos) (x : Aug σ)
    (hx : nodeAt a p = some x) :
    ∃ y, nodeAt (seed derive tooDet a s) p = some y ∧
      y.info = if x.info.deterministic = true ∧ tooDet = false then x.info
        else { x.info with rng := .loc (stateAt derive a s p) } := by
  refine ⟨_, by rw [seed_node, hx]; rfl, ?_⟩
  rw [seed_info]
  unfold seedInfo
  cases hd : x.info.deterministic <;> cases tooDet <;> simp [hd]

/-- C60 (partial): `seed_` keeps the shape of the tree. -/
theorem seed_shape_partial (derive : σ → σ × σ) (tooDet : Bool) (a : Aug σ) (s : σ) :
    SameShape (seed derive tooDet a s) a := skel_shape (seed_skel derive tooDet a s)

/-- C60 (partial): after seeding with the same seed two trees of the same shape have the same random states everywhere,
whatever their random states were before. -/
theorem seed_reproducible_partial (derive : σ → σ × σ) (a b : Aug σ) (s : σ) (h : SameShape a b) (p : Pos)
    (x y : Aug σ) (hx : nodeAt (seed derive true a s) p = some x) (hy : nodeAt (seed derive true b s) p = some y) :
    x.info.rng = y.info.rng := by
  rw [seed_node, Option.map_eq_some_iff] at hx hy
  obtain ⟨x', hx', rfl⟩ := hx
  obtain ⟨y', hy', rfl⟩ := hy
  rw [seed_info, seed_info, shape_state derive p s h (by rw [hx']; rfl)]
  simp [seedInfo]

/-- C60 (partial): without `deterministic_too` the same holds for trees without deterministic augmenters. -/
theorem seed_reproducible_default_partial (derive : σ → σ × σ) (a b : Aug σ) (s : σ) (h : SameShape a b)
    (ha : ∀ x ∈ flat a, x.info.deterministic = false) (hb : ∀ x ∈ flat b, x.info.deterministic = false) (p : Pos)
    (x y : Aug σ) (hx : nodeAt (seed derive false a s) p = some x) (hy : nodeAt (seed derive false b s) p = some y) :
    x.info.rng = y.info.rng := by
  have mem : ∀ (c z : Aug σ), nodeAt c p = some z → z ∈ flat c := by
    intro c z hz
    have h1 := get_all_children_partial c _ (posAug_preorder c)
    have h2 : some z ∈ (flat c).map some := by
      rw [h1]
      exact List.mem_map.2 ⟨p, (posAug_complete c p).2 (by rw [hz]; rfl), hz⟩
    simpa using h2
  rw [seed_node, Option.map_eq_some_iff] at hx hy
  obtain ⟨x', hx', rfl⟩ := hx
  obtain ⟨y', hy', rfl⟩ := hy
  rw [seed_info, seed_info, shape_state derive p s h (by rw [hx']; rfl)]
  simp [seedInfo, ha _ (mem _ _ hx'), hb _ (mem _ _ hy')]

/-- C60: seeding changes nothing about augmenters that serve as children list of another augmenter. -/
theorem seed_keeps_list_augmenters (derive : σ → σ × σ) (tooDet : Bool) (a : Aug σ) (s : σ) (i : Info σ) :
    HasListAugmenter (seed derive tooDet a s) i ↔ HasListAugmenter a i :=
  skel_hidden_iff (seed_skel derive tooDet a s) i

/-- The pipeline `Sometimes(0.5, SomeOf(1, [Blur]))` with a given random state of the `SomeOf`. -/
def demoSomeOf (r : Rng Nat) : Aug Nat :=
  .node ⟨"sometimes", .global, false⟩ [.group (some ⟨"someof", r, false⟩) [.node ⟨"blur", .global, false⟩ []]]

/-- C60 is false as a whole: two copies of a pipeline whose `SomeOf` have different random states still differ after seeding
both with the same seed. -/
theorem seed_not_reproducible (derive : Nat → Nat × Nat) (s : Nat) :
    SameShape (demoSomeOf (.loc 1)) (demoSomeOf (.loc 2)) ∧
    HasListAugmenter (seed derive true (demoSomeOf (.loc 1)) s) ⟨"someof", .loc 1, false⟩ ∧
    HasListAugmenter (seed derive true (demoSomeOf (.loc 2)) s) ⟨"someof", .loc 2, false⟩ := by
  refine ⟨?_, ?_, ?_⟩
  · intro p
    match p with
    | [] => rfl
    | (0, 0) :: q => rfl
    | (0, k + 1) :: q => rfl
    | (j + 1, k) :: q => rfl
  · rw [seed_keeps_list_augmenters]
    exact ⟨[], _, _, rfl, List.mem_cons_self .., rfl⟩
  · rw [seed_keeps_list_augmenters]
    exact ⟨[], _, _, rfl, List.mem_cons_self .., rfl⟩

/-- C60 (partial): `localize_random_state_` goes through the augmenters in depth-first order, gives those with global random
state a state derived from the global one (the `k`-th of them the `k`-th derived state) and keeps everything else. The
global generator has advanced by the number of derivations. -/
theorem localize_partial (derive : σ → σ × σ) (a : Aug σ) (g : σ) :
    (localize derive a g).2 = advanced derive (globalsBefore ((flat a).map Aug.info) (flat a).length) g ∧
    ∀ n : Nat, ((flat (localize derive a g).1).map Aug.info)[n]? = (((flat a).map Aug.info)[n]?).map (fun (i : Info σ) =>
      match i.rng with
      | .global => { i with rng := .loc (derived derive (globalsBefore ((flat a).map Aug.info) n) g) }
      | .loc _ => i) := by
  have h := trav_flat (localizeInfo derive) a g
  rw [← localize_trav, Prod.mk.injEq] at h
  have hl := localize_list derive ((flat a).map Aug.info) g
  rw [← h.1, ← h.2, List.length_map] at hl
  exact hl

/-- C60 (partial): afterwards no augmenter that has a position uses the global random state. -/
theorem localize_no_global_partial (derive : σ → σ × σ) (a : Aug σ) (g : σ) (x : Aug σ)
    (hx : x ∈ flat (localize derive a g).1) : x.info.rng ≠ .global := by
  obtain ⟨n, hn⟩ := List.mem_iff_getElem?.1 (List.mem_map_of_mem (f := Aug.info) hx)
  rw [(localize_partial derive a g).2 n, Option.map_eq_some_iff] at hn
  obtain ⟨i, _, hi⟩ := hn
  rw [← hi]
  cases h : i.rng with
  | global => simp
  | loc s => simp [h]

/-- C60: localizing changes nothing about augmenters that serve as children list, so that the global random state remains in
use in the pipeline `Sometimes(0.5, SomeOf(1, [Blur]))`. -/
theorem localize_keeps_global (derive : σ → σ × σ) :
    (∀ (a : Aug σ) (g : σ) (i : Info σ), HasListAugmenter (localize derive a g).1 i ↔ HasListAugmenter a i) ∧
    HasListAugmenter (demoSomeOf .global) ⟨"someof", .global, false⟩ := by
  constructor
  · intro a g i
    rw [localize_trav]
    exact skel_hidden_iff (trav_skel _ a g) i
  · exact ⟨[], _, _, rfl, List.mem_cons_self .., rfl⟩

/-- C60 (partial): copying by position from a tree without global random states succeeds, gives the `n`-th augmenter (in
depth-first order) of the target the state of the `n`-th augmenter of the source, and keeps the names, the shape and
everything beyond the end of the source. -/
theorem copy_by_position_partial (copyDet tolerant : Bool) (target source : Aug σ)
    (hlen : tolerant = true ∨ (flat source).length = (flat target).length)
    (hloc : ∀ x ∈ flat source, x.info.rng ≠ .global) :
    ∃ r, copyByPosition tolerant copyDet target source = some r ∧ SameShape r target ∧
      ∀ (n : Nat) (t : Aug σ), (flat target)[n]? = some t →
        ((flat r).map Aug.info)[n]? = some (match (flat source)[n]? with
          | some x => ⟨t.info.name, x.info.rng, if copyDet then x.info.deterministic else t.info.deterministic⟩
          | none => t.info) := by
  have hm := takeOver_mapM copyDet (flat source) (flat target) hloc
  unfold copyByPosition
  rw [if_neg (by rintro ⟨h1, h2⟩; rcases hlen with h | h; simp [h] at h2; exact h1 h), hm]
  refine ⟨_, rfl, ?_, ?_⟩
  · simp only [assign_trav]
    exact skel_shape (trav_skel _ _ _)
  · intro n t ht
    simp only [assign_trav]
    have h := trav_flat assignStep target
      (((flat source).zip (flat target)).map (fun x => Info.mk x.2.info.name x.1.info.rng
        (if copyDet then x.1.info.deterministic else x.2.info.deterministic)))
    rw [Prod.ext_iff] at h
    simp only at h
    rw [h.1]
    have hlt : n < ((flat target).map Aug.info).length := by
      rw [List.length_map]; exact (List.getElem?_eq_some_iff.1 ht).1
    rw [(assign_list _ _).2 n hlt]
    congr 1
    simp only [List.getElem?_map, ht, Option.map_some, Option.getD_some]
    cases hs : (flat source)[n]? with
    | none =>
      have : ((flat source).zip (flat target))[n]? = none := by
        rw [List.getElem?_eq_none_iff] at hs ⊢
        simp; omega
      simp [this]
    | some x =>
      have : ((flat source).zip (flat target))[n]? = some (x, t) := List.getElem?_zip_eq_some.2 ⟨hs, ht⟩
      simp [this]

/-- C60: a global random state among the paired source augmenters is rejected, as are different numbers of augmenters if
`matching_tolerant` is off. -/
theorem copy_by_position_rejects (copyDet tolerant : Bool) (target source : Aug σ) :
    ((flat source).length ≠ (flat target).length → copyByPosition false copyDet target source = none) ∧
    (∀ (n : Nat) (x t : Aug σ), (flat source)[n]? = some x → (flat target)[n]? = some t → x.info.rng = .global →
      copyByPosition tolerant copyDet target source = none) := by
  constructor
  · intro h
    unfold copyByPosition
    rw [if_pos ⟨h, rfl⟩]
  · intro n x t hx ht hg
    unfold copyByPosition
    split
    · rfl
    · rw [Option.map_eq_none_iff]
      apply mapM_none_of_mem _ _ (x, t)
      · exact List.mem_iff_getElem?.2 ⟨n, List.getElem?_zip_eq_some.2 ⟨hx, ht⟩⟩
      · simp [takeOver, hg]

/-- C60 (partial): copying by name, if the names are unique in the target and in the source and the source has no global
random states: each target augmenter gets the state of the source augmenter of the same name; without such an augmenter it
keeps its own, or the call fails if `matching_tolerant` is off. -/
theorem copy_by_name_partial (copyDet : Bool) (target source : Aug σ)
    (hs : ((flat source).map (fun x => x.info.name)).Nodup) (ht : ((flat target).map (fun x => x.info.name)).Nodup)
    (hloc : ∀ x ∈ flat source, x.info.rng ≠ .global) :
    ∃ r, copyByName true copyDet target source = some r ∧ SameShape r target ∧
      ∀ (n : Nat) (t : Aug σ), (flat target)[n]? = some t → ∃ i, ((flat r).map Aug.info)[n]? = some i ∧
        (∀ x ∈ flat source, x.info.name = t.info.name →
          i = ⟨t.info.name, x.info.rng, if copyDet then x.info.deterministic else t.info.deterministic⟩) ∧
        ((∀ x ∈ flat source, x.info.name ≠ t.info.name) → i = t.info) := by
  obtain ⟨l, hl, hlen, hget⟩ := namedUpdates_spec copyDet ((flat source).map Aug.info) ((flat target).map Aug.info)
    (by simpa [List.map_map, Function.comp_def] using hs) (by simpa [List.map_map, Function.comp_def] using ht)
    (by intro i hi; obtain ⟨x, hx, rfl⟩ := List.mem_map.1 hi; exact hloc x hx)
  unfold copyByName
  rw [hl]
  refine ⟨_, rfl, ?_, ?_⟩
  · simp only [assign_trav]
    exact skel_shape (trav_skel _ _ _)
  · intro n t htn
    have h := trav_flat assignStep target l
    rw [Prod.ext_iff] at h
    have hlt : n < ((flat target).map Aug.info).length := by
      rw [List.length_map]; exact (List.getElem?_eq_some_iff.1 htn).1
    obtain ⟨i, hi, h1, h2⟩ := hget n t.info (by rw [List.getElem?_map, htn]; rfl)
    refine ⟨i, ?_, ?_, ?_⟩
    · simp only [assign_trav]
      simp only at h
      rw [h.1, (assign_list _ _).2 n hlt, hi]; rfl
    · intro x hx hn
      exact h1 x.info (List.mem_map_of_mem hx) hn
    · intro hx
      exact h2 (by intro j hj; obtain ⟨x, hx', rfl⟩ := List.mem_map.1 hj; exact hx x hx')

/-- C60 (partial): copying by name in general, with repeated names: an augmenter takes over the attributes of the last source
augmenter of its name; augmenters whose name occurs again later in the target, and those without a namesake in the source,
keep theirs. It fails exactly if such a last namesake uses the global random state or, without `matching_tolerant`, an
augmenter (whose name does not occur again later in the target) has no namesake. Missing as above: augmenters that serve as
children list. -/
theorem copy_by_name_repeated_partial (tolerant copyDet : Bool) (target source : Aug σ) :
    (copyByName tolerant copyDet target source = none ↔ ∃ (n : Nat) (t : Aug σ), (flat target)[n]? = some t ∧
      LastOfItsName (flat target) n ∧
      ((∃ (m : Nat) (x : Aug σ), (flat source)[m]? = some x ∧ x.info.name = t.info.name ∧ LastOfItsName (flat source) m ∧
        x.info.rng = .global) ∨
       (tolerant = false ∧ ∀ x ∈ flat source, x.info.name ≠ t.info.name))) ∧
    (∀ r, copyByName tolerant copyDet target source = some r → SameShape r target ∧
      ∀ (n : Nat) (t : Aug σ), (flat target)[n]? = some t → ∃ i, ((flat r).map Aug.info)[n]? = some i ∧
        (¬ LastOfItsName (flat target) n → i = t.info) ∧
        ((∀ x ∈ flat source, x.info.name ≠ t.info.name) → i = t.info) ∧
        (LastOfItsName (flat target) n → ∀ (m : Nat) (x : Aug σ), (flat source)[m]? = some x → x.info.name = t.info.name →
          LastOfItsName (flat source) m →
          i = ⟨t.info.name, x.info.rng, if copyDet then x.info.deterministic else t.info.deterministic⟩)) := by
  have hlo : ∀ (l : List (Aug σ)) (n : Nat), LastOfItsName l n ↔ LastName (l.map Aug.info) n := by
    intro l n
    unfold LastOfItsName LastName
    constructor
    · intro h m i j hm hi hj
      rw [List.getElem?_map] at hi hj
      obtain ⟨a, ha, rfl⟩ := Option.map_eq_some_iff.1 hi
      obtain ⟨b, hb, rfl⟩ := Option.map_eq_some_iff.1 hj
      exact h m a b hm ha hb
    · intro h m a b hm ha hb
      exact h m a.info b.info hm (by rw [List.getElem?_map, ha]; rfl) (by rw [List.getElem?_map, hb]; rfl)
  have hspec := namedUpdates_gen tolerant copyDet ((flat source).map Aug.info) ((flat target).map Aug.info)
  unfold copyByName
  refine ⟨?_, ?_⟩
  · rw [Option.map_eq_none_iff, hspec.1]
    constructor
    · rintro ⟨n, i, hi, hl, h⟩
      rw [List.getElem?_map] at hi
      obtain ⟨t, ht, rfl⟩ := Option.map_eq_some_iff.1 hi
      refine ⟨n, t, ht, (hlo _ _).2 hl, ?_⟩
      rcases h with ⟨m, s, hs, hn, hls, hg⟩ | ⟨ht', h⟩
      · rw [List.getElem?_map] at hs
        obtain ⟨x, hx, rfl⟩ := Option.map_eq_some_iff.1 hs
        exact Or.inl ⟨m, x, hx, hn, (hlo _ _).2 hls, hg⟩
      · exact Or.inr ⟨ht', fun x hx => h x.info (List.mem_map_of_mem hx)⟩
    · rintro ⟨n, t, ht, hl, h⟩
      refine ⟨n, t.info, by rw [List.getElem?_map, ht]; rfl, (hlo _ _).1 hl, ?_⟩
      rcases h with ⟨m, x, hx, hn, hls, hg⟩ | ⟨ht', h⟩
      · exact Or.inl ⟨m, x.info, by rw [List.getElem?_map, hx]; rfl, hn, (hlo _ _).1 hls, hg⟩
      · exact Or.inr ⟨ht', fun s hs => by obtain ⟨x, hx, rfl⟩ := List.mem_map.1 hs; exact h x hx⟩
  · intro r hr
    obtain ⟨l, hl, rfl⟩ := Option.map_eq_some_iff.1 hr
    obtain ⟨hlen, hget⟩ := hspec.2 l hl
    refine ⟨?_, fun n t htn => ?_⟩
    · simp only [assign_trav]
      exact skel_shape (trav_skel _ _ _)
    · have h := trav_flat assignStep target l
      rw [Prod.ext_iff] at h
      have hlt : n < ((flat target).map Aug.info).length := by
        rw [List.length_map]; exact (List.getElem?_eq_some_iff.1 htn).1
      obtain ⟨i, hi, h1, h2, h3⟩ := hget n t.info (by rw [List.getElem?_map, htn]; rfl)
      refine ⟨i, ?_, ?_, ?_, ?_⟩
      · simp only [assign_trav]
        simp only at h
        rw [h.1, (assign_list _ _).2 n hlt, hi]; rfl
      · intro hn; exact h1 (fun h => hn ((hlo _ _).2 h))
      · intro hx
        exact h2 (by intro j hj; obtain ⟨x, hx', rfl⟩ := List.mem_map.1 hj; exact hx x hx')
      · intro hn m x hx hxn hxl
        exact h3 ((hlo _ _).1 hn) m x.info (by rw [List.getElem?_map, hx]; rfl) hxn ((hlo _ _).1 hxl)

/-- C60: copying changes nothing about augmenters that serve as children list. -/
theorem copy_keeps_list_augmenters (copyDet tolerant : Bool) (target source r : Aug σ)
    (h : copyByPosition tolerant copyDet target source = some r ∨ copyByName tolerant copyDet target source = some r)
    (i : Info σ) : HasListAugmenter r i ↔ HasListAugmenter target i := by
  have key : ∀ l, HasListAugmenter (assign target l).1 i ↔ HasListAugmenter target i := by
    intro l
    rw [assign_trav]
    exact skel_hidden_iff (trav_skel _ _ _) i
  rcases h with h | h
  · unfold copyByPosition at h
    split at h
    · cases h
    · obtain ⟨l, _, rfl⟩ := Option.map_eq_some_iff.1 h
      exact key l
  · obtain ⟨l, _, rfl⟩ := Option.map_eq_some_iff.1 h
    exact key l

/-- The hypotheses of the theorems above hold for the localized example pipeline. -/
example : (∀ x ∈ flat (localize (fun n : Nat => (n + 1, 100 * n)) demo 7).1, x.info.rng ≠ .global) ∧
    ((flat demo).map (fun x => x.info.name)).Nodup ∧
    (copyByPosition false true demo (localize (fun n : Nat => (n + 1, 100 * n)) demo 7).1).isSome = true :=
  ⟨fun x hx => localize_no_global_partial _ demo 7 x hx, by decide +kernel, by decide +kernel⟩

example : (flat (seed (fun n : Nat => (n + 1, 100 * n)) false demo 7)).map (fun x => x.info.rng) =
    [.loc 7, .loc 700, .loc 800, .loc 80000, .loc 4, .loc 80200] := by decide +kernel

/-- Copying by name with repeated names: the last "blur" of the source counts, only the last "blur" of the target changes. -/
example : (copyByName false false
    (.node ⟨"seq", .loc 0, false⟩ [.group none [.node ⟨"blur", .loc 1, false⟩ [], .node ⟨"blur", .loc 2, false⟩ []]] : Aug Nat)
    (.node ⟨"seq", .loc 10, false⟩ [.group none [.node ⟨"blur", .loc 11, false⟩ [], .node ⟨"blur", .loc 12, false⟩ []]])).map
    (fun r => (flat r).map (fun x => x.info.rng)) = some [.loc 10, .loc 1, .loc 12] := by decide +kernel

/-- A name without namesake is an error, unless `matching_tolerant`. -/
example : (copyByName false false (.node ⟨"a", .loc 0, false⟩ [] : Aug Nat) (.node ⟨"b", .loc 1, false⟩ [])).isNone = true ∧
    (copyByName true false (.node ⟨"a", .loc 0, false⟩ [] : Aug Nat) (.node ⟨"b", .loc 1, false⟩ [])).isNone = false := by
  decide +kernel

end Imgaug.Tree.Props
