import Verif.Spec.Build
import Verif.Spec.Meta
import Verif.Props.Meta
import Mathlib.Tactic.Linarith
/-! Property C127: arguments of the constructors of augmenters with children. -/
namespace Imgaug.Build
open Imgaug
variable {α : Type}

/-! ### Fixtures -/

/-- Numbers below 10 are augmenters, 7 is a `OneOf` of 1 and 2, 8 a list that contains something else. -/
def o1 : Objects Nat := ⟨fun x => decide (x < 10), fun x => if x = 7 then some [1, 2] else if x = 8 then some [1, 20] else none⟩

/-! ### Children -/

/-- C127: `Sequential`, `SomeOf` and `OneOf` have exactly the children that were given, in their order, and refuse arguments
in which anything is not an augmenter. A single augmenter is one child, also if it is a list of augmenters itself. -/
theorem children_iff (o : Objects α) (a : Arg α) (hg : ¬ IsGenerator a) (l : List α) :
    children o a = some l ↔ Names o a l := by
  cases a with
  | none =>
    constructor
    · intro h; simp only [children, Option.some.injEq] at h; subst h; exact .nothing
    · intro h; cases h; rfl
  | obj x =>
    constructor
    · intro h
      by_cases hx : o.isAug x = true
      · simp [children, hx] at h; subst h; exact .one x hx
      · simp [children, hx] at h
    · intro h; cases h with | one _ hx => simp [children, hx]
  | iter it =>
    cases it with
    | generator l => exact absurd trivial hg
    | list m =>
      constructor
      · intro h
        unfold children Iter.items Iter.after at h
        by_cases hx : m.all o.isAug = true
        · simp only [hx, if_true, Option.some.injEq] at h; subst h
          exact .list _ (fun x hm => List.all_eq_true.1 hx x hm)
        · simp only [if_neg hx] at h; cases h
      · intro h; cases h with
        | list _ hx =>
          have : l.all o.isAug = true := List.all_eq_true.2 hx
          simp [children, Iter.items, Iter.after, this]

example : children o1 (.obj 7) = some [7] ∧ children o1 (.iter (.list [3, 1, 7])) = some [3, 1, 7] ∧
    children o1 (.iter (.list [3, 12])) = none ∧ children o1 (.obj 12) = none := by decide

/-- C127: `OneOf` has these children, applies one of them, and does not shuffle. -/
theorem oneOf_args (o : Objects α) (a : Arg α) (hg : ¬ IsGenerator a) (l : List α) (n : ℚ) (ro : Bool) :
    oneOf o a = some (l, n, ro) ↔ Names o a l ∧ n = 1 ∧ ro = false := by
  rw [← children_iff o a hg]
  unfold oneOf
  cases children o a with
  | none => simp
  | some m => simp only [Option.map_some, Option.some.injEq, Prod.mk.injEq]; tauto

/-- C127 is false for generators: `Sequential`, `SomeOf` and `OneOf` take a generator of augmenters without complaint and have
no children afterwards. The check of the types has run through the generator. -/
theorem generator_lost (o : Objects α) (l : List α) (h : ∀ x ∈ l, o.isAug x = true) :
    children o (.iter (.generator l)) = some [] := by
  have : l.all o.isAug = true := List.all_eq_true.2 h
  simp [children, Iter.items, Iter.after, this]

example : children o1 (.iter (.generator [1, 2, 3])) = some [] := by decide

/-- C127: a treated child list applies exactly the augmenters that were named, in their order. It is refused exactly if there
are none that could be named, or if it is an augmenter that contains something else than augmenters. -/
theorem handleChildren_applied (o : Objects α) (a : Arg α) (hg : ¬ IsGenerator a) (aug lst : String) (sd : Bool) :
    (∀ r, handleChildren o a aug lst sd = some r → Names o a r.applied) ∧
    (∀ l, Names o a l → (∀ x m, a = .obj x → o.elems x = some m → ∀ y ∈ m, o.isAug y = true) →
      ∃ r, handleChildren o a aug lst sd = some r ∧ r.applied = l) := by
  constructor
  · intro r h
    cases a with
    | none =>
      unfold handleChildren at h
      cases sd <;> simp at h <;> subst h <;> exact .nothing
    | obj x =>
      unfold handleChildren at h
      by_cases hx : o.isAug x = true
      · simp only [if_pos hx] at h
        cases he : o.elems x with
        | some m =>
          simp only [he] at h
          by_cases hm : m.all o.isAug = true
          · rw [if_pos hm] at h; cases h; exact .one x hx
          · rw [if_neg hm] at h; cases h
        | none =>
          simp only [he, children, if_pos hx, Option.map_some, Option.some.injEq] at h
          subst h; exact .one x hx
      · simp only [if_neg hx] at h; cases h
    | iter it =>
      cases it with
      | generator l => exact absurd trivial hg
      | list m =>
        have key : (m.all o.isAug = true ∧ r = .sequential m (aug ++ "-" ++ lst)) ∨ (m = [] ∧ r = .default) := by
          unfold handleChildren at h
          by_cases hm : m.all o.isAug = true
          · cases sd with
            | true => simp [Iter.items, Iter.after, children, hm] at h; exact .inl ⟨hm, h.symm⟩
            | false =>
              cases m with
              | nil => simp [Iter.len] at h; exact .inr ⟨rfl, h.symm⟩
              | cons y ys => simp [Iter.len, Iter.items, Iter.after, children, -List.all_cons, hm] at h; exact .inl ⟨hm, h.symm⟩
          · cases sd with
            | true => simp only [if_true] at h; rw [if_neg (show ¬ (Iter.list m).items.all o.isAug = true from hm)] at h; cases h
            | false =>
              cases m with
              | nil => exact absurd rfl hm
              | cons y ys => simp only [Iter.len, List.length_cons, Bool.false_eq_true, if_false] at h; rw [if_neg (show ¬ (Iter.list (y :: ys)).items.all o.isAug = true from hm)] at h; cases h
        rcases key with ⟨hm, rfl⟩ | ⟨rfl, rfl⟩
        · exact .list m (fun x hx => List.all_eq_true.1 hm x hx)
        · exact .list [] (fun x hx => absurd hx (by simp))
  · intro l hl hin
    cases hl with
    | nothing => cases sd <;> exact ⟨_, rfl, rfl⟩
    | one x hx =>
      cases he : o.elems x with
      | some m =>
        have hm : m.all o.isAug = true := List.all_eq_true.2 (hin x m rfl he)
        exact ⟨.same x, by simp only [handleChildren, if_pos hx, he, if_pos hm], rfl⟩
      | none => exact ⟨.sequential [x] (aug ++ "-" ++ lst), by simp [handleChildren, hx, he, children], rfl⟩
    | list l hx =>
      have hm : l.all o.isAug = true := List.all_eq_true.2 hx
      cases sd with
      | true => exact ⟨.sequential l (aug ++ "-" ++ lst), by simp [handleChildren, Iter.items, Iter.after, children, hm], rfl⟩
      | false =>
        cases l with
        | nil => exact ⟨.default, rfl, rfl⟩
        | cons y ys =>
          exact ⟨.sequential (y :: ys) (aug ++ "-" ++ lst),
            by simp [handleChildren, Iter.len, Iter.items, Iter.after, children, -List.all_cons, hm], rfl⟩

example : (handleChildren o1 (.obj 7) "a" "then" false).map Lst.applied = some [7] ∧
    (handleChildren o1 (.iter (.list [3, 1])) "a" "then" false).map Lst.applied = some [3, 1] ∧
    (handleChildren o1 (.obj 8) "a" "then" false).map Lst.applied = none := by decide

/-- C127: what a treated list is. An augmenter that is a list is taken as it is, so that later changes of it are seen.
Everything else becomes a new `Sequential` with the name of the parent and of the list. Only for `None` and an empty list the
default value can come back, and it comes back if there is one. -/
theorem handleChildren_form (o : Objects α) (a : Arg α) (hg : ¬ IsGenerator a) (aug lst : String) (sd : Bool) (r : Lst α)
    (h : handleChildren o a aug lst sd = some r) :
    (∀ x, r = .same x ↔ a = .obj x ∧ o.elems x ≠ none) ∧
    (∀ l nm, r = .sequential l nm → nm = aug ++ "-" ++ lst) ∧
    (r = .default ↔ sd = false ∧ (a = .none ∨ a = .iter (.list []))) := by
  cases a with
  | none =>
    cases sd <;> simp [handleChildren] at h <;> subst h <;> simp
  | obj x =>
    unfold handleChildren at h
    by_cases hx : o.isAug x = true
    · simp only [if_pos hx] at h
      cases he : o.elems x with
      | some m =>
        simp only [he] at h
        by_cases hm : m.all o.isAug = true
        · rw [if_pos hm] at h; cases h
          refine ⟨fun y => ⟨fun hy => ?_, fun hy => ?_⟩, by simp, by simp⟩
          · cases hy; exact ⟨rfl, by simp [he]⟩
          · cases hy.1; rfl
        · rw [if_neg hm] at h; cases h
      | none =>
        simp only [he, children, if_pos hx, Option.map_some, Option.some.injEq] at h
        subst h
        refine ⟨fun y => ⟨fun hy => by simp at hy, fun hy => ?_⟩, fun l nm hl => by simp at hl; exact hl.2.symm, by simp⟩
        cases hy.1; exact absurd he hy.2
    · simp only [if_neg hx] at h; cases h
  | iter it =>
    cases it with
    | generator l => exact absurd trivial hg
    | list m =>
      unfold handleChildren at h
      by_cases hm : m.all o.isAug = true
      · cases sd with
        | true =>
          simp [Iter.items, Iter.after, children, hm] at h; subst h
          refine ⟨by simp, fun l nm hl => by simp at hl; exact hl.2.symm, by simp⟩
        | false =>
          cases m with
          | nil => simp [Iter.len] at h; subst h; simp
          | cons y ys =>
            simp [Iter.len, Iter.items, Iter.after, children, -List.all_cons, hm] at h; subst h
            refine ⟨by simp, fun l nm hl => by simp at hl; exact hl.2.symm, by simp⟩
      · cases sd with
        | true => simp only [if_true] at h; rw [if_neg (show ¬ (Iter.list m).items.all o.isAug = true from hm)] at h; cases h
        | false =>
          cases m with
          | nil => exact absurd rfl hm
          | cons y ys => simp only [Iter.len, List.length_cons, Bool.false_eq_true, if_false] at h; rw [if_neg (show ¬ (Iter.list (y :: ys)).items.all o.isAug = true from hm)] at h; cases h

/-- C127: the two lists of `Sometimes` do not get mixed up. -/
theorem sometimes_lists (o : Objects α) (t e : Arg α) (ht : ¬ IsGenerator t) (he : ¬ IsGenerator e) (nm : String)
    (rt re : Lst α) (h : sometimes o t e nm = some (rt, re)) :
    Names o t rt.applied ∧ Names o e re.applied ∧
    (∀ l n, rt = .sequential l n → n = nm ++ "-then") ∧ (∀ l n, re = .sequential l n → n = nm ++ "-else") ∧
    (t = .none → rt = .default) ∧ (e = .none → re = .default) := by
  unfold sometimes at h
  simp only [Option.bind_eq_some_iff, Option.map_eq_some_iff, Prod.mk.injEq] at h
  obtain ⟨a, h1, b, h2, rfl, rfl⟩ := h
  have s1 : ∀ s : String, s ++ "-" ++ "then" = s ++ "-then" := fun s => by rw [String.append_assoc]; rfl
  have s2 : ∀ s : String, s ++ "-" ++ "else" = s ++ "-else" := fun s => by rw [String.append_assoc]; rfl
  refine ⟨(handleChildren_applied o t ht _ _ _).1 _ h1, (handleChildren_applied o e he _ _ _).1 _ h2,
    fun l n hl => ?_, fun l n hl => ?_, fun hn => ?_, fun hn => ?_⟩
  · rw [(handleChildren_form o t ht _ _ _ _ h1).2.1 l n hl, s1]
  · rw [(handleChildren_form o e he _ _ _ _ h2).2.1 l n hl, s2]
  · exact (handleChildren_form o t ht _ _ _ _ h1).2.2.2 ⟨rfl, .inl hn⟩
  · exact (handleChildren_form o e he _ _ _ _ h2).2.2.2 ⟨rfl, .inl hn⟩

example : ∃ rt re, sometimes o1 (.iter (.list [3, 1])) .none "a" = some (rt, re) := ⟨_, _, rfl⟩

/-- C127 is false for generators: augmenters with one list of children (`WithChannels` etc.) lose them, while `Sometimes` raises
an exception. -/
theorem handleChildren_generator (o : Objects α) (l : List α) (h : ∀ x ∈ l, o.isAug x = true) (aug lst : String) :
    handleChildren o (.iter (.generator l)) aug lst true = some (.sequential [] (aug ++ "-" ++ lst)) ∧
    handleChildren o (.iter (.generator l)) aug lst false = none := by
  have : l.all o.isAug = true := List.all_eq_true.2 h
  constructor
  · simp [handleChildren, Iter.items, Iter.after, children, this]
  · rfl

/-! ### The number of children -/

theorem trunc_spec (q : ℚ) : IsTrunc q (trunc q) := by
  unfold trunc IsTrunc
  by_cases h : 0 ≤ q
  · rw [if_pos h]; exact ⟨fun _ => ⟨Int.floor_le q, Int.lt_floor_add_one q⟩, fun h' => absurd h (not_le.2 h')⟩
  · rw [if_neg h]; exact ⟨fun h' => absurd h' h, fun _ => ⟨Int.le_ceil q, Int.ceil_lt_add_one q⟩⟩

/-- The number of children applied to a row is the number sampled for it, cut to what is possible. -/
theorem active_counts {G ρ κ δ : Type} (env : Meta.Env G ρ κ δ) (hf : env.Fair) (c : Meta.Count G) (len N : Nat) (g : G)
    (row : List Bool) (h : row ∈ (Meta.getActive env c len N g).1) :
    ∃ m ∈ (Meta.getN env c len N g).1, row.count true = Meta.expected m len := by
  obtain ⟨r, hr⟩ := List.getElem?_of_mem h
  obtain ⟨row0, h0, hp⟩ := (Meta.shuffleRows_spec env hf _ _).2 r row hr
  rw [List.getElem?_map, Option.map_eq_some_iff] at h0
  obtain ⟨m, hm, rfl⟩ := h0
  exact ⟨m, List.mem_of_getElem? hm, by rw [hp.count_eq, Meta.activeRow_count]⟩

/-- C127: how many of the children `SomeOf` applies to each row. For a number it is the number without its fraction, for
`None` all, for `(a, None)` at least `a`, for `(a, b)` a number from `a` to `b` (in either order), always cut to between 0 and
the number of children at the time of the call. -/
theorem someOf_number {G ρ κ δ : Type} (env : Meta.Env G ρ κ δ) (hf : env.Fair) (a : ArgN G) (c : Meta.Count G)
    (hc : handleN env.uniform a = some c) (len N : Nat) (g : G) (row : List Bool)
    (h : row ∈ (Meta.getActive env c len N g).1) :
    row.count true ≤ len ∧
    (∀ q : ℚ, a = .num q → ∃ n : Int, IsTrunc q n ∧
      (0 ≤ n → n ≤ len → (row.count true : Int) = n) ∧ (n ≤ 0 → row.count true = 0) ∧ (len ≤ n → row.count true = len)) ∧
    (a = .none → row.count true = len) ∧
    (∀ q : ℚ, a = .iter [.num q, .none] → ∃ n : Int, IsTrunc q n ∧ (n ≤ len → n ≤ row.count true) ∧
      (len ≤ n → row.count true = len)) ∧
    (∀ p q : ℚ, a = .iter [.num p, .num q] → ∃ m n : Int, IsTrunc p m ∧ IsTrunc q n ∧
      (min m n ≤ len → min m n ≤ row.count true) ∧ (len ≤ min m n → row.count true = len) ∧
      (0 ≤ max m n → row.count true ≤ max m n) ∧ (max m n ≤ 0 → row.count true = 0)) := by
  obtain ⟨m, hm, hrow⟩ := active_counts env hf c len N g row h
  rw [hrow]
  refine ⟨by unfold Meta.expected; omega, fun q ha => ?_, fun ha => ?_, fun q ha => ?_, fun p q ha => ?_⟩ <;> subst ha <;>
    simp only [handleN, Option.some.injEq] at hc <;> subst hc
  · refine ⟨_, trunc_spec q, ?_⟩
    rw [(List.mem_replicate.1 hm).2]; unfold Meta.expected
    refine ⟨fun _ _ => by omega, fun _ => by omega, fun _ => by omega⟩
  · rw [(List.mem_replicate.1 hm).2]; unfold Meta.expected; omega
  · have := hf.uniform_range _ _ _ _ _ hm
    exact ⟨_, trunc_spec q, fun _ => by unfold Meta.expected; omega, fun _ => by unfold Meta.expected; omega⟩
  · have := hf.uniform_range _ _ _ _ _ hm
    exact ⟨_, _, trunc_spec p, trunc_spec q, fun _ => by unfold Meta.expected; omega, fun _ => by unfold Meta.expected; omega,
      fun _ => by unfold Meta.expected; omega, fun _ => by unfold Meta.expected; omega⟩

example : handleN Meta.exEnv.uniform (.iter [.num (5 / 2), .num 1]) = some (.param (Meta.exEnv.uniform 2 1)) ∧
    (Meta.getActive Meta.exEnv (.param (Meta.exEnv.uniform 2 1)) 3 2 0).1 = [[false, false, true], [false, true, false]] ∧
    Meta.exEnv.Fair :=
  ⟨by have : trunc (5 / 2) = 2 := by decide +kernel
      have h1 : trunc 1 = 1 := by decide +kernel
      simp only [handleN, this, h1], by decide +kernel, Meta.exEnv_fair⟩

/-- C127: the forms of `n` that are accepted. -/
theorem handleN_accepts {G : Type} (u : Int → Int → Nat → G → List Int × G) (a : ArgN G) :
    (handleN u a).isSome ↔ (∃ q, a = .num q) ∨ a = .none ∨ (∃ d, a = .param d) ∨
      (∃ q, a = .iter [.num q, .none]) ∨ (∃ p q, a = .iter [.num p, .num q]) := by
  constructor
  · intro h
    unfold handleN at h
    split at h <;> simp_all
  · rintro (⟨q, rfl⟩ | rfl | ⟨d, rfl⟩ | ⟨q, rfl⟩ | ⟨p, q, rfl⟩) <;> rfl

/-- C127: a stochastic parameter is asked for one number per row. -/
theorem someOf_param {G ρ κ δ : Type} (env : Meta.Env G ρ κ δ) (hf : env.Fair) (d : Nat → G → List Int × G) (c : Meta.Count G)
    (hc : handleN env.uniform (.param d) = some c) (len N : Nat) (g : G) (row : List Bool)
    (h : row ∈ (Meta.getActive env c len N g).1) :
    ∃ m ∈ (d N g).1, (0 ≤ m → m ≤ len → (row.count true : Int) = m) := by
  simp only [handleN, Option.some.injEq] at hc; subst hc
  obtain ⟨m, hm, hrow⟩ := active_counts env hf _ len N g row h
  exact ⟨m, hm, fun _ _ => by rw [hrow]; unfold Meta.expected; omega⟩

/-! ### Names and generators -/

/-- C127: the constructor of augmenters refuses names that are no strings, values of `deterministic` that are no booleans, and
`seed` together with `random_state`, and nothing else. -/
theorem init_accepts {ρ : Type} (isRng : ρ → Bool) (cls : String) (seed : Option ρ) (name : Option (Option String))
    (rs : Option (Option ρ)) (det : DetArg) :
    (init isRng cls seed name rs det).isSome ↔ name ≠ some none ∧ det ≠ .other ∧ (rs = none ∨ seed = none) := by
  rcases name with _ | _ | nm <;> cases det <;> rcases rs with _ | r <;> rcases seed with _ | s <;> simp [init, initSource]

/-- C127: the generator of an augmenter. The values `seed=x` and `random_state=x` mean the same. A generator that is given is
used itself. Without any, the global generator is used. In deterministic mode an augmenter never uses the global generator. -/
theorem init_source {ρ : Type} (isRng : ρ → Bool) (cls : String) (seed : Option ρ) (name : Option (Option String))
    (rs : Option (Option ρ)) (det : DetArg) (a : Attrs ρ) (h : init isRng cls seed name rs det = some a) :
    a.activated = true ∧ (a.deterministic = true ↔ det = .bool true) ∧
    (∀ s : String, name = some (some s) → a.name = s) ∧ (name = none → a.name = "Unnamed" ++ cls) ∧
    (∀ r, seed = some r ∨ rs = some (some r) → (isRng r = true → a.source = .same r) ∧
      (isRng r = false → a.source = .fromSeed r)) ∧
    (seed = none → rs = none ∨ rs = some none → a.deterministic = false → a.source = .globalRng) ∧
    (seed = none → rs = none ∨ rs = some none → a.deterministic = true → a.source = .pseudoRandom) ∧
    (a.deterministic = true → a.source ≠ .globalRng) := by
  rcases name with _ | _ | nm <;> cases det with
    | deprecated => rcases rs with _ | _ | r <;> rcases seed with _ | s <;> simp [init, initSource] at h <;> subst h <;>
        simp [createIfNotRng]
    | other => simp [init] at h
    | bool b => cases b <;> rcases rs with _ | _ | r <;> rcases seed with _ | s <;> simp [init, initSource] at h <;> subst h <;>
        simp [createIfNotRng] <;> (try (split <;> simp))

example : init (fun (x : Nat) => decide (x < 5)) "Add" (some 7) (some (some "a")) none (.bool true) =
    some ⟨"a", true, .fromSeed 7, true⟩ := rfl

/-- C127: `WithChannels` uses the channels that are given, in their order, and refuses anything but integers. -/
theorem channels_args (a : ChArg) (r : Option (List Int)) :
    channels a = some r ↔ (a = .none ∧ r = none) ∨ (∃ c, a = .int c ∧ r = some [c]) ∨
      (∃ l : List Int, a = .list (l.map some) ∧ r = some l) := by
  cases a with
  | none => simp [channels, eq_comm]
  | int c => simp [channels, eq_comm]
  | other => simp [channels]
  | list l =>
    simp only [channels, reduceCtorEq, false_and, exists_false, false_or, ChArg.list.injEq]
    by_cases h : l.all Option.isSome = true
    · rw [if_pos h]
      have hl : l = (l.filterMap id).map some := by
        clear r
        induction l with
        | nil => rfl
        | cons x xs ih =>
          rw [List.all_cons, Bool.and_eq_true] at h
          cases x with
          | none => simp at h
          | some v => simpa using ih h.2
      constructor
      · intro hr; exact ⟨l.filterMap id, hl, (Option.some.inj hr).symm⟩
      · rintro ⟨m, hm, rfl⟩
        rw [hm]; simp
    · rw [if_neg h]
      constructor
      · intro hr; cases hr
      · rintro ⟨m, rfl, -⟩; exact absurd (by simp) h

example : channels (.list [some 2, some 0]) = some (some [2, 0]) ∧ channels (.list [some 2, none]) = none := by decide

end Imgaug.Build
