import Verif.Proofs.Batches
/-! C98: `augment_batches` answers every batch with its own result. -/
namespace Imgaug.Batches
open Imgaug Imgaug.Aug
variable {V N S δ G : Type}

/-- C98: without background processes every element of `batches` is augmented in order, each in the random state that the
one before left, and answered by a value of its own type: a batch with the same unaugmented columns and the same data, an
array or a list with the augmented column. -/
theorem in_order (C : Codec V N S) (run : G → (ColName → Option N) → Option ((ColName → Option N) × G)) (n : Nat) (g : G)
    (inputs : List (Input V N δ)) (outs : List (Output V N δ)) :
    foreground C run n g inputs = (outs, true) ↔ ∃ g', Runs C run g inputs outs g' := by
  induction inputs generalizing n g outs with
  | nil =>
    simp only [foreground, Prod.mk.injEq, and_true]
    constructor
    · rintro rfl; exact ⟨g, .nil g⟩
    · rintro ⟨g', h⟩; cases h; rfl
  | cons x xs ih =>
    simp only [foreground]
    constructor
    · intro h
      cases ho : one C run n g x with
      | none => rw [ho] at h; simp at h
      | some r =>
        obtain ⟨o, g1⟩ := r
        rw [ho] at h
        simp only [Prod.mk.injEq] at h
        obtain ⟨rfl, h⟩ := h
        obtain ⟨g', hr⟩ := (ih (n + 1) g1 (foreground C run (n + 1) g1 xs).1).mp (by rw [← h])
        obtain ⟨cols, a, hf, hrun, ha⟩ := (one_iff C run n g g1 x o).mp ho
        exact ⟨g', .cons cols a hf hrun ha hr⟩
    · rintro ⟨g', h⟩
      cases h with
      | @cons _ g1 _ _ _ o os cols a hf hrun ha h =>
        rw [(one_iff C run n g g1 x o).mpr ⟨cols, a, hf, hrun, ha⟩]
        have := (ih (n + 1) g1 os).mpr ⟨g', h⟩
        simp only [this]

/-- A codec whose two forms are the same. -/
def demoCodec : Codec Nat Nat Unit where
  wrap := id
  first := some
  shapes := fun _ => ()
  norm := fun _ v _ => some v
  inv := fun _ v _ => some v

/-- Adds the state to every column and increases it. -/
def demoRun (g : Nat) (cols : ColName → Option Nat) : Option ((ColName → Option Nat) × Nat) :=
  some (fun c => (cols c).map (· + g), g + 1)

example : (match (foreground demoCodec demoRun 0 10
    [.array 4 (5 : Nat), .list [] 0, .batch ⟨only .keypoints 7, fun _ => none, "d"⟩, .list [.polygons, .polygons] 1]).1 with
    | [.value a, .emptyList, .batch b, .value c] => (a, b.aug .keypoints, b.aug .images, b.data, c)
    | _ => (none, none, none, "", none)) = (some 15, some 19, none, "d", some 14) := by decide

/-- C98: if an element is not acceptable, or its augmentation raises, everything before it has been answered, and the
exception is for the first such element. -/
theorem fails_late (C : Codec V N S) (run : G → (ColName → Option N) → Option ((ColName → Option N) × G)) (n : Nat) (g : G)
    (inputs : List (Input V N δ)) (outs : List (Output V N δ)) (h : foreground C run n g inputs = (outs, false)) :
    ∃ pre x post g', inputs = pre ++ x :: post ∧ Runs C run g pre outs g' ∧
      ¬ ∃ cols a g'' o, Fed C x cols ∧ run g' cols = some (a, g'') ∧ Answer C x a o := by
  induction inputs generalizing n g outs with
  | nil => simp [foreground] at h
  | cons x xs ih =>
    simp only [foreground] at h
    cases ho : one C run n g x with
    | none =>
      rw [ho] at h
      simp only [Prod.mk.injEq, and_true] at h
      subst h
      refine ⟨[], x, xs, g, rfl, .nil g, ?_⟩
      rintro ⟨cols, a, g'', o, hf, hr, ha⟩
      rw [(one_iff C run n g g'' x o).mpr ⟨cols, a, hf, hr, ha⟩] at ho
      simp at ho
    | some r =>
      obtain ⟨o, g1⟩ := r
      rw [ho] at h
      simp only [Prod.mk.injEq] at h
      obtain ⟨rfl, h⟩ := h
      obtain ⟨pre, y, post, g', hp, hr, hn⟩ := ih (n + 1) g1 (foreground C run (n + 1) g1 xs).1 (by rw [← h])
      obtain ⟨cols, a, hf, hrun, ha⟩ := (one_iff C run n g g1 x o).mp ho
      exact ⟨x :: pre, y, post, g', by rw [hp]; rfl, .cons cols a hf hrun ha hr, hn⟩

example : (foreground (δ := Unit) demoCodec demoRun 0 10 [.array 3 (5 : Nat), .array 2 5]).2 = false ∧
    (foreground (δ := Unit) demoCodec demoRun 0 10 [.array 3 (5 : Nat), .array 2 5]).1.length = 1 := by decide

/-- C98: what is accepted. Batches always; an `UnnormalizedBatch` only if it was not augmented before and its columns can be
brought to standard form; arrays with three or four axes; lists that are empty or begin with an array, heatmaps, segmentation
maps, keypoints, bounding boxes or polygons. -/
theorem accepted (C : Codec V N S) (n : Nat) (x : Input V N δ) :
    (normalize C n x).isSome ↔ match x with
      | .batch _ => True
      | .unnorm b => (∀ c, b.aug c = none) ∧ ∃ cols : ColName → Option N, C.norm .images (b.unaug .images) none = some (cols .images) ∧
          ∀ c, c ≠ .images → C.norm c (b.unaug c) ((cols .images).map C.shapes) = some (cols c)
      | .array ndim _ => ndim = 3 ∨ ndim = 4
      | .list items _ => ∀ t ∈ items.head?, t ≠ .lineStrings ∧ t ≠ .other
      | .other => False := by
  have key : (normalize C n x).isSome ↔ ∃ cols, Fed C x cols := by
    constructor
    · intro h
      obtain ⟨⟨b, k⟩, hb⟩ := Option.isSome_iff_exists.mp h
      exact ⟨b.unaug, (normalize_spec C n x b k hb).1⟩
    · rintro ⟨cols, h⟩
      obtain ⟨b, k, hb, -⟩ := normalize_fed C n x cols h
      rw [hb]; rfl
  rw [key]
  cases x with
  | batch b => simp [Fed]
  | unnorm b =>
    constructor
    · rintro ⟨cols, h1, h2⟩; exact ⟨h1, cols, h2⟩
    · rintro ⟨h1, cols, h2⟩; exact ⟨cols, h1, h2⟩
  | array nd v =>
    constructor
    · rintro ⟨cols, h1, -⟩; exact h1
    · intro h
      exact ⟨only .images v, h, (only_iff _ _ _).mp rfl⟩
  | list items v =>
    cases items with
    | nil => simp only [List.head?_nil, Option.mem_def, reduceCtorEq, false_implies, implies_true, iff_true]; exact ⟨fun _ => none, fun _ => rfl⟩
    | cons t l =>
      simp only [List.head?_cons, Option.mem_def, Option.some.injEq, forall_eq']
      constructor
      · rintro ⟨cols, c, hc, -⟩
        cases t <;> simp_all [Column]
      · rintro ⟨h1, h2⟩
        obtain ⟨c, hc⟩ : ∃ c, Column t c := by cases t <;> simp_all [Column]
        exact ⟨only c v, c, hc, (only_iff _ _ _).mp rfl⟩
  | other => simp [Fed]

example : (normalize (δ := Unit) demoCodec 3 (.list [.array, .other] 5)).isSome ∧
    ¬ (normalize (δ := Unit) demoCodec 3 (.list [.lineStrings] 5)).isSome := by decide

/-- C98 is false for lists of line strings, which raise although all other annotations are accepted as lists, and for lists of
elements of different types, which are judged by their first element. -/
theorem lists_of_line_strings :
    foreground (δ := Unit) demoCodec demoRun 0 10 [.list [.lineStrings] 5] = ([], false) ∧
    normalize (δ := Unit) demoCodec 0 (.list [.array, .lineStrings] 5) = normalize demoCodec 0 (.list [.array, .array] 5) := by
  exact ⟨rfl, rfl⟩

/-- C98: the types of all elements and the data of all batches are kept. -/
theorem types_and_data (C : Codec V N S) (run : G → (ColName → Option N) → Option ((ColName → Option N) × G)) (n : Nat) (g : G)
    (inputs : List (Input V N δ)) (i : Nat) (o : Output V N δ) (h : (foreground C run n g inputs).1[i]? = some o) :
    ∃ x, inputs[i]? = some x ∧ Kept x o := by
  induction inputs generalizing n g i with
  | nil => simp [foreground] at h
  | cons x xs ih =>
    simp only [foreground] at h
    cases ho : one C run n g x with
    | none => rw [ho] at h; simp at h
    | some r =>
      obtain ⟨o', g1⟩ := r
      rw [ho] at h
      cases i with
      | succ i => exact ih (n + 1) g1 i (by simpa using h)
      | zero =>
        simp only [List.getElem?_cons_zero, Option.some.injEq] at h
        subst h
        refine ⟨x, rfl, ?_⟩
        obtain ⟨cols, a, -, -, ha⟩ := (one_iff C run n g g1 x o').mp ho
        cases x with
        | batch b => cases o' <;> simp_all [Answer, Kept]
        | unnorm b => cases o' <;> simp_all [Answer, Kept]
        | array nd v => cases o' <;> simp_all [Answer, Kept]
        | list items v => cases items <;> cases o' <;> simp_all [Answer, Kept]
        | other => cases o' <;> simp_all [Answer]

/-- C98: with background processes, for every order in which the pool takes batches and hands back results, each result is
combined with the batch it belongs to. Nothing raises if all elements are acceptable and the results can be converted back.
Batches that were not handed back yet are remembered, all others are forgotten. -/
theorem any_order (C : Codec V N S) (inputs : List (Input V N δ)) (hfed : ∀ x ∈ inputs, ∃ cols, Fed C x cols)
    (evs : List (Event N δ)) (hh : Honest C inputs evs)
    (hans : ∀ a ∈ results evs, ∀ x, inputs[a.data.1]? = some x → ∃ o, Answer C x a.aug o) :
    ∃ s, background C inputs evs = some s ∧
      List.Forall₂ (fun (a : Bat N (Nat × Option δ)) o => ∃ x, inputs[a.data.1]? = some x ∧ Answer C x a.aug o) (results evs) s.out ∧
      (∀ i, (∃ v, s.dict.find? (fun e => e.1 == i) = some v) ↔
        i < loads evs ∧ i < inputs.length ∧ ∀ a ∈ results evs, a.data.1 ≠ i) ∧
      ∀ (i : Nat) b, s.loaded[i]? = some b → b.data.1 = i ∧ ∃ x, inputs[i]? = some x ∧ Fed C x b.unaug := by
  obtain ⟨s, hs, hi'⟩ := background_inv C inputs hfed evs hh hans
  refine ⟨s, hs, hi'.out, fun i => ?_, fun i b hb => ?_⟩
  · have hidx := hi'.idx
    constructor
    · rintro ⟨v, hv⟩
      obtain ⟨h1, h2, -⟩ := (hi'.dict i v).mp hv
      exact ⟨by omega, by omega, h2⟩
    · rintro ⟨h1, h2, h3⟩
      obtain ⟨cols, hc⟩ := hfed inputs[i] (List.getElem_mem _)
      obtain ⟨b, k, hb, -⟩ := normalize_fed C i _ cols hc
      exact ⟨_, (hi'.dict i _).mpr ⟨by omega, h3, _, b, k, List.getElem?_eq_getElem h2, hb, rfl⟩⟩
  · obtain ⟨h1, x, k, hx, hn⟩ := (hi'.loaded i b).mp hb
    obtain ⟨h2, h3, -⟩ := normalize_spec C i x b k hn
    exact ⟨h3, x, hx, h2⟩

/-- Two batches that are handed back in the wrong order. -/
def demoEvents : List (Event Nat String) :=
  [.load, .load, .result ⟨only .images 5, only .images 6, (1, none)⟩, .result ⟨only .keypoints 7, only .keypoints 8, (0, some "d")⟩]

example : (match (background demoCodec [.batch ⟨only .keypoints 7, fun _ => none, "d"⟩, .array 3 5] demoEvents).map (fun s => (s.out, s.dict.length)) with
    | some ([.value a, .batch b], n) => (a, b.aug .keypoints, b.data, n)
    | _ => (none, none, "", 9)) = (some 6, some 8, "d", 0) := by decide

/-- C98: if augmentation does not depend on the random state, background processes yield the same values as the loop in the
foreground, only in another order. -/
theorem background_agrees (C : Codec V N S) (f : (ColName → Option N) → Option (ColName → Option N)) (g : G)
    (inputs : List (Input V N δ)) (outs : List (Output V N δ))
    (hfg : foreground C (fun (g : G) cols => (f cols).map (fun a => (a, g))) 0 g inputs = (outs, true))
    (evs : List (Event N δ)) (hh : Honest C inputs evs) (hf : ∀ a ∈ results evs, f a.unaug = some a.aug) :
    ∃ s, background C inputs evs = some s ∧
      List.Forall₂ (fun (a : Bat N (Nat × Option δ)) o => outs[a.data.1]? = some o) (results evs) s.out := by
  obtain ⟨g', hr⟩ := (in_order C _ 0 g inputs outs).mp hfg
  have key : ∀ (i : Nat) x, inputs[i]? = some x → ∃ cols a o, Fed C x cols ∧ f cols = some a ∧ Answer C x a o ∧ outs[i]? = some o := by
    clear hh hf hfg
    generalize hinp : inputs = inp at hr
    clear hinp inputs
    induction hr with
    | nil g => intro i x hx; simp at hx
    | cons cols a hf hr ha h ih =>
      intro i x hx
      cases i with
      | zero =>
        simp only [List.getElem?_cons_zero, Option.some.injEq] at hx
        subst hx
        obtain ⟨a', ha', heq⟩ := Option.map_eq_some_iff.mp hr
        simp only [Prod.mk.injEq] at heq
        obtain ⟨rfl, -⟩ := heq
        exact ⟨cols, a', _, hf, ha', ha, rfl⟩
      | succ i => simpa using ih i x (by simpa using hx)
  have hfed : ∀ x ∈ inputs, ∃ cols, Fed C x cols := by
    intro x hx
    obtain ⟨i, hi'⟩ := List.mem_iff_getElem?.mp hx
    obtain ⟨cols, -, -, h, -⟩ := key i x hi'
    exact ⟨cols, h⟩
  have huna : ∀ a ∈ results evs, ∀ x, inputs[a.data.1]? = some x → Fed C x a.unaug := by
    intro a ha x hx
    simp only [results, List.mem_filterMap] at ha
    obtain ⟨ev, hev, ha⟩ := ha
    obtain ⟨pre, post, hp⟩ := List.append_of_mem hev
    cases ev with
    | load => simp at ha
    | result a' =>
      simp only [Option.some.injEq] at ha
      subst ha
      obtain ⟨-, -, x', hx', given, k, hn, hu, -⟩ := hh pre a' post hp
      rw [hx, Option.some.injEq] at hx'
      subst hx'
      rw [hu]
      exact (normalize_spec C _ x given k hn).1
  have hans : ∀ a ∈ results evs, ∀ x, inputs[a.data.1]? = some x → ∃ o, Answer C x a.aug o ∧ outs[a.data.1]? = some o := by
    intro a ha x hx
    obtain ⟨cols, a', o, h1, h2, h3, h4⟩ := key _ x hx
    have := (huna a ha x hx).unique h1
    subst this
    rw [hf a ha, Option.some.injEq] at h2
    subst h2
    exact ⟨o, h3, h4⟩
  obtain ⟨s, hs, hout, -⟩ := any_order C inputs hfed evs hh (fun a ha x hx => (hans a ha x hx).imp (fun _ h => h.1))
  refine ⟨s, hs, ?_⟩
  have hmem : ∀ l : List (Bat N (Nat × Option δ)), (∀ a ∈ l, a ∈ results evs) → ∀ os : List (Output V N δ),
      List.Forall₂ (fun (a : Bat N (Nat × Option δ)) o => ∃ x, inputs[a.data.1]? = some x ∧ Answer C x a.aug o) l os →
      List.Forall₂ (fun (a : Bat N (Nat × Option δ)) o => outs[a.data.1]? = some o) l os := by
    intro l hl os h
    induction h with
    | nil => exact .nil
    | cons h _ ih =>
      obtain ⟨x, hx, ho⟩ := h
      obtain ⟨o', h1, h2⟩ := hans _ (hl _ (by simp)) x hx
      rw [ho.unique h1]
      exact .cons h2 (ih (fun a ha => hl a (by simp [ha])))
  exact hmem _ (fun _ h => h) _ hout

/-- The schedule above is one the theorems are about. -/
example : Honest demoCodec [.batch ⟨only .keypoints 7, fun _ => none, "d"⟩, .array 3 5] demoEvents := by
  intro pre a post h
  rcases pre with _ | ⟨e1, _ | ⟨e2, _ | ⟨e3, _ | ⟨e4, pre⟩⟩⟩⟩
  · simp [demoEvents] at h
  · simp [demoEvents] at h
  · simp only [demoEvents, List.cons_append, List.nil_append, List.cons.injEq, Event.result.injEq] at h
    obtain ⟨rfl, rfl, rfl, -⟩ := h
    exact ⟨by decide, by simp [results], _, rfl, _, _, rfl, rfl, rfl⟩
  · simp only [demoEvents, List.cons_append, List.nil_append, List.cons.injEq, Event.result.injEq] at h
    obtain ⟨rfl, rfl, rfl, rfl, -⟩ := h
    exact ⟨by decide, by simp [results], _, rfl, _, _, rfl, rfl, rfl⟩
  · have := congrArg List.length h
    simp [demoEvents] at this

/-- C98: only single batches, lists, other iterables and generators are accepted, and no hooks together with background
processes. A single batch is treated like a list with this batch. -/
theorem arguments (hooks bg : Bool) (arg : Arg V N δ) (l : List (Input V N δ)) :
    batchesOf hooks bg arg = some l ↔ ¬ (hooks = true ∧ bg = true) ∧
      (arg = .iterable l ∨ (∃ b, arg = .single (.batch b) ∧ l = [.batch b]) ∨ ∃ b, arg = .single (.unnorm b) ∧ l = [.unnorm b]) := by
  cases arg with
  | single x => cases x <;> cases hooks <;> cases bg <;> simp [batchesOf, eq_comm]
  | iterable l' => cases hooks <;> cases bg <;> simp [batchesOf]
  | array => simp [batchesOf]
  | string => simp [batchesOf]
  | other => simp [batchesOf]

example : (batchesOf (V := Nat) (N := Nat) (δ := Unit) true false (.iterable [.array 3 5])).isSome := by decide

/-- C98: a `Batch` can be augmented again and is then treated as if it had not been augmented; an `UnnormalizedBatch` with
augmented columns is refused. -/
theorem augmented_again (C : Codec V N S) (run : G → (ColName → Option N) → Option ((ColName → Option N) × G)) (n : Nat) (g : G) :
    (∀ (b : Bat N δ) (aug : ColName → Option N), foreground (V := V) C run n g [.batch b] = foreground C run n g [.batch { b with aug := aug }]) ∧
    ∀ (b : Bat V δ) (c : ColName), b.aug c ≠ none → foreground (N := N) C run n g [.unnorm b] = ([], false) := by
  constructor
  · intro b aug
    rfl
  · intro b c hc
    have : normalize (N := N) C n (.unnorm b) = none := by
      simp only [normalize]
      rw [if_neg (fun h => hc ((all_none _).mp h c))]
    simp only [foreground, one, this, Option.bind_none]

example : (⟨only .images 5, only .images 6, ()⟩ : Bat Nat Unit).aug .images ≠ none := by decide

end Imgaug.Batches
