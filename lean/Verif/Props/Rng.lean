import Verif.Proofs.Rng
/-! C90. -/
namespace Imgaug.Rng
variable {σ : Type}

/-! ### Identity -/

/-- C90: in every history of operations, all `RNG`s have different ids (which prefetching relies on), and all objects stay what they are. -/
theorem ids_unique (np : Np σ) (w w' : World σ) (l : List (Op σ)) (hg : Good w) (h : History np w l w') :
    (∀ r s, r < w'.nr → s < w'.nr → (w'.rngs r).2 = (w'.rngs s).2 → r = s) ∧
    (∀ r, r < w.nr → r < w'.nr ∧ w'.rngs r = w.rngs r ∧ w'.bit r = w.bit r) ∧ w'.glob = w.glob := by
  induction h with
  | nil w => exact ⟨hg.unique, fun r hr => ⟨hr, rfl, rfl⟩, rfl⟩
  | cons w op l w' he _ ih =>
    obtain ⟨i1, i2, i3⟩ := ih (good_run np w op hg he)
    have hx := ext_run np w op
    refine ⟨i1, fun r hr => ?_, i3.trans hx.glob⟩
    have := i2 r (lt_of_lt_of_le hr hx.nr)
    exact ⟨this.1, this.2.1.trans (hx.rngs r hr), this.2.2.trans (ext_state hx hg r hr).1⟩

example : History demoNp demoWorld [.copy 0, .derive 2 1, .draw (next32 demoNp) 3]
    (run demoNp (run demoNp (run demoNp demoWorld (.copy 0)) (.derive 2 1)) (.draw (next32 demoNp) 3)) :=
  .cons _ _ _ _ (show 0 < _ by decide +kernel) (.cons _ _ _ _ (show 1 < _ by decide +kernel)
    (.cons _ _ _ _ (show 3 < _ by decide +kernel) (.nil _)))

/-- C90 is false for `copy.deepcopy`: the copy has the id of the original. -/
theorem deepcopy_id (r : Nat) (w : World σ) : ((deepcopy r w).2.rngs (deepcopy r w).1).2 = (w.rngs r).2 := by
  simp [deepcopy]

/-- C90: `RNG(rng)`, `duplicate` and `create_if_not_rng_` of an `RNG` share its generator; without argument the generator of the global `RNG` is used;
seeds make a new one. -/
theorem shared (np : Np σ) (w : World σ) (hg : Good w) (r : Nat) :
    (create np (.rng r) w).2.bit (create np (.rng r) w).1 = w.bit r ∧
    createIfNot np (.rng r) w = (r, w) ∧ (∀ n, ∀ s ∈ duplicate n r, s = r) ∧ (∀ n, (duplicate n r).length = n) ∧
    isGlobal (create np .none w).1 (create np .none w).2 = true ∧
    ∀ n s, s < w.nr → (create np (.seed n) w).2.bit (create np (.seed n) w).1 ≠ w.bit s ∧ isGlobal (create np (.seed n) w).1 (create np (.seed n) w).2 = false := by
  refine ⟨?_, rfl, fun n s hs => ?_, fun n => by simp [duplicate], ?_, fun n s hs => ⟨?_, ?_⟩⟩
  · simp [create, toGen, wrap, World.bit]
  · simp only [duplicate, List.mem_map] at hs
    obtain ⟨_, _, h⟩ := hs; exact h.symm
  · simp only [isGlobal, create, toGen, wrap, decide_eq_true_eq, Function.update_self]
    rw [Function.update_of_ne (Nat.ne_of_lt hg.glob)]
  · have : (create np (.seed n) w).2.bit (create np (.seed n) w).1 = w.nb := by
      simp [create, toGen, wrap, fresh, newGen, newBits, World.bit]
    rw [this]
    exact Nat.ne_of_gt (hg.bits _ (hg.gens s hs))
  · have hne : (w.rngs w.glob).1 ≠ w.ng := Nat.ne_of_lt (hg.gens _ hg.glob)
    simp only [isGlobal, create, toGen, wrap, fresh, newGen, newBits, Function.update_self, decide_eq_false_iff_not]
    rw [Function.update_of_ne (Nat.ne_of_lt hg.glob)]
    exact hne

/-! ### Independence -/

/-- C90: a history that does not act on the generator of an `RNG` does not change what that `RNG` draws; copying it, or wrapping it into another
`RNG`, is no such action. -/
theorem independent (np : Np σ) (r : Nat) (w w' : World σ) (l : List (Op σ)) (hg : Good w) (hr : r < w.nr) (h : Spares np r w l w') :
    w'.state r = w.state r := by
  induction h with
  | nil w => rfl
  | cons w op l w' he ha _ ih =>
    have hx := ext_run np w op
    rw [ih (good_run np w op hg he) (lt_of_lt_of_le hr hx.nr)]
    exact (ext_state hx hg r hr).2 ha

example : Spares demoNp 0 demoWorld [.copy 0, .draw (next32 demoNp) 1, .advance 1]
    (run demoNp (run demoNp (run demoNp demoWorld (.copy 0)) (.draw (next32 demoNp) 1)) (.advance 1)) :=
  .cons _ _ _ _ (show 0 < _ by decide +kernel) (by decide +kernel) (.cons _ _ _ _ (show 1 < _ by decide +kernel) (by decide +kernel)
    (.cons _ _ _ _ (show 1 < _ by decide +kernel) (by decide +kernel) (.nil _)))

/-- C90: `RNG`s with different bit generators do not influence each other: drawing, advancing, resetting, setting the state, deriving and seeding. -/
theorem others_untouched (np : Np σ) (w : World σ) (hg : Good w) (op : Op σ) (s : Nat) (hs : s < w.nr) (ha : op.acts w ≠ some (w.bit s)) :
    (run np w op).state s = w.state s := (ext_state (ext_run np w op) hg s hs).2 ha

/-! ### Copies -/

/-- C90: a copy has a new bit generator, which no other `RNG` has, and is not the global one. -/
theorem copy_new (np : Np σ) (w : World σ) (hg : Good w) (r : Nat) :
    (copy np r w).1 = w.nr ∧ isGlobal (copy np r w).1 (copy np r w).2 = false ∧
    ∀ s, s < w.nr → (copy np r w).2.bit (copy np r w).1 ≠ (copy np r w).2.bit s := by
  obtain ⟨c1, c2, c3, c4, c5⟩ := copy_get np r w
  have hx := ext_copy np r w
  refine ⟨c1, ?_, fun s hs => ?_⟩
  · simp only [isGlobal, decide_eq_false_iff_not, c1]
    rw [c5, hx.glob, hx.rngs _ hg.glob]
    exact Nat.ne_of_lt (hg.gens _ hg.glob)
  · rw [c1, c3, (ext_state hx hg s hs).1]
    exact Nat.ne_of_gt (hg.bits _ (hg.gens s hs))

/-- C90 is false as to copies drawing the same numbers: a number that the original still has in its cache is lost in the copy. -/
theorem copy_loses_cache :
    ∃ (w : World Nat) (r : Nat), Good w ∧ r < w.nr ∧ (w.state r).has = true ∧
      equals (copy demoNp r w).1 r (copy demoNp r w).2 = some false ∧
      (draw (next32 demoNp) (copy demoNp r w).1 (copy demoNp r w).2).1 ≠ (draw (next32 demoNp) r (copy demoNp r w).2).1 := by
  refine ⟨(draw (next32 demoNp) 0 demoWorld).2, 0, good_setBits _ _ _ demoWorld_good, by decide, by decide +kernel, by decide +kernel, by decide +kernel⟩

/-- C90 (partial): a copy draws the numbers that the original draws if the cache of the original is empty. -/
theorem copy_same_partial {α : Type} (np : Np σ) (w : World σ) (hg : Good w) (r : Nat) (hr : r < w.nr) (hc : (w.state r).has = false)
    (l : List (Draw σ α)) (hl : ∀ d ∈ l, Fair d) :
    future l ((copy np r w).2.state (copy np r w).1) = future l ((copy np r w).2.state r) := by
  obtain ⟨c1, c2, c3, c4, c5⟩ := copy_get np r w
  apply future_same l hl
  rw [c1, c4, (ext_state (ext_copy np r w) hg r hr).2 (by simp)]
  exact ⟨rfl, hc.symm, fun h => by simp [dropCache] at h⟩

/-- C90: in any case, a copy draws what the original draws after its cache was reset; after `advance_` copies are exact. -/
theorem copy_as_reset {α : Type} (np : Np σ) (w : World σ) (r : Nat) (l : List (Draw σ α)) :
    future l ((copy np r w).2.state (copy np r w).1) = future l ((resetCache r w).state r) ∧
    future l ((copy np r (advance np r w)).2.state (copy np r (advance np r w)).1) = future l ((advance np r w).state r) := by
  have key : ∀ v : World σ, (copy np r v).2.state (copy np r v).1 = dropCache (v.state r) := fun v => by
    obtain ⟨c1, _, _, c4, _⟩ := copy_get np r v
    rw [c1, c4]
  have e1 : (resetCache r w).state r = dropCache (w.state r) := by
    simp [resetCache, setBits, World.state, World.bit]
  have e2 : (advance np r w).state r = (next64 np (dropCache (w.state r))).2 := by
    simp [advance, setBits, World.state, World.bit]
  rw [key, key, e1, e2]
  exact ⟨rfl, by simp [next64, dropCache]⟩

/-- C90: `copy_unless_global_rng` returns the `RNG` itself if its generator is the global one, otherwise a copy. -/
theorem copy_unless_global (np : Np σ) (w : World σ) (r : Nat) :
    (isGlobal r w = true → copyUnlessGlobal np r w = (r, w)) ∧ (isGlobal r w = false → copyUnlessGlobal np r w = copy np r w) := by
  constructor <;> intro h <;> simp [copyUnlessGlobal, h]

/-! ### Comparison -/

/-- C90: `equals` tells whether two states are the same; it raises for other bit generators than SFC64. -/
theorem equals_iff [DecidableEq σ] (w : World σ) (r s : Nat) :
    (equals r s w = some true ↔ (w.state r).sfc = true ∧ (w.state s).sfc = true ∧ Same (w.state r) (w.state s)) ∧
    (equals r s w = none ↔ (w.state r).sfc = false ∨ (w.state s).sfc = false) := by
  simp only [equals, Same]
  generalize w.state r = a
  generalize w.state s = b
  rcases a with ⟨a1, a2, a3, a4⟩
  rcases b with ⟨b1, b2, b3, b4⟩
  cases a4 <;> cases b4 <;> cases a2 <;> cases b2 <;> simp
  split_ifs with h <;> simp [h]

/-- C90: `RNG`s that are equal draw the same numbers for ever. -/
theorem equals_future {α : Type} [DecidableEq σ] (w : World σ) (r s : Nat) (h : equals r s w = some true) (l : List (Draw σ α)) (hl : ∀ d ∈ l, Fair d) :
    future l (w.state r) = future l (w.state s) :=
  future_same l hl _ _ ((equals_iff w r s).1.1 h).2.2

/-- C90: reading 32 bits, 64 bits, and everything that is composed of that is such a method. -/
theorem fair_methods (np : Np σ) : Fair (next32 np) ∧ Fair (next64 np) ∧ (∀ (α : Type) (x : α), Fair (fun b : Bits σ => (x, b))) ∧
    ∀ (α β : Type) (d : Draw σ α) (k : α → Draw σ β), Fair d → (∀ x, Fair (k x)) → Fair (fun b => k (d b).1 (d b).2) :=
  ⟨fair_next32 np, fair_next64 np, fun _ x => fair_pure x, fun _ _ d k hd hk => fair_bind d k hd hk⟩

/-- C90: after `use_state_of_` both draw the same numbers, the other one as before. -/
theorem use_state_of (w : World σ) (r s : Nat) : (useStateOf r s w).state r = w.state s ∧ (useStateOf r s w).state s = w.state s := by
  constructor
  · simp [useStateOf, setBits, World.state, World.bit]
  · simp only [useStateOf, setBits, World.state, World.bit]
    by_cases h : w.gens (w.rngs s).1 = w.gens (w.rngs r).1
    · rw [h, Function.update_self]
    · rw [Function.update_of_ne h]

/-! ### Seeding -/

/-- C90: after `seed(n)` the global `RNG`, and all that share its generator, draw what `RNG(n)` draws, whatever happened before; the global `RNG`
is still the same object. -/
theorem seed_reproducible (np : Np σ) (n : Nat) (w v : World σ) (r : Nat) (hr : w.bit r = w.bit w.glob) :
    (seedGlobal np n w).state r = (create np (.seed n) v).2.state (create np (.seed n) v).1 ∧
    (seedGlobal np n w).glob = w.glob ∧ (seedGlobal np n w).rngs = w.rngs := by
  refine ⟨?_, rfl, rfl⟩
  have e : (seedGlobal np n w).bit r = w.bit w.glob := hr
  simp only [World.state, e]
  simp [seedGlobal, setBits, create, toGen, fresh, newBits, newGen, wrap, World.bit]

/-- C90: `RNG`s made from the same seed draw the same numbers. -/
theorem same_seed (np : Np σ) (n : Nat) (w v : World σ) :
    (create np (.seed n) w).2.state (create np (.seed n) w).1 = (create np (.seed n) v).2.state (create np (.seed n) v).1 := by
  simp [World.state, create, toGen, fresh, newBits, newGen, wrap, World.bit]

/-- C90 is false as to making an `RNG` leaving the generator it is made from alone: a number in its cache is dropped. -/
theorem generator_loses_cache : ∃ (w : World Nat) (g : Nat), Good w ∧ g < w.ng ∧
    (next32 demoNp (w.bits (w.gens g))).1 ≠ (next32 demoNp ((create demoNp (.gen g) w).2.bits (w.gens g))).1 := by
  exact ⟨(draw (next32 demoNp) 0 demoWorld).2, 0, good_setBits _ _ _ demoWorld_good, by decide, by decide +kernel⟩

/-- C90 (partial): a generator with an empty cache is left alone, and so are all if an `RNG`, nothing or a seed is given. -/
theorem create_keeps_partial (np : Np σ) (s : Src) (w : World σ) (b : Nat) (hb : b < w.nb) (hc : (w.bits b).has = false ∨ (∃ r, s = .rng r) ∨ s = .none ∨ ∃ n, s = .seed n) :
    (create np s w).2.bits b = w.bits b := by
  have hd : ∀ c : Bits σ, c.has = false → dropCache c = c := by
    rintro ⟨a, b, c, d⟩ h; simp only at h; subst h; rfl
  cases s with
  | none => rfl
  | rng r => rfl
  | seed n => exact (ext_create np (.seed n) w).bits b hb (by simp [Src.acts])
  | bits k =>
    rcases hc with hc | ⟨_, h⟩ | h | ⟨_, h⟩ <;> try cases h
    simp only [create, wrap, toGen, setBits, newGen]
    by_cases h : b = k
    · subst h; rw [Function.update_self, hd _ hc]
    · rw [Function.update_of_ne h]
  | gen g =>
    rcases hc with hc | ⟨_, h⟩ | h | ⟨_, h⟩ <;> try cases h
    simp only [create, wrap, toGen, setBits]
    by_cases h : b = w.gens g
    · subst h; rw [Function.update_self, hd _ hc]
    · rw [Function.update_of_ne h]

/-! ### Derived generators -/

/-- C90: `derive_rngs_(n)` returns n new `RNG`s with bit generators of their own; the k-th depends on the drawn seed and on k only, hence not on n,
and the parent is used up alike for every n. -/
theorem derived (np : Np σ) (w : World σ) (hg : Good w) (r n : Nat) :
    (derive np n r w).1 = (List.range n).map (fun k => w.nr + k) ∧
    (∀ k, k < n → (derive np n r w).2.state (w.nr + k) = ⟨np.spawned (((np.ints 2 (w.state r)).1).getD 1 0) k, false, 0, true⟩) ∧
    (∀ k, k < n → (derive np n r w).2.bit (w.nr + k) = w.nb + k) ∧
    (r < w.nr → (derive np n r w).2.state r = (np.ints 2 (w.state r)).2) := by
  have hg' : Good (draw (np.ints 2) r w).2 := good_setBits _ _ _ hg
  obtain ⟨s1, s2, s3⟩ := spawn_get np (((np.ints 2 (w.state r)).1).getD 1 0) 0 n (draw (np.ints 2) r w).2 hg'
  refine ⟨s1, fun k hk => ?_, fun k hk => (s3 k hk).1, fun hr => ?_⟩
  · have := (s3 k hk).2
    rw [Nat.zero_add] at this
    exact this
  · have := (ext_state (ext_spawn np (((np.ints 2 (w.state r)).1).getD 1 0) 0 n (draw (np.ints 2) r w).2) hg' r hr).2 (by simp)
    refine this.trans ?_
    simp [draw, setBits, World.state, World.bit]

/-- C90: equal `RNG`s derive equal `RNG`s. -/
theorem derived_same (np : Np σ) (hi' : Fair (np.ints 2)) (w v : World σ) (hw : Good w) (hv : Good v) (r s n k : Nat) (hk : k < n)
    (h : Same (w.state r) (v.state s)) : (derive np n r w).2.state (w.nr + k) = (derive np n s v).2.state (v.nr + k) := by
  rw [(derived np w hw r n).2.1 k hk, (derived np v hv s n).2.1 k hk, (hi' _ _ h).1]

/-- C90: `create_pseudo_random_` returns a new `RNG` that is determined by the state of the global one. -/
theorem pseudo_random (np : Np σ) (w : World σ) (hg : Good w) : (pseudoRandom np w).1 = w.nr ∧
    (pseudoRandom np w).2.state w.nr = ⟨np.spawned (((np.ints 2 (w.state w.glob)).1).getD 1 0) 0, false, 0, true⟩ := by
  have := derived np w hg w.glob 1
  exact ⟨by simp only [pseudoRandom, this.1]; rfl, this.2.1 0 (by decide)⟩

example : (derive demoNp 3 0 demoWorld).1 = [1, 2, 3] ∧ ((derive demoNp 3 0 demoWorld).2.state 2).core = 8001 ∧
    ((derive demoNp 3 0 demoWorld).2.state 0).core = 9 := by decide +kernel

/-! ### Integers -/

/-- C90: integers are asked for in [low, high) or [low, high] resp. [0, low) or [0, low], alike with old and new generators. -/
theorem integer_range (old : Bool) (low : Int) (e : Bool) :
    integerRange old low none e = (0, if e then low + 1 else low) ∧
    ∀ high, integerRange old low (some high) e = (low, if e then high + 1 else high) := by
  cases old <;> cases e <;> simp [integerRange]

/-- C90: `random_integers` asks for integers in [low, high], without `high` in [1, low]. -/
theorem random_integers (old : Bool) (low : Int) : randomIntegers old low none = (1, low + 1) ∧ ∀ high, randomIntegers old low (some high) = (low, high + 1) := by
  cases old <;> simp [randomIntegers, integerRange]

/-- C90: two draws of 32 bits from a generator without cached bits give both halves of the next 64 bits and leave it without cached bits. -/
theorem next32_halves (np : Np σ) (b : Bits σ) (hb : b.has = false) :
    (next32 np b).1 = (np.next b.core).1.1 ∧ (next32 np (next32 np b).2).1 = (np.next b.core).1.2 ∧
    (next32 np (next32 np b).2).2.core = (np.next b.core).2 ∧ (next32 np (next32 np b).2).2.has = false := by
  simp [next32, hb]

/-- C90: `generate_seeds_(n)` draws `n` seeds from the generator it is called on and changes no other bit generator. -/
theorem seeds_drawn (np : Np σ) (n r : Nat) (w : World σ) :
    (generateSeeds np n r w).1 = (np.ints n (w.state r)).1 ∧ (generateSeeds np n r w).2.state r = (np.ints n (w.state r)).2 ∧
    ∀ i, i ≠ w.bit r → (generateSeeds np n r w).2.bits i = w.bits i := by
  refine ⟨rfl, ?_, ?_⟩
  · simp [generateSeeds, draw, World.state, World.bit, setBits]
  · intro i hi'
    simp [generateSeeds, draw, setBits, hi']

end Imgaug.Rng
