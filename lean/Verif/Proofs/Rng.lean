import Verif.Spec.Rng
import Mathlib.Tactic.Linarith
import Mathlib.Tactic.SplitIfs
/-! Lemmas on random number generators. -/
namespace Imgaug.Rng
variable {σ : Type}

theorem Same.refl (a : Bits σ) : Same a a := ⟨rfl, rfl, fun _ => rfl⟩

theorem Same.symm {a b : Bits σ} (h : Same a b) : Same b a := ⟨h.1.symm, h.2.1.symm, fun hb => (h.2.2 (h.2.1.trans hb)).symm⟩

theorem Same.trans {a b c : Bits σ} (h : Same a b) (k : Same b c) : Same a c :=
  ⟨h.1.trans k.1, h.2.1.trans k.2.1, fun ha => (h.2.2 ha).trans (k.2.2 (h.2.1.symm.trans ha))⟩

/-- `w'` has all the objects of `w`, with the same identities; bit generators other than `k` have the same states. -/
structure Ext (k : Option Nat) (w w' : World σ) : Prop where
  nb : w.nb ≤ w'.nb
  ng : w.ng ≤ w'.ng
  nr : w.nr ≤ w'.nr
  idx : w.idx ≤ w'.idx
  glob : w'.glob = w.glob
  gens : ∀ g, g < w.ng → w'.gens g = w.gens g
  rngs : ∀ r, r < w.nr → w'.rngs r = w.rngs r
  bits : ∀ b, b < w.nb → k ≠ some b → w'.bits b = w.bits b

theorem Ext.refl (k : Option Nat) (w : World σ) : Ext k w w :=
  ⟨le_refl _, le_refl _, le_refl _, le_refl _, rfl, fun _ _ => rfl, fun _ _ => rfl, fun _ _ _ => rfl⟩

theorem Ext.trans {k : Option Nat} {a b c : World σ} (h : Ext k a b) (h' : Ext k b c) : Ext k a c :=
  ⟨le_trans h.nb h'.nb, le_trans h.ng h'.ng, le_trans h.nr h'.nr, le_trans h.idx h'.idx, h'.glob.trans h.glob,
    fun g hg => (h'.gens g (lt_of_lt_of_le hg h.ng)).trans (h.gens g hg),
    fun r hr => (h'.rngs r (lt_of_lt_of_le hr h.nr)).trans (h.rngs r hr),
    fun b hb hk => (h'.bits b (lt_of_lt_of_le hb h.nb) hk).trans (h.bits b hb hk)⟩

theorem Ext.weaken {k : Option Nat} {a b : World σ} (h : Ext none a b) : Ext k a b :=
  ⟨h.nb, h.ng, h.nr, h.idx, h.glob, h.gens, h.rngs, fun b hb _ => h.bits b hb (by simp)⟩

theorem ext_newBits (b : Bits σ) (w : World σ) : Ext none w (newBits b w).2 :=
  ⟨Nat.le_succ _, le_refl _, le_refl _, le_refl _, rfl, fun _ _ => rfl, fun _ _ => rfl,
    fun c hc _ => Function.update_of_ne (Nat.ne_of_lt hc) _ _⟩

theorem ext_newGen (b : Nat) (w : World σ) : Ext none w (newGen b w).2 :=
  ⟨le_refl _, Nat.le_succ _, le_refl _, le_refl _, rfl, fun _ hg => Function.update_of_ne (Nat.ne_of_lt hg) _ _, fun _ _ => rfl, fun _ _ _ => rfl⟩

theorem ext_wrap (g : Nat) (w : World σ) : Ext none w (wrap g w).2 :=
  ⟨le_refl _, le_refl _, Nat.le_succ _, Nat.le_succ _, rfl, fun _ _ => rfl, fun _ hr => Function.update_of_ne (Nat.ne_of_lt hr) _ _, fun _ _ _ => rfl⟩

theorem ext_setBits (k : Nat) (b : Bits σ) (w : World σ) : Ext (some k) w (setBits k b w) :=
  ⟨le_refl _, le_refl _, le_refl _, le_refl _, rfl, fun _ _ => rfl, fun _ _ => rfl,
    fun c _ hk => Function.update_of_ne (fun h => hk (by rw [h])) _ _⟩

theorem ext_fresh (c : σ) (w : World σ) : Ext none w (fresh c w).2 := (ext_newBits _ w).trans (ext_newGen _ _)

/-- The bit generators on which `RNG(...)` acts. -/
def Src.acts (w : World σ) : Src → Option Nat
  | .bits b => some b
  | .gen g => some (w.gens g)
  | _ => Option.none

theorem ext_toGen (np : Np σ) (s : Src) (w : World σ) : Ext (s.acts w) w (toGen np s w).2 := by
  cases s with
  | none => exact Ext.refl _ _
  | seed n => exact ext_fresh _ _
  | bits b => exact (ext_newGen b w).weaken.trans (ext_setBits _ _ _)
  | gen g => exact ext_setBits _ _ _
  | rng r => exact Ext.refl _ _

theorem ext_create (np : Np σ) (s : Src) (w : World σ) : Ext (s.acts w) w (create np s w).2 :=
  (ext_toGen np s w).trans (ext_wrap _ _).weaken

theorem ext_copy (np : Np σ) (r : Nat) (w : World σ) : Ext none w (copy np r w).2 := by
  have h1 := (ext_newBits (w.state r) w).trans (ext_newGen (newBits (w.state r) w).1 _)
  have h2 := ext_create np (.gen (newGen (newBits (w.state r) w).1 (newBits (w.state r) w).2).1) (newGen (newBits (w.state r) w).1 (newBits (w.state r) w).2).2
  refine ⟨le_trans h1.nb h2.nb, le_trans h1.ng h2.ng, le_trans h1.nr h2.nr, le_trans h1.idx h2.idx, h2.glob.trans h1.glob,
    fun g hg => (h2.gens g (lt_of_lt_of_le hg h1.ng)).trans (h1.gens g hg),
    fun r hr => (h2.rngs r (lt_of_lt_of_le hr h1.nr)).trans (h1.rngs r hr), fun b hb hk => ?_⟩
  refine (h2.bits b (lt_of_lt_of_le hb h1.nb) ?_).trans (h1.bits b hb hk)
  simp only [Src.acts, newGen, newBits, Function.update_self, ne_eq, Option.some.injEq]
  omega

theorem ext_fresh_create (np : Np σ) (c : σ) (w : World σ) : Ext none w (create np (.gen (fresh c w).1) (fresh c w).2).2 := by
  have h1 := ext_fresh c w
  have h2 := ext_create np (.gen (fresh c w).1) (fresh c w).2
  refine ⟨le_trans h1.nb h2.nb, le_trans h1.ng h2.ng, le_trans h1.nr h2.nr, le_trans h1.idx h2.idx, h2.glob.trans h1.glob,
    fun g hg => (h2.gens g (lt_of_lt_of_le hg h1.ng)).trans (h1.gens g hg),
    fun r hr => (h2.rngs r (lt_of_lt_of_le hr h1.nr)).trans (h1.rngs r hr), fun b hb hk => ?_⟩
  refine (h2.bits b (lt_of_lt_of_le hb h1.nb) ?_).trans (h1.bits b hb hk)
  simp only [Src.acts, fresh, newGen, newBits, Function.update_self, ne_eq, Option.some.injEq]
  omega

theorem ext_spawn (np : Np σ) (s i n : Nat) (w : World σ) : Ext none w (spawn np s i n w).2 := by
  induction n generalizing i w with
  | zero => exact Ext.refl _ _
  | succ n ih => exact (ext_fresh_create np _ w).trans (ih _ _)

theorem ext_run (np : Np σ) (w : World σ) (op : Op σ) : Ext (op.acts w) w (run np w op) := by
  cases op with
  | create s =>
    cases s with
    | none => exact ext_create np .none w
    | seed n => exact ext_create np (.seed n) w
    | bits b => exact ext_create np (.bits b) w
    | gen g => exact ext_create np (.gen g) w
    | rng r => exact ext_create np (.rng r) w
  | createIfNot s =>
    cases s with
    | rng r => exact Ext.refl _ _
    | none => exact ext_create np .none w
    | seed n => exact ext_create np (.seed n) w
    | bits b => exact ext_create np (.bits b) w
    | gen g => exact ext_create np (.gen g) w
  | draw d r => exact ext_setBits _ _ _
  | copy r => exact ext_copy np r w
  | copyUnlessGlobal r =>
    simp only [run, copyUnlessGlobal]
    split_ifs
    · exact Ext.refl _ _
    · exact ext_copy np r w
  | derive n r => exact (ext_setBits _ _ _).trans (ext_spawn np _ _ _ _).weaken
  | advance r => exact ext_setBits _ _ _
  | reset r => exact ext_setBits _ _ _
  | useStateOf r s => exact ext_setBits _ _ _
  | seeds n r => exact ext_setBits _ _ _
  | seed n => exact ext_setBits _ _ _
  | pseudoRandom => exact (ext_setBits _ _ _).trans (ext_spawn np _ _ _ _).weaken

/-! ### Good worlds stay good -/

theorem good_newBits (b : Bits σ) (w : World σ) (h : Good w) : Good (newBits b w).2 :=
  ⟨h.gens, fun g hg => Nat.lt_succ_of_lt (h.bits g hg), h.glob, h.below, h.unique⟩

theorem good_newGen (b : Nat) (w : World σ) (h : Good w) (hb : b < w.nb) : Good (newGen b w).2 := by
  refine ⟨fun r hr => Nat.lt_succ_of_lt (h.gens r hr), fun g hg => ?_, h.glob, h.below, h.unique⟩
  simp only [newGen] at hg ⊢
  by_cases he : g = w.ng
  · rw [he, Function.update_self]; exact hb
  · rw [Function.update_of_ne he]; exact h.bits g (by omega)

theorem good_setBits (k : Nat) (b : Bits σ) (w : World σ) (h : Good w) : Good (setBits k b w) :=
  ⟨h.gens, h.bits, h.glob, h.below, h.unique⟩

theorem good_wrap (g : Nat) (w : World σ) (h : Good w) (hg : g < w.ng) : Good (wrap g w).2 := by
  have e : ∀ r, r < w.nr → Function.update w.rngs w.nr (g, w.idx) r = w.rngs r := fun r hr => Function.update_of_ne (Nat.ne_of_lt hr) _ _
  have e' : Function.update w.rngs w.nr (g, w.idx) w.nr = (g, w.idx) := Function.update_self _ _ _
  refine ⟨fun r hr => ?_, h.bits, Nat.lt_succ_of_lt h.glob, fun r hr => ?_, fun r s hr hs hrs => ?_⟩
  · simp only [wrap] at hr ⊢
    rcases Nat.lt_succ_iff_lt_or_eq.1 hr with h1 | h1
    · rw [e r h1]; exact h.gens r h1
    · rw [h1, e']; exact hg
  · simp only [wrap] at hr ⊢
    rcases Nat.lt_succ_iff_lt_or_eq.1 hr with h1 | h1
    · rw [e r h1]; exact Nat.lt_succ_of_lt (h.below r h1)
    · rw [h1, e']; exact Nat.lt_succ_self _
  · simp only [wrap] at hr hs hrs ⊢
    rcases Nat.lt_succ_iff_lt_or_eq.1 hr with h1 | h1 <;> rcases Nat.lt_succ_iff_lt_or_eq.1 hs with h2 | h2
    · rw [e r h1, e s h2] at hrs; exact h.unique r s h1 h2 hrs
    · subst h2; rw [e r h1, e'] at hrs
      have h3 := h.below r h1
      rw [hrs] at h3; exact absurd h3 (lt_irrefl _)
    · subst h1; rw [e s h2, e'] at hrs
      have h3 := h.below s h2
      rw [← hrs] at h3; exact absurd h3 (lt_irrefl _)
    · rw [h1, h2]

theorem good_fresh (c : σ) (w : World σ) (h : Good w) : Good (fresh c w).2 :=
  good_newGen _ _ (good_newBits _ w h) (Nat.lt_succ_self _)

theorem good_toGen (np : Np σ) (s : Src) (w : World σ) (h : Good w) (hs : s.Exists w) :
    Good (toGen np s w).2 ∧ (toGen np s w).1 < (toGen np s w).2.ng := by
  cases s with
  | none => exact ⟨h, h.gens _ h.glob⟩
  | seed n => exact ⟨good_fresh _ _ h, Nat.lt_succ_self _⟩
  | bits b => exact ⟨good_setBits _ _ _ (good_newGen b w h hs), Nat.lt_succ_self _⟩
  | gen g => exact ⟨good_setBits _ _ _ h, hs⟩
  | rng r => exact ⟨h, h.gens r hs⟩

theorem good_create (np : Np σ) (s : Src) (w : World σ) (h : Good w) (hs : s.Exists w) : Good (create np s w).2 :=
  good_wrap _ _ (good_toGen np s w h hs).1 (good_toGen np s w h hs).2

theorem good_copy (np : Np σ) (r : Nat) (w : World σ) (h : Good w) : Good (copy np r w).2 :=
  good_create np _ _ (good_newGen _ _ (good_newBits _ w h) (Nat.lt_succ_self _)) (Nat.lt_succ_self _)

theorem good_spawn (np : Np σ) (s i n : Nat) (w : World σ) (h : Good w) : Good (spawn np s i n w).2 := by
  induction n generalizing i w with
  | zero => exact h
  | succ n ih => exact ih _ _ (good_create np _ _ (good_fresh _ w h) (Nat.lt_succ_self _))

theorem good_run (np : Np σ) (w : World σ) (op : Op σ) (h : Good w) (he : op.Exists w) : Good (run np w op) := by
  cases op with
  | create s => exact good_create np s w h he
  | createIfNot s => cases s <;> first | exact h | exact good_create np _ w h he
  | draw d r => exact good_setBits _ _ _ h
  | copy r => exact good_copy np r w h
  | copyUnlessGlobal r =>
    simp only [run, copyUnlessGlobal]
    split_ifs
    · exact h
    · exact good_copy np r w h
  | derive n r => exact good_spawn np _ _ _ _ (good_setBits _ _ _ h)
  | advance r => exact good_setBits _ _ _ h
  | reset r => exact good_setBits _ _ _ h
  | useStateOf r s => exact good_setBits _ _ _ h
  | seeds n r => exact good_setBits _ _ _ h
  | seed n => exact good_setBits _ _ _ h
  | pseudoRandom => exact good_spawn np _ _ _ _ (good_setBits _ _ _ h)

theorem ext_state {k : Option Nat} {w w' : World σ} (h : Ext k w w') (hg : Good w) (r : Nat) (hr : r < w.nr) :
    w'.bit r = w.bit r ∧ (k ≠ some (w.bit r) → w'.state r = w.state r) := by
  have e : w'.bit r = w.bit r := by
    simp only [World.bit, h.rngs r hr, h.gens _ (hg.gens r hr)]
  refine ⟨e, fun hk => ?_⟩
  simp only [World.state, e]
  exact h.bits _ (hg.bits _ (hg.gens r hr)) hk

theorem fair_next32 (np : Np σ) : Fair (next32 np) := by
  intro a b h
  obtain ⟨h1, h2, h3⟩ := h
  simp only [next32]
  by_cases ha : a.has = true
  · have hb : b.has = true := h2 ▸ ha
    rw [if_pos ha, if_pos hb]
    exact ⟨h3 ha, h1, rfl, fun hc => by simp at hc⟩
  · have hb : ¬ b.has = true := fun hc => ha (h2.trans hc)
    rw [if_neg ha, if_neg hb, h1]
    exact ⟨rfl, rfl, rfl, fun _ => rfl⟩

theorem fair_next64 (np : Np σ) : Fair (next64 np) := by
  intro a b h
  obtain ⟨h1, h2, h3⟩ := h
  simp only [next64, h1]
  exact ⟨trivial, rfl, h2, h3⟩

theorem fair_pure {α : Type} (x : α) : Fair (fun b : Bits σ => (x, b)) := fun _ _ h => ⟨rfl, h⟩

theorem fair_bind {α β : Type} (d : Draw σ α) (k : α → Draw σ β) (hd : Fair d) (hk : ∀ x, Fair (k x)) :
    Fair (fun b => k (d b).1 (d b).2) := by
  intro a b h
  have h1 := hd a b h
  simp only [h1.1]
  exact hk _ _ _ h1.2

theorem future_same {α : Type} (l : List (Draw σ α)) (hl : ∀ d ∈ l, Fair d) (a b : Bits σ) (h : Same a b) : future l a = future l b := by
  induction l generalizing a b with
  | nil => rfl
  | cons d l ih =>
    have h1 := hl d (by simp) a b h
    simp only [future, h1.1]
    rw [ih (fun e he => hl e (by simp [he])) _ _ h1.2]

theorem fresh_create (np : Np σ) (c : σ) (w : World σ) :
    (create np (.gen (fresh c w).1) (fresh c w).2).1 = w.nr ∧
    (create np (.gen (fresh c w).1) (fresh c w).2).2.nr = w.nr + 1 ∧
    (create np (.gen (fresh c w).1) (fresh c w).2).2.nb = w.nb + 1 ∧
    (create np (.gen (fresh c w).1) (fresh c w).2).2.bit w.nr = w.nb ∧
    (create np (.gen (fresh c w).1) (fresh c w).2).2.state w.nr = ⟨c, false, 0, true⟩ := by
  refine ⟨rfl, rfl, rfl, ?_, ?_⟩
  · simp [create, fresh, newBits, newGen, toGen, wrap, setBits, World.bit]
  · simp [create, fresh, newBits, newGen, toGen, wrap, setBits, World.state, World.bit, dropCache]

/-- The new `RNG`s are new objects in the order of the children, each with a new bit generator. -/
theorem spawn_get (np : Np σ) (s i n : Nat) (w : World σ) (h : Good w) :
    (spawn np s i n w).1 = (List.range n).map (fun k => w.nr + k) ∧ (spawn np s i n w).2.nr = w.nr + n ∧
    ∀ k, k < n → (spawn np s i n w).2.bit (w.nr + k) = w.nb + k ∧
      (spawn np s i n w).2.state (w.nr + k) = ⟨np.spawned s (i + k), false, 0, true⟩ := by
  induction n generalizing i w with
  | zero => exact ⟨rfl, rfl, fun k hk => absurd hk (by omega)⟩
  | succ n ih =>
    obtain ⟨f1, f2, f3, f4, f5⟩ := fresh_create np (np.spawned s i) w
    have hg : Good (create np (.gen (fresh (np.spawned s i) w).1) (fresh (np.spawned s i) w).2).2 :=
      good_create np _ _ (good_fresh _ w h) (Nat.lt_succ_self _)
    obtain ⟨i1, i2, i3⟩ := ih (i + 1) _ hg
    have he := ext_spawn np s (i + 1) n (create np (.gen (fresh (np.spawned s i) w).1) (fresh (np.spawned s i) w).2).2
    simp only [spawn]
    generalize create np (.gen (fresh (np.spawned s i) w).1) (fresh (np.spawned s i) w).2 = c at *
    obtain ⟨c1, c2⟩ := c
    simp only at *
    subst f1
    refine ⟨?_, by rw [i2, f2]; omega, fun k hk => ?_⟩
    · rw [i1, List.range_succ_eq_map, List.map_cons, List.map_map, f2]
      simp only [Nat.add_zero, List.cons.injEq, true_and]
      apply List.map_congr_left
      intro a _
      simp only [Function.comp]; omega
    · cases k with
      | zero =>
        have := ext_state he hg w.nr (by rw [f2]; omega)
        simp only [Nat.add_zero]
        exact ⟨this.1.trans f4, (this.2 (by simp)).trans f5⟩
      | succ k =>
        have := i3 k (by omega)
        rw [f2, f3] at this
        have e1 : w.nr + 1 + k = w.nr + (k + 1) := by omega
        have e2 : i + 1 + k = i + (k + 1) := by omega
        rw [e1, e2] at this
        exact ⟨by rw [this.1]; omega, this.2⟩

theorem copy_get (np : Np σ) (r : Nat) (w : World σ) :
    (copy np r w).1 = w.nr ∧ (copy np r w).2.nr = w.nr + 1 ∧ (copy np r w).2.bit w.nr = w.nb ∧
    (copy np r w).2.state w.nr = dropCache (w.state r) ∧ ((copy np r w).2.rngs w.nr).1 = w.ng := by
  refine ⟨rfl, rfl, ?_, ?_, ?_⟩
  · simp [copy, create, newBits, newGen, toGen, wrap, setBits, World.bit]
  · simp [copy, create, newBits, newGen, toGen, wrap, setBits, World.state, World.bit]
  · simp [copy, create, newBits, newGen, toGen, wrap, setBits]

/-- A random stream for examples: a counter. -/
def demoNp : Np Nat := ⟨fun s => ((2 * s, 2 * s + 1), s + 1), fun n => 100 * n, fun s i => 1000 * s + i,
  fun n b => ((List.range n).map (fun i => b.core + i), { b with core := b.core + n })⟩

/-- A program that has just imported imgaug. -/
def demoWorld : World Nat := ⟨fun _ => ⟨7, false, 0, true⟩, 1, fun _ => 0, 1, fun _ => (0, 1), 1, 2, 0⟩

theorem demoWorld_good : Good demoWorld :=
  ⟨fun _ _ => Nat.zero_lt_one, fun _ _ => Nat.zero_lt_one, Nat.zero_lt_one, fun _ _ => Nat.one_lt_two, fun r s hr hs _ => by
    simp only [demoWorld] at hr hs; omega⟩

end Imgaug.Rng
