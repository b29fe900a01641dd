import Verif.Proofs.Meta
/-! Properties C36 (Sequential), C37 (SomeOf, OneOf), C38 (Sometimes) and the activation part of C39. -/
namespace Imgaug.Meta
open Imgaug
variable {G ρ κ δ : Type}

/-! ### C36: Sequential -/

/-- C36: without random order, `Sequential` is the composition of its children, first to last, for arbitrary children (which
may fail, change the batch and use any random numbers). -/
theorem sequential_is_composition [DecidableEq κ] (env : Env G ρ κ δ) (i : Nat) (cs : List (Node G ρ κ δ))
    (hact : env.activated i = true) (hdet : env.deterministic i = false) (parents : List Nat) (w : World G)
    (b : Batch ρ κ δ) :
    run env none (.seq i false cs) parents w b = compose (parents ++ [i]) (cs.map (run env none)) w b := by
  rw [run, augmentBatch_nohooks env i hact]
  unfold guarded
  by_cases he : isEmpty b = true
  · rw [if_pos he, compose_empty env cs _ w b he]
  · rw [if_neg he]
    unfold seqBody propagationCtx
    simp only [drawOrder, Bool.false_eq_true, if_false]
    rw [World.put_self, runAll_eq_map, runOrder_compose _ _ _ (by simp), filterMap_range_getElem]
    unfold restoreRng
    simp only [hdet, Bool.false_eq_true, if_false]
    cases compose (parents ++ [i]) (cs.map (run env none)) w b <;> rfl

/-- C36: nested `Sequential`s do the same as the flat list of augmenters (for augmenters whose behaviour does not depend on the
list of their parents). -/
theorem sequential_nested [DecidableEq κ] (env : Env G ρ κ δ) (i j : Nat) (as cs bs : List (Node G ρ κ δ))
    (hact : env.activated i = true) (hdet : env.deterministic i = false)
    (hactj : env.activated j = true) (hdetj : env.deterministic j = false)
    (hpar : ∀ c ∈ cs, ∀ (p q : List Nat) (w : World G) (b : Batch ρ κ δ), run env none c p w b = run env none c q w b)
    (parents : List Nat) (w : World G) (b : Batch ρ κ δ) :
    run env none (.seq i false (as ++ [.seq j false cs] ++ bs)) parents w b =
      run env none (.seq i false (as ++ cs ++ bs)) parents w b := by
  have hcomp : ∀ (p q : List Nat) (cs : List (Node G ρ κ δ)),
      (∀ c ∈ cs, ∀ (p q : List Nat) (w : World G) (b : Batch ρ κ δ), run env none c p w b = run env none c q w b) →
      ∀ (w : World G) (b : Batch ρ κ δ), compose p (cs.map (run env none)) w b = compose q (cs.map (run env none)) w b := by
    intro p q cs h
    induction cs with
    | nil => intro w b; rfl
    | cons c cs ih =>
      intro w b
      rw [List.map_cons, compose, compose, h c (by simp) p q]
      congr 1; funext r
      exact ih (fun c hc => h c (by simp [hc])) r.1 r.2
  rw [sequential_is_composition env i _ hact hdet, sequential_is_composition env i _ hact hdet]
  simp only [List.map_append, compose_append, List.map_cons, List.map_nil]
  congr 1
  cases compose (parents ++ [i]) (as.map (run env none)) w b with
  | none => rfl
  | some s =>
    simp only [Option.bind_some]
    rw [compose]
    have h1 := sequential_is_composition env j cs hactj hdetj (parents ++ [i]) s.1 s.2
    rw [h1, hcomp _ (parents ++ [i]) cs hpar]
    cases compose (parents ++ [i]) (cs.map (run env none)) s.1 s.2 <;> rfl

/-- C36: the empty `Sequential` changes nothing. -/
theorem sequential_empty [DecidableEq κ] (env : Env G ρ κ δ) (i : Nat) (hact : env.activated i = true)
    (hdet : env.deterministic i = false) (parents : List Nat) (w : World G) (b : Batch ρ κ δ) :
    run env none (.seq i false []) parents w b = some (w, b) := sequential_is_composition env i [] hact hdet parents w b

/-- C36: with random order each child is applied exactly once: the result is the composition of a permutation of the children,
namely the one that the RNG drew before anything else happened. -/
theorem sequential_random_order [DecidableEq κ] (env : Env G ρ κ δ) (hf : env.Fair) (i : Nat) (cs : List (Node G ρ κ δ))
    (hact : env.activated i = true) (hdet : env.deterministic i = false) (parents : List Nat) (w : World G)
    (b : Batch ρ κ δ) (hb : b.nbRows ≠ 0) :
    ∃ cs' : List (Node G ρ κ δ), cs'.Perm cs ∧
      cs' = (env.permutation cs.length (w (env.rngOf i))).1.filterMap (fun (k : Nat) => cs[k]?) ∧
      run env none (.seq i true cs) parents w b =
        compose (parents ++ [i]) (cs'.map (run env none)) (w.put (env.rngOf i) (env.permutation cs.length (w (env.rngOf i))).2) b := by
  have hp := hf.permutation cs.length (w (env.rngOf i))
  refine ⟨_, ?_, rfl, ?_⟩
  · have := hp.filterMap (fun (k : Nat) => cs[k]?)
    rw [filterMap_range_getElem] at this
    exact this
  · rw [run, augmentBatch_nohooks env i hact]
    unfold guarded
    rw [if_neg (by simpa [isEmpty] using hb)]
    unfold seqBody propagationCtx
    simp only [drawOrder, if_true]
    rw [runAll_eq_map, List.length_map, runOrder_compose _ _ _ (by
      intro k hk; rw [List.length_map]; exact List.mem_range.1 (hp.subset hk))]
    unfold restoreRng
    simp only [hdet, Bool.false_eq_true, if_false]
    have hmap : (env.permutation cs.length (w (env.rngOf i))).1.filterMap (fun (k : Nat) => (cs.map (run env none))[k]?) =
        ((env.permutation cs.length (w (env.rngOf i))).1.filterMap (fun (k : Nat) => cs[k]?)).map (run env none) := by
      rw [List.map_filterMap]; congr 1; funext k; rw [List.getElem?_map]
    rw [hmap]
    cases compose (parents ++ [i]) _ _ b <;> rfl

/-! ### C37: SomeOf -/

/-- C37: what `SomeOf` does. The order of the children is drawn first (`range` without random order). For every row there is a
list of chosen children, a part of the order, with exactly as many entries as the number sampled for the row says (all of them
if that is larger than the number of children, none if it is negative). The row, in all its columns, is changed by exactly
these children, one after the other. -/
theorem someOf_rows [DecidableEq κ] (env : Env G ρ κ δ) (hf : env.Fair) (i : Nat) (n : Count G) (hn : n.Sized) (ro : Bool)
    (children : List (Runner G ρ κ δ)) (R : Nat → Row ρ → Row ρ → Prop)
    (hacts : ∀ (k : Nat) (c : Runner G ρ κ δ), children[k]? = some c → Acts c (R k))
    (parents : List Nat) (w : World G) (b : Batch ρ κ δ) (hb : Rect b.nbRows b) :
    ∃ (w' : World G) (b' : Batch ρ κ δ) (order : List Nat) (counts : List Int) (chosen : Nat → List Nat),
      someOfBody env none i n ro children parents w b = some (w', b') ∧
      order.Perm (List.range children.length) ∧ (ro = false → order = List.range children.length) ∧
      (ro = true → order = (env.permutation children.length (w (env.rngOf i))).1) ∧
      counts = (getN env n children.length b.nbRows (drawOrder env ro children.length (w (env.rngOf i))).2).1 ∧
      counts.length = b.nbRows ∧
      (∀ (j : Nat) (m : Int), counts[j]? = some m →
        (chosen j).Sublist order ∧ (chosen j).length = expected m children.length) ∧
      Related (fun j x y => Chain R (chosen j) x y) b b' := by
  have hperm := drawOrder_perm env hf ro children.length (w (env.rngOf i))
  have hcl : (getN env n children.length b.nbRows (drawOrder env ro children.length (w (env.rngOf i))).2).1.length = b.nbRows := by
    cases n with
    | fixed n => simp [getN]
    | all => simp [getN]
    | atLeast n => exact hf.uniform_length _ _ _ _
    | param draw => exact hn _ _
  have hsh := shuffleRows_spec env hf
    ((getN env n children.length b.nbRows (drawOrder env ro children.length (w (env.rngOf i))).2).1.map (activeRow children.length))
    (getN env n children.length b.nbRows (drawOrder env ro children.length (w (env.rngOf i))).2).2
  have hal : (getActive env n children.length b.nbRows (drawOrder env ro children.length (w (env.rngOf i))).2).1.length = b.nbRows := by
    unfold getActive; rw [hsh.1, List.length_map, hcl]
  obtain ⟨w', b', hrun, hrel⟩ := someOfLoop_spec env children
    (getActive env n children.length b.nbRows (drawOrder env ro children.length (w (env.rngOf i))).2).1 R hacts
    (parents ++ [i]) (drawOrder env ro children.length (w (env.rngOf i))).1
    (fun k hk => List.mem_range.1 (hperm.subset hk))
    (w.put (env.rngOf i) (getActive env n children.length b.nbRows (drawOrder env ro children.length (w (env.rngOf i))).2).2)
    b hb hal
  refine ⟨w', b', (drawOrder env ro children.length (w (env.rngOf i))).1, _, _, hrun, hperm, ?_, ?_, rfl, hcl, ?_, hrel⟩
  · intro h; unfold drawOrder; rw [if_neg (by simp [h])]
  · intro h; unfold drawOrder; rw [if_pos h]
  · intro j m hm
    refine ⟨List.filter_sublist, ?_⟩
    have hj : j < (getActive env n children.length b.nbRows (drawOrder env ro children.length (w (env.rngOf i))).2).1.length := by
      rw [hal, ← hcl]; exact (List.getElem?_eq_some_iff.1 hm).1
    obtain ⟨row0, h0, hp0⟩ := hsh.2 j _ (List.getElem?_eq_getElem hj)
    rw [List.getElem?_map, hm] at h0
    cases h0
    have hlen := hp0.length_eq
    have hrl : (activeRow children.length m).length = children.length := by simp [activeRow]
    rw [← activeRow_count children.length m, ← hp0.count_eq true, 
      ← filter_count (drawOrder env ro children.length (w (env.rngOf i))).1 _ (by rw [hlen, hrl]; exact hperm)]
    congr 1
    apply List.filter_congr
    intro k _
    rw [decide_eq_decide, activeRows_mem]
    constructor
    · rintro ⟨row, hr, hk⟩
      rw [List.getElem?_eq_getElem hj] at hr
      cases hr; exact hk
    · intro hk
      exact ⟨_, List.getElem?_eq_getElem hj, hk⟩

/-- C37: `OneOf` (i.e. `n = 1`) applies exactly one child to each row, if there are children. -/
theorem oneOf_rows [DecidableEq κ] (env : Env G ρ κ δ) (hf : env.Fair) (i : Nat) (ro : Bool)
    (children : List (Runner G ρ κ δ)) (hne : children ≠ []) (R : Nat → Row ρ → Row ρ → Prop)
    (hacts : ∀ (k : Nat) (c : Runner G ρ κ δ), children[k]? = some c → Acts c (R k))
    (parents : List Nat) (w : World G) (b : Batch ρ κ δ) (hb : Rect b.nbRows b) :
    ∃ (w' : World G) (b' : Batch ρ κ δ), someOfBody env none i (.fixed 1) ro children parents w b = some (w', b') ∧
      Related (fun _ x y => ∃ k, k < children.length ∧ R k x y) b b' := by
  obtain ⟨w', b', order, counts, chosen, hrun, hperm, -, -, hc, hl, hch, hrel⟩ :=
    someOf_rows env hf i (.fixed 1) trivial ro children R hacts parents w b hb
  refine ⟨w', b', hrun, hrel.1, hrel.2.1, fun j hj => ?_⟩
  have hcj : counts[j]? = some 1 := by
    rw [hc]; simp [getN, hj]
  obtain ⟨hsub, hlen⟩ := hch j 1 hcj
  have hpos : 1 ≤ children.length := List.length_pos_iff.2 hne
  have h1 : expected 1 children.length = 1 := by unfold expected; omega
  rw [h1] at hlen
  obtain ⟨k, hk⟩ := List.length_eq_one_iff.1 hlen
  have hkl : k < children.length := List.mem_range.1 (hperm.subset (hsub.subset (by rw [hk]; simp)))
  have := hrel.2.2 j hj
  simp only [hk] at this
  obtain ⟨y, hy, he⟩ := this
  exact ⟨k, hkl, by rw [he]; exact hy⟩

/-- C37: the number of augmenters applied to a row, for the four forms of `n`: a number, `None`, `(n, None)` and a stochastic
parameter. For `(n, None)` it is at least `n` (or all). -/
theorem someOf_counts (env : Env G ρ κ δ) (hf : env.Fair) (len N : Nat) (g : G) (m : Int) :
    (∀ v : Int, m ∈ (getN env (.fixed v) len N g).1 → m = v) ∧
    (m ∈ (getN env .all len N g).1 → expected m len = len) ∧
    (∀ v : Int, m ∈ (getN env (.atLeast v) len N g).1 → expected v len ≤ expected m len ∧ expected m len ≤ len) ∧
    (∀ draw, m ∈ (getN env (.param draw) len N g).1 → m ∈ (draw N g).1) := by
  refine ⟨fun v h => ?_, fun h => ?_, fun v h => ?_, fun draw h => h⟩
  · exact (List.mem_replicate.1 h).2
  · rw [(List.mem_replicate.1 h).2]; unfold expected; omega
  · have := hf.uniform_range v len N g m h
    unfold expected; omega

/-! ### C38: Sometimes -/

/-- C38: rows with sample 1 are changed by the then-list, rows with sample 0 by the else-list, others not at all; the same in
all columns of a row. A missing (or empty) list changes nothing. Rows keep their position, nothing is added or lost. -/
theorem sometimes_rows [DecidableEq κ] (env : Env G ρ κ δ) (i : Nat) (draw : Nat → G → List ℚ × G)
    (hdraw : ∀ (N : Nat) (g : G), (draw N g).1.length = N)
    (thenC elseC : Option (Runner G ρ κ δ)) (T E : Row ρ → Row ρ → Prop)
    (hT : ∀ c, thenC = some c → Acts c T) (hE : ∀ c, elseC = some c → Acts c E)
    (hT0 : thenC = none → ∀ x y, T x y ↔ y = x) (hE0 : elseC = none → ∀ x y, E x y ↔ y = x)
    (parents : List Nat) (w : World G) (b : Batch ρ κ δ) (hb : Rect b.nbRows b) :
    ∃ (w' : World G) (b' : Batch ρ κ δ), sometimesBody env none i draw thenC elseC parents w b = some (w', b') ∧
      Related (fun j x y => ∃ s : ℚ, (draw b.nbRows (w (env.rngOf i))).1[j]? = some s ∧
        (s = 1 → T x y) ∧ (s = 0 → E x y) ∧ (s ≠ 1 → s ≠ 0 → y = x)) b b' := by
  obtain ⟨w1, b1, h1, hr1⟩ := sometimesStep_spec env thenC T hT hT0 (rowsWith (draw b.nbRows (w (env.rngOf i))).1 1)
    (parents ++ [i]) (w.put (env.rngOf i) (draw b.nbRows (w (env.rngOf i))).2) b hb (rowsWith_nodup _ _)
    (fun r hr => by rw [← hdraw b.nbRows (w (env.rngOf i))]; exact (List.getElem?_eq_some_iff.1 ((rowsWith_mem _ _ r).1 hr)).1)
  have hn1 := nbRows_congr hr1.2.1
  obtain ⟨w2, b2, h2, hr2⟩ := sometimesStep_spec env elseC E hE hE0 (rowsWith (draw b.nbRows (w (env.rngOf i))).1 0)
    (parents ++ [i]) w1 b1 (by rw [hn1]; exact rect_congr hr1.2.1 hb) (rowsWith_nodup _ _)
    (fun r hr => by
      rw [hn1, ← hdraw b.nbRows (w (env.rngOf i))]; exact (List.getElem?_eq_some_iff.1 ((rowsWith_mem _ _ r).1 hr)).1)
  refine ⟨w2, b2, ?_, by rw [hr2.1, hr1.1], by rw [hr2.2.1, hr1.2.1], ?_⟩
  · unfold sometimesBody propagationCtx
    simp only [h1, Option.bind_some, h2]
  · intro j hj
    have hjl : j < (draw b.nbRows (w (env.rngOf i))).1.length := by rw [hdraw]; exact hj
    have ha := hr1.2.2 j hj
    have hc := hr2.2.2 j (by rw [hn1]; exact hj)
    simp only [rowsWith_mem, List.getElem?_eq_getElem hjl, Option.some.injEq] at ha hc
    refine ⟨_, List.getElem?_eq_getElem hjl, ?_, ?_, ?_⟩
    · intro hs
      rw [if_pos hs] at ha
      rw [if_neg (by rw [hs]; norm_num)] at hc
      rw [hc]; exact ha
    · intro hs
      rw [if_neg (by rw [hs]; norm_num)] at ha
      rw [if_pos hs, ha] at hc
      exact hc
    · intro h1 h0
      rw [if_neg h1] at ha
      rw [if_neg h0] at hc
      rw [hc, ha]

/-! ### C39: activation and hooks -/

/-- C39: an augmenter that is switched off changes nothing (whatever its `_augment_batch_` does), and uses no randomness, with
or without hooks. -/
theorem deactivated_is_identity (env : Env G ρ κ δ) (i : Nat) (hact : env.activated i = false) (body : Runner G ρ κ δ)
    (parents : List Nat) (w : World G) (b : Batch ρ κ δ) :
    augmentBatch env none i body parents w b = some (w, b) ∧
    ∀ h : Hooks ρ κ, h.Plain → augmentBatch env (some h) i body parents w b = some (w, b) := by
  refine ⟨?_, fun h hp => augmentBatch_off env h hp i hact body parents w b⟩
  unfold augmentBatch
  simp only [switchedOff, hact, if_true]
  unfold guarded
  rw [if_pos (hide_all_empty b)]
  simp only [Option.map_some]
  rw [unhide_hide _ b (List.Sublist.refl _)]

/-- C39: an activator hook. The augmenter works on the batch without the rejected columns; afterwards these have their old
values and all other columns are as the augmenter left them. If nothing is left to augment, nothing happens. -/
theorem activator_hooks (env : Env G ρ κ δ) (h : Hooks ρ κ) (hp : h.Plain) (i : Nat) (hact : env.activated i = true)
    (hdet : env.deterministic i = false) (body : Runner G ρ κ δ) (parents : List Nat) (w : World G) (b : Batch ρ κ δ) :
    ((without (h.activated i parents true) b).nbRows = 0 → augmentBatch env (some h) i body parents w b = some (w, b)) ∧
    ((without (h.activated i parents true) b).nbRows ≠ 0 → augmentBatch env (some h) i body parents w b =
      (body parents w (without (h.activated i parents true) b)).map (fun r =>
        (r.1, putBack (h.activated i parents true) b r.2))) := by
  rw [augmentBatch_plain env h hp i hact]
  unfold guarded
  constructor
  · intro h0
    rw [if_pos (by simp [isEmpty, h0])]
    simp only [Option.map_some, putBack_without]
  · intro h0
    rw [if_neg (by simpa [isEmpty] using h0)]
    unfold restoreRng
    simp only [hdet, Bool.false_eq_true, if_false]
    cases body parents w (without (h.activated i parents true) b) <;> rfl

/-- C39: a column that the activator or the propagator of the hooks rejects for an augmenter with children comes out unchanged,
whatever the children are and do. -/
theorem rejected_columns_unchanged [DecidableEq κ] (env : Env G ρ κ δ) (h : Hooks ρ κ) (hp : h.Plain) (nd : Node G ρ κ δ)
    (hm : nd.IsMeta) (parents : List Nat) (w w' : World G) (b b' : Batch ρ κ δ)
    (hrun : run env (some h) nd parents w b = some (w', b')) (n : ColName) (c : Col ρ κ) (hc : b.col n = some c)
    (hne : c.rows ≠ []) (hrej : h.activated nd.id parents (env.activated nd.id) c = false ∨ h.propagates nd.id parents c = false) :
    b'.col n = some c := by
  have key : ∀ (i : Nat) (block : List Nat → World G → Batch ρ κ δ → Option (World G × Batch ρ κ δ)),
      (h.activated i parents (env.activated i) c = false ∨ h.propagates i parents c = false) →
      augmentBatch env (some h) i (fun parents w b => propagationCtx (some h) i parents b (block parents w)) parents w b = some (w', b') →
      b'.col n = some c := by
    intro i block hrej hrun
    by_cases hact : env.activated i = true
    · rw [augmentBatch_plain env h hp i hact] at hrun
      obtain ⟨⟨w1, r⟩, hr, he⟩ := Option.map_eq_some_iff.1 hrun
      simp only [Prod.mk.injEq] at he
      obtain ⟨rfl, rfl⟩ := he
      show (if (b.col n).any (fun c => !c.rows.isEmpty && !h.activated i parents true c) then b.col n else r.col n) = some c
      rw [hact] at hrej
      by_cases hrej1 : h.activated i parents true c = false
      · rw [if_pos (by rw [hc]; simp [hne, hrej1]), hc]
      · have hrej2 : h.propagates i parents c = false := by tauto
        have hacc : h.activated i parents true c = true := by simpa using hrej1
        rw [if_neg (by rw [hc]; simp [hacc])]
        have hwc : (without (h.activated i parents true) b).col n = some c := by
          simp [without, hc, hacc]
        unfold guarded at hr
        split at hr
        · cases hr; exact hwc
        · obtain ⟨⟨w2, r2⟩, hr2, he2⟩ := Option.map_eq_some_iff.1 hr
          simp only [Prod.mk.injEq] at he2
          obtain ⟨-, rfl⟩ := he2
          simp only [propagationCtx_eq] at hr2
          obtain ⟨⟨w3, r3⟩, hr3, he3⟩ := Option.map_eq_some_iff.1 hr2
          simp only [Prod.mk.injEq] at he3
          obtain ⟨-, rfl⟩ := he3
          show (if ((without (h.activated i parents true) b).col n).any (fun c => !c.rows.isEmpty && !h.propagates i parents c)
            then (without (h.activated i parents true) b).col n else r3.col n) = some c
          rw [if_pos (by rw [hwc]; simp [hne, hrej2]), hwc]
    · have hact : env.activated i = false := by simpa using hact
      rw [augmentBatch_off env h hp i hact] at hrun
      cases hrun; exact hc
  cases nd with
  | prim i body => exact absurd hm (by simp [Node.IsMeta])
  | seq i ro cs =>
    rw [run] at hrun
    exact key i (fun parents w b =>
      runOrder (runAll env (some h) cs) (parents ++ [i]) (drawOrder env ro (runAll env (some h) cs).length (w (env.rngOf i))).1
        (w.put (env.rngOf i) (drawOrder env ro (runAll env (some h) cs).length (w (env.rngOf i))).2) b) hrej hrun
  | someOf i k ro cs =>
    rw [run] at hrun
    exact key i (fun parents w b =>
      someOfLoop env (runAll env (some h) cs) (getActive env k (runAll env (some h) cs).length b.nbRows
          (drawOrder env ro (runAll env (some h) cs).length (w (env.rngOf i))).2).1 (parents ++ [i])
        (drawOrder env ro (runAll env (some h) cs).length (w (env.rngOf i))).1
        (w.put (env.rngOf i) (getActive env k (runAll env (some h) cs).length b.nbRows
          (drawOrder env ro (runAll env (some h) cs).length (w (env.rngOf i))).2).2) b) hrej hrun
  | sometimes i draw t e =>
    rw [run] at hrun
    exact key i (fun parents w b =>
      (sometimesStep env (runOpt env (some h) t) (rowsWith (draw b.nbRows (w (env.rngOf i))).1 1) (parents ++ [i])
        (w.put (env.rngOf i) (draw b.nbRows (w (env.rngOf i))).2) b).bind (fun r =>
        sometimesStep env (runOpt env (some h) e) (rowsWith (draw b.nbRows (w (env.rngOf i))).1 0) (parents ++ [i]) r.1 r.2))
      hrej hrun

/-! ### Concrete cases -/

/-- A concrete environment: RNG states are numbers, permutations reverse in odd states, shuffles rotate. -/
def exEnv : Env Nat Nat Nat Unit where
  activated := fun _ => true
  deterministic := fun _ => false
  rngOf := fun i => i
  permutation := fun n g => (if g % 2 = 1 then (List.range n).reverse else List.range n, g + 1)
  shuffle := fun row g => (row.drop (g % row.length) ++ row.take (g % row.length), g + 1)
  uniform := fun a b n g => (List.replicate n (min a b), g + 1)
  kindOf := fun _ => 0

theorem exEnv_fair : exEnv.Fair where
  permutation := by
    intro n g; simp only [exEnv]; split
    · exact List.reverse_perm _
    · exact List.Perm.refl _
  shuffle := by
    intro row g
    simp only [exEnv]
    exact List.perm_append_comm.trans (by rw [List.take_append_drop])
  uniform_length := by intro a b n g; simp [exEnv]
  uniform_range := by
    intro a b n g v hv
    have := (List.mem_replicate.1 hv).2
    omega

/-- An augmenter that appends the digit `k` to each row value. -/
def exChild (k : Nat) : Runner Nat Nat Nat Unit := fun _ w b =>
  some (w, { b with col := fun n => (b.col n).map (fun c => .lst (c.rows.map (fun v => 10 * v + k))) })

theorem exChild_acts (k : Nat) :
    Acts (exChild k) (fun (x y : Row Nat) => y = fun n => (x n).map (fun v => 10 * v + k)) := by
  intro parents w b hb
  refine ⟨w, _, rfl, rfl, ?_, ?_⟩
  · funext n
    simp only [colLengths]
    cases b.col n <;> simp [Col.rows]
  · intro j hj
    funext n
    simp only [rowAt]
    cases b.col n <;> simp [Col.rows]

/-- Three images with keypoints. -/
def exBatch : Batch Nat Nat Unit :=
  ⟨fun | .images => some (.arr 0 [1, 2, 3]) | .keypoints => some (.lst [4, 5, 6]) | _ => none, ()⟩

theorem exBatch_rect : Rect exBatch.nbRows exBatch := by
  intro n c hc
  cases n <;> simp [exBatch] at hc <;> subst hc <;> rfl

/-- `SomeOf(2, [..3 children..])`: two children per row, the same ones for image and keypoints of the row. -/
example : ((someOfBody exEnv none 0 (.fixed 2) false [exChild 7, exChild 8, exChild 9] [] (fun _ => 1) exBatch).map
    (fun r => [r.2.col .images, r.2.col .keypoints])) =
    some [some (.arr 0 [179, 289, 378]), some (.lst [479, 589, 678])] := by decide

/-- In random order. -/
example : ((someOfBody exEnv none 0 (.fixed 2) true [exChild 7, exChild 8, exChild 9] [] (fun _ => 1) exBatch).map
    (fun r => [r.2.col .images, r.2.col .keypoints])) =
    some [some (.arr 0 [198, 287, 397]), some (.lst [498, 587, 697])] := by decide

/-- The hypotheses of `someOf_rows` are met by these children. -/
example (parents : List Nat) (w : World Nat) := someOf_rows exEnv exEnv_fair 0 (.fixed 2) trivial true
  [exChild 7, exChild 8, exChild 9] (fun k x y => y = fun n => (x n).map (fun v => 10 * v + (k + 7))) (by
    intro k c hc
    match k, hc with
    | 0, hc => cases hc; exact exChild_acts 7
    | 1, hc => cases hc; exact exChild_acts 8
    | 2, hc => cases hc; exact exChild_acts 9
    | k + 3, hc => simp at hc) parents w exBatch exBatch_rect

/-- `Sometimes`: rows 0 and 2 go to the then-list, row 1 to the else-list. -/
example : ((sometimesBody exEnv none 0 (fun N g => ((List.range N).map (fun (i : Nat) => if i % 2 = 0 then (1 : ℚ) else 0), g))
    (some (exChild 7)) (some (exChild 8)) [] (fun _ => 1) exBatch).map
    (fun r => [r.2.col .images, r.2.col .keypoints])) =
    some [some (.arr 0 [17, 28, 37]), some (.lst [47, 58, 67])] := by decide +kernel

/-- `Sequential` in order and in a random order. -/
example : ((run exEnv none (.seq 0 false [.prim 1 (exChild 7), .prim 2 (exChild 8)]) [] (fun _ => 1) exBatch).map
    (fun r => r.2.col .images)) = some (some (.lst [178, 278, 378])) ∧
    ((run exEnv none (.seq 0 true [.prim 1 (exChild 7), .prim 2 (exChild 8)]) [] (fun _ => 1) exBatch).map
    (fun r => r.2.col .images)) = some (some (.lst [187, 287, 387])) := by
  constructor <;> decide +kernel

/-- Hooks that reject the keypoint column for the `Sequential` with id 0. -/
def exHooks : Hooks Nat Nat where
  preprocess := fun _ _ c => c
  activated := fun _ _ d _ => d
  propagates := fun i _ c => i != 0 || c.rows != [4, 5, 6]
  postprocess := fun _ _ c => c

example : exHooks.Plain := ⟨fun _ _ _ => rfl, fun _ _ _ => rfl⟩

example : ((run exEnv (some exHooks) (.seq 0 false [.prim 1 (exChild 7), .prim 2 (exChild 8)]) [] (fun _ => 1) exBatch).map
    (fun r => [r.2.col .images, r.2.col .keypoints])) =
    some [some (.lst [178, 278, 378]), some (.lst [4, 5, 6])] := by decide +kernel

end Imgaug.Meta
