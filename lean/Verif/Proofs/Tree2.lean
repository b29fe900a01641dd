import Verif.Proofs.Tree
namespace Imgaug.Tree
variable {σ : Type}

/-! ### traversals that thread a state through the augmenters in depth-first order -/
section trav
variable {τ : Type} (step : Info σ → τ → Info σ × τ)

mutual
def trav : Aug σ → τ → Aug σ × τ
  | .node i gs, s => (.node (step i s).1 (travGroups gs (step i s).2).1, (travGroups gs (step i s).2).2)
def travGroups : List (Group σ) → τ → List (Group σ) × τ
  | [], s => ([], s)
  | g :: gs, s => ((travGroup g s).1 :: (travGroups gs (travGroup g s).2).1, (travGroups gs (travGroup g s).2).2)
def travGroup : Group σ → τ → Group σ × τ
  | .group h cs, s => (.group h (travForest cs s).1, (travForest cs s).2)
def travForest : List (Aug σ) → τ → List (Aug σ) × τ
  | [], s => ([], s)
  | c :: cs, s => ((trav c s).1 :: (travForest cs (trav c s).2).1, (travForest cs (trav c s).2).2)
end

/-- The same on a list. -/
def travList : List (Info σ) → τ → List (Info σ) × τ
  | [], s => ([], s)
  | i :: l, s => ((step i s).1 :: (travList l (step i s).2).1, (travList l (step i s).2).2)

theorem travList_append (l m : List (Info σ)) (s : τ) :
    travList step (l ++ m) s = ((travList step l s).1 ++ (travList step m (travList step l s).2).1,
      (travList step m (travList step l s).2).2) := by
  induction l generalizing s with
  | nil => rfl
  | cons i l ih => simp only [List.cons_append, travList, ih]

mutual
theorem trav_flat : (a : Aug σ) → (s : τ) →
    ((flat (trav step a s).1).map Aug.info, (trav step a s).2) = travList step ((flat a).map Aug.info) s
  | .node i gs, s => by
    have := travGroups_flat gs (step i s).2
    simp only [flat, trav, allChildren, List.map_cons, travList, info_node] at this ⊢
    rw [← this]
theorem travGroups_flat : (gs : List (Group σ)) → (s : τ) →
    ((allGroups (travGroups step gs s).1).map Aug.info, (travGroups step gs s).2) =
      travList step ((allGroups gs).map Aug.info) s
  | [], s => by simp only [travGroups, allGroups, List.map_nil, travList]
  | g :: gs, s => by
    have h1 := travGroup_flat g s
    have h2 := travGroups_flat gs (travGroup step g s).2
    simp only [travGroups, allGroups, List.map_append, travList_append]
    rw [← h1]
    simp only
    rw [← h2]
theorem travGroup_flat : (g : Group σ) → (s : τ) →
    ((allGroup (travGroup step g s).1).map Aug.info, (travGroup step g s).2) =
      travList step ((allGroup g).map Aug.info) s
  | .group h cs, s => by simp only [travGroup, allGroup]; exact travForest_flat cs s
theorem travForest_flat : (cs : List (Aug σ)) → (s : τ) →
    ((allForest (travForest step cs s).1).map Aug.info, (travForest step cs s).2) =
      travList step ((allForest cs).map Aug.info) s
  | [], s => by simp only [travForest, allForest, List.map_nil, travList]
  | c :: cs, s => by
    have h1 := trav_flat c s
    have h2 := travForest_flat cs (trav step c s).2
    simp only [travForest, allForest]
    rw [← List.cons_append, ← List.cons_append, List.map_append, List.map_append, travList_append]
    change ((flat (trav step c s).1).map Aug.info ++ _, _) = _
    have h1' : travList step ((c :: allChildren c).map Aug.info) s = travList step ((flat c).map Aug.info) s := rfl
    rw [h1', ← h1]
    simp only
    rw [← h2]
end
end trav

mutual
theorem localize_trav (derive : σ → σ × σ) : (a : Aug σ) → (g : σ) → localize derive a g = trav (localizeInfo derive) a g
  | .node i gs, g => by simp only [localize, trav, localizeGroups_trav derive gs]
theorem localizeGroups_trav (derive : σ → σ × σ) : (gs : List (Group σ)) → (g : σ) →
    localizeGroups derive gs g = travGroups (localizeInfo derive) gs g
  | [], g => by simp only [localizeGroups, travGroups]
  | x :: xs, g => by simp only [localizeGroups, travGroups, localizeGroups_trav derive xs, localizeGroup_trav derive x]
theorem localizeGroup_trav (derive : σ → σ × σ) : (x : Group σ) → (g : σ) →
    localizeGroup derive x g = travGroup (localizeInfo derive) x g
  | .group h cs, g => by simp only [localizeGroup, travGroup, localizeForest_trav derive cs]
theorem localizeForest_trav (derive : σ → σ × σ) : (cs : List (Aug σ)) → (g : σ) →
    localizeForest derive cs g = travForest (localizeInfo derive) cs g
  | [], g => by simp only [localizeForest, travForest]
  | c :: cs, g => by simp only [localizeForest, travForest, localizeForest_trav derive cs, localize_trav derive c]
end

/-- Assignment of the next attributes of a list. -/
def assignStep (i : Info σ) (l : List (Info σ)) : Info σ × List (Info σ) := (l.headD i, l.tail)

mutual
theorem assign_trav : (a : Aug σ) → (l : List (Info σ)) → assign a l = trav assignStep a l
  | .node i gs, l => by simp only [assign, trav, assignGroups_trav gs, assignStep]
theorem assignGroups_trav : (gs : List (Group σ)) → (l : List (Info σ)) →
    assignGroups gs l = travGroups assignStep gs l
  | [], l => by simp only [assignGroups, travGroups]
  | x :: xs, l => by simp only [assignGroups, travGroups, assignGroups_trav xs, assignGroup_trav x]
theorem assignGroup_trav : (x : Group σ) → (l : List (Info σ)) → assignGroup x l = travGroup assignStep x l
  | .group h cs, l => by simp only [assignGroup, travGroup, assignForest_trav cs]
theorem assignForest_trav : (cs : List (Aug σ)) → (l : List (Info σ)) → assignForest cs l = travForest assignStep cs l
  | [], l => by simp only [assignForest, travForest]
  | c :: cs, l => by simp only [assignForest, travForest, assignForest_trav cs, assign_trav c]
end

/-! ### skeletons: shape and list augmenters -/

mutual
/-- The tree with the attributes of all augmenters that have a position forgotten. -/
def skel : Aug σ → Aug σ
  | .node _ gs => .node ⟨"", .global, false⟩ (skelGroups gs)
def skelGroups : List (Group σ) → List (Group σ)
  | [] => []
  | g :: gs => skelGroup g :: skelGroups gs
def skelGroup : Group σ → Group σ
  | .group h cs => .group h (skelForest cs)
def skelForest : List (Aug σ) → List (Aug σ)
  | [] => []
  | c :: cs => skel c :: skelForest cs
end

theorem skelGroups_map (gs : List (Group σ)) : skelGroups gs = gs.map skelGroup := by
  induction gs with
  | nil => simp only [skelGroups, List.map_nil]
  | cons g gs ih => simp only [skelGroups, ih, List.map_cons]

theorem skelForest_map (cs : List (Aug σ)) : skelForest cs = cs.map skel := by
  induction cs with
  | nil => simp only [skelForest, List.map_nil]
  | cons g gs ih => simp only [skelForest, ih, List.map_cons]

theorem skel_child (a : Aug σ) (k : Nat × Nat) : childAt (skel a) k = (childAt a k).map skel := by
  cases a with
  | node i gs =>
    simp only [childAt, skel, Aug.groups, skelGroups_map, List.getElem?_map]
    cases gs[k.1]? with
    | none => rfl
    | some g =>
      cases g with
      | group h cs => simp [skelGroup, Group.children, skelForest_map, List.getElem?_map]

theorem skel_node (p : Pos) : ∀ a : Aug σ, nodeAt (skel a) p = (nodeAt a p).map skel := by
  induction p with
  | nil => intro a; rfl
  | cons k p ih =>
    intro a
    simp only [nodeAt, skel_child]
    cases childAt a k with
    | none => rfl
    | some c => simp [ih]

theorem skel_shape {a b : Aug σ} (h : skel a = skel b) : SameShape a b := by
  intro p
  have ha := skel_node p a
  have hb := skel_node p b
  rw [h] at ha
  have := congrArg Option.isSome (ha.symm.trans hb)
  simpa using this

theorem skelGroup_hidden (g : Group σ) : (skelGroup g).hidden = g.hidden := by
  cases g; simp only [skelGroup, Group.hidden]

theorem skel_hidden (a : Aug σ) (i : Info σ) : HasListAugmenter a i ↔
    ∃ p x g, nodeAt (skel a) p = some x ∧ g ∈ x.groups ∧ g.hidden = some i := by
  constructor
  · rintro ⟨p, x, g, hp, hg, hi⟩
    refine ⟨p, skel x, skelGroup g, by rw [skel_node, hp]; rfl, ?_, by rw [skelGroup_hidden, hi]⟩
    cases x with
    | node j gs =>
      simp only [Aug.groups] at hg
      simp only [skel, Aug.groups, skelGroups_map]
      exact List.mem_map_of_mem hg
  · rintro ⟨p, x, g, hp, hg, hi⟩
    rw [skel_node, Option.map_eq_some_iff] at hp
    obtain ⟨y, hy, rfl⟩ := hp
    cases y with
    | node j gs =>
      simp only [skel, Aug.groups, skelGroups_map, List.mem_map] at hg
      obtain ⟨g', hg', rfl⟩ := hg
      exact ⟨p, _, g', hy, hg', by rw [← skelGroup_hidden, hi]⟩

theorem skel_hidden_iff {a b : Aug σ} (h : skel a = skel b) (i : Info σ) :
    HasListAugmenter a i ↔ HasListAugmenter b i := by
  rw [skel_hidden, skel_hidden, h]

section
variable {τ : Type} (step : Info σ → τ → Info σ × τ)
mutual
theorem trav_skel : (a : Aug σ) → (s : τ) → skel (trav step a s).1 = skel a
  | .node i gs, s => by simp only [trav, skel, travGroups_skel gs]
theorem travGroups_skel : (gs : List (Group σ)) → (s : τ) → skelGroups (travGroups step gs s).1 = skelGroups gs
  | [], s => by simp only [travGroups]
  | x :: xs, s => by simp only [travGroups, skelGroups, travGroups_skel xs, travGroup_skel x]
theorem travGroup_skel : (x : Group σ) → (s : τ) → skelGroup (travGroup step x s).1 = skelGroup x
  | .group h cs, s => by simp only [travGroup, skelGroup, travForest_skel cs]
theorem travForest_skel : (cs : List (Aug σ)) → (s : τ) → skelForest (travForest step cs s).1 = skelForest cs
  | [], s => by simp only [travForest]
  | c :: cs, s => by simp only [travForest, skelForest, travForest_skel cs, trav_skel c]
end
end

section
variable (derive : σ → σ × σ) (t : Bool)
mutual
theorem seed_skel : (a : Aug σ) → (s : σ) → skel (seed derive t a s) = skel a
  | .node i gs, s => by simp only [seed, skel, seedGroups_skel gs]
theorem seedGroups_skel : (gs : List (Group σ)) → (s : σ) → skelGroups (seedGroups derive t gs s).1 = skelGroups gs
  | [], s => by simp only [seedGroups]
  | x :: xs, s => by simp only [seedGroups, skelGroups, seedGroups_skel xs, seedGroup_skel x]
theorem seedGroup_skel : (x : Group σ) → (s : σ) → skelGroup (seedGroup derive t x s).1 = skelGroup x
  | .group h cs, s => by simp only [seedGroup, skelGroup, seedForest_skel cs]
theorem seedForest_skel : (cs : List (Aug σ)) → (s : σ) → skelForest (seedForest derive t cs s).1 = skelForest cs
  | [], s => by simp only [seedForest]
  | c :: cs, s => by simp only [seedForest, skelForest, seedForest_skel cs, seed_skel c]
end

/-! ### seeding -/

theorem advanced_succ (n : Nat) (s : σ) : advanced derive (n + 1) s = advanced derive n (derive s).1 := by
  simp only [advanced, Function.iterate_succ, Function.comp]

theorem advanced_add (m n : Nat) (s : σ) : advanced derive (m + n) s = advanced derive n (advanced derive m s) := by
  simp only [advanced]
  rw [Nat.add_comm, Function.iterate_add, Function.comp]

theorem derived_succ (n : Nat) (s : σ) : derived derive (n + 1) s = derived derive n (derive s).1 := by
  simp only [derived, advanced_succ]

theorem derived_advanced (m n : Nat) (s : σ) : derived derive n (advanced derive m s) = derived derive (m + n) s := by
  simp only [derived, advanced_add]

theorem seedForest_spec (cs : List (Aug σ)) (s : σ) :
    (seedForest derive t cs s).2 = advanced derive cs.length s ∧
    ∀ k : Nat, (seedForest derive t cs s).1[k]? = (cs[k]?).map (fun (c : Aug σ) => seed derive t c (derived derive k s)) := by
  induction cs generalizing s with
  | nil => simp [seedForest, advanced]
  | cons c cs ih =>
    simp only [seedForest, List.length_cons, advanced_succ]
    refine ⟨(ih _).1, ?_⟩
    intro k
    cases k with
    | zero => simp [derived, advanced]
    | succ k => simp only [List.getElem?_cons_succ, (ih _).2, derived_succ]

theorem seedGroup_spec (g : Group σ) (s : σ) :
    (seedGroup derive t g s).2 = advanced derive g.children.length s ∧
    ∀ k : Nat, (seedGroup derive t g s).1.children[k]? =
      (g.children[k]?).map (fun (c : Aug σ) => seed derive t c (derived derive k s)) := by
  cases g with
  | group h cs =>
    simp only [seedGroup, Group.children]
    exact seedForest_spec derive t cs s

theorem seedGroups_spec (gs : List (Group σ)) (s : σ) (j : Nat) :
    (seedGroups derive t gs s).1[j]? = (gs[j]?).map (fun (g : Group σ) =>
      (seedGroup derive t g (advanced derive ((gs.take j).map (fun g => g.children.length)).sum s)).1) := by
  induction gs generalizing s j with
  | nil => simp [seedGroups]
  | cons g gs ih =>
    simp only [seedGroups]
    cases j with
    | zero => simp [advanced]
    | succ j =>
      simp only [List.getElem?_cons_succ, ih, List.take_succ_cons, List.map_cons, List.sum_cons, advanced_add,
        (seedGroup_spec derive t g s).1]

theorem seed_child (a : Aug σ) (s : σ) (k : Nat × Nat) :
    childAt (seed derive t a s) k = (childAt a k).map (fun c => seed derive t c (derived derive (childRank a k) s)) := by
  cases a with
  | node i gs =>
    simp only [childAt, seed, Aug.groups, seedGroups_spec, childRank]
    cases gs[k.1]? with
    | none => rfl
    | some g =>
      simp only [Option.map_some, Option.bind_some, (seedGroup_spec derive t g _).2, derived_advanced]

theorem seed_node (p : Pos) : ∀ (a : Aug σ) (s : σ),
    nodeAt (seed derive t a s) p = (nodeAt a p).map (fun x => seed derive t x (stateAt derive a s p)) := by
  induction p with
  | nil => intro a s; rfl
  | cons k p ih =>
    intro a s
    simp only [nodeAt, seed_child, stateAt]
    cases childAt a k with
    | none => rfl
    | some c => simp [ih]

theorem seed_info (a : Aug σ) (s : σ) : (seed derive t a s).info = seedInfo s t a.info := by
  cases a; simp only [seed, info_node]
end

/-! ### shape determines the states -/

theorem sum_take {α : Type} (f : α → Nat) (gs : List α) (j : Nat) :
    ((gs.take j).map f).sum = ((List.range j).map (fun (i : Nat) => ((gs[i]?).map f).getD 0)).sum := by
  induction j with
  | zero => simp
  | succ j ih =>
    rw [List.range_succ, List.map_append, List.sum_append, ← ih, List.take_add_one, List.map_append, List.sum_append]
    congr 1
    cases h : gs[j]? <;> simp [h]

theorem length_of_isSome {α : Type} (l m : List α) (h : ∀ k : Nat, (l[k]?).isSome = (m[k]?).isSome) : l.length = m.length := by
  by_contra hne
  rcases Nat.lt_or_gt_of_ne hne with hlt | hlt
  · have := h l.length
    simp [hlt] at this
  · have := h m.length
    simp [hlt] at this

theorem shape_rank {a b : Aug σ} (h : SameShape a b) (k : Nat × Nat) : childRank a k = childRank b k := by
  unfold childRank
  congr 1
  rw [sum_take, sum_take]
  congr 1
  apply List.map_congr_left
  intro j _
  have hc : ∀ m : Nat, (childAt a (j, m)).isSome = (childAt b (j, m)).isSome := by
    intro m
    have := h [(j, m)]
    simpa [nodeAt] using this
  have ha : ∀ x : Aug σ, ((x.groups[j]?).map (fun g => g.children.length)).getD 0 =
      (((x.groups[j]?).map Group.children).getD []).length := by
    intro x; cases x.groups[j]? <;> simp
  rw [ha, ha]
  apply length_of_isSome
  intro m
  have hx : ∀ x : Aug σ, (((x.groups[j]?).map Group.children).getD [])[m]? = childAt x (j, m) := by
    intro x
    unfold childAt
    cases x.groups[j]? <;> simp
  rw [hx, hx, hc m]

theorem shape_child {a b : Aug σ} (h : SameShape a b) {k : Nat × Nat} {c d : Aug σ} (hc : childAt a k = some c)
    (hd : childAt b k = some d) : SameShape c d := by
  intro p
  have := h (k :: p)
  simpa [nodeAt, hc, hd] using this

theorem shape_state (derive : σ → σ × σ) (p : Pos) : ∀ {a b : Aug σ} (s : σ), SameShape a b → (nodeAt a p).isSome →
    stateAt derive a s p = stateAt derive b s p := by
  induction p with
  | nil => intros; rfl
  | cons k p ih =>
    intro a b s h hs
    have h1 := h [k]
    simp only [nodeAt] at h1 hs
    cases hc : childAt a k with
    | none => simp [hc] at hs
    | some c =>
      cases hd : childAt b k with
      | none => simp [hc, hd] at h1
      | some d =>
        simp only [hc, Option.bind_some] at hs
        simp only [stateAt, hc, hd, Option.map_some, Option.getD_some, shape_rank h]
        exact ih _ (shape_child h hc hd) hs

/-! ### list forms -/

theorem localize_list (derive : σ → σ × σ) (l : List (Info σ)) (g : σ) :
    (travList (localizeInfo derive) l g).2 = advanced derive (globalsBefore l l.length) g ∧
    ∀ n : Nat, (travList (localizeInfo derive) l g).1[n]? = (l[n]?).map (fun (i : Info σ) =>
      match i.rng with
      | .global => { i with rng := .loc (derived derive (globalsBefore l n) g) }
      | .loc _ => i) := by
  induction l generalizing g with
  | nil => simp [travList, advanced, globalsBefore]
  | cons i l ih =>
    obtain ⟨nm, r, d⟩ := i
    cases r with
    | global =>
      simp only [travList, localizeInfo, List.length_cons]
      constructor
      · rw [(ih _).1]
        simp only [globalsBefore, List.take_succ_cons, List.countP_cons, if_true]
        rw [advanced_succ]
      · intro n
        cases n with
        | zero => simp [globalsBefore, derived, advanced]
        | succ n =>
          simp only [List.getElem?_cons_succ, (ih _).2, globalsBefore, List.take_succ_cons, List.countP_cons, if_true,
            derived_succ]
    | loc s =>
      simp only [travList, localizeInfo, List.length_cons]
      constructor
      · rw [(ih _).1]
        simp [globalsBefore]
      · intro n
        cases n with
        | zero => simp
        | succ n =>
          simp only [List.getElem?_cons_succ, (ih _).2, globalsBefore, List.take_succ_cons, List.countP_cons]
          simp

theorem assign_list (xs l : List (Info σ)) :
    (travList assignStep xs l).2 = l.drop xs.length ∧
    ∀ n : Nat, n < xs.length → (travList assignStep xs l).1[n]? = some ((l[n]?).getD (xs[n]?.getD ⟨"", .global, false⟩)) := by
  induction xs generalizing l with
  | nil => simp [travList]
  | cons x xs ih =>
    simp only [travList, assignStep, List.length_cons]
    constructor
    · rw [(ih _).1]; simp
    · intro n hn
      cases n with
      | zero => cases l <;> simp
      | succ n =>
        simp only [List.getElem?_cons_succ]
        rw [(ih _).2 n (by omega)]
        cases l <;> simp

theorem travList_length {τ : Type} (step : Info σ → τ → Info σ × τ) (l : List (Info σ)) (s : τ) :
    (travList step l s).1.length = l.length := by
  induction l generalizing s with
  | nil => rfl
  | cons i l ih => simp [travList, ih]

theorem takeOver_loc (copyDet : Bool) (s t : Info σ) (h : s.rng ≠ .global) : takeOver copyDet s t =
    some ⟨t.name, s.rng, if copyDet then s.deterministic else t.deterministic⟩ := by
  obtain ⟨n, r, d⟩ := s
  cases r with
  | global => exact absurd rfl h
  | loc s => rfl

theorem takeOver_mapM (copyDet : Bool) (source target : List (Aug σ)) (hloc : ∀ x ∈ source, x.info.rng ≠ .global) :
    (source.zip target).mapM (fun x => takeOver copyDet x.1.info x.2.info) =
      some ((source.zip target).map (fun x => Info.mk x.2.info.name x.1.info.rng
        (if copyDet then x.1.info.deterministic else x.2.info.deterministic))) := by
  induction source generalizing target with
  | nil => rfl
  | cons s source ih =>
    cases target with
    | nil => rfl
    | cons t target =>
      simp only [List.zip_cons_cons, List.mapM_cons, List.map_cons]
      rw [ih target (fun x hx => hloc x (by simp [hx])), takeOver_loc _ _ _ (hloc s (by simp))]
      rfl

theorem mapM_none_of_mem {α β : Type} (f : α → Option β) (l : List α) (x : α) (hx : x ∈ l) (h : f x = none) :
    l.mapM f = none := by
  induction l with
  | nil => simp at hx
  | cons y l ih =>
    rw [List.mapM_cons]
    rcases List.mem_cons.1 hx with rfl | hx
    · simp [h]
    · rw [ih hx]
      cases f y <;> rfl

theorem lastNamed_some (source : List (Info σ)) (hs : (source.map Info.name).Nodup) (s : Info σ) (h : s ∈ source) :
    lastNamed source s.name = some s := by
  unfold lastNamed
  have : source.filter (fun i => i.name == s.name) = [s] := by
    induction source with
    | nil => simp at h
    | cons x xs ih =>
      rw [List.map_cons, List.nodup_cons] at hs
      rcases List.mem_cons.1 h with rfl | h
      · rw [List.filter_cons_of_pos (by simp)]
        congr 1
        rw [List.filter_eq_nil_iff]
        intro y hy he
        apply hs.1
        rw [← beq_iff_eq.1 he]
        exact List.mem_map_of_mem hy
      · rw [List.filter_cons_of_neg, ih hs.2 h]
        intro he
        apply hs.1
        rw [beq_iff_eq.1 he]
        exact List.mem_map_of_mem h
  rw [this]; rfl

theorem lastNamed_none (source : List (Info σ)) (n : String) (h : ∀ s ∈ source, s.name ≠ n) : lastNamed source n = none := by
  unfold lastNamed
  have : source.filter (fun i => i.name == n) = [] := by
    rw [List.filter_eq_nil_iff]
    intro y hy he
    exact h y hy (beq_iff_eq.1 he)
  rw [this]; rfl

theorem namedUpdates_spec (copyDet : Bool) (source target : List (Info σ)) (hs : (source.map Info.name).Nodup)
    (ht : (target.map Info.name).Nodup) (hloc : ∀ i ∈ source, i.rng ≠ .global) :
    ∃ l, namedUpdates true copyDet source target = some l ∧ l.length = target.length ∧
      ∀ (n : Nat) (t : Info σ), target[n]? = some t → ∃ i, l[n]? = some i ∧
        (∀ s ∈ source, s.name = t.name → i = ⟨t.name, s.rng, if copyDet then s.deterministic else t.deterministic⟩) ∧
        ((∀ s ∈ source, s.name ≠ t.name) → i = t) := by
  induction target with
  | nil => exact ⟨[], rfl, rfl, by intro n t h; simp at h⟩
  | cons t ts ih =>
    rw [List.map_cons, List.nodup_cons] at ht
    obtain ⟨l, hl, hlen, hget⟩ := ih ht.2
    have hany : ts.any (fun t' => t'.name == t.name) = false := by
      rw [List.any_eq_false]
      intro x hx he
      apply ht.1
      rw [← beq_iff_eq.1 he]
      exact List.mem_map_of_mem hx
    by_cases hex : ∃ s ∈ source, s.name = t.name
    · obtain ⟨s, hsm, hsn⟩ := hex
      have hlast := lastNamed_some source hs s hsm
      rw [hsn] at hlast
      refine ⟨⟨t.name, s.rng, if copyDet then s.deterministic else t.deterministic⟩ :: l, ?_, by simp [hlen], ?_⟩
      · simp only [namedUpdates, hany, hlast, hl, takeOver_loc _ _ _ (hloc s hsm)]
        rfl
      · intro n t' hn
        cases n with
        | zero =>
          simp at hn
          subst hn
          refine ⟨_, rfl, ?_, ?_⟩
          · intro s' hs' hn'
            have := lastNamed_some source hs s' hs'
            rw [hn', hlast] at this
            injection this with this
            subst this; rfl
          · intro h; exact absurd hsn (h s hsm)
        | succ n => exact hget n t' (by simpa using hn)
    · push Not at hex
      refine ⟨t :: l, ?_, by simp [hlen], ?_⟩
      · simp only [namedUpdates, hany, lastNamed_none source t.name hex, hl]
        rfl
      · intro n t' hn
        cases n with
        | zero =>
          simp at hn
          subst hn
          exact ⟨_, rfl, fun s hs' hn' => absurd hn' (hex s hs'), fun _ => rfl⟩
        | succ n => exact hget n t' (by simpa using hn)

/-- The `n`-th entry is the last one of its name. -/
def LastName (l : List (Info σ)) (n : Nat) : Prop :=
  ∀ (m : Nat) (i j : Info σ), n < m → l[n]? = some i → l[m]? = some j → j.name ≠ i.name

theorem lastName_cons (a : Info σ) (l : List (Info σ)) :
    (LastName (a :: l) 0 ↔ ∀ b ∈ l, b.name ≠ a.name) ∧ ∀ n, LastName (a :: l) (n + 1) ↔ LastName l n := by
  refine ⟨⟨fun h b hb => ?_, fun h m i j hm hi hj => ?_⟩, fun n => ⟨fun h m i j hm hi hj => ?_, fun h m i j hm hi hj => ?_⟩⟩
  · obtain ⟨m, hm⟩ := List.mem_iff_getElem?.1 hb
    exact h (m + 1) a b (by omega) rfl hm
  · obtain ⟨m', rfl⟩ : ∃ m', m = m' + 1 := ⟨m - 1, by omega⟩
    cases hi
    exact h j (List.mem_of_getElem? hj)
  · exact h (m + 1) i j (by omega) hi hj
  · obtain ⟨m', rfl⟩ : ∃ m', m = m' + 1 := ⟨m - 1, by omega⟩
    exact h m' i j (by omega) hi hj

theorem lastNamed_gen (l : List (Info σ)) (n : String) :
    (lastNamed l n = none ↔ ∀ s ∈ l, s.name ≠ n) ∧
    (∀ s, lastNamed l n = some s ↔ ∃ m : Nat, l[m]? = some s ∧ s.name = n ∧ LastName l m) := by
  induction l with
  | nil => simp [lastNamed]
  | cons a l ih =>
    have hc : lastNamed (a :: l) n = (lastNamed l n).or (if a.name = n then some a else none) := by
      unfold lastNamed
      by_cases h : a.name = n
      · rw [List.filter_cons_of_pos (by simpa using h), List.getLast?_cons, if_pos h]
        cases (l.filter (fun i => i.name == n)).getLast? <;> rfl
      · rw [List.filter_cons_of_neg (by simpa using h), if_neg h, Option.or_none]
    have hl := lastName_cons a l
    rw [hc]
    cases hln : lastNamed l n with
    | none =>
      have hno := ih.1.1 hln
      rw [Option.none_or]
      by_cases h : a.name = n
      · rw [if_pos h]
        refine ⟨⟨fun h => (by cases h), fun h' => absurd h (h' a (by simp))⟩, fun s => ⟨?_, ?_⟩⟩
        · rintro ⟨⟩
          exact ⟨0, rfl, h, hl.1.2 (fun b hb => by rw [h]; exact hno b hb)⟩
        · rintro ⟨m, hm, hn, -⟩
          cases m with
          | zero => exact hm
          | succ m => exact absurd hn (hno s (List.mem_of_getElem? hm))
      · rw [if_neg h]
        refine ⟨⟨fun _ s hs => ?_, fun _ => rfl⟩, fun s => ⟨fun h => (by cases h), ?_⟩⟩
        · rcases List.mem_cons.1 hs with rfl | hs
          · exact h
          · exact hno s hs
        · rintro ⟨m, hm, hn, -⟩
          cases m with
          | zero => cases hm; exact absurd hn h
          | succ m => exact absurd hn (hno s (List.mem_of_getElem? hm))
    | some x =>
      rw [Option.some_or]
      obtain ⟨m, hm, hn, hlast⟩ := (ih.2 x).1 hln
      refine ⟨⟨fun h => (by cases h), fun h => absurd hn (h x (List.mem_cons_of_mem _ (List.mem_of_getElem? hm)))⟩, fun s => ⟨?_, ?_⟩⟩
      · rintro ⟨⟩
        exact ⟨m + 1, hm, hn, (hl.2 m).2 hlast⟩
      · rintro ⟨k, hk, hkn, hkl⟩
        cases k with
        | zero =>
          cases hk
          exact absurd (hn.trans hkn.symm) (hl.1.1 hkl x (List.mem_of_getElem? hm))
        | succ k =>
          rw [← hln]
          exact (ih.2 s).2 ⟨k, hk, hkn, (hl.2 k).1 hkl⟩

theorem namedUpdates_gen (tolerant copyDet : Bool) (source target : List (Info σ)) :
    (namedUpdates tolerant copyDet source target = none ↔ ∃ (n : Nat) (t : Info σ), target[n]? = some t ∧ LastName target n ∧
      ((∃ (m : Nat) (s : Info σ), source[m]? = some s ∧ s.name = t.name ∧ LastName source m ∧ s.rng = .global) ∨
       (tolerant = false ∧ ∀ s ∈ source, s.name ≠ t.name))) ∧
    (∀ l, namedUpdates tolerant copyDet source target = some l → l.length = target.length ∧
      ∀ (n : Nat) (t : Info σ), target[n]? = some t → ∃ i, l[n]? = some i ∧
        (¬ LastName target n → i = t) ∧ ((∀ s ∈ source, s.name ≠ t.name) → i = t) ∧
        (LastName target n → ∀ (m : Nat) (s : Info σ), source[m]? = some s → s.name = t.name → LastName source m →
          i = ⟨t.name, s.rng, if copyDet then s.deterministic else t.deterministic⟩)) := by
  induction target with
  | nil =>
    refine ⟨⟨fun h => (by cases h), fun ⟨n, t, h, _⟩ => by simp at h⟩, fun l hl => ?_⟩
    cases hl
    exact ⟨rfl, fun n t h => by simp at h⟩
  | cons t ts ih =>
    have hlc := lastName_cons t ts
    -- the entry for `t`
    have hstep : ∃ o : Option (Info σ), namedUpdates tolerant copyDet source (t :: ts) =
        o.bind (fun t' => (namedUpdates tolerant copyDet source ts).map (t' :: ·)) ∧
        (o = none ↔ LastName (t :: ts) 0 ∧
          ((∃ (m : Nat) (s : Info σ), source[m]? = some s ∧ s.name = t.name ∧ LastName source m ∧ s.rng = .global) ∨
           (tolerant = false ∧ ∀ s ∈ source, s.name ≠ t.name))) ∧
        ∀ i, o = some i → (¬ LastName (t :: ts) 0 → i = t) ∧ ((∀ s ∈ source, s.name ≠ t.name) → i = t) ∧
          (LastName (t :: ts) 0 → ∀ (m : Nat) (s : Info σ), source[m]? = some s → s.name = t.name → LastName source m →
            i = ⟨t.name, s.rng, if copyDet then s.deterministic else t.deterministic⟩) := by
      refine ⟨_, by rw [namedUpdates], ?_⟩
      have hg := lastNamed_gen source t.name
      by_cases hany : ts.any (fun t' => t'.name == t.name) = true
      · have hnl : ¬ LastName (t :: ts) 0 := by
          rw [hlc.1]
          intro h
          obtain ⟨x, hx, he⟩ := List.any_eq_true.1 hany
          exact h x hx (by simpa using he)
        rw [if_pos hany]
        refine ⟨⟨fun h => (by cases h), fun h => absurd h.1 hnl⟩, ?_⟩
        rintro i ⟨⟩
        exact ⟨fun _ => rfl, fun _ => rfl, fun h => absurd h hnl⟩
      · have hil : LastName (t :: ts) 0 := by
          rw [hlc.1]
          intro x hx he
          exact hany (List.any_eq_true.2 ⟨x, hx, by simpa using he⟩)
        rw [if_neg hany]
        cases hln : lastNamed source t.name with
        | none =>
          have hno := hg.1.1 hln
          cases tolerant with
          | true =>
            refine ⟨⟨fun h => (by cases h), ?_⟩, ?_⟩
            · rintro ⟨-, ⟨m, s, hs, hn, -⟩ | ⟨h, -⟩⟩
              · exact absurd hn (hno s (List.mem_of_getElem? hs))
              · cases h
            · rintro i ⟨⟩
              exact ⟨fun _ => rfl, fun _ => rfl, fun _ m s hs hn _ => absurd hn (hno s (List.mem_of_getElem? hs))⟩
          | false =>
            refine ⟨⟨fun _ => ⟨hil, Or.inr ⟨rfl, hno⟩⟩, fun _ => rfl⟩, ?_⟩
            rintro i h
            cases h
        | some s =>
          obtain ⟨m, hm, hn, hls⟩ := (hg.2 s).1 hln
          have huniq : ∀ (m' : Nat) (s' : Info σ), source[m']? = some s' → s'.name = t.name → LastName source m' → s' = s := by
            intro m' s' h1 h2 h3
            have := (hg.2 s').2 ⟨m', h1, h2, h3⟩
            rw [hln] at this
            cases this; rfl
          simp only [takeOver]
          cases hr : s.rng with
          | global =>
            refine ⟨⟨fun _ => ⟨hil, Or.inl ⟨m, s, hm, hn, hls, hr⟩⟩, fun _ => rfl⟩, ?_⟩
            rintro i h
            cases h
          | loc g =>
            refine ⟨⟨fun h => (by cases h), ?_⟩, ?_⟩
            · rintro ⟨-, ⟨m', s', h1, h2, h3, h4⟩ | ⟨-, h⟩⟩
              · rw [huniq m' s' h1 h2 h3, hr] at h4; cases h4
              · exact absurd hn (h s (List.mem_of_getElem? hm))
            · rintro i ⟨⟩
              refine ⟨fun h => absurd hil h, fun h => absurd hn (h s (List.mem_of_getElem? hm)), ?_⟩
              intro _ m' s' h1 h2 h3
              rw [huniq m' s' h1 h2 h3, hr]
    obtain ⟨o, ho, honone, hosome⟩ := hstep
    rw [ho]
    refine ⟨?_, fun l hl => ?_⟩
    · rw [Option.bind_eq_none_iff]
      constructor
      · intro h
        cases o with
        | none => exact ⟨0, t, rfl, honone.1 rfl⟩
        | some i =>
          have := h i rfl
          rw [Option.map_eq_none_iff] at this
          obtain ⟨n, t', h1, h2, h3⟩ := ih.1.1 this
          exact ⟨n + 1, t', h1, (hlc.2 n).2 h2, h3⟩
      · rintro ⟨n, t', h1, h2, h3⟩ i hi
        cases n with
        | zero =>
          cases h1
          rw [honone.2 ⟨h2, h3⟩] at hi
          cases hi
        | succ n =>
          rw [Option.map_eq_none_iff]
          exact ih.1.2 ⟨n, t', h1, (hlc.2 n).1 h2, h3⟩
    · obtain ⟨i, hi, h⟩ := Option.bind_eq_some_iff.1 hl
      obtain ⟨l', hl', rfl⟩ := Option.map_eq_some_iff.1 h
      obtain ⟨hlen, hget⟩ := ih.2 l' hl'
      refine ⟨by simp [hlen], fun n t' hn => ?_⟩
      cases n with
      | zero =>
        cases hn
        exact ⟨i, rfl, hosome i hi⟩
      | succ n =>
        obtain ⟨j, hj, h1, h2, h3⟩ := hget n t' hn
        exact ⟨j, hj, fun h => h1 (fun h' => h ((hlc.2 n).2 h')), h2, fun h => h3 ((hlc.2 n).1 h)⟩

end Imgaug.Tree
