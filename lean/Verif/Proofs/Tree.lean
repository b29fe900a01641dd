import Verif.Spec.Tree
import Mathlib.Data.List.Perm.Basic
import Mathlib.Tactic.Linarith
namespace Imgaug.Tree
variable {σ : Type}

/-! ### positions -/
mutual
def posAug : Aug σ → List Pos
  | .node _ gs => [] :: posGroups gs 0
def posGroups : List (Group σ) → Nat → List Pos
  | [], _ => []
  | g :: gs, j => posGroup g j ++ posGroups gs (j + 1)
def posGroup : Group σ → Nat → List Pos
  | .group _ cs, j => posForest cs j 0
def posForest : List (Aug σ) → Nat → Nat → List Pos
  | [], _, _ => []
  | c :: cs, j, k => (posAug c).map ((j, k) :: ·) ++ posForest cs j (k + 1)
end

theorem before_irrefl : ∀ p, ¬ Before p p
  | [] => by simp [Before]
  | k :: p => by simp [Before, before_irrefl p]

theorem before_trans : ∀ p q r, Before p q → Before q r → Before p r
  | [], [], _, h, _ => by simp [Before] at h
  | [], _ :: _, [], _, h => by simp [Before] at h
  | [], _ :: _, _ :: _, _, _ => by simp [Before]
  | _ :: _, [], _, h, _ => by simp [Before] at h
  | _ :: _, _ :: _, [], _, h => by simp [Before] at h
  | k :: p, l :: q, m :: r, h1, h2 => by
    simp only [Before] at *
    have := before_trans p q r
    rcases h1 with h1 | ⟨h1, h1 | ⟨h1', h1⟩⟩ <;> rcases h2 with h2 | ⟨h2, h2 | ⟨h2', h2⟩⟩
    · left; omega
    · left; omega
    · left; omega
    · left; omega
    · right; exact ⟨by omega, Or.inl (by omega)⟩
    · right; exact ⟨by omega, Or.inl (by omega)⟩
    · left; omega
    · right; exact ⟨by omega, Or.inl (by omega)⟩
    · right; exact ⟨by omega, Or.inr ⟨by omega, this h1 h2⟩⟩

/-- Two depth-first lists of positions of the same tree (or of trees of the same shape) are equal. -/
theorem preorder_unique {a b : Aug σ} {ps qs : List Pos} (h : SameShape a b) (hp : IsPreorder a ps)
    (hq : IsPreorder b qs) : ps = qs := by
  have nd : ∀ {l : List Pos}, l.Pairwise Before → l.Nodup := by
    intro l hl
    refine List.Pairwise.imp ?_ hl
    intro x y hxy e
    subst e
    exact before_irrefl _ hxy
  have hperm : ps.Perm qs := by
    rw [List.perm_ext_iff_of_nodup (nd hp.1) (nd hq.1)]
    intro p
    rw [hp.2, hq.2, h p]
  refine hperm.eq_of_pairwise (le := Before) ?_ hp.1 hq.1
  intro x y _ _ hxy hyx
  exact absurd (before_trans _ _ _ hxy hyx) (before_irrefl _)

mutual
theorem posAug_pairwise : (a : Aug σ) → (posAug a).Pairwise Before
  | .node i gs => by
    simp only [posAug, List.pairwise_cons]
    refine ⟨?_, posGroups_pairwise gs 0⟩
    intro p hp
    obtain ⟨k, q, rfl, _⟩ := posGroups_heads gs 0 p hp
    simp [Before]
theorem posGroups_pairwise : (gs : List (Group σ)) → (j : Nat) → (posGroups gs j).Pairwise Before
  | [], _ => by simp [posGroups]
  | g :: gs, j => by
    simp only [posGroups, List.pairwise_append]
    refine ⟨posGroup_pairwise g j, posGroups_pairwise gs (j + 1), ?_⟩
    intro p hp q hq
    obtain ⟨k, p', rfl, hk⟩ := posGroup_heads g j p hp
    obtain ⟨l, q', rfl, hl⟩ := posGroups_heads gs (j + 1) q hq
    simp only [Before]
    left; omega
theorem posGroup_pairwise : (g : Group σ) → (j : Nat) → (posGroup g j).Pairwise Before
  | .group _ cs, j => by simp only [posGroup]; exact posForest_pairwise cs j 0
theorem posForest_pairwise : (cs : List (Aug σ)) → (j k : Nat) → (posForest cs j k).Pairwise Before
  | [], _, _ => by simp [posForest]
  | c :: cs, j, k => by
    simp only [posForest, List.pairwise_append]
    refine ⟨?_, posForest_pairwise cs j (k + 1), ?_⟩
    · rw [List.pairwise_map]
      refine (posAug_pairwise c).imp ?_
      intro x y h
      simp only [Before]
      right; exact ⟨trivial, Or.inr ⟨trivial, h⟩⟩
    · intro p hp q hq
      obtain ⟨p', _, rfl⟩ := List.mem_map.1 hp
      obtain ⟨l, q', rfl, h1, h2⟩ := posForest_heads cs j (k + 1) q hq
      simp only [Before]
      right; exact ⟨h1.symm, Or.inl (by omega)⟩
theorem posGroups_heads : (gs : List (Group σ)) → (j : Nat) → ∀ p ∈ posGroups gs j, ∃ k q, p = k :: q ∧ j ≤ k.1
  | [], _ => by simp [posGroups]
  | g :: gs, j => by
    intro p hp
    simp only [posGroups, List.mem_append] at hp
    rcases hp with hp | hp
    · obtain ⟨k, q, rfl, h⟩ := posGroup_heads g j p hp
      exact ⟨k, q, rfl, by omega⟩
    · obtain ⟨k, q, rfl, h⟩ := posGroups_heads gs (j + 1) p hp
      exact ⟨k, q, rfl, by omega⟩
theorem posGroup_heads : (g : Group σ) → (j : Nat) → ∀ p ∈ posGroup g j, ∃ k q, p = k :: q ∧ k.1 = j
  | .group _ cs, j => by
    intro p hp
    obtain ⟨k, q, h1, h2, _⟩ := posForest_heads cs j 0 p (by simpa only [posGroup] using hp)
    exact ⟨k, q, h1, h2⟩
theorem posForest_heads : (cs : List (Aug σ)) → (j k : Nat) → ∀ p ∈ posForest cs j k,
    ∃ l q, p = l :: q ∧ l.1 = j ∧ k ≤ l.2
  | [], _, _ => by simp [posForest]
  | c :: cs, j, k => by
    intro p hp
    simp only [posForest, List.mem_append] at hp
    rcases hp with hp | hp
    · obtain ⟨q, _, rfl⟩ := List.mem_map.1 hp
      exact ⟨_, q, rfl, rfl, le_rfl⟩
    · obtain ⟨l, q, rfl, h1, h2⟩ := posForest_heads cs j (k + 1) p hp
      exact ⟨l, q, rfl, h1, by omega⟩
end

/-- Node below a list of groups, the first of which has number `j`. -/
def nodeIn (gs : List (Group σ)) (k : Nat × Nat) (p : Pos) : Option (Aug σ) :=
  ((gs[k.1]?).bind (fun (g : Group σ) => g.children[k.2]?)).bind (fun c => nodeAt c p)

theorem nodeAt_cons (i : Info σ) (gs : List (Group σ)) (k : Nat × Nat) (p : Pos) :
    nodeAt (.node i gs) (k :: p) = nodeIn gs k p := rfl

mutual
theorem posAug_complete : (a : Aug σ) → ∀ p, p ∈ posAug a ↔ (nodeAt a p).isSome
  | .node i gs, [] => by simp [posAug, nodeAt]
  | .node i gs, k :: p => by
    rw [nodeAt_cons]
    have := posGroups_complete gs 0 k p
    simp only [posAug, List.mem_cons, reduceCtorEq, false_or, this, Nat.sub_zero, Nat.zero_le, true_and]
theorem posGroups_complete : (gs : List (Group σ)) → (j : Nat) → ∀ (k : Nat × Nat) (p : Pos),
    k :: p ∈ posGroups gs j ↔ j ≤ k.1 ∧ (nodeIn gs (k.1 - j, k.2) p).isSome
  | [], _, k, p => by simp [posGroups, nodeIn]
  | g :: gs, j, k, p => by
    simp only [posGroups, List.mem_append, posGroups_complete gs (j + 1) k p, posGroup_complete g j k p]
    constructor
    · rintro (⟨h, h'⟩ | ⟨h, h'⟩)
      · refine ⟨by omega, ?_⟩
        simpa [nodeIn, h] using h'
      · refine ⟨by omega, ?_⟩
        have e : k.1 - j = (k.1 - (j + 1)) + 1 := by omega
        simpa [nodeIn, e] using h'
    · rintro ⟨h, h'⟩
      by_cases hk : k.1 = j
      · left
        refine ⟨hk, ?_⟩
        simpa [nodeIn, hk] using h'
      · right
        have e : k.1 - j = (k.1 - (j + 1)) + 1 := by omega
        refine ⟨by omega, ?_⟩
        simpa [nodeIn, e] using h'
theorem posGroup_complete : (g : Group σ) → (j : Nat) → ∀ (k : Nat × Nat) (p : Pos),
    k :: p ∈ posGroup g j ↔ k.1 = j ∧ ((g.children[k.2]?).bind (fun (c : Aug σ) => nodeAt c p)).isSome
  | .group h cs, j, k, p => by
    simp only [posGroup, posForest_complete cs j 0 k p, Group.children, Nat.zero_le, true_and, Nat.sub_zero]
theorem posForest_complete : (cs : List (Aug σ)) → (j m : Nat) → ∀ (k : Nat × Nat) (p : Pos),
    k :: p ∈ posForest cs j m ↔ k.1 = j ∧ m ≤ k.2 ∧ ((cs[k.2 - m]?).bind (fun (c : Aug σ) => nodeAt c p)).isSome
  | [], _, _, k, p => by simp [posForest]
  | c :: cs, j, m, k, p => by
    simp only [posForest, List.mem_append, posForest_complete cs j (m + 1) k p, List.mem_map]
    constructor
    · rintro (⟨q, hq, he⟩ | ⟨h1, h2, h3⟩)
      · injection he with he1 he2
        subst he1 he2
        refine ⟨rfl, le_rfl, ?_⟩
        simpa using (posAug_complete c q).1 hq
      · refine ⟨h1, by omega, ?_⟩
        have e : k.2 - m = (k.2 - (m + 1)) + 1 := by omega
        simpa [e] using h3
    · rintro ⟨h1, h2, h3⟩
      by_cases hk : k.2 = m
      · left
        refine ⟨p, (posAug_complete c p).2 (by simpa [hk] using h3), ?_⟩
        rw [← h1, ← hk]
      · right
        have e : k.2 - m = (k.2 - (m + 1)) + 1 := by omega
        refine ⟨h1, by omega, ?_⟩
        simpa [e] using h3
end

theorem posAug_preorder (a : Aug σ) : IsPreorder a (posAug a) := ⟨posAug_pairwise a, posAug_complete a⟩

theorem preorder_eq {a : Aug σ} {ps : List Pos} (h : IsPreorder a ps) : ps = posAug a :=
  preorder_unique (fun _ => rfl) h (posAug_preorder a)

/-! ### walking through a tree -/
section walk
variable {β : Type}

mutual
/-- Depth-first walk with ancestors. -/
def walk (F : Aug σ → List (Aug σ) → List β) : Aug σ → List (Aug σ) → List β
  | .node i gs, ps => F (.node i gs) ps ++ walkGroups F gs (ps ++ [.node i gs])
def walkGroups (F : Aug σ → List (Aug σ) → List β) : List (Group σ) → List (Aug σ) → List β
  | [], _ => []
  | g :: gs, ps => walkGroup F g ps ++ walkGroups F gs ps
def walkGroup (F : Aug σ → List (Aug σ) → List β) : Group σ → List (Aug σ) → List β
  | .group _ cs, ps => walkForest F cs ps
def walkForest (F : Aug σ → List (Aug σ) → List β) : List (Aug σ) → List (Aug σ) → List β
  | [], _ => []
  | c :: cs, ps => walk F c ps ++ walkForest F cs ps
end

/-- The value of `F` at a position. -/
def valAt (F : Aug σ → List (Aug σ) → List β) (a : Aug σ) (ps : List (Aug σ)) (p : Pos) : List β :=
  ((nodeAt a p).map (fun x => F x (ps ++ ancestors a p))).getD []

/-- The value of `F` at a position below one of the children `cs`, counted from `m`. -/
def valF (F : Aug σ → List (Aug σ) → List β) (cs : List (Aug σ)) (m : Nat) (ps : List (Aug σ)) : Pos → List β
  | [] => []
  | k :: p => ((cs[k.2 - m]?).map (fun (c : Aug σ) => valAt F c ps p)).getD []

def valG (F : Aug σ → List (Aug σ) → List β) (gs : List (Group σ)) (j : Nat) (ps : List (Aug σ)) : Pos → List β
  | [] => []
  | k :: p => ((gs[k.1 - j]?).map (fun (g : Group σ) => valF F g.children 0 ps (k :: p))).getD []

theorem valAt_cons (F : Aug σ → List (Aug σ) → List β) (i : Info σ) (gs : List (Group σ)) (ps : List (Aug σ))
    (k : Nat × Nat) (p : Pos) :
    valAt F (.node i gs) ps (k :: p) = valG F gs 0 (ps ++ [.node i gs]) (k :: p) := by
  simp only [valAt, valG, valF, nodeAt, ancestors, childAt, Aug.groups, Nat.sub_zero]
  cases gs[k.1]? with
  | none => rfl
  | some g =>
    simp only [Option.bind_some, Option.map_some, Option.getD_some]
    cases g.children[k.2]? with
    | none => rfl
    | some c => simp

mutual
theorem walk_eq (F : Aug σ → List (Aug σ) → List β) : (a : Aug σ) → (ps : List (Aug σ)) →
    walk F a ps = (posAug a).flatMap (valAt F a ps)
  | .node i gs, ps => by
    simp only [walk, posAug, List.flatMap_cons]
    congr 1
    · simp [valAt, nodeAt, ancestors]
    · rw [walkGroups_eq F gs 0]
      apply List.flatMap_congr
      intro q hq
      obtain ⟨k, q, rfl, _⟩ := posGroups_heads gs 0 q hq
      rw [valAt_cons]
theorem walkGroups_eq (F : Aug σ → List (Aug σ) → List β) : (gs : List (Group σ)) → (j : Nat) → (ps : List (Aug σ)) →
    walkGroups F gs ps = (posGroups gs j).flatMap (valG F gs j ps)
  | [], _, _ => by simp [walkGroups, posGroups]
  | g :: gs, j, ps => by
    simp only [walkGroups, posGroups, List.flatMap_append]
    congr 1
    · rw [walkGroup_eq F g j]
      apply List.flatMap_congr
      intro q hq
      obtain ⟨k, q, rfl, hk⟩ := posGroup_heads g j q hq
      simp [valG, hk]
    · rw [walkGroups_eq F gs (j + 1)]
      apply List.flatMap_congr
      intro q hq
      obtain ⟨k, q, rfl, hk⟩ := posGroups_heads gs (j + 1) q hq
      have e : k.1 - j = (k.1 - (j + 1)) + 1 := by omega
      simp [valG, e]
theorem walkGroup_eq (F : Aug σ → List (Aug σ) → List β) : (g : Group σ) → (j : Nat) → (ps : List (Aug σ)) →
    walkGroup F g ps = (posGroup g j).flatMap (valF F g.children 0 ps)
  | .group _ cs, j, ps => by
    simp only [walkGroup, posGroup, Group.children]
    exact walkForest_eq F cs j 0 ps
theorem walkForest_eq (F : Aug σ → List (Aug σ) → List β) : (cs : List (Aug σ)) → (j m : Nat) → (ps : List (Aug σ)) →
    walkForest F cs ps = (posForest cs j m).flatMap (valF F cs m ps)
  | [], _, _, _ => by simp [walkForest, posForest]
  | c :: cs, j, m, ps => by
    simp only [walkForest, posForest, List.flatMap_append]
    congr 1
    · rw [walk_eq F c, List.flatMap_map]
      apply List.flatMap_congr
      intro q _
      simp [valF]
    · rw [walkForest_eq F cs j (m + 1)]
      apply List.flatMap_congr
      intro q hq
      obtain ⟨k, q, rfl, _, hk⟩ := posForest_heads cs j (m + 1) q hq
      have e : k.2 - m = (k.2 - (m + 1)) + 1 := by omega
      simp [valF, e]
end
end walk

mutual
theorem all_walk : (a : Aug σ) → (ps : List (Aug σ)) → a :: allChildren a = walk (fun x _ => [x]) a ps
  | .node i gs, ps => by simp only [allChildren, walk, List.cons_append, List.nil_append, allGroups_walk gs (ps ++ [.node i gs])]
theorem allGroups_walk : (gs : List (Group σ)) → (ps : List (Aug σ)) → allGroups gs = walkGroups (fun x _ => [x]) gs ps
  | [], _ => by simp [allGroups, walkGroups]
  | g :: gs, ps => by simp only [allGroups, walkGroups, allGroups_walk gs ps, allGroup_walk g ps]
theorem allGroup_walk : (g : Group σ) → (ps : List (Aug σ)) → allGroup g = walkGroup (fun x _ => [x]) g ps
  | .group _ cs, ps => by simp only [allGroup, walkGroup, allForest_walk cs ps]
theorem allForest_walk : (cs : List (Aug σ)) → (ps : List (Aug σ)) → allForest cs = walkForest (fun x _ => [x]) cs ps
  | [], _ => by simp [allForest, walkForest]
  | c :: cs, ps => by
    simp only [allForest, walkForest, ← allForest_walk cs ps, ← all_walk c ps, List.cons_append]
end

mutual
theorem find_walk (f : Aug σ → List (Aug σ) → Bool) : (a : Aug σ) → (ps : List (Aug σ)) →
    find f a ps = walk (fun x ps => if f x ps then [x] else []) a ps
  | .node i gs, ps => by simp only [find, walk, findGroups_walk f gs]
theorem findGroups_walk (f : Aug σ → List (Aug σ) → Bool) : (gs : List (Group σ)) → (ps : List (Aug σ)) →
    findGroups f gs ps = walkGroups (fun x ps => if f x ps then [x] else []) gs ps
  | [], _ => by simp [findGroups, walkGroups]
  | g :: gs, ps => by simp only [findGroups, walkGroups, findGroups_walk f gs ps, findGroup_walk f g ps]
theorem findGroup_walk (f : Aug σ → List (Aug σ) → Bool) : (g : Group σ) → (ps : List (Aug σ)) →
    findGroup f g ps = walkGroup (fun x ps => if f x ps then [x] else []) g ps
  | .group _ cs, ps => by simp only [findGroup, walkGroup, findForest_walk f cs ps]
theorem findForest_walk (f : Aug σ → List (Aug σ) → Bool) : (cs : List (Aug σ)) → (ps : List (Aug σ)) →
    findForest f cs ps = walkForest (fun x ps => if f x ps then [x] else []) cs ps
  | [], _ => by simp [findForest, walkForest]
  | c :: cs, ps => by simp only [findForest, walkForest, findForest_walk f cs ps, find_walk f c ps]
end

/-! ### removal -/

theorem info_node (i : Info σ) (gs : List (Group σ)) : (Aug.node i gs).info = i := rfl

/-- The trails of a subtree whose ancestors have attributes `ps`. -/
def trails (a : Aug σ) (ps : List (Aug σ)) : List (List (Info σ)) :=
  walk (fun x ps => [ps.map Aug.info ++ [x.info]]) a ps

theorem survives_cons (f : Info σ → List (Info σ) → Bool) (t : List (Info σ)) :
    survives f t = true ↔ ∀ k i, 0 < k → t[k]? = some i → f i (t.take k) = false := by
  unfold survives
  rw [List.all_eq_true]
  constructor
  · intro h k i hk hi
    have hlt : k < t.length := (List.getElem?_eq_some_iff.1 hi).1
    have := h k (List.mem_range.2 hlt)
    rw [hi] at this
    have hk0 : (k == 0) = false := by simp; omega
    simpa [hk0] using this
  · intro h k hk
    have hlt := List.mem_range.1 hk
    rw [List.getElem?_eq_getElem hlt]
    by_cases hk0 : k = 0
    · simp [hk0]
    · have := h k _ (by omega) (List.getElem?_eq_getElem hlt)
      simp [this]

/-- Survival below a position with trail `pre`. -/
def survFrom (f : Info σ → List (Info σ) → Bool) (m : Nat) (t : List (Info σ)) : Prop :=
  ∀ k i, m ≤ k → t[k]? = some i → f i (t.take k) = false

mutual
/-- Trails of a subtree start with the trail of its root. -/
theorem trails_prefix : (a : Aug σ) → (ps : List (Aug σ)) → ∀ t ∈ walk (fun x ps => [ps.map Aug.info ++ [x.info]]) a ps,
    (ps.map Aug.info ++ [a.info]) <+: t
  | .node i gs, ps => by
    intro t ht
    simp only [walk, List.mem_append, List.mem_singleton] at ht
    rcases ht with rfl | ht
    · exact List.prefix_rfl
    · simpa [Aug.info] using trailsGroups_prefix gs _ t ht
theorem trailsGroups_prefix : (gs : List (Group σ)) → (ps : List (Aug σ)) →
    ∀ t ∈ walkGroups (fun x ps => [ps.map Aug.info ++ [x.info]]) gs ps, (ps.map Aug.info) <+: t
  | [], _ => by simp [walkGroups]
  | g :: gs, ps => by
    intro t ht
    simp only [walkGroups, List.mem_append] at ht
    rcases ht with ht | ht
    · exact trailsGroup_prefix g ps t ht
    · exact trailsGroups_prefix gs ps t ht
theorem trailsGroup_prefix : (g : Group σ) → (ps : List (Aug σ)) →
    ∀ t ∈ walkGroup (fun x ps => [ps.map Aug.info ++ [x.info]]) g ps, (ps.map Aug.info) <+: t
  | .group _ cs, ps => by
    intro t ht
    exact trailsForest_prefix cs ps t (by simpa only [walkGroup] using ht)
theorem trailsForest_prefix : (cs : List (Aug σ)) → (ps : List (Aug σ)) →
    ∀ t ∈ walkForest (fun x ps => [ps.map Aug.info ++ [x.info]]) cs ps, (ps.map Aug.info) <+: t
  | [], _ => by simp [walkForest]
  | c :: cs, ps => by
    intro t ht
    simp only [walkForest, List.mem_append] at ht
    rcases ht with ht | ht
    · exact (List.prefix_append _ _).trans (trails_prefix c ps t ht)
    · exact trailsForest_prefix cs ps t ht
end

/-- Boolean form of `survFrom`. -/
def survB (f : Info σ → List (Info σ) → Bool) (m : Nat) (t : List (Info σ)) : Bool :=
  (List.range t.length).all (fun (k : Nat) => decide (k < m) || (match t[k]? with
    | some i => !f i (t.take k)
    | none => true))

theorem survB_iff (f : Info σ → List (Info σ) → Bool) (m : Nat) (t : List (Info σ)) :
    survB f m t = true ↔ survFrom f m t := by
  unfold survB survFrom
  rw [List.all_eq_true]
  constructor
  · intro h k i hk hi
    have hlt : k < t.length := (List.getElem?_eq_some_iff.1 hi).1
    have := h k (List.mem_range.2 hlt)
    rw [hi] at this
    have hk0 : decide (k < m) = false := by simp; omega
    simpa [hk0] using this
  · intro h k hk
    have hlt := List.mem_range.1 hk
    rw [List.getElem?_eq_getElem hlt]
    by_cases hk0 : k < m
    · simp [hk0]
    · have := h k _ (by omega) (List.getElem?_eq_getElem hlt)
      simp [this]

theorem survives_eq (f : Info σ → List (Info σ) → Bool) (t : List (Info σ)) : survives f t = survB f 1 t := by
  rw [Bool.eq_iff_iff, survives_cons, survB_iff]
  rfl

mutual
theorem remove_trails (f : Info σ → List (Info σ) → Bool) : (a : Aug σ) → (ps qs : List (Aug σ)) →
    ps.map Aug.info = qs.map Aug.info →
    walk (fun x ps => [ps.map Aug.info ++ [x.info]]) (remove f a (ps.map Aug.info)) qs =
      (walk (fun x ps => [ps.map Aug.info ++ [x.info]]) a ps).filter (survB f (ps.length + 1))
  | .node i gs, ps, qs, h => by
    have key := removeGroups_trails f gs (ps ++ [.node i gs])
      (qs ++ [.node i (removeGroups f gs (ps.map Aug.info ++ [i]))]) (by simp [h, info_node])
    simp only [List.map_append, List.map_cons, List.map_nil, info_node, List.length_append, List.length_cons,
      List.length_nil, Nat.zero_add] at key
    simp only [remove, walk, info_node, List.filter_append, key]
    congr 1
    rw [h]
    rw [List.filter_cons_of_pos]
    · rfl
    · rw [survB_iff]
      intro k j hk hj
      have hlt := (List.getElem?_eq_some_iff.1 hj).1
      have hl : ps.length = qs.length := by simpa using congrArg List.length h
      simp at hlt
      omega
theorem removeGroups_trails (f : Info σ → List (Info σ) → Bool) : (gs : List (Group σ)) → (ps qs : List (Aug σ)) →
    ps.map Aug.info = qs.map Aug.info →
    walkGroups (fun x ps => [ps.map Aug.info ++ [x.info]]) (removeGroups f gs (ps.map Aug.info)) qs =
      (walkGroups (fun x ps => [ps.map Aug.info ++ [x.info]]) gs ps).filter (survB f ps.length)
  | [], _, _, _ => by simp [removeGroups, walkGroups]
  | g :: gs, ps, qs, h => by
    simp only [removeGroups, walkGroups, List.filter_append, removeGroup_trails f g ps qs h,
      removeGroups_trails f gs ps qs h]
theorem removeGroup_trails (f : Info σ → List (Info σ) → Bool) : (g : Group σ) → (ps qs : List (Aug σ)) →
    ps.map Aug.info = qs.map Aug.info →
    walkGroup (fun x ps => [ps.map Aug.info ++ [x.info]]) (removeGroup f g (ps.map Aug.info)) qs =
      (walkGroup (fun x ps => [ps.map Aug.info ++ [x.info]]) g ps).filter (survB f ps.length)
  | .group _ cs, ps, qs, h => by
    simp only [removeGroup, walkGroup]
    exact removeForest_trails f cs ps qs h
theorem removeForest_trails (f : Info σ → List (Info σ) → Bool) : (cs : List (Aug σ)) → (ps qs : List (Aug σ)) →
    ps.map Aug.info = qs.map Aug.info →
    walkForest (fun x ps => [ps.map Aug.info ++ [x.info]]) (removeForest f cs (ps.map Aug.info)) qs =
      (walkForest (fun x ps => [ps.map Aug.info ++ [x.info]]) cs ps).filter (survB f ps.length)
  | [], _, _, _ => by simp [removeForest, walkForest]
  | c :: cs, ps, qs, h => by
    have ih := removeForest_trails f cs ps qs h
    have hmem : ∀ t ∈ walk (fun x ps => [ps.map Aug.info ++ [x.info]]) c ps,
        t[ps.length]? = some c.info ∧ t.take ps.length = ps.map Aug.info := by
      intro t ht
      obtain ⟨r, rfl⟩ := trails_prefix c ps t ht
      constructor
      · rw [List.append_assoc, List.getElem?_append_right (by simp)]; simp
      · rw [List.append_assoc, List.take_append_of_le_length (by simp)]
        rw [List.take_of_length_le (by simp)]
    simp only [removeForest, walkForest, List.filter_append]
    by_cases hf : f c.info (ps.map Aug.info) = true
    · rw [if_pos hf, ih]
      have : (walk (fun x ps => [ps.map Aug.info ++ [x.info]]) c ps).filter (survB f ps.length) = [] := by
        rw [List.filter_eq_nil_iff]
        intro t ht hs
        rw [survB_iff] at hs
        obtain ⟨h1, h2⟩ := hmem t ht
        have := hs _ _ le_rfl h1
        rw [h2, hf] at this
        exact absurd this (by simp)
      rw [this, List.nil_append]
    · rw [if_neg hf]
      simp only [walkForest, ih, remove_trails f c ps qs h]
      congr 1
      apply List.filter_congr
      intro t ht
      obtain ⟨h1, h2⟩ := hmem t ht
      rw [Bool.eq_iff_iff, survB_iff, survB_iff]
      constructor
      · intro hs k i hk hi
        by_cases he : k = ps.length
        · subst he
          rw [h1] at hi
          injection hi with hi
          subst hi
          rw [h2]
          simpa using hf
        · exact hs k i (by omega) hi
      · intro hs k i hk hi
        exact hs k i (by omega) hi
end

theorem filterMap_eq_flatMap {α β : Type} (f : α → Option β) : (l : List α) →
    l.filterMap f = l.flatMap (fun x => (f x).toList)
  | [] => rfl
  | x :: l => by
    rw [List.filterMap_cons, List.flatMap_cons, filterMap_eq_flatMap f l]
    cases f x <;> rfl

theorem filterMap_trail (a : Aug σ) :
    (posAug a).filterMap (trail a) = walk (fun x ps => [ps.map Aug.info ++ [x.info]]) a [] := by
  rw [walk_eq, filterMap_eq_flatMap]
  apply List.flatMap_congr
  intro p _
  simp only [valAt, trail, List.nil_append]
  cases nodeAt a p <;> rfl

end Imgaug.Tree
