import Verif.Spec.OrdTree
/-! C141: the search tree of the sweep. -/
namespace Imgaug.OrdTree.Props
open Imgaug Imgaug.OrdTree
variable {α β : Type}

/-- For the examples: 2 above 1 and 5, 5 above 4. -/
def demo : T Nat Nat := .node false (.node false .nil 1 10 .nil) 2 20 (.node false (.node true .nil 4 40 .nil) 5 50 .nil)

/-- C141: the comparison that is used by default orders the keys of every linear order. -/
theorem default_lawful [LinearOrder α] : Lawful (dfltCmp (α := α)) := by
  have key : ∀ a b : α, (dfltCmp a b < 0 ↔ a < b) ∧ (0 < dfltCmp a b ↔ b < a) ∧ (dfltCmp a b = 0 ↔ a = b) := by
    intro a b
    unfold dfltCmp
    rcases lt_trichotomy a b with h | h | h
    · simp [h, h.ne, h.not_gt]
    · subst h; simp
    · simp [h, h.ne', h.not_gt]
  exact ⟨fun a b => (key a b).2.2, fun a b => (key a b).1.trans (key b a).2.1.symm,
    fun a b c h1 h2 => (key a c).1.2 (((key a b).1.1 h1).trans ((key b c).1.1 h2))⟩

theorem ordered_demo : Ordered dfltCmp demo := by
  unfold Ordered demo
  decide

theorem ordered_node {cmp : α → α → Int} {c : Bool} {l r : T α β} {k : α} {v : β} (h : Ordered cmp (.node c l k v r)) :
    Ordered cmp l ∧ Ordered cmp r ∧ (∀ p ∈ l.items, cmp p.1 k < 0) ∧ (∀ p ∈ r.items, cmp k p.1 < 0) := by
  unfold Ordered T.items at h
  rw [List.pairwise_append, List.pairwise_cons] at h
  obtain ⟨h1, ⟨h2, h3⟩, h4⟩ := h
  exact ⟨h1, h3, fun p hp => h4 p hp (k, v) (by simp), h2⟩

/-- C141: looking up a key gives exactly the value that is stored under it, and fails if there is none. -/
theorem lookup {cmp : α → α → Int} (hl : Lawful cmp) (t : T α β) (ho : Ordered cmp t) (key : α) (v : β) :
    getValue cmp key t = some v ↔ (key, v) ∈ t.items := by
  induction t with
  | nil => simp [getValue, T.items]
  | node c l k w r ihl ihr =>
    obtain ⟨h1, h2, h3, h4⟩ := ordered_node ho
    simp only [getValue, T.items, List.mem_append, List.mem_cons, Prod.mk.injEq]
    by_cases h0 : cmp key k = 0
    · have e := (hl.zero _ _).1 h0
      subst e
      rw [if_pos h0, Option.some.injEq]
      constructor
      · rintro rfl; right; left; exact ⟨rfl, rfl⟩
      · rintro (h | h | h)
        · have := h3 _ h; simp only at this; omega
        · exact h.2.symm
        · have := h4 _ h; simp only at this; omega
    · have hne : key ≠ k := fun e => h0 ((hl.zero _ _).2 e)
      rw [if_neg h0]
      by_cases hlt : cmp key k < 0
      · rw [if_pos hlt, ihl h1]
        constructor
        · intro h; left; exact h
        · rintro (h | h | h)
          · exact h
          · exact absurd h.1 hne
          · have a := h4 _ h
            simp only at a
            have := hl.trans _ _ _ hlt a
            have z := (hl.zero key key).2 rfl
            omega
      · rw [if_neg hlt, ihr h2]
        constructor
        · intro h; right; right; exact h
        · rintro (h | h | h)
          · have a := h3 _ h
            simp only at a
            omega
          · exact absurd h.1 hne
          · exact h

example : getValue dfltCmp 4 demo = some 40 ∧ getValue dfltCmp 3 demo = none := by decide

/-- C141: the smallest and the largest item are the first and the last one. -/
theorem extreme_items (t : T α β) : minItem t = t.items.head? ∧ maxItem t = t.items.getLast? := by
  constructor
  · induction t with
    | nil => rfl
    | node c l k v r ihl ihr =>
      cases l with
      | nil => rfl
      | node c' l' k' v' r' =>
        rw [minItem, ihl]
        simp [T.items]
  · induction t with
    | nil => rfl
    | node c l k v r ihl ihr =>
      cases r with
      | nil => simp [maxItem, T.items]
      | node c' l' k' v' r' =>
        rw [maxItem, ihr]
        simp [T.items, List.getLast?_append, List.getLast?_cons]

example : minItem demo = some (1, 10) ∧ maxItem demo = some (5, 50) := by decide

/-- `p` has the smallest of the keys above `key` in the list. -/
def Next (cmp : α → α → Int) (l : List (α × β)) (key : α) (p : α × β) : Prop :=
  p ∈ l ∧ cmp key p.1 < 0 ∧ ∀ q ∈ l, cmp key q.1 < 0 → q = p ∨ cmp p.1 q.1 < 0

/-- `p` has the largest of the keys below `key` in the list. -/
def Previous (cmp : α → α → Int) (l : List (α × β)) (key : α) (p : α × β) : Prop :=
  p ∈ l ∧ cmp p.1 key < 0 ∧ ∀ q ∈ l, cmp q.1 key < 0 → q = p ∨ cmp q.1 p.1 < 0

theorem head_least {cmp : α → α → Int} {l : List (α × β)} (ho : l.Pairwise (fun a b => cmp a.1 b.1 < 0)) {p : α × β} (h : l.head? = some p) :
    p ∈ l ∧ ∀ q ∈ l, q = p ∨ cmp p.1 q.1 < 0 := by
  cases l with
  | nil => simp at h
  | cons a l =>
    simp at h
    subst h
    refine ⟨by simp, fun q hq => ?_⟩
    rcases List.mem_cons.1 hq with h | h
    · exact Or.inl h
    · exact Or.inr ((List.pairwise_cons.1 ho).1 q h)

theorem last_most {cmp : α → α → Int} {l : List (α × β)} (ho : l.Pairwise (fun a b => cmp a.1 b.1 < 0)) {p : α × β} (h : l.getLast? = some p) :
    p ∈ l ∧ ∀ q ∈ l, q = p ∨ cmp q.1 p.1 < 0 := by
  have h' : l.reverse.head? = some p := by rw [List.head?_reverse]; exact h
  have := head_least (cmp := fun a b => cmp b a) (l := l.reverse) (by rw [List.pairwise_reverse]; exact ho) h'
  simpa using this

/-- What the search for the successor finds: all items above the key are in the subtree, or not before the candidate. -/
theorem findSucc_spec {cmp : α → α → Int} (hl : Lawful cmp) (key : α) (t : T α β) (ho : Ordered cmp t) (s : Option (α × β))
    (hs : ∀ p, s = some p → cmp key p.1 < 0 ∧ ∀ q ∈ t.items, cmp q.1 p.1 < 0) :
    match findSucc cmp key t s with
    | none => ∀ p ∈ t.items, p.1 ≠ key
    | some (r, s') => (∃ p ∈ t.items, p.1 = key) ∧ Ordered cmp r ∧ (∀ q ∈ r.items, q ∈ t.items ∧ cmp key q.1 < 0) ∧
        (∀ p, s' = some p → (p ∈ t.items ∨ s = some p) ∧ cmp key p.1 < 0 ∧ ∀ q ∈ r.items, cmp q.1 p.1 < 0) ∧
        (∀ q ∈ t.items, cmp key q.1 < 0 → q ∈ r.items ∨ ∃ p, s' = some p ∧ (q = p ∨ cmp p.1 q.1 < 0)) ∧
        (∀ p, s = some p → ∃ p', s' = some p' ∧ (p = p' ∨ cmp p'.1 p.1 < 0)) := by
  induction t generalizing s with
  | nil => simp [findSucc, T.items]
  | node c l k v r ihl ihr =>
    obtain ⟨h1, h2, h3, h4⟩ := ordered_node ho
    have hz : ∀ a, cmp a a = 0 := fun a => (hl.zero a a).2 rfl
    simp only [findSucc]
    by_cases h0 : cmp key k = 0
    · have e := (hl.zero _ _).1 h0
      subst e
      rw [if_pos h0]
      simp only
      refine ⟨⟨(key, v), by simp [T.items], rfl⟩, h2, fun q hq => ⟨by simp [T.items, hq], h4 q hq⟩, fun p hp => ?_, fun q hq hlt => ?_, fun p hp => ⟨p, hp, Or.inl rfl⟩⟩
      · obtain ⟨a, b⟩ := hs p hp
        exact ⟨Or.inr hp, a, fun q hq => b q (by simp [T.items, hq])⟩
      · left
        simp only [T.items, List.mem_append, List.mem_cons] at hq
        rcases hq with h | h | h
        · have a := h3 q h
          have := hl.trans _ _ _ hlt a
          have := hz key
          omega
        · rw [h] at hlt
          simp only at hlt
          omega
        · exact h
    · rw [if_neg h0]
      by_cases hlt : cmp key k < 0
      · rw [if_pos hlt]
        have hs2 : closer cmp s (k, v) = some (k, v) := by
          cases s with
          | none => rfl
          | some p =>
            have := (hs p rfl).2 (k, v) (by simp [T.items])
            unfold closer
            simp only at this ⊢
            rw [if_pos this]
        rw [hs2]
        have ih := ihl h1 (some (k, v)) (by
          intro p hp
          simp only [Option.some.injEq] at hp
          subst hp
          exact ⟨hlt, h3⟩)
        cases hf : findSucc cmp key l (some (k, v)) with
        | none =>
          rw [hf] at ih
          simp only at ih ⊢
          intro p hp
          simp only [T.items, List.mem_append, List.mem_cons] at hp
          rcases hp with h | h | h
          · exact ih p h
          · rw [h]; intro e; simp only at e; rw [e, hz] at hlt; omega
          · intro e
            have a := h4 p h
            rw [e] at a
            have := hl.trans _ _ _ hlt a
            have := hz key
            omega
        | some x =>
          obtain ⟨rr, s'⟩ := x
          rw [hf] at ih
          simp only at ih ⊢
          obtain ⟨⟨p0, i1, i2⟩, i3, i4, i5, i6, i7⟩ := ih
          obtain ⟨p', e1, e2⟩ := i7 (k, v) rfl
          refine ⟨⟨p0, by simp [T.items, i1], i2⟩, i3, fun q hq => ⟨by simp [T.items, (i4 q hq).1], (i4 q hq).2⟩, fun p hp => ?_, fun q hq hq2 => ?_, fun p hp => ?_⟩
          · obtain ⟨a, b, d⟩ := i5 p hp
            refine ⟨Or.inl ?_, b, d⟩
            rcases a with a | a
            · simp [T.items, a]
            · simp only [Option.some.injEq] at a
              rw [← a]; simp [T.items]
          · simp only [T.items, List.mem_append, List.mem_cons] at hq
            have hk : ∀ q : α × β, cmp k q.1 < 0 → ∃ p, s' = some p ∧ (q = p ∨ cmp p.1 q.1 < 0) := by
              intro q hq
              refine ⟨p', e1, Or.inr ?_⟩
              rcases e2 with e2 | e2
              · rw [← e2]; exact hq
              · exact hl.trans _ _ _ e2 hq
            rcases hq with h | h | h
            · exact i6 q h hq2
            · right; exact ⟨p', e1, by rw [h]; exact e2⟩
            · right; exact hk q (h4 q h)
          · have := (hs p hp).2 (k, v) (by simp [T.items])
            refine ⟨p', e1, Or.inr ?_⟩
            rcases e2 with e2 | e2
            · rw [← e2]; exact this
            · exact hl.trans _ _ _ e2 this
      · rw [if_neg hlt]
        have hgt : cmp k key < 0 := (hl.flip _ _).2 (by omega)
        have ih := ihr h2 s (fun p hp => ⟨(hs p hp).1, fun q hq => (hs p hp).2 q (by simp [T.items, hq])⟩)
        have hleft : ∀ q ∈ l.items, cmp q.1 key < 0 := fun q hq => hl.trans _ _ _ (h3 q hq) hgt
        cases hf : findSucc cmp key r s with
        | none =>
          rw [hf] at ih
          simp only at ih ⊢
          intro p hp
          simp only [T.items, List.mem_append, List.mem_cons] at hp
          rcases hp with h | h | h
          · intro e
            have a := hleft p h
            rw [e, hz] at a
            omega
          · rw [h]; intro e; simp only at e; rw [e, hz] at hgt; omega
          · exact ih p h
        | some x =>
          obtain ⟨rr, s'⟩ := x
          rw [hf] at ih
          simp only at ih ⊢
          obtain ⟨⟨p0, i1, i2⟩, i3, i4, i5, i6, i7⟩ := ih
          refine ⟨⟨p0, by simp [T.items, i1], i2⟩, i3, fun q hq => ⟨by simp [T.items, (i4 q hq).1], (i4 q hq).2⟩, fun p hp => ?_, fun q hq hq2 => ?_, i7⟩
          · obtain ⟨a, b, d⟩ := i5 p hp
            exact ⟨a.imp (fun a => by simp [T.items, a]) id, b, d⟩
          · simp only [T.items, List.mem_append, List.mem_cons] at hq
            rcases hq with h | h | h
            · have := hl.trans _ _ _ hq2 (hleft q h)
              have := hz key
              omega
            · rw [h] at hq2; simp only at hq2; omega
            · exact i6 q h hq2

/-- C141: the successor of a key is the item with the smallest key above it; the search fails exactly if the key is not in the tree or is the largest one. -/
theorem successor {cmp : α → α → Int} (hl : Lawful cmp) (t : T α β) (ho : Ordered cmp t) (key : α) (p : α × β) :
    succItem cmp t key = some p ↔ (∃ q ∈ t.items, q.1 = key) ∧ Next cmp t.items key p := by
  have hz : ∀ a, cmp a a = 0 := fun a => (hl.zero a a).2 rfl
  have uniq : ∀ p q, Next cmp t.items key p → Next cmp t.items key q → p = q := by
    intro p q h1 h2
    rcases h1.2.2 q h2.1 h2.2.1 with h | h
    · exact h.symm
    · rcases h2.2.2 p h1.1 h1.2.1 with h' | h'
      · exact h'
      · have := hl.trans _ _ _ h h'
        have := hz p.1
        omega
  have main : (∀ p, succItem cmp t key = some p → (∃ q ∈ t.items, q.1 = key) ∧ Next cmp t.items key p) ∧
      (succItem cmp t key = none → ¬ ((∃ q ∈ t.items, q.1 = key) ∧ ∃ p, Next cmp t.items key p)) := by
    have sp := findSucc_spec hl key t ho none (by simp)
    unfold succItem
    cases hf : findSucc cmp key t none with
    | none =>
      rw [hf] at sp
      simp only at sp
      refine ⟨by simp, fun _ => ?_⟩
      rintro ⟨⟨q, h1, h2⟩, -⟩
      exact sp q h1 h2
    | some x =>
      obtain ⟨r, s⟩ := x
      rw [hf] at sp
      simp only at sp
      obtain ⟨i0, i3, i4, i5, i6, -⟩ := sp
      simp only [Option.bind_some]
      have e := (extreme_items r).1
      cases hm : minItem r with
      | none =>
        rw [hm] at e
        have hr : r.items = [] := List.head?_eq_none_iff.1 e.symm
        cases s with
        | none =>
          refine ⟨by simp, fun _ => ?_⟩
          rintro ⟨-, p, h1, h2, -⟩
          rcases i6 p h1 h2 with h | ⟨q, h, -⟩
          · rw [hr] at h; simp at h
          · simp at h
        | some s =>
          refine ⟨fun p hp => ?_, by simp⟩
          simp only [Option.some.injEq] at hp
          subst hp
          obtain ⟨a, b, -⟩ := i5 s rfl
          refine ⟨i0, a.resolve_right (by simp), b, fun q h1 h2 => ?_⟩
          rcases i6 q h1 h2 with h | ⟨q', h, h'⟩
          · rw [hr] at h; simp at h
          · simp only [Option.some.injEq] at h
            subst h
            exact h'
      | some n =>
        rw [hm] at e
        obtain ⟨n1, n2⟩ := head_least i3 e.symm
        have res : closer cmp s n = some n := by
          cases s with
          | none => rfl
          | some s => unfold closer; simp only; rw [if_pos ((i5 s rfl).2.2 n n1)]
        simp only [res]
        refine ⟨fun p hp => ?_, by simp⟩
        simp only [Option.some.injEq] at hp
        subst hp
        refine ⟨i0, (i4 n n1).1, (i4 n n1).2, fun q h1 h2 => ?_⟩
        rcases i6 q h1 h2 with h | ⟨q', h, h'⟩
        · exact n2 q h
        · have := (i5 q' h).2.2 n n1
          right
          rcases h' with h' | h'
          · rw [h']; exact this
          · exact hl.trans _ _ _ this h'
  constructor
  · exact main.1 p
  · intro h
    cases hs : succItem cmp t key with
    | none => exact absurd ⟨h.1, p, h.2⟩ (main.2 hs)
    | some q => rw [uniq q p (main.1 q hs).2 h.2]

example : succItem dfltCmp demo 2 = some (4, 40) ∧ succItem dfltCmp demo 4 = some (5, 50) ∧ succItem dfltCmp demo 5 = none ∧ succItem dfltCmp demo 3 = none := by
  decide

theorem mirror_items (t : T α β) : t.mirror.items = t.items.reverse := by
  induction t with
  | nil => rfl
  | node c l k v r ihl ihr => simp [T.mirror, T.items, ihl, ihr]

theorem mirror_max (t : T α β) : maxItem t = minItem t.mirror := by
  rw [(extreme_items t).2, (extreme_items t.mirror).1, mirror_items, List.head?_reverse]

theorem flip_lawful {cmp : α → α → Int} (hl : Lawful cmp) : Lawful (fun a b => cmp b a) :=
  ⟨fun a b => (hl.zero b a).trans ⟨Eq.symm, Eq.symm⟩, fun a b => hl.flip b a, fun a b c h1 h2 => hl.trans c b a h2 h1⟩

theorem mirror_ordered {cmp : α → α → Int} {t : T α β} (h : Ordered cmp t) : Ordered (fun a b => cmp b a) t.mirror := by
  unfold Ordered
  rw [mirror_items, List.pairwise_reverse]
  exact h

theorem mirror_search {cmp : α → α → Int} (hl : Lawful cmp) (key : α) (t : T α β) (s : Option (α × β)) :
    (findPrev cmp key t s).map (fun p => (p.1.mirror, p.2)) = findSucc (fun a b => cmp b a) key t.mirror s := by
  induction t generalizing s with
  | nil => rfl
  | node c l k v r ihl ihr =>
    simp only [findPrev, T.mirror, findSucc]
    have z : cmp key k = 0 ↔ cmp k key = 0 := by rw [hl.zero, hl.zero]; exact ⟨Eq.symm, Eq.symm⟩
    by_cases h0 : cmp key k = 0
    · rw [if_pos h0, if_pos (z.1 h0)]; rfl
    · rw [if_neg h0, if_neg (fun h => h0 (z.2 h))]
      by_cases h1 : cmp key k < 0
      · have := (hl.flip _ _).1 h1
        rw [if_pos h1, if_neg (by omega), ihl]
      · have : cmp k key < 0 := (hl.flip _ _).2 (by omega)
        rw [if_neg h1, if_pos this, ihr]
        rfl

/-- C141: the predecessor of a key is the item with the largest key below it; the search fails exactly if the key is not in the tree or is the smallest one. -/
theorem predecessor {cmp : α → α → Int} (hl : Lawful cmp) (t : T α β) (ho : Ordered cmp t) (key : α) (p : α × β) :
    prevItem cmp t key = some p ↔ (∃ q ∈ t.items, q.1 = key) ∧ Previous cmp t.items key p := by
  have e : prevItem cmp t key = succItem (fun a b => cmp b a) t.mirror key := by
    unfold prevItem succItem
    rw [← mirror_search hl key t none]
    cases findPrev cmp key t none with
    | none => rfl
    | some x =>
      simp only [Option.bind_some, Option.map_some, mirror_max]
      rfl
  rw [e, successor (flip_lawful hl) t.mirror (mirror_ordered ho) key p]
  unfold Next Previous
  simp only [mirror_items, List.mem_reverse]

example : prevItem dfltCmp demo 2 = some (1, 10) ∧ prevItem dfltCmp demo 4 = some (2, 20) ∧ prevItem dfltCmp demo 1 = none ∧ prevItem dfltCmp demo 3 = none := by
  decide

/-- What is still to come for the nodes on the stack. -/
def rest : List (T α β) → List (α × β)
  | [] => []
  | .nil :: st => rest st
  | .node _ _ k v r :: st => (k, v) :: r.items ++ rest st

/-- The number of rounds for the nodes on the stack. -/
def cost : List (T α β) → Nat
  | [] => 0
  | .nil :: st => cost st
  | .node _ _ _ _ r :: st => 1 + 2 * r.size + cost st

theorem isNil_size (t : T α β) (h : t.isNil = false) : 1 ≤ t.size := by
  cases t with
  | nil => simp [T.isNil] at h
  | node => simp [T.size]

theorem iter_spec (q : α → Bool) (n : Nat) (c : Bool) (l : T α β) (k : α) (v : β) (r : T α β) (stack : List (T α β)) (g : Bool)
    (hst : ∀ s ∈ stack, s.isNil = false) (hn : (if g then 2 * (T.node c l k v r).size else 1 + 2 * r.size) + cost stack ≤ n) :
    iter q n (.node c l k v r) stack g =
      some (((if g then l.items else []) ++ (k, v) :: r.items ++ rest stack).filter (fun p => q p.1)) := by
  induction n generalizing c l k v r stack g with
  | zero =>
    exfalso
    cases g <;> simp [T.size] at hn
  | succ n ih =>
    rw [iter]
    by_cases hgo : (!l.isNil && g) = true
    · rw [if_pos hgo]
      simp only [Bool.and_eq_true, Bool.not_eq_true'] at hgo
      obtain ⟨h1, rfl⟩ := hgo
      cases l with
      | nil => simp [T.isNil] at h1
      | node c' l' k' v' r' =>
        rw [ih c' l' k' v' r' _ true (by
          intro s hs
          rcases List.mem_cons.1 hs with h | h
          · rw [h]; rfl
          · exact hst s h) (by
          simp only [if_true, T.size, cost] at hn ⊢
          omega)]
        simp only [if_true, rest, T.items, List.append_assoc, List.cons_append]
    · rw [if_neg hgo]
      have hl : (if g then l.items else []) = [] := by
        cases g with
        | false => rfl
        | true =>
          cases l with
          | nil => rfl
          | node => simp [T.isNil] at hgo
      have hn2 : 2 * r.size + cost stack ≤ n := by
        cases g with
        | false => simp only [Bool.false_eq_true, if_false] at hn; omega
        | true => simp only [if_true, T.size] at hn; omega
      rw [hl]
      simp only [List.nil_append]
      have hout : ∀ x : List (α × β), (if q k = true then [(k, v)] else []) ++ x.filter (fun p => q p.1) = ((k, v) :: x).filter (fun p => q p.1) := by
        intro x
        rw [List.filter_cons]
        by_cases hq : q k = true <;> simp [hq]
      cases r with
      | node c' l' k' v' r' =>
        simp only [T.isNil, Bool.not_false, if_true]
        rw [ih c' l' k' v' r' stack true hst (by simpa using hn2)]
        simp only [Option.map_some, hout, if_true, T.items, List.append_assoc, List.cons_append]
      | nil =>
        simp only [T.isNil, Bool.not_true, Bool.false_eq_true, if_false]
        cases stack with
        | nil =>
          have := hout []
          simp only [T.items, rest, List.append_nil]
          rw [← this]
          simp
        | cons s st =>
          cases s with
          | nil => have := hst .nil (by simp); simp [T.isNil] at this
          | node c' l' k' v' r' =>
            simp only
            rw [ih c' l' k' v' r' st false (fun s hs => hst s (by simp [hs])) (by
              simp only [Bool.false_eq_true, if_false, cost, T.size] at hn2 ⊢
              omega)]
            simp only [Option.map_some, hout, Bool.false_eq_true, if_false, rest, T.items, List.nil_append, List.append_assoc, List.cons_append]

theorem mirror_size (t : T α β) : t.mirror.size = t.size := by
  induction t with
  | nil => rfl
  | node c l k v r ihl ihr => simp only [T.mirror, T.size, ihl, ihr]; omega

/-- C141: iterating gives every item once, in ascending or in descending order of the keys, if both ends are given those from the first up to, but not
including, the second one. -/
theorem iteration {cmp : α → α → Int} (hl : Lawful cmp) (t : T α β) (ho : Ordered cmp t) (start stop : Option α) :
    iterItems cmp t start stop false =
      some (t.items.filter (fun p => (∀ s ∈ start, cmp s p.1 ≤ 0) ∧ (∀ e ∈ stop, cmp p.1 e < 0))) ∧
    iterItems cmp t start stop true =
      some (t.items.reverse.filter (fun p => (∀ s ∈ start, cmp s p.1 ≤ 0) ∧ (∀ e ∈ stop, cmp p.1 e < 0))) := by
  have hr : ∀ p ∈ t.items, inRange cmp t start stop p.1 = decide ((∀ s ∈ start, cmp s p.1 ≤ 0) ∧ (∀ e ∈ stop, cmp p.1 e < 0)) := by
    intro p hp
    have hmin : ∀ m, minItem t = some m → cmp m.1 p.1 ≤ 0 := by
      intro m hm
      rw [(extreme_items t).1] at hm
      rcases (head_least ho hm).2 p hp with h | h
      · rw [h, (hl.zero _ _).2 rfl]; exact Int.le_refl 0
      · omega
    unfold inRange
    cases start with
    | some s => cases stop <;> simp
    | none =>
      cases stop with
      | none => simp
      | some e =>
        cases hm : minItem t with
        | none => simp
        | some m => simp [hmin m hm]
  have key : ∀ u : T α β, u.size = t.size → iter (inRange cmp t start stop) (2 * t.size) u [] true =
      if u.isNil then none else some (u.items.filter (fun p => inRange cmp t start stop p.1)) := by
    intro u hu
    cases u with
    | nil =>
      have : t.size = 0 := hu.symm
      rw [this]
      rfl
    | node c l k v r =>
      rw [iter_spec _ _ c l k v r [] true (by simp) (by rw [if_pos rfl, hu]; simp [cost])]
      simp [T.isNil, T.items, rest]
  unfold iterItems
  cases t with
  | nil => simp [T.isNil, T.items]
  | node c l k v r =>
    simp only [T.isNil, Bool.false_eq_true, if_false, if_true]
    refine ⟨?_, ?_⟩
    · rw [key _ rfl]
      simp only [T.isNil, Bool.false_eq_true, if_false]
      congr 1
      exact List.filter_congr hr
    · rw [key _ (mirror_size _)]
      simp only [T.mirror, T.isNil, Bool.false_eq_true, if_false]
      congr 1
      have e := mirror_items (.node c l k v r)
      simp only [T.mirror] at e
      rw [e]
      exact List.filter_congr (fun p hp => hr p (List.mem_reverse.1 hp))

example : iterItems dfltCmp demo (some 2) (some 5) false = some [(2, 20), (4, 40)] ∧
    iterItems dfltCmp demo none none true = some [(5, 50), (4, 40), (2, 20), (1, 10)] := by decide

/-- C141: the rotations of the tree keep the items and their order; the new root is black and its child on the side of the direction is red. -/
theorem rotations (toRight : Bool) (t u : T α β) :
    (jswSingle toRight t = some u → u.items = t.items ∧ ∃ l k v r, u = .node false l k v r ∧ ∃ l' k' v' r', (if toRight then r else l) = .node true l' k' v' r') ∧
    (jswDouble toRight t = some u → u.items = t.items ∧ ∃ l k v r, u = .node false l k v r ∧ ∃ l' k' v' r', (if toRight then r else l) = .node true l' k' v' r') := by
  have single : ∀ (d : Bool) (t u : T α β), jswSingle d t = some u →
      u.items = t.items ∧ ∃ l k v r, u = .node false l k v r ∧ ∃ l' k' v' r', (if d then r else l) = .node true l' k' v' r' := by
    intro d t u h
    cases t with
    | nil => simp [jswSingle] at h
    | node c l k v r =>
      cases d with
      | true =>
        cases l with
        | nil => simp [jswSingle] at h
        | node =>
          simp only [jswSingle, if_true, Option.some.injEq] at h
          subst h
          exact ⟨by simp [T.items], _, _, _, _, rfl, _, _, _, _, rfl⟩
      | false =>
        cases r with
        | nil => simp [jswSingle] at h
        | node =>
          simp only [jswSingle, Bool.false_eq_true, if_false, Option.some.injEq] at h
          subst h
          exact ⟨by simp [T.items], _, _, _, _, rfl, _, _, _, _, rfl⟩
  refine ⟨single toRight t u, fun h => ?_⟩
  cases t with
  | nil => simp [jswDouble] at h
  | node c l k v r =>
    cases toRight with
    | true =>
      simp only [jswDouble, if_true] at h
      obtain ⟨l', h1, h2⟩ := Option.bind_eq_some_iff.1 h
      obtain ⟨a, b⟩ := single true _ u h2
      refine ⟨?_, b⟩
      rw [a, T.items, T.items, (single false l l' h1).1]
    | false =>
      simp only [jswDouble, Bool.false_eq_true, if_false] at h
      obtain ⟨r', h1, h2⟩ := Option.bind_eq_some_iff.1 h
      obtain ⟨a, b⟩ := single false _ u h2
      refine ⟨?_, b⟩
      rw [a, T.items, T.items, (single true r r' h1).1]

/-- C141: a tree can be rotated exactly if it has a child on the other side. -/
theorem when_rotated (c : Bool) (l : T α β) (k : α) (v : β) (r : T α β) :
    ((jswSingle true (.node c l k v r)).isSome = true ↔ l.isNil = false) ∧ ((jswSingle false (.node c l k v r)).isSome = true ↔ r.isNil = false) := by
  refine ⟨?_, ?_⟩
  · cases l <;> simp [jswSingle, T.isNil]
  · cases r <;> simp [jswSingle, T.isNil]

example : (jswDouble false demo).map T.items = some demo.items := by decide

/-- The items to the left of the way. -/
def before : List (Frame α β) → List (α × β)
  | [] => []
  | f :: fs => if f.right then before fs ++ f.other.items ++ [(f.key, f.value)] else before fs

/-- The items to the right of the way. -/
def after : List (Frame α β) → List (α × β)
  | [] => []
  | f :: fs => if f.right then after fs else (f.key, f.value) :: f.other.items ++ after fs

theorem black_items (t : T α β) : t.black.items = t.items := by
  cases t <;> rfl

theorem zip_items (path : List (Frame α β)) (t : T α β) : (zip path t).items = before path ++ t.items ++ after path := by
  induction path generalizing t with
  | nil => simp [zip, before, after]
  | cons f fs ih =>
    rw [zip, ih]
    by_cases h : f.right = true <;> simp [h, T.items, Frame.plug, before, after]

theorem fixRed_items (path : List (Frame α β)) (t : T α β) (path' : List (Frame α β)) (t' : T α β) (h : fixRed path t = some (path', t')) :
    before path' ++ t'.items ++ after path' = before path ++ t.items ++ after path ∧
    (∀ p ∈ before path', p ∈ before path) ∧ (∀ p ∈ after path', p ∈ after path) := by
  unfold fixRed at h
  cases path with
  | nil => simp at h; obtain ⟨rfl, rfl⟩ := h; simp
  | cons p up =>
    simp only at h
    by_cases hv : (t.isRed && p.red) = true
    · rw [if_pos hv] at h
      cases up with
      | nil => simp at h
      | cons g up =>
        simp only at h
        obtain ⟨pr, pc, pk, pv, po⟩ := p
        obtain ⟨gr, gc, gk, gv, go⟩ := g
        by_cases he : pr = gr
        · subst he
          cases pr with
          | true =>
            simp only [if_true, Frame.plug, Bool.not_true, jswSingle, Bool.false_eq_true, if_false, Option.some.injEq, Prod.mk.injEq] at h
            obtain ⟨rfl, rfl⟩ := h
            simp [before, after, T.items]
          | false =>
            simp only [if_true, Frame.plug, Bool.not_false, jswSingle, Bool.false_eq_true, if_false, Option.some.injEq, Prod.mk.injEq] at h
            obtain ⟨rfl, rfl⟩ := h
            simp [before, after, T.items]
        · rw [if_neg he] at h
          obtain ⟨u, h1, h2⟩ := Option.map_eq_some_iff.1 h
          simp only [Prod.mk.injEq] at h2
          obtain ⟨rfl, rfl⟩ := h2
          have hi := ((rotations _ _ _).2 h1).1
          refine ⟨?_, ?_, ?_⟩
          · rw [hi]
            cases pr <;> cases gr <;> simp [before, after, T.items, Frame.plug]
          · intro q hq
            cases pr <;> cases gr <;> simp [before, hq]
          · intro q hq
            cases pr <;> cases gr <;> simp [after, hq]
    · rw [if_neg hv] at h
      simp only [Option.some.injEq, Prod.mk.injEq] at h
      obtain ⟨rfl, rfl⟩ := h
      exact ⟨rfl, fun _ h => h, fun _ h => h⟩

theorem insertGo_items {cmp : α → α → Int} (hl : Lawful cmp) (key : α) (value : β) (n : Nat) (path : List (Frame α β)) (t u : T α β)
    (hb : ∀ p ∈ before path, cmp p.1 key < 0) (ha : ∀ p ∈ after path, cmp key p.1 < 0)
    (ho : (before path ++ t.items ++ after path).Pairwise (fun a b => cmp a.1 b.1 < 0)) (h : insertGo cmp key value n path t = some u) :
    u.items.Pairwise (fun a b => cmp a.1 b.1 < 0) ∧
    ∀ p, p ∈ u.items ↔ p = (key, value) ∨ (p ∈ before path ++ t.items ++ after path ∧ p.1 ≠ key) := by
  induction n generalizing path t with
  | zero => simp [insertGo] at h
  | succ n ih =>
    rw [insertGo] at h
    have w1 : (before path ++ (flipOrNew key value t).items ++ after path).Pairwise (fun a b => cmp a.1 b.1 < 0) ∧
        ∀ p : α × β, p.1 ≠ key → (p ∈ before path ++ (flipOrNew key value t).items ++ after path ↔ p ∈ before path ++ t.items ++ after path) := by
      cases t with
      | nil =>
        simp only [T.items, List.append_nil, List.pairwise_append] at ho
        refine ⟨?_, ?_⟩
        · simp only [flipOrNew, T.items, List.nil_append, List.append_assoc, List.cons_append, List.pairwise_append, List.pairwise_cons]
          refine ⟨ho.1, ⟨ha, ho.2.1⟩, ?_⟩
          intro a h1 b h2
          rcases List.mem_cons.1 h2 with h2 | h2
          · rw [h2]; exact hb a h1
          · exact ho.2.2 a h1 b h2
        · intro p hp
          have : p ≠ (key, value) := fun e => hp (by rw [e])
          simp [flipOrNew, T.items, this]
      | node c l k v r =>
        have e : (flipOrNew key value (.node c l k v r)).items = (T.node c l k v r).items := by
          rw [flipOrNew]
          by_cases hf : (l.isRed && r.isRed) = true
          · rw [if_pos hf]; simp [T.items, black_items]
          · rw [if_neg hf]
        rw [e]
        exact ⟨ho, fun _ _ => Iff.rfl⟩
    generalize flipOrNew key value t = t1 at h w1
    cases hf : fixRed path t1 with
    | none => rw [hf] at h; simp at h
    | some x =>
      obtain ⟨path', t'⟩ := x
      rw [hf] at h
      obtain ⟨f1, f2, f3⟩ := fixRed_items _ _ _ _ hf
      rw [← f1] at w1
      obtain ⟨w2, w3⟩ := w1
      have hb' : ∀ p ∈ before path', cmp p.1 key < 0 := fun p hp => hb p (f2 p hp)
      have ha' : ∀ p ∈ after path', cmp key p.1 < 0 := fun p hp => ha p (f3 p hp)
      cases t' with
      | nil => simp at h
      | node c l k v r =>
        simp only at h
        have fin : ∀ p : α × β, (p = (key, value) ∨ (p ∈ before path' ++ (T.node c l k v r).items ++ after path' ∧ p.1 ≠ key)) ↔
            (p = (key, value) ∨ (p ∈ before path ++ t.items ++ after path ∧ p.1 ≠ key)) := by
          intro p
          constructor
          · rintro (h | ⟨h1, h2⟩)
            · exact Or.inl h
            · exact Or.inr ⟨(w3 p h2).1 h1, h2⟩
          · rintro (h | ⟨h1, h2⟩)
            · exact Or.inl h
            · exact Or.inr ⟨(w3 p h2).2 h1, h2⟩
        have parts := w2
        simp only [T.items, List.append_assoc, List.cons_append, List.pairwise_append, List.pairwise_cons, List.mem_append, List.mem_cons] at parts
        by_cases h0 : cmp key k = 0
        · rw [if_pos h0] at h
          have hk := (hl.zero _ _).1 h0
          subst hk
          simp only [Option.some.injEq] at h
          subst h
          rw [zip_items]
          refine ⟨?_, ?_⟩
          · simp only [T.items, List.append_assoc, List.cons_append, List.pairwise_append, List.pairwise_cons, List.mem_append, List.mem_cons]
            obtain ⟨q1, ⟨q2, ⟨q3, q4⟩, q5⟩, q6⟩ := parts
            refine ⟨q1, ⟨q2, ⟨q3, q4⟩, ?_⟩, ?_⟩
            · intro a h1 b h2
              rcases h2 with h2 | h2
              · rw [h2]; exact q5 a h1 (key, v) (Or.inl rfl)
              · exact q5 a h1 b (Or.inr h2)
            · intro a h1 b h2
              rcases h2 with h2 | h2 | h2
              · exact q6 a h1 b (Or.inl h2)
              · rw [h2]; exact q6 a h1 (key, v) (Or.inr (Or.inl rfl))
              · exact q6 a h1 b (Or.inr (Or.inr h2))
          · intro p
            rw [← fin p]
            obtain ⟨q1, ⟨q2, ⟨q3, q4⟩, q5⟩, q6⟩ := parts
            have irr : ∀ a : α, ¬ cmp a a < 0 := fun a h => by rw [(hl.zero a a).2 rfl] at h; omega
            simp only [T.items, List.append_assoc, List.cons_append, List.mem_append, List.mem_cons]
            constructor
            · rintro (h | h | h | h | h)
              · exact Or.inr ⟨Or.inl h, fun e => irr key (by have := hb' p h; rwa [e] at this)⟩
              · exact Or.inr ⟨Or.inr (Or.inl h), fun e => irr key (by have := q5 p h (key, v) (Or.inl rfl); rwa [e] at this)⟩
              · exact Or.inl h
              · exact Or.inr ⟨Or.inr (Or.inr (Or.inr (Or.inl h))), fun e => irr key (by have := q3 p (Or.inl h); rwa [e] at this)⟩
              · exact Or.inr ⟨Or.inr (Or.inr (Or.inr (Or.inr h))), fun e => irr key (by have := ha' p h; rwa [e] at this)⟩
            · rintro (h | ⟨h | h | h | h | h, hne⟩)
              · exact Or.inr (Or.inr (Or.inl h))
              · exact Or.inl h
              · exact Or.inr (Or.inl h)
              · exact absurd (by rw [h]) hne
              · exact Or.inr (Or.inr (Or.inr (Or.inl h)))
              · exact Or.inr (Or.inr (Or.inr (Or.inr h)))
        · rw [if_neg h0] at h
          obtain ⟨q1, ⟨q2, ⟨q3, q4⟩, q5⟩, q6⟩ := parts
          by_cases h1 : cmp key k < 0
          · rw [if_pos h1] at h
            have e : before (⟨false, c, k, v, r⟩ :: path') ++ l.items ++ after (⟨false, c, k, v, r⟩ :: path') =
                before path' ++ (T.node c l k v r).items ++ after path' := by
              simp [before, after, T.items]
            have := ih (⟨false, c, k, v, r⟩ :: path') l hb' (by
              intro p hp
              simp only [after, Bool.false_eq_true, if_false, List.cons_append, List.mem_cons, List.mem_append] at hp
              rcases hp with h | h | h
              · rw [h]; exact h1
              · exact hl.trans _ _ _ h1 (q3 p (Or.inl h))
              · exact ha' p h) (by rw [e]; exact w2) h
            rw [e] at this
            exact ⟨this.1, fun p => (this.2 p).trans (fin p)⟩
          · rw [if_neg h1] at h
            have h2 : cmp k key < 0 := (hl.flip _ _).2 (by omega)
            have e : before (⟨true, c, k, v, l⟩ :: path') ++ r.items ++ after (⟨true, c, k, v, l⟩ :: path') =
                before path' ++ (T.node c l k v r).items ++ after path' := by
              simp [before, after, T.items]
            have := ih (⟨true, c, k, v, l⟩ :: path') r (by
              intro p hp
              simp only [before, if_true, List.append_assoc, List.mem_append, List.mem_singleton] at hp
              rcases hp with h | h | h
              · exact hb' p h
              · exact hl.trans _ _ _ (q5 p h (k, v) (Or.inl rfl)) h2
              · rw [h]; exact h2) ha' (by rw [e]; exact w2) h
            rw [e] at this
            exact ⟨this.1, fun p => (this.2 p).trans (fin p)⟩

/-- A black node with black children. -/
def Calm : T α β → Prop
  | .nil => False
  | .node c l _ _ r => c = false ∧ l.isRed = false ∧ r.isRed = false

/-- The child on the side of the key is calm. -/
def Ahead (cmp : α → α → Int) (key : α) : T α β → Prop
  | .nil => True
  | .node _ l k _ r => (cmp key k < 0 → Calm l) ∧ (cmp k key < 0 → Calm r)

/-- The parents have no two red nodes in a row. -/
def PathOK : List (Frame α β) → Prop
  | [] => True
  | p :: up => NoRedRed p.other ∧ (p.red = true → p.other.isRed = false ∧ ∀ g ∈ up.head?, g.red = false) ∧ PathOK up

/-- The parents lead towards the key. -/
def Towards (cmp : α → α → Int) (key : α) (path : List (Frame α β)) : Prop :=
  ∀ f ∈ path, if f.right then cmp f.key key < 0 else cmp key f.key < 0

/-- What holds before every round. -/
structure Inv (cmp : α → α → Int) (key : α) (path : List (Frame α β)) (t : T α β) : Prop where
  ok : PathOK path
  sub : NoRedRed t
  dir : Towards cmp key path
  root : path = [] → t.isRed = false
  par : ∀ p ∈ path.head?, p.red = true → t.isRed = false
  grand : ∀ p ∈ path.head?, p.red = true → (∃ g up, path = p :: g :: up ∧ g.other.isRed = false) ∨ Calm t
  sib : ∀ p ∈ path.head?, t.isRed = true → p.other.isRed = false ∨ Ahead cmp key t

theorem zip_ok (path : List (Frame α β)) (t : T α β) (h : PathOK path) (ht : NoRedRed t) (hp : ∀ p ∈ path.head?, p.red = true → t.isRed = false) :
    NoRedRed (zip path t) := by
  induction path generalizing t with
  | nil => exact ht
  | cons f fs ih =>
    obtain ⟨h1, h2, h3⟩ := h
    have h4 := hp f (by simp)
    rw [zip]
    apply ih _ h3
    · unfold Frame.plug
      by_cases hr : f.right = true
      · rw [if_pos hr]; exact ⟨fun hc => ⟨(h2 hc).1, h4 hc⟩, h1, ht⟩
      · rw [if_neg hr]; exact ⟨fun hc => ⟨h4 hc, (h2 hc).1⟩, ht, h1⟩
    · intro g hg hgr
      have e : (f.plug t).isRed = f.red := by
        unfold Frame.plug
        by_cases hr : f.right = true
        · rw [if_pos hr]; rfl
        · rw [if_neg hr]; rfl
      rw [e]
      cases hc : f.red with
      | false => rfl
      | true => have := (h2 hc).2 g hg; rw [this] at hgr; simp at hgr

theorem black_ok {t : T α β} (h : NoRedRed t) : NoRedRed t.black ∧ t.black.isRed = false := by
  cases t with
  | nil => exact ⟨trivial, rfl⟩
  | node c l k v r => exact ⟨⟨by simp, h.2⟩, rfl⟩

theorem calm_black {t : T α β} (h : NoRedRed t) (hr : t.isRed = true) : Calm t.black := by
  cases t with
  | nil => simp [T.isRed] at hr
  | node c l k v r => exact ⟨rfl, h.1 hr⟩

theorem descend {cmp : α → α → Int} {key : α} {path : List (Frame α β)} {c : Bool} {l r : T α β} {k : α} {v : β}
    (d1 : PathOK path) (d2 : NoRedRed (.node c l k v r)) (d3 : ∀ p ∈ path.head?, p.red = true → c = false) (d4 : Towards cmp key path)
    (d5 : c = true → (∃ g up, path = g :: up ∧ g.other.isRed = false) ∨ Ahead cmp key (.node c l k v r))
    (d6 : (l.isRed = false ∨ r.isRed = false) ∨ ((cmp key k < 0 → Ahead cmp key l) ∧ (cmp k key < 0 → Ahead cmp key r))) :
    (cmp key k < 0 → Inv cmp key (⟨false, c, k, v, r⟩ :: path) l) ∧ (cmp k key < 0 → Inv cmp key (⟨true, c, k, v, l⟩ :: path) r) := by
  obtain ⟨e1, e2, e3⟩ := d2
  have up : c = true → ∀ g ∈ path.head?, g.red = false := by
    intro hc g hg
    cases hr : g.red with
    | false => rfl
    | true => have := d3 g hg hr; rw [this] at hc; simp at hc
  refine ⟨fun hk => ⟨⟨e3, fun hc => ⟨(e1 hc).2, up hc⟩, d1⟩, e2, ?_, by simp, ?_, ?_, ?_⟩, fun hk => ⟨⟨e2, fun hc => ⟨(e1 hc).1, up hc⟩, d1⟩, e3, ?_, by simp, ?_, ?_, ?_⟩⟩
  · intro f hf
    rcases List.mem_cons.1 hf with h | h
    · rw [h]; simpa using hk
    · exact d4 f h
  · intro p hp hc
    simp at hp; subst hp
    exact (e1 hc).1
  · intro p hp hc
    simp at hp; subst hp
    rcases d5 hc with ⟨g, up, h1, h2⟩ | h
    · exact Or.inl ⟨g, up, by rw [h1], h2⟩
    · exact Or.inr (h.1 hk)
  · intro p hp hr
    simp at hp; subst hp
    rcases d6 with (h | h) | h
    · rw [h] at hr; simp at hr
    · exact Or.inl h
    · exact Or.inr (h.1 hk)
  · intro f hf
    rcases List.mem_cons.1 hf with h | h
    · rw [h]; simpa using hk
    · exact d4 f h
  · intro p hp hc
    simp at hp; subst hp
    exact (e1 hc).2
  · intro p hp hc
    simp at hp; subst hp
    rcases d5 hc with ⟨g, up, h1, h2⟩ | h
    · exact Or.inl ⟨g, up, by rw [h1], h2⟩
    · exact Or.inr (h.2 hk)
  · intro p hp hr
    simp at hp; subst hp
    rcases d6 with (h | h) | h
    · exact Or.inl h
    · rw [h] at hr; simp at hr
    · exact Or.inr (h.2 hk)

/-- The number of nodes from a node to the key or to the place where it is missing. -/
def depth (cmp : α → α → Int) (key : α) : T α β → Nat
  | .nil => 1
  | .node _ l k _ r => if cmp key k = 0 then 1 else if cmp key k < 0 then 1 + depth cmp key l else 1 + depth cmp key r

/-- The number of rounds that suffice. -/
def rounds (cmp : α → α → Int) (key : α) (t : T α β) : Nat := 2 * depth cmp key t - (if t.isRed then 1 else 0)

theorem depth_black (cmp : α → α → Int) (key : α) (t : T α β) : depth cmp key t.black = depth cmp key t := by
  cases t <;> rfl

theorem depth_pos (cmp : α → α → Int) (key : α) (t : T α β) : 1 ≤ depth cmp key t := by
  cases t with
  | nil => simp [depth]
  | node c l k v r =>
    rw [depth]
    split
    · exact Nat.le_refl 1
    · split <;> omega

theorem depth_size (cmp : α → α → Int) (key : α) (t : T α β) : depth cmp key t ≤ t.size + 1 := by
  induction t with
  | nil => simp [depth]
  | node c l k v r ihl ihr =>
    rw [depth, T.size]
    split
    · omega
    · split <;> omega

theorem depth_left {cmp : α → α → Int} {key : α} {c : Bool} {l r : T α β} {k : α} {v : β} (h : cmp key k < 0) :
    depth cmp key (.node c l k v r) = 1 + depth cmp key l := by
  rw [depth, if_neg (by omega), if_pos h]

theorem depth_right {cmp : α → α → Int} {key : α} {c : Bool} {l r : T α β} {k : α} {v : β} (h : 0 < cmp key k) :
    depth cmp key (.node c l k v r) = 1 + depth cmp key r := by
  rw [depth, if_neg (by omega), if_neg (by omega)]

/-- What one round has to establish. -/
def Round (cmp : α → α → Int) (key : α) (value : β) (m : Nat) (path : List (Frame α β)) : T α β → Prop
  | .nil => False
  | .node c l k v r => NoRedRed (zip path (.node c l k value r)) ∧
      (cmp key k < 0 → Inv cmp key (⟨false, c, k, v, r⟩ :: path) l ∧ rounds cmp key l < m) ∧
      (cmp k key < 0 → Inv cmp key (⟨true, c, k, v, l⟩ :: path) r ∧ rounds cmp key r < m)

theorem down {cmp : α → α → Int} (hl : Lawful cmp) (key : α) (value : β) {path : List (Frame α β)} {c : Bool} {l r : T α β} {k : α} {v : β} (m : Nat)
    (d1 : PathOK path) (d2 : NoRedRed (.node c l k v r)) (d3 : ∀ p ∈ path.head?, p.red = true → c = false) (d4 : Towards cmp key path)
    (d5 : c = true → (∃ g up, path = g :: up ∧ g.other.isRed = false) ∨ Ahead cmp key (.node c l k v r))
    (d6 : (l.isRed = false ∨ r.isRed = false) ∨ ((cmp key k < 0 → Ahead cmp key l) ∧ (cmp k key < 0 → Ahead cmp key r)))
    (hm : (cmp key k < 0 → rounds cmp key l < m) ∧ (cmp k key < 0 → rounds cmp key r < m)) :
    Round cmp key value m path (.node c l k v r) := by
  have h := descend d1 d2 d3 d4 d5 d6
  exact ⟨zip_ok path _ d1 d2 (fun p hp hr => d3 p hp hr), fun hk => ⟨h.1 hk, hm.1 hk⟩, fun hk => ⟨h.2 hk, hm.2 hk⟩⟩

theorem rounds_child {cmp : α → α → Int} (hl : Lawful cmp) (key : α) (c : Bool) (l : T α β) (k : α) (v : β) (r : T α β) :
    (cmp key k < 0 → rounds cmp key l < rounds cmp key (.node c l k v r)) ∧ (cmp k key < 0 → rounds cmp key r < rounds cmp key (.node c l k v r)) := by
  have pl := depth_pos cmp key l
  have pr := depth_pos cmp key r
  refine ⟨fun hk => ?_, fun hk => ?_⟩
  · unfold rounds
    rw [depth_left hk]
    cases hc : (T.node c l k v r).isRed <;> cases hd : l.isRed <;> simp <;> omega
  · have := (hl.flip _ _).1 hk
    unfold rounds
    rw [depth_right this]
    cases hc : (T.node c l k v r).isRed <;> cases hd : r.isRed <;> simp <;> omega

theorem fixRed_calm (path : List (Frame α β)) (t : T α β) (h : ∀ p ∈ path.head?, p.red = true → t.isRed = false) : fixRed path t = some (path, t) := by
  unfold fixRed
  cases path with
  | nil => rfl
  | cons p up =>
    have := h p (by simp)
    simp only
    rw [if_neg]
    intro hh
    simp only [Bool.and_eq_true] at hh
    rw [this hh.2] at hh
    simp at hh

/-- A red node with black children below a red parent. -/
theorem fix_round {cmp : α → α → Int} (hl : Lawful cmp) (key : α) (value : β) (m : Nat) (p g : Frame α β) (up : List (Frame α β)) (l r : T α β) (k : α) (v : β)
    (ok : PathOK (p :: g :: up)) (hp : p.red = true) (hg : g.other.isRed = false) (dir : Towards cmp key (p :: g :: up))
    (nl : NoRedRed l) (nr : NoRedRed r) (rl : l.isRed = false) (rr : r.isRed = false)
    (cl : cmp key k < 0 → Calm l) (cr : cmp k key < 0 → Calm r)
    (hml : cmp key k < 0 → 2 * depth cmp key l + 1 < m) (hmr : cmp k key < 0 → 2 * depth cmp key r + 1 < m) :
    ∃ path' t', fixRed (p :: g :: up) (.node true l k v r) = some (path', t') ∧ Round cmp key value m path' t' := by
  obtain ⟨pr, pc, pk, pv, po⟩ := p
  obtain ⟨gr, gc, gk, gv, go⟩ := g
  simp only at hp hg
  subst hp
  obtain ⟨o1, o2, o3, o4, o5⟩ := ok
  dsimp only at o1 o2 o3 o4
  have po_b := (o2 rfl).1
  have dp := dir _ (List.mem_cons_self ..)
  have dg := dir _ (List.mem_cons_of_mem _ (List.mem_cons_self ..))
  have du : Towards cmp key up := fun f hf => dir f (by simp [hf])
  simp only at dp dg
  have lr : rounds cmp key l ≤ 2 * depth cmp key l := Nat.sub_le _ _
  have rr' : rounds cmp key r ≤ 2 * depth cmp key r := Nat.sub_le _ _
  have small : ∀ (x y : T α β) (a : α) (b : β) , rounds cmp key (.node true x a b y) = 2 * depth cmp key (.node true x a b y) - 1 := fun _ _ _ _ => rfl
  have dpos := fun x : T α β => depth_pos cmp key x
  cases pr <;> cases gr
  · refine ⟨_, _, rfl, ?_⟩
    refine down hl key value m ⟨⟨fun _ => ⟨po_b, hg⟩, o1, o3⟩, by simp, o5⟩ ⟨fun _ => ⟨rl, rr⟩, nl, nr⟩ (by simp) ?_ (fun _ => Or.inr ⟨cl, cr⟩) (Or.inl (Or.inl rl))
      ⟨fun h => by have := hml h; omega, fun h => by have := hmr h; omega⟩
    intro f hf
    rcases List.mem_cons.1 hf with h | h
    · rw [h]; exact dp
    · exact du f h
  · refine ⟨_, _, rfl, ?_⟩
    have d0 : cmp key pk < 0 := dp
    have d1 : cmp gk key < 0 := dg
    have f1 := (hl.flip _ _).1 d0
    have f2 := (hl.flip _ _).1 d1
    refine down hl key value m o5 ⟨by simp, ⟨fun _ => ⟨hg, rl⟩, o3, nl⟩, ⟨fun _ => ⟨rr, po_b⟩, nr, o1⟩⟩ (fun _ _ _ => rfl) du (by simp)
      (Or.inr ⟨fun h => ⟨fun h2 => absurd (show cmp key gk < 0 from h2) (by omega), fun _ => cl h⟩, fun h => ⟨fun _ => cr h, fun h2 => absurd (show cmp pk key < 0 from h2) (by omega)⟩⟩) ⟨?_, ?_⟩
    · intro h
      have := hml h
      rw [small, depth_right (by omega)]
      omega
    · intro h
      have := hmr h
      rw [small, depth_left d0]
      omega
  · refine ⟨_, _, rfl, ?_⟩
    have d0 : cmp pk key < 0 := dp
    have d1 : cmp key gk < 0 := dg
    have f1 := (hl.flip _ _).1 d0
    have f2 := (hl.flip _ _).1 d1
    refine down hl key value m o5 ⟨by simp, ⟨fun _ => ⟨po_b, rl⟩, o1, nl⟩, ⟨fun _ => ⟨rr, hg⟩, nr, o3⟩⟩ (fun _ _ _ => rfl) du (by simp)
      (Or.inr ⟨fun h => ⟨fun h2 => absurd (show cmp key pk < 0 from h2) (by omega), fun _ => cl h⟩, fun h => ⟨fun _ => cr h, fun h2 => absurd (show cmp gk key < 0 from h2) (by omega)⟩⟩) ⟨?_, ?_⟩
    · intro h
      have := hml h
      rw [small, depth_right (by omega)]
      omega
    · intro h
      have := hmr h
      rw [small, depth_left d1]
      omega
  · refine ⟨_, _, rfl, ?_⟩
    refine down hl key value m ⟨⟨fun _ => ⟨hg, po_b⟩, o3, o1⟩, by simp, o5⟩ ⟨fun _ => ⟨rl, rr⟩, nl, nr⟩ (by simp) ?_ (fun _ => Or.inr ⟨cl, cr⟩) (Or.inl (Or.inl rl))
      ⟨fun h => by have := hml h; omega, fun h => by have := hmr h; omega⟩
    intro f hf
    rcases List.mem_cons.1 hf with h | h
    · rw [h]; exact dp
    · exact du f h

theorem round {cmp : α → α → Int} (hl : Lawful cmp) (key : α) (value : β) (path : List (Frame α β)) (t : T α β) (inv : Inv cmp key path t) :
    ∃ path' t', fixRed path (flipOrNew key value t) = some (path', t') ∧ Round cmp key value (rounds cmp key t) path' t' := by
  have z := (hl.zero key key).2 rfl
  cases t with
  | nil =>
    rw [flipOrNew]
    by_cases hp : ∃ p ∈ path.head?, p.red = true
    · obtain ⟨p, hp, hr⟩ := hp
      rcases inv.grand p hp hr with ⟨g, up, e, hg⟩ | h
      · subst e
        exact fix_round hl key value _ p g up .nil .nil key value inv.ok hr hg inv.dir trivial trivial rfl rfl
          (fun h => by omega) (fun h => by omega) (fun h => by omega) (fun h => by omega)
      · exact absurd h id
    · refine ⟨_, _, fixRed_calm path _ (fun p h1 h2 => absurd ⟨p, h1, h2⟩ hp), ?_⟩
      exact down hl key value _ inv.ok ⟨fun _ => ⟨rfl, rfl⟩, trivial, trivial⟩ (fun p h1 h2 => absurd ⟨p, h1, h2⟩ hp) inv.dir
        (fun _ => Or.inr ⟨fun h => by omega, fun h => by omega⟩) (Or.inl (Or.inl rfl)) ⟨fun h => by omega, fun h => by omega⟩
  | node c l k v r =>
    obtain ⟨s1, s2, s3⟩ := inv.sub
    rw [flipOrNew]
    by_cases hf : (l.isRed && r.isRed) = true
    · rw [if_pos hf]
      simp only [Bool.and_eq_true] at hf
      obtain ⟨fl, fr⟩ := hf
      have hc : c = false := by
        cases c with
        | false => rfl
        | true => have := (s1 rfl).1; rw [fl] at this; simp at this
      subst hc
      have bl := black_ok s2
      have br := black_ok s3
      have cl := calm_black s2 fl
      have cr := calm_black s3 fr
      have m1 : cmp key k < 0 → 2 * depth cmp key l.black + 1 < rounds cmp key (.node false l k v r) := by
        intro h
        unfold rounds
        rw [depth_black, depth_left h]
        simp [T.isRed]; omega
      have m2 : cmp k key < 0 → 2 * depth cmp key r.black + 1 < rounds cmp key (.node false l k v r) := by
        intro h
        have := (hl.flip _ _).1 h
        unfold rounds
        rw [depth_black, depth_right this]
        simp [T.isRed]; omega
      by_cases hp : ∃ p ∈ path.head?, p.red = true
      · obtain ⟨p, hp, hr⟩ := hp
        rcases inv.grand p hp hr with ⟨g, up, e, hg⟩ | h
        · subst e
          have e : p = p := rfl
          exact fix_round hl key value _ p g up l.black r.black k v inv.ok hr hg inv.dir bl.1 br.1 bl.2 br.2 (fun _ => cl) (fun _ => cr) m1 m2
        · have := h.2.1
          rw [fl] at this
          simp at this
      · refine ⟨_, _, fixRed_calm path _ (fun p h1 h2 => absurd ⟨p, h1, h2⟩ hp), ?_⟩
        refine down hl key value _ inv.ok ⟨fun _ => ⟨bl.2, br.2⟩, bl.1, br.1⟩ (fun p h1 h2 => absurd ⟨p, h1, h2⟩ hp) inv.dir
          (fun _ => Or.inr ⟨fun _ => cl, fun _ => cr⟩) (Or.inl (Or.inl bl.2)) ⟨fun h => ?_, fun h => ?_⟩
        · have := m1 h
          have h2 : rounds cmp key l.black ≤ 2 * depth cmp key l.black := Nat.sub_le _ _
          omega
        · have := m2 h
          have h2 : rounds cmp key r.black ≤ 2 * depth cmp key r.black := Nat.sub_le _ _
          omega
    · rw [if_neg hf]
      refine ⟨_, _, fixRed_calm path _ inv.par, ?_⟩
      refine down hl key value _ inv.ok ⟨s1, s2, s3⟩ inv.par inv.dir ?_ ?_ (rounds_child hl key c l k v r)
      · intro hc
        cases path with
        | nil => have := inv.root rfl; simp only [T.isRed] at this; rw [hc] at this; simp at this
        | cons p up =>
          rcases inv.sib p (by simp) hc with h | h
          · exact Or.inl ⟨p, up, rfl, h⟩
          · exact Or.inr h
      · left
        cases hh : l.isRed with
        | false => exact Or.inl rfl
        | true => right; rw [hh] at hf; simpa using hf

theorem insertGo_total {cmp : α → α → Int} (hl : Lawful cmp) (key : α) (value : β) (n : Nat) (path : List (Frame α β)) (t : T α β) (inv : Inv cmp key path t)
    (hn : rounds cmp key t ≤ n) : ∃ u, insertGo cmp key value n path t = some u ∧ NoRedRed u := by
  induction n generalizing path t with
  | zero =>
    exfalso
    have := depth_pos cmp key t
    unfold rounds at hn
    split at hn <;> omega
  | succ n ih =>
    obtain ⟨path', t', h1, h2⟩ := round hl key value path t inv
    cases t' with
    | nil => exact absurd h2 id
    | node c l k v r =>
      obtain ⟨r1, r2, r3⟩ := h2
      rw [insertGo, h1]
      simp only
      by_cases h0 : cmp key k = 0
      · rw [if_pos h0]; exact ⟨_, rfl, r1⟩
      · rw [if_neg h0]
        by_cases hk : cmp key k < 0
        · rw [if_pos hk]
          exact ih _ _ (r2 hk).1 (by have := (r2 hk).2; omega)
        · rw [if_neg hk]
          have := (hl.flip k key).2 (by omega)
          exact ih _ _ (r3 this).1 (by have := (r3 this).2; omega)

/-- C141: inserting into a tree with its keys in order, without two red nodes in a row and with a black root gives such a tree, with the new item and with all
the items of other keys; the loop ends after at most two rounds per node and two more. -/
theorem insertion {cmp : α → α → Int} (hl : Lawful cmp) (t : T α β) (ho : Ordered cmp t) (hr : NoRedRed t) (hb : t.isRed = false) (n : Nat)
    (hn : 2 * t.size + 2 ≤ n) (key : α) (value : β) :
    ∃ u, insert cmp n key value t = some u ∧ Ordered cmp u ∧ NoRedRed u ∧ u.isRed = false ∧
      ∀ p, p ∈ u.items ↔ p = (key, value) ∨ (p ∈ t.items ∧ p.1 ≠ key) := by
  cases t with
  | nil =>
    refine ⟨_, rfl, ?_⟩
    simp [Ordered, T.items, T.isRed, NoRedRed]
  | node c l k v r =>
    obtain ⟨w, h1, h2⟩ := insertGo_total hl key value n [] (.node c l k v r) ⟨trivial, hr, by simp [Towards], fun _ => hb, by simp, by simp, by simp⟩ (by
      have := depth_size cmp key (.node c l k v r)
      unfold rounds
      omega)
    have := insertGo_items hl key value n [] (.node c l k v r) w (by simp [before]) (by simp [after]) (by simpa [before, after, Ordered] using ho) h1
    simp only [before, after, List.nil_append, List.append_nil] at this
    refine ⟨w.black, ?_, ?_, (black_ok h2).1, (black_ok h2).2, ?_⟩
    · unfold insert
      rw [h1]
      rfl
    · unfold Ordered; rw [black_items]; exact this.1
    · intro p; rw [black_items]; exact this.2 p

/-- A tree with `n` black nodes on every way fits at the end of the way. -/
def Fits : Nat → List (Frame α β) → Prop
  | _, [] => True
  | n, f :: fs => Balanced n f.other ∧ Fits (if f.red then n else n + 1) fs

theorem zip_balanced (path : List (Frame α β)) (n : Nat) (t : T α β) (h : Fits n path) (ht : Balanced n t) : ∃ m, Balanced m (zip path t) := by
  induction path generalizing n t with
  | nil => exact ⟨n, ht⟩
  | cons f fs ih =>
    obtain ⟨h1, h2⟩ := h
    rw [zip]
    refine ih _ _ h2 ?_
    obtain ⟨d, c, k, v, o⟩ := f
    cases d <;> cases c <;> simp [Frame.plug, Balanced] <;> exact ⟨by assumption, by assumption⟩

theorem black_balanced {t : T α β} {n : Nat} (h : Balanced n t) : ∃ m, Balanced m t.black := by
  cases t with
  | nil => exact ⟨n, h⟩
  | node c l k v r =>
    cases c with
    | true => exact ⟨n + 1, n, rfl, h⟩
    | false => exact ⟨n, h⟩

theorem red_black {t : T α β} {n : Nat} (h : Balanced n t) (hr : t.isRed = true) : Balanced (n + 1) t.black := by
  cases t with
  | nil => simp [T.isRed] at hr
  | node c l k v r =>
    simp only [T.isRed] at hr
    subst hr
    exact ⟨n, rfl, h⟩

theorem flip_balanced (key : α) (value : β) {t : T α β} {n : Nat} (h : Balanced n t) (hr : NoRedRed t) : Balanced n (flipOrNew key value t) := by
  cases t with
  | nil => exact ⟨h, h⟩
  | node c l k v r =>
    rw [flipOrNew]
    by_cases hf : (l.isRed && r.isRed) = true
    · rw [if_pos hf]
      simp only [Bool.and_eq_true] at hf
      cases c with
      | true => have := (hr.1 rfl).1; rw [hf.1] at this; simp at this
      | false =>
        obtain ⟨m, rfl, h1, h2⟩ := h
        exact ⟨red_black h1 hf.1, red_black h2 hf.2⟩
    · rw [if_neg hf]; exact h

theorem fix_balanced {path path' : List (Frame α β)} {t t' : T α β} {n : Nat} (ok : PathOK path) (hf : Fits n path) (ht : Balanced n t)
    (h : fixRed path t = some (path', t')) : ∃ m, Fits m path' ∧ Balanced m t' := by
  by_cases hp : ∀ p ∈ path.head?, p.red = true → t.isRed = false
  · rw [fixRed_calm path t hp] at h
    simp only [Option.some.injEq, Prod.mk.injEq] at h
    obtain ⟨rfl, rfl⟩ := h
    exact ⟨n, hf, ht⟩
  · cases path with
    | nil => simp at hp
    | cons p up =>
      simp only [List.head?_cons, Option.mem_def, Option.some.injEq, forall_eq', Bool.not_eq_false] at hp
      push Not at hp
      obtain ⟨hp, hr⟩ := hp
      have hr : t.isRed = true := by cases hh : t.isRed <;> simp_all
      cases t with
      | nil => simp [T.isRed] at hr
      | node c l k v r =>
        simp only [T.isRed] at hr
        subst hr
        cases up with
        | nil => simp [fixRed, T.isRed, hp] at h
        | cons g up =>
          obtain ⟨pr, pc, pk, pv, po⟩ := p
          obtain ⟨gr, gc, gk, gv, go⟩ := g
          have gb := (ok.2.1 hp).2 ⟨gr, gc, gk, gv, go⟩ (by simp)
          dsimp only at hp gb
          subst hp gb
          obtain ⟨f1, f2, f3⟩ := hf
          obtain ⟨t1, t2⟩ := ht
          simp only [if_true, Bool.false_eq_true, if_false] at f1 f2 f3
          cases pr <;> cases gr <;>
            simp only [fixRed, T.isRed, Bool.and_self, if_true, jswSingle, jswDouble, Frame.plug, Bool.not_true, Bool.not_false, Bool.false_eq_true, if_false,
              reduceCtorEq, Option.bind_some, Option.map_some, Option.some.injEq, Prod.mk.injEq] at h <;>
            obtain ⟨rfl, rfl⟩ := h
          · exact ⟨n, ⟨⟨f1, f2⟩, f3⟩, t1, t2⟩
          · exact ⟨n + 1, f3, n, rfl, ⟨f2, t1⟩, ⟨t2, f1⟩⟩
          · exact ⟨n + 1, f3, n, rfl, ⟨f1, t1⟩, ⟨t2, f2⟩⟩
          · exact ⟨n, ⟨⟨f2, f1⟩, f3⟩, t1, t2⟩

theorem insertGo_balanced {cmp : α → α → Int} (hl : Lawful cmp) (key : α) (value : β) (n : Nat) (path : List (Frame α β)) (t u : T α β) (inv : Inv cmp key path t)
    (b : Nat) (hf : Fits b path) (ht : Balanced b t) (h : insertGo cmp key value n path t = some u) : ∃ m, Balanced m u := by
  induction n generalizing path t b with
  | zero => simp [insertGo] at h
  | succ n ih =>
    obtain ⟨path', t', h1, h2⟩ := round hl key value path t inv
    obtain ⟨m, m1, m2⟩ := fix_balanced inv.ok hf (flip_balanced key value ht inv.sub) h1
    cases t' with
    | nil => exact absurd h2 id
    | node c l k v r =>
      obtain ⟨r1, r2, r3⟩ := h2
      rw [insertGo, h1] at h
      simp only at h
      have kids : ∃ q, Balanced q l ∧ Balanced q r ∧ Fits (if c then q else q + 1) path' := by
        cases c with
        | true => exact ⟨m, m2.1, m2.2, m1⟩
        | false =>
          obtain ⟨q, rfl, q1, q2⟩ := m2
          exact ⟨q, q1, q2, m1⟩
      obtain ⟨q, q1, q2, q3⟩ := kids
      by_cases h0 : cmp key k = 0
      · rw [if_pos h0] at h
        simp only [Option.some.injEq] at h
        subst h
        refine zip_balanced path' m _ m1 ?_
        cases c <;> exact m2
      · rw [if_neg h0] at h
        by_cases hk : cmp key k < 0
        · rw [if_pos hk] at h
          exact ih _ _ (r2 hk).1 q ⟨q2, q3⟩ q1 h
        · rw [if_neg hk] at h
          exact ih _ _ (r3 ((hl.flip k key).2 (by omega))).1 q ⟨q1, q3⟩ q2 h

/-- C141: if every way down has the same number of black nodes, this is so after inserting an item. -/
theorem stays_balanced {cmp : α → α → Int} (hl : Lawful cmp) (t u : T α β) (hr : NoRedRed t) (hb : t.isRed = false) (b : Nat) (ht : Balanced b t)
    (n : Nat) (key : α) (value : β) (h : insert cmp n key value t = some u) : ∃ m, Balanced m u := by
  cases t with
  | nil =>
    simp only [insert, T.isNil, if_true, Option.some.injEq] at h
    subst h
    exact ⟨1, 0, rfl, rfl, rfl⟩
  | node c l k v r =>
    simp only [insert, T.isNil, Bool.false_eq_true, if_false] at h
    obtain ⟨w, h1, rfl⟩ := Option.map_eq_some_iff.1 h
    obtain ⟨m, hm⟩ := insertGo_balanced hl key value n [] (.node c l k v r) w
      ⟨trivial, hr, by simp [Towards], fun _ => hb, by simp, by simp, by simp⟩ b trivial ht h1
    exact black_balanced hm

theorem balanced_height (t : T α β) (n : Nat) (h : Balanced n t) (hr : NoRedRed t) :
    2 ^ n ≤ t.size + 1 ∧ height t ≤ 2 * n + (if t.isRed then 1 else 0) := by
  induction t generalizing n with
  | nil => rw [show n = 0 from h]; simp [height, T.size]
  | node c l k v r ihl ihr =>
    obtain ⟨s1, s2, s3⟩ := hr
    cases c with
    | true =>
      obtain ⟨h1, h2⟩ := h
      obtain ⟨a1, a2⟩ := ihl n h1 s2
      obtain ⟨b1, b2⟩ := ihr n h2 s3
      rw [(s1 rfl).1] at a2
      rw [(s1 rfl).2] at b2
      simp only [Bool.false_eq_true, if_false] at a2 b2
      simp only [T.size, height, T.isRed, if_true]
      omega
    | false =>
      obtain ⟨m, rfl, h1, h2⟩ := h
      obtain ⟨a1, a2⟩ := ihl m h1 s2
      obtain ⟨b1, b2⟩ := ihr m h2 s3
      have a3 : height l ≤ 2 * m + 1 := by split at a2 <;> omega
      have b3 : height r ≤ 2 * m + 1 := by split at b2 <;> omega
      simp only [T.size, height, T.isRed, Bool.false_eq_true, if_false, Nat.pow_succ]
      omega

/-- C141: after any number of insertions into the empty tree, for every key the value is the last one inserted, and the longest way down is at most twice the
logarithm of the number of items plus one. -/
theorem many_insertions {cmp : α → α → Int} (hl : Lawful cmp) (items : List (α × β)) :
    ∃ u, items.foldlM (fun t p => insert cmp (2 * t.size + 2) p.1 p.2 t) (.nil : T α β) = some u ∧ Ordered cmp u ∧
      (∀ key, getValue cmp key u = (items.reverse.find? (fun p => decide (cmp p.1 key = 0))).map Prod.snd) ∧
      2 ^ height u ≤ (u.items.length + 1) ^ 2 := by
  have gen : ∀ (items : List (α × β)) (t : T α β), Ordered cmp t → NoRedRed t → t.isRed = false → (∃ b, Balanced b t) →
      ∃ u, items.foldlM (fun t p => insert cmp (2 * t.size + 2) p.1 p.2 t) t = some u ∧ Ordered cmp u ∧
        (∀ key, getValue cmp key u = ((items.reverse.find? (fun p => decide (cmp p.1 key = 0))).map Prod.snd).or (getValue cmp key t)) ∧
        NoRedRed u ∧ u.isRed = false ∧ ∃ b, Balanced b u := by
    intro items
    induction items with
    | nil => intro t h1 h2 h3 h4; exact ⟨t, rfl, h1, fun _ => by simp, h2, h3, h4⟩
    | cons x xs ih =>
      intro t h1 h2 h3 h4
      obtain ⟨u, u1, u2, u3, u4, u5⟩ := insertion hl t h1 h2 h3 _ (Nat.le_refl _) x.1 x.2
      obtain ⟨b, hb⟩ := h4
      obtain ⟨w, w1, w2, w3, w4⟩ := ih u u2 u3 u4 (stays_balanced hl t u h2 h3 b hb _ _ _ u1)
      refine ⟨w, ?_, w2, ?_, w4⟩
      · rw [List.foldlM_cons, u1]; exact w1
      · intro key
        rw [w3 key, List.reverse_cons, List.find?_append]
        have gu : getValue cmp key u = if cmp x.1 key = 0 then some x.2 else getValue cmp key t := by
          apply Option.ext
          intro v
          rw [lookup hl u u2 key v, u5]
          by_cases hx : cmp x.1 key = 0
          · have := (hl.zero _ _).1 hx
            rw [if_pos hx, ← this]
            simp [eq_comm]
          · have hne : key ≠ x.1 := fun e => hx ((hl.zero _ _).2 e.symm)
            rw [if_neg hx, lookup hl t h1 key v]
            simp [hne]
        rw [gu]
        cases hfind : List.find? (fun p => decide (cmp p.1 key = 0)) xs.reverse with
        | some y => simp
        | none =>
          by_cases hx : cmp x.1 key = 0
          · simp [hx]
          · simp [hx]
  obtain ⟨u, h1, h2, h3, h4, h5, b, h6⟩ := gen items .nil (by simp [Ordered, T.items]) trivial rfl ⟨0, rfl⟩
  refine ⟨u, h1, h2, fun key => by rw [h3 key]; simp [getValue], ?_⟩
  obtain ⟨k1, k2⟩ := balanced_height u b h6 h4
  rw [h5] at k2
  simp only [Bool.false_eq_true, if_false, Nat.add_zero] at k2
  have len : ∀ t : T α β, t.items.length = t.size := by
    intro t
    induction t with
    | nil => rfl
    | node c l k v r ihl ihr => simp only [T.items, T.size, List.length_append, List.length_cons, ihl, ihr]; omega
  rw [len]
  calc 2 ^ height u ≤ 2 ^ (2 * b) := Nat.pow_le_pow_right (by omega) k2
    _ = (2 ^ b) ^ 2 := by rw [Nat.mul_comm, Nat.pow_mul]
    _ ≤ (u.size + 1) ^ 2 := Nat.pow_le_pow_left k1 2

example : (insert dfltCmp 10 3 30 demo).map T.items = some [(1, 10), (2, 20), (3, 30), (4, 40), (5, 50)] ∧
    (insert dfltCmp 10 5 51 demo).map T.items = some [(1, 10), (2, 20), (4, 40), (5, 51)] ∧ NoRedRed demo ∧ demo.isRed = false := by
  refine ⟨by decide, by decide, ?_, rfl⟩
  simp [demo, NoRedRed, T.isRed]

end Imgaug.OrdTree.Props
