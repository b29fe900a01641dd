import Verif.Spec.PolyClip
import Verif.Proofs.Lines
import Mathlib.Tactic.Linarith
import Mathlib.Tactic.Ring
/-! Lemmas for C115. -/
namespace Imgaug.PolyClip
open Imgaug

theorem closest_spec (p : Pt) (l : List Pt) (i : Nat) (d : ℚ) (h : closest p l = some (i, d)) :
    (∃ q, l[i]? = some q ∧ d = dist q p) ∧ (∀ q ∈ l, d ≤ dist q p) ∧ ∀ j q, l[j]? = some q → j < i → d < dist q p := by
  induction l generalizing i d with
  | nil => cases h
  | cons a l ih =>
    simp only [closest] at h
    cases hc : closest p l with
    | none =>
      rw [hc] at h
      cases h
      have : l = [] := by
        cases l with
        | nil => rfl
        | cons b l =>
          simp only [closest] at hc
          split at hc
          · cases hc
          · split_ifs at hc
      subst this
      refine ⟨⟨a, rfl, rfl⟩, by simp, by simp⟩
    | some r =>
      obtain ⟨i', d'⟩ := r
      rw [hc] at h
      obtain ⟨⟨q, h1, h2⟩, h3, h4⟩ := ih i' d' hc
      simp only at h
      split_ifs at h with hd
      · cases h
        refine ⟨⟨q, by simpa using h1, h2⟩, ?_, ?_⟩
        · intro q' hq'
          rcases List.mem_cons.1 hq' with rfl | hq'
          · exact hd.le
          · exact h3 q' hq'
        · intro j q' hj hlt
          cases j with
          | zero => simp at hj; subst hj; exact hd
          | succ j => exact h4 j q' (by simpa using hj) (by omega)
      · cases h
        refine ⟨⟨a, rfl, rfl⟩, ?_, by omega⟩
        intro q' hq'
        rcases List.mem_cons.1 hq' with rfl | hq'
        · exact le_rfl
        · exact le_trans (not_lt.1 hd) (h3 q' hq')

theorem closest_some (p : Pt) (l : List Pt) (h : l ≠ []) : ∃ r, closest p l = some r := by
  cases l with
  | nil => exact absurd rfl h
  | cons a l =>
    simp only [closest]
    cases closest p l with
    | none => exact ⟨_, rfl⟩
    | some r => obtain ⟨i, d⟩ := r; simp only; split_ifs <;> exact ⟨_, rfl⟩

/-- What the loop knows after some points: the best index belongs to one of them, is the first that reaches the smallest distance, and no pair of points is closer. -/
def Best (ring seen : List Pt) (b : Nat × ℚ) : Prop :=
  ∃ v ∈ seen, closest v ring = some b ∧ ∀ v' ∈ seen, ∀ u ∈ ring, b.2 ≤ dist u v'

theorem bestIndex_spec (ring : List Pt) (hr : ring ≠ []) (l : List Pt) (seen : List Pt) (best : Option (Nat × ℚ))
    (h : (best = none ∧ seen = []) ∨ ∃ b, best = some b ∧ Best ring seen b) :
    ∃ r, bestIndex ring l best = some r ∧ ((r = none ∧ seen ++ l = []) ∨ ∃ b, r = some b ∧ Best ring (seen ++ l) b) := by
  induction l generalizing seen best with
  | nil => refine ⟨best, rfl, ?_⟩; simpa using h
  | cons p l ih =>
    obtain ⟨⟨i, d⟩, hc⟩ := closest_some p ring hr
    have cs := closest_spec p ring i d hc
    simp only [bestIndex, hc, Option.bind_eq_bind, Option.bind_some]
    have e : seen ++ p :: l = (seen ++ [p]) ++ l := by simp
    rw [e]
    rcases h with ⟨rfl, rfl⟩ | ⟨b, rfl, v, hv, h1, h2⟩
    · refine ih _ _ (Or.inr ⟨_, rfl, p, by simp, hc, ?_⟩)
      intro v' hv' u hu
      simp at hv'
      subst hv'
      exact cs.2.1 u hu
    · refine ih _ _ (Or.inr ⟨_, rfl, ?_⟩)
      split_ifs with hd
      · refine ⟨p, by simp, hc, ?_⟩
        intro v' hv' u hu
        rcases List.mem_append.1 hv' with hv' | hv'
        · exact le_trans hd.le (h2 v' hv' u hu)
        · simp at hv'; subst hv'; exact cs.2.1 u hu
      · refine ⟨v, by simp [hv], h1, ?_⟩
        intro v' hv' u hu
        rcases List.mem_append.1 hv' with hv' | hv'
        · exact h2 v' hv' u hu
        · simp at hv'; subst hv'; exact le_trans (not_lt.1 hd) (cs.2.1 u hu)

theorem ptClose_self (p : Pt) : ptClose p p = true := by
  have : ∀ a : ℚ, npClose a a := by intro a; unfold npClose; simp; positivity
  simp [ptClose, this]

theorem fromShapely_closed (c : List Pt) (h : 1 ≤ c.length) (label : Option String) : fromShapely (closed c) label = ⟨c, label⟩ := by
  cases c with
  | nil => simp at h
  | cons a l =>
    have hl : (a :: (l ++ [a])).getLast? = some a := by
      rw [← List.cons_append]; exact List.getLast?_concat
    simp only [fromShapely, closed, Polygon.init, List.take, List.cons_append, List.head?_cons, List.take_zero, hl, ptClose_self]
    simp
    rw [← List.cons_append, List.dropLast_concat]

/-- Going through the constructor: at most the last point is lost, and none if the ends are not close. -/
theorem init_cases (l : List Pt) (label : Option String) :
    (Polygon.init l label).label = label ∧
    ((Polygon.init l label).exterior = l ∨
      (2 ≤ l.length ∧ (Polygon.init l label).exterior = l.dropLast ∧ ∃ a b, l.head? = some a ∧ l.getLast? = some b ∧ ptClose a b = true)) := by
  unfold Polygon.init
  split
  · rename_i p q h1 h2
    split_ifs with h
    · simp only [ge_iff_le, Bool.and_eq_true, decide_eq_true_eq] at h
      exact ⟨rfl, Or.inr ⟨h.1, rfl, p, q, h1, h2, h.2⟩⟩
    · exact ⟨rfl, Or.inl rfl⟩
  · exact ⟨rfl, Or.inl rfl⟩

/-- One component: its points, rotated. -/
theorem reorder_spec (orig : List Pt) (ho : orig ≠ []) (c : List Pt) (hc : c ≠ []) (label : Option String) :
    ∃ i q, i < c.length ∧ reorder orig ⟨c, label⟩ = some [q] ∧ q = Polygon.init (c.drop i ++ c.take i) label ∧
      ∃ d, Best c orig (i, d) := by
  obtain ⟨r, h1, h2⟩ := bestIndex_spec c hc orig [] none (Or.inl ⟨rfl, rfl⟩)
  rcases h2 with ⟨-, h2⟩ | ⟨⟨i, d⟩, rfl, h2⟩
  · exact absurd (by simpa using h2) ho
  simp only [List.nil_append] at h2
  have hb := h2
  obtain ⟨v, -, hv, -⟩ := h2
  obtain ⟨⟨q, hq, -⟩, -⟩ := closest_spec v c i d hv
  have hi : i < c.length := (List.getElem?_eq_some_iff.1 hq).1
  refine ⟨i, Polygon.init (c.drop i ++ c.take i) label, hi, ?_, rfl, d, hb⟩
  simp only [reorder, h1, Option.bind_eq_bind, Option.bind_some, Polygon.changeFirstPointByIndex]
  rw [if_pos ⟨by omega, by exact_mod_cast hi⟩]
  by_cases h0 : i = 0
  · subst h0; simp [Polygon.deepcopy]
  · rw [if_neg (by exact_mod_cast h0)]; simp [Polygon.deepcopy]

theorem reorder_empty (orig : List Pt) (ho : orig ≠ []) (label : Option String) : reorder orig ⟨[], label⟩ = none := by
  cases orig with
  | nil => exact absurd rfl ho
  | cons a l => simp [reorder, bestIndex, closest]

theorem rot_isRotated (c : List Pt) (i : Nat) (h : i ≤ c.length) : (c.drop i ++ c.take i) ~r c := by
  rw [← List.rotate_eq_drop_append_take h]
  exact List.IsRotated.symm ⟨i, rfl⟩

theorem shoelace_append (z b : Pt) (l m : List Pt) : shoelace z (l ++ b :: m) = shoelace b l + shoelace z (b :: m) := by
  induction l with
  | nil => simp [shoelace]
  | cons a l ih =>
    cases l with
    | nil => simp [shoelace]
    | cons c l => simp only [List.cons_append, shoelace] at ih ⊢; rw [ih]; ring

theorem area_rotate (a : Pt) (l : List Pt) : area (l ++ [a]) = area (a :: l) := by
  have hlen : (l ++ [a]).length = (a :: l).length := by simp
  unfold area
  rw [hlen]
  split_ifs with h
  · rfl
  · cases l with
    | nil => rfl
    | cons b m =>
      simp only [List.cons_append]
      rw [← List.cons_append, shoelace_append]
      congr 2
      simp only [shoelace]
      ring

theorem area_isRotated {l l' : List Pt} (h : l ~r l') : area l = area l' := by
  obtain ⟨n, rfl⟩ := h
  induction n generalizing l with
  | zero => simp
  | succ n ih =>
    cases l with
    | nil => simp
    | cons a l => rw [List.rotate_cons_succ, ← ih, area_rotate]

theorem area_nonneg (l : List Pt) : 0 ≤ area l := by
  unfold area
  split_ifs
  · rfl
  · split
    · rfl
    · positivity

theorem mapM_forall₂ {α β : Type} (f : α → Option β) (R : α → β → Prop) (l : List α) (h : ∀ a ∈ l, ∃ b, f a = some b ∧ R a b) :
    ∃ r, l.mapM f = some r ∧ List.Forall₂ R l r := by
  induction l with
  | nil => exact ⟨[], rfl, .nil⟩
  | cons a l ih =>
    obtain ⟨b, e, hb⟩ := h a (by simp)
    obtain ⟨r, e', hr⟩ := ih (fun x hx => h x (by simp [hx]))
    exact ⟨b :: r, by simp [e, e'], .cons hb hr⟩

theorem forall₂_of_mapM {α β : Type} (f : α → Option β) (l : List α) (r : List β) (h : l.mapM f = some r) : List.Forall₂ (fun a b => f a = some b) l r := by
  induction l generalizing r with
  | nil => simp at h; subst h; exact .nil
  | cons a l ih =>
    simp only [List.mapM_cons, Option.bind_eq_bind, Option.bind_eq_some_iff, Option.pure_def, Option.some.injEq] at h
    obtain ⟨b, hb, m, hm, rfl⟩ := h
    exact .cons hb (ih m hm)

theorem dist_nonneg (u v : Pt) : 0 ≤ dist u v := by unfold dist; positivity

theorem dist_zero {u v : Pt} (h : dist u v ≤ 0) : u = v := by
  unfold dist at h
  obtain ⟨ux, uy⟩ := u
  obtain ⟨vx, vy⟩ := v
  simp only at h
  have h1 : ux - vx = 0 := by nlinarith [sq_nonneg (ux - vx), sq_nonneg (uy - vy)]
  have h2 : uy - vy = 0 := by nlinarith [sq_nonneg (ux - vx), sq_nonneg (uy - vy)]
  rw [Pt.mk.injEq]
  exact ⟨by linarith, by linarith⟩

theorem bestIndex_stays (ring : List Pt) (hr : ring ≠ []) (l : List Pt) (i : Nat) (d : ℚ) (h : d ≤ 0) : bestIndex ring l (some (i, d)) = some (some (i, d)) := by
  induction l with
  | nil => rfl
  | cons p l ih =>
    obtain ⟨⟨j, e⟩, hc⟩ := closest_some p ring hr
    obtain ⟨⟨q, -, hq⟩, -⟩ := closest_spec p ring j e hc
    have : ¬ e < d := by rw [hq]; have := dist_nonneg q p; linarith
    simp only [bestIndex, hc, Option.bind_eq_bind, Option.bind_some, if_neg this]
    exact ih

theorem rotated_same_head {a : Pt} {m l : List Pt} (hm : (a :: m).Nodup) (h : l ~r (a :: m)) (hl : l.head? = some a) : l = a :: m := by
  obtain ⟨n, rfl⟩ := h.symm
  have hpos : 0 < (a :: m).length := by simp
  rw [← List.rotate_mod] at hl ⊢
  have hlt := Nat.mod_lt n hpos
  generalize n % (a :: m).length = k at *
  rw [List.head?_rotate hlt] at hl
  have h0 : (a :: m)[0]? = some a := rfl
  have : k = 0 := (List.Nodup.getElem_inj_iff hm (hi := hlt) (hj := hpos)).1 (by
    rw [List.getElem?_eq_getElem hlt] at hl
    rw [List.getElem?_eq_getElem hpos] at h0
    rw [Option.some.injEq] at hl h0
    rw [hl, h0])
  rw [this, List.rotate_zero]

theorem closed_inj {x y : List Pt} (hx : 3 ≤ x.length) (hy : 3 ≤ y.length) (h : closed x = closed y) : x = y := by
  have hl : x.length = y.length := by
    have := congrArg List.length h
    simp only [closed, List.length_append, List.length_take] at this
    omega
  exact (List.append_inj h hl).1

theorem clip_short (s : Shape) (inter : Pt → Pt → List Pt) (l : List Pt) (h : l.length ≤ 2) : (Lines.clip s inter l).length ≤ 1 := by
  match l with
  | [] => simp [Lines.clip]
  | [a] => simp only [Lines.clip]; split_ifs <;> simp
  | [a, b] =>
    simp only [Lines.clip]
    split_ifs
    · simp
    · refine le_trans (List.length_filter_le _ _) ?_
      have key : ∀ (es : List Lines.Entry), (∀ e ∈ es, e.ooi = false) → ∀ line, (Lines.pieces es line []).length ≤ 1 := by
        intro es
        induction es with
        | nil => intro _ line; simp only [Lines.pieces]; split_ifs <;> simp
        | cons e es ih =>
          intro he line
          have h0 := he e (by simp)
          have ih := ih (fun x hx => he x (by simp [hx]))
          rw [Lines.pieces.eq_def]; simp only [h0]
          simp only [Bool.false_eq_true, if_false]
          split_ifs <;> exact ih _
      have hrest : ∀ e ∈ (inter a b).map (fun p => (⟨p, true, false⟩ : Lines.Entry)) ++ (if !Lines.inside s b then [] else [⟨b, false, !Lines.inside s b⟩]), e.ooi = false := by
        intro e he
        rcases List.mem_append.1 he with he | he
        · obtain ⟨p, -, rfl⟩ := List.mem_map.1 he; rfl
        · split_ifs at he with hb
          · simp at he
          · simp only [List.mem_singleton] at he; rw [he]; simpa using hb
      simp only [Lines.entries, List.cons_append]
      generalize (inter a b).map (fun p => (⟨p, true, false⟩ : Lines.Entry)) ++ (if !Lines.inside s b then [] else [⟨b, false, !Lines.inside s b⟩]) = rest at *
      rw [Lines.pieces.eq_def]
      simp only
      split_ifs <;> first | exact key _ hrest _ | simp_all
  | _ :: _ :: _ :: _ => simp at h

end Imgaug.PolyClip
