import Verif.Spec.Lines
import Mathlib.Analysis.Complex.Norm
import Mathlib.Tactic.Linarith
/-! Lemmas for Props/Lines.lean. -/
namespace Imgaug.Lines
open Imgaug

theorem inside_iff (s : Shape) (p : Pt) : inside s p = true ↔ InImage s p := by
  simp [inside, InImage, and_assoc]

theorem rect_image {s : Shape} {p : Pt} (h : InRect s p) : InImage s p := by
  obtain ⟨h1, h2, h3, h4⟩ := h
  have : (0 : ℚ) < eps := by norm_num [eps]
  exact ⟨h1, by linarith, h3, by linarith⟩

theorem onEdge_left (a b : Pt) : OnEdge a b a := ⟨0, le_rfl, by norm_num, by simp [at_]⟩

theorem onEdge_right (a b : Pt) : OnEdge a b b := ⟨1, by norm_num, le_rfl, by simp [at_]⟩

theorem mem_onLine : ∀ (l : List Pt) (p : Pt), p ∈ l → OnLine l p
  | [a], p, h => by simpa [OnLine] using h
  | a :: b :: l, p, h => by
    rcases List.mem_cons.mp h with rfl | h
    · exact Or.inl (onEdge_left _ _)
    · exact Or.inr (mem_onLine (b :: l) p h)

theorem edge_inImage {s : Shape} {a b p : Pt} (ha : InImage s a) (hb : InImage s b) (h : OnEdge a b p) : InImage s p := by
  obtain ⟨t, h0, h1, rfl⟩ := h
  obtain ⟨a1, a2, a3, a4⟩ := ha
  obtain ⟨b1, b2, b3, b4⟩ := hb
  simp only [at_]
  have e1 : a.x + t * (b.x - a.x) = (1 - t) * a.x + t * b.x := by ring
  have e2 : a.y + t * (b.y - a.y) = (1 - t) * a.y + t * b.y := by ring
  have ht : 0 ≤ 1 - t := by linarith
  have key : ∀ u v w : ℚ, u < w → v < w → (1 - t) * u + t * v < w := by
    intro u v w hu hv
    have k1 : (1 - t) * u ≤ (1 - t) * max u v := mul_le_mul_of_nonneg_left (le_max_left _ _) ht
    have k2 : t * v ≤ t * max u v := mul_le_mul_of_nonneg_left (le_max_right _ _) h0
    have : (1 - t) * max u v + t * max u v = max u v := by ring
    have := max_lt hu hv
    linarith
  refine ⟨?_, ?_, ?_, ?_⟩
  · simp only [e1]; exact add_nonneg (mul_nonneg ht a1) (mul_nonneg h0 b1)
  · simp only [e1]; exact key _ _ _ a2 b2
  · simp only [e2]; exact add_nonneg (mul_nonneg ht a3) (mul_nonneg h0 b3)
  · simp only [e2]; exact key _ _ _ a4 b4

theorem line_inImage (s : Shape) : ∀ (l : List Pt), (∀ p ∈ l, InImage s p) → ∀ p, OnLine l p → InImage s p
  | [a], h, p, hp => by
    simp only [OnLine] at hp
    rw [hp]; exact h a (by simp)
  | a :: b :: l, h, p, hp => by
    rcases hp with hp | hp
    · exact edge_inImage (h a (by simp)) (h b (by simp)) hp
    · exact line_inImage s (b :: l) (fun q hq => h q (List.mem_cons_of_mem _ hq)) p hp

/-! The point where a segment enters a set given by linear inequalities. -/

theorem entering : ∀ (L : List (ℚ × ℚ)), (∀ u ∈ L, 0 ≤ u.2) →
    ∃ s : ℚ, 0 ≤ s ∧ s ≤ 1 ∧ (∀ u ∈ L, 0 ≤ (1 - s) * u.1 + s * u.2) ∧ (s = 0 ∨ ∃ u ∈ L, (1 - s) * u.1 + s * u.2 = 0) := by
  intro L
  induction L with
  | nil => intro _; exact ⟨0, le_rfl, by norm_num, by simp, Or.inl rfl⟩
  | cons u L ih =>
    intro h
    obtain ⟨s, s0, s1, h1, h2⟩ := ih (fun v hv => h v (List.mem_cons_of_mem _ hv))
    have hu := h u List.mem_cons_self
    by_cases hc : 0 ≤ (1 - s) * u.1 + s * u.2
    · refine ⟨s, s0, s1, ?_, ?_⟩
      · intro v hv
        rcases List.mem_cons.mp hv with rfl | hv
        · exact hc
        · exact h1 v hv
      · rcases h2 with h2 | ⟨v, hv, h2⟩
        · exact Or.inl h2
        · exact Or.inr ⟨v, List.mem_cons_of_mem _ hv, h2⟩
    · push Not at hc
      have hneg : u.1 < 0 := by
        by_contra hh
        push Not at hh
        have := add_nonneg (mul_nonneg (by linarith : (0:ℚ) ≤ 1 - s) hh) (mul_nonneg s0 hu)
        linarith
      have hd : 0 < u.2 - u.1 := by linarith
      -- the root
      refine ⟨-u.1 / (u.2 - u.1), div_nonneg (by linarith) hd.le, by rw [div_le_one hd]; linarith, ?_, Or.inr ⟨u, List.mem_cons_self, by field_simp; ring⟩⟩
      have hs : s ≤ -u.1 / (u.2 - u.1) := by
        rw [le_div_iff₀ hd]; nlinarith
      intro v hv
      rcases List.mem_cons.mp hv with rfl | hv
      · exact le_of_eq (by field_simp; ring)
      · have k1 := h1 v hv
        have k2 := h v (List.mem_cons_of_mem _ hv)
        set r := -u.1 / (u.2 - u.1) with hr
        have r1 : r ≤ 1 := by rw [hr, div_le_one hd]; linarith
        by_cases hv1 : 0 ≤ v.1
        · exact add_nonneg (mul_nonneg (by linarith) hv1) (mul_nonneg (by linarith) k2)
        · push Not at hv1
          nlinarith

theorem crosses {s : Shape} {a b p : Pt} (ha : ¬ InRect s a) (hp : InRect s p) (h : OnEdge a b p) : ∃ q, OnEdge a b q ∧ OnBorder s q := by
  obtain ⟨t, t0, t1, rfl⟩ := h
  obtain ⟨p1, p2, p3, p4⟩ := hp
  simp only [at_] at p1 p2 p3 p4
  obtain ⟨r, r0, r1, hr, hz⟩ := entering
    [(a.x, a.x + t * (b.x - a.x)), (s.w - eps - a.x, s.w - eps - (a.x + t * (b.x - a.x))),
     (a.y, a.y + t * (b.y - a.y)), (s.h - eps - a.y, s.h - eps - (a.y + t * (b.y - a.y)))]
    (by
      intro u hu
      simp only [List.mem_cons, List.not_mem_nil, or_false] at hu
      rcases hu with rfl | rfl | rfl | rfl <;> simp only <;> linarith)
  simp only [List.mem_cons, List.not_mem_nil, or_false, forall_eq_or_imp, forall_eq, exists_eq_or_imp, exists_eq_left] at hr hz
  obtain ⟨q1, q2, q3, q4⟩ := hr
  have ex : (at_ a b (r * t)).x = (1 - r) * a.x + r * (a.x + t * (b.x - a.x)) := by simp only [at_]; ring
  have ey : (at_ a b (r * t)).y = (1 - r) * a.y + r * (a.y + t * (b.y - a.y)) := by simp only [at_]; ring
  refine ⟨at_ a b (r * t), ⟨r * t, mul_nonneg r0 t0, by nlinarith, rfl⟩, ⟨?_, ?_, ?_, ?_⟩, ?_⟩
  · rw [ex]; exact q1
  · rw [ex]; linarith
  · rw [ey]; exact q3
  · rw [ey]; linarith
  · rcases hz with hz | hz | hz | hz | hz
    · exfalso
      subst hz
      refine ha ⟨by linarith, by linarith, by linarith, by linarith⟩
    · left; rw [ex]; exact hz
    · right; left; rw [ex]; linarith
    · right; right; left; rw [ey]; exact hz
    · right; right; right; rw [ey]; linarith

/-! The loop over the points. -/

theorem pieces_acc : ∀ (es : List Entry) (line : List Pt) (lines : List (List Pt)), pieces es line lines = lines ++ pieces es line [] := by
  intro es
  induction es with
  | nil => intro line lines; simp only [pieces]; split_ifs <;> simp
  | cons e l ih =>
    intro line lines
    simp only [pieces]
    split_ifs
    · rw [ih [] (lines ++ [line]), ih [] ([] ++ [line])]; simp
    all_goals rw [ih]

/-- What the loop keeps: a part of the points inside, in their order, with all points that had not been added. -/
theorem pieces_flatten : ∀ (es : List Entry) (line : List Pt), ∃ k : List Pt,
    (pieces es line []).flatten = line ++ k ∧ k.Sublist ((es.filter (fun e => !e.ooi)).map (·.p)) ∧
    ((es.filter (fun e => !e.ooi && !e.added)).map (·.p)).Sublist k := by
  intro es
  induction es with
  | nil => intro line; refine ⟨[], ?_, by simp, by simp⟩; cases line <;> simp [pieces]
  | cons e l ih =>
    intro line
    simp only [pieces]
    by_cases ho : e.ooi = true
    · rw [if_pos ho]
      split_ifs with hl
      · obtain ⟨k, k1, k2, k3⟩ := ih []
        refine ⟨k, ?_, ?_, ?_⟩
        · rw [pieces_acc]; simp [k1]
        · simpa [ho] using k2
        · simpa [ho] using k3
      · obtain ⟨k, k1, k2, k3⟩ := ih line
        exact ⟨k, k1, by simpa [ho] using k2, by simpa [ho] using k3⟩
    · rw [if_neg ho]
      rw [Bool.not_eq_true] at ho
      have keep : ∃ k : List Pt, (pieces l (line ++ [e.p]) []).flatten = line ++ k ∧ k.Sublist (((e :: l).filter (fun e => !e.ooi)).map (·.p)) ∧
          (((e :: l).filter (fun e => !e.ooi && !e.added)).map (·.p)).Sublist k := by
        obtain ⟨k, k1, k2, k3⟩ := ih (line ++ [e.p])
        refine ⟨e.p :: k, by rw [k1]; simp, ?_, ?_⟩
        · simpa [ho] using k2
        · cases ha : e.added
          · simpa [ho, ha] using k3
          · simpa [ho, ha] using k3.cons e.p
      by_cases ha : e.added = true
      · rw [if_neg (by simp [ha])]
        split_ifs
        · exact keep
        · obtain ⟨k, k1, k2, k3⟩ := ih line
          exact ⟨k, k1, by simpa [ho] using k2.cons e.p, by simpa [ho, ha] using k3⟩
      · rw [if_pos (by simpa using ha)]
        exact keep

theorem pieces_nonempty : ∀ (es : List Entry) (line : List Pt), ∀ l ∈ pieces es line [], l ≠ [] := by
  intro es
  induction es with
  | nil =>
    intro line l hl
    simp only [pieces] at hl
    split_ifs at hl with h
    · simp only [List.nil_append, List.mem_singleton] at hl
      subst hl
      exact List.ne_nil_of_length_pos h
    · simp at hl
  | cons e es ih =>
    intro line l hl
    simp only [pieces] at hl
    split_ifs at hl with h1 h2
    · rw [pieces_acc] at hl
      rcases List.mem_append.mp hl with hl | hl
      · simp only [List.nil_append, List.mem_singleton] at hl
        subst hl
        exact List.ne_nil_of_length_pos h2
      · exact ih _ l hl
    all_goals exact ih _ l hl

/-- Something inside leads to a piece. -/
theorem pieces_exists : ∀ (es : List Entry) (line : List Pt), (line ≠ [] ∨ ∃ e ∈ es, e.ooi = false) → pieces es line [] ≠ [] := by
  intro es
  induction es with
  | nil =>
    rintro line (h | ⟨e, he, -⟩)
    · have : line.length > 0 := List.length_pos_of_ne_nil h
      simp [pieces, this]
    · simp at he
  | cons e l ih =>
    intro line h
    simp only [pieces]
    by_cases ho : e.ooi = true
    · rw [if_pos ho]
      split_ifs with hl
      · rw [pieces_acc]; simp
      · apply ih
        have hl' : line = [] := by
          cases line with
          | nil => rfl
          | cons a t => simp at hl
        rcases h with h | ⟨e', he', h⟩
        · exact absurd hl' h
        · rcases List.mem_cons.mp he' with rfl | he'
          · rw [h] at ho; cases ho
          · exact Or.inr ⟨e', he', h⟩
    · rw [if_neg ho]
      by_cases ha : e.added = true
      · rw [if_neg (by simp [ha])]
        split_ifs with hk
        · exact ih _ (Or.inl (by simp))
        · apply ih
          cases hl : line with
          | cons a t => exact Or.inl (by simp)
          | nil =>
            right
            subst hl
            simp only [List.getLast?_nil, Bool.true_and] at hk
            cases l with
            | nil => simp at hk
            | cons n l =>
              by_cases hn : n.ooi = true
              · simp [hn] at hk
              · exact ⟨n, List.mem_cons_self, by simpa using hn⟩
      · rw [if_pos (by simpa using ha)]
        exact ih _ (Or.inl (by simp))

/-! Entries. -/

theorem entries_cons (s : Shape) (inter : Pt → Pt → List Pt) (a b c : Pt) (l : List Pt) :
    entries s inter (a :: b :: c :: l) = ⟨a, false, !inside s a⟩ :: (inter a b).map (fun p => ⟨p, true, false⟩) ++ entries s inter (b :: c :: l) := rfl

theorem entries_two (s : Shape) (inter : Pt → Pt → List Pt) (a b : Pt) :
    entries s inter [a, b] = ⟨a, false, !inside s a⟩ :: (inter a b).map (fun p => ⟨p, true, false⟩) ++
      (if !inside s b then [] else [⟨b, false, !inside s b⟩]) := rfl

/-- The original points among the entries are those inside. -/
theorem entries_original (s : Shape) (inter : Pt → Pt → List Pt) : ∀ (l : List Pt), 2 ≤ l.length →
    ((entries s inter l).filter (fun e => !e.ooi && !e.added)).map (·.p) = l.filter (inside s) := by
  have hi : ∀ (a b : Pt), ((inter a b).map (fun p => (⟨p, true, false⟩ : Entry))).filter (fun e => !e.ooi && !e.added) = [] := by
    intro a b
    rw [List.filter_eq_nil_iff]
    intro e he
    obtain ⟨p, -, rfl⟩ := List.mem_map.mp he
    simp
  intro l
  induction l with
  | nil => intro h; simp at h
  | cons a l ih =>
    intro h
    match l, ih with
    | [b], _ =>
      rw [entries_two, List.filter_append, List.filter_cons, hi]
      cases ha : inside s a <;> cases hb : inside s b <;> simp [ha, hb]
    | b :: c :: l, ih =>
      rw [entries_cons, List.filter_append, List.filter_cons, hi, List.map_append, ih (by simp)]
      cases ha : inside s a <;> simp [ha]

theorem entries_mem (s : Shape) (inter : Pt → Pt → List Pt) (hI : InterOk s inter) : ∀ (l : List Pt), ∀ e ∈ entries s inter l,
    (e.ooi = false → InImage s e.p) ∧ OnLine l e.p ∧ (e.added = true → OnBorder s e.p ∧ e.ooi = false) := by
  have hin : ∀ a b, ∀ p ∈ inter a b, OnEdge a b p ∧ OnBorder s p := by
    intro a b p hp
    obtain ⟨⟨ts, h1, -, h3⟩, h4, -⟩ := hI a b
    refine ⟨?_, h4 p hp⟩
    rw [h1] at hp
    obtain ⟨t, ht, rfl⟩ := List.mem_map.mp hp
    exact ⟨t, (h3 t ht).1, (h3 t ht).2, rfl⟩
  have orig : ∀ p, ((⟨p, false, !inside s p⟩ : Entry).ooi = false → InImage s p) := by
    intro p h
    simp only [Bool.not_eq_false'] at h
    exact (inside_iff s p).mp h
  intro l
  induction l with
  | nil => intro e he; simp [entries] at he
  | cons a l ih =>
    intro e he
    match l, ih with
    | [], _ => simp [entries] at he
    | [b], _ =>
      rw [entries_two] at he
      rcases List.mem_append.mp he with he | he
      · rcases List.mem_cons.mp he with rfl | he
        · exact ⟨orig a, Or.inl (onEdge_left _ _), by simp⟩
        · obtain ⟨p, hp, rfl⟩ := List.mem_map.mp he
          have := hin a b p hp
          exact ⟨fun _ => rect_image this.2.1, Or.inl this.1, fun _ => ⟨this.2, rfl⟩⟩
      · split_ifs at he with hb
        · simp at he
        · rw [List.mem_singleton.mp he]
          exact ⟨orig b, Or.inl (onEdge_right _ _), by simp⟩
    | b :: c :: l, ih =>
      rw [entries_cons] at he
      rcases List.mem_append.mp he with he | he
      · rcases List.mem_cons.mp he with rfl | he
        · exact ⟨orig a, Or.inl (onEdge_left _ _), by simp⟩
        · obtain ⟨p, hp, rfl⟩ := List.mem_map.mp he
          have := hin a b p hp
          exact ⟨fun _ => rect_image this.2.1, Or.inl this.1, fun _ => ⟨this.2, rfl⟩⟩
      · obtain ⟨h1, h2, h3⟩ := ih e he
        exact ⟨h1, Or.inr h2, h3⟩

theorem entries_inter (s : Shape) (inter : Pt → Pt → List Pt) (hI : InterOk s inter) : ∀ (l : List Pt), 2 ≤ l.length →
    (∀ p ∈ l, ¬ InRect s p) → ∀ p, OnLine l p → InRect s p → ∃ e ∈ entries s inter l, e.ooi = false := by
  have edge : ∀ a b p, ¬ InRect s a → OnEdge a b p → InRect s p → ∃ e ∈ (inter a b).map (fun p => (⟨p, true, false⟩ : Entry)), e.ooi = false := by
    intro a b p ha hp hr
    have hne := (hI a b).2.2 (crosses ha hr hp)
    obtain ⟨q, hq⟩ := List.exists_mem_of_ne_nil _ hne
    exact ⟨_, List.mem_map_of_mem hq, rfl⟩
  intro l
  induction l with
  | nil => intro h; simp at h
  | cons a l ih =>
    intro hlen ho p hp hr
    match l, ih with
    | [b], _ =>
      rw [entries_two]
      rcases hp with hp | hp
      · obtain ⟨e, he, h⟩ := edge a b p (ho a (by simp)) hp hr
        exact ⟨e, List.mem_append_left _ (List.mem_cons_of_mem _ he), h⟩
      · simp only [OnLine] at hp
        rw [hp] at hr
        exact absurd hr (ho b (by simp))
    | b :: c :: l, ih =>
      rw [entries_cons]
      rcases hp with hp | hp
      · obtain ⟨e, he, h⟩ := edge a b p (ho a (by simp)) hp hr
        exact ⟨e, List.mem_append_left _ (List.mem_cons_of_mem _ he), h⟩
      · obtain ⟨e, he, h⟩ := ih (by simp) (fun q hq => ho q (List.mem_cons_of_mem _ hq)) p hp hr
        exact ⟨e, List.mem_append_right _ he, h⟩

/-! Lengths. -/

theorem euclid_norm (p q : Pt) : euclid p q = ‖(⟨(p.x : ℝ) - q.x, (p.y : ℝ) - q.y⟩ : ℂ)‖ := by
  rw [euclid, Complex.norm_def, Complex.normSq_mk]
  congr 1
  ring

theorem euclid_nonneg (p q : Pt) : 0 ≤ euclid p q := Real.sqrt_nonneg _

theorem euclid_triangle (p q r : Pt) : euclid p r ≤ euclid p q + euclid q r := by
  rw [euclid_norm, euclid_norm, euclid_norm]
  refine le_trans (le_of_eq ?_) (norm_add_le _ _)
  congr 1
  apply Complex.ext <;> simp

theorem euclid_at (a b : Pt) (t u : ℚ) (h : t ≤ u) : euclid (at_ a b t) (at_ a b u) = (u - t) * euclid a b := by
  have hn : (0 : ℝ) ≤ (u : ℝ) - t := by
    have : (t : ℝ) ≤ u := by exact_mod_cast h
    linarith
  rw [euclid, euclid]
  conv_rhs => rw [← Real.sqrt_sq hn, ← Real.sqrt_mul (sq_nonneg _)]
  congr 1
  simp only [at_]
  push_cast
  ring

theorem length_nonneg : ∀ l, 0 ≤ length l
  | [] => le_rfl
  | [_] => le_rfl
  | a :: b :: l => add_nonneg (euclid_nonneg a b) (length_nonneg (b :: l))

theorem length_append (A B : List Pt) : length A + length B ≤ length (A ++ B) := by
  induction A with
  | nil => simp [length]
  | cons a A ih =>
    cases A with
    | nil =>
      cases B with
      | nil => simp [length]
      | cons b B =>
        simp only [length, List.nil_append, List.cons_append]
        linarith [euclid_nonneg a b]
    | cons a' A =>
      simp only [length, List.cons_append] at ih ⊢
      linarith

theorem length_insert (A B : List Pt) (x : Pt) : length (A ++ B) ≤ length (A ++ x :: B) := by
  induction A with
  | nil =>
    cases B with
    | nil => simp [length]
    | cons b B => simp only [length, List.nil_append]; linarith [euclid_nonneg x b]
  | cons a A ih =>
    cases A with
    | nil =>
      cases B with
      | nil => simp only [length, List.nil_append, List.cons_append]; linarith [euclid_nonneg a x]
      | cons b B =>
        simp only [length, List.nil_append, List.cons_append]
        linarith [euclid_triangle a x b]
    | cons a' A =>
      simp only [length, List.cons_append] at ih ⊢
      linarith

theorem pieces_length : ∀ (es : List Entry) (line : List Pt), ((pieces es line []).map length).sum ≤ length (line ++ es.map (·.p)) := by
  intro es
  induction es with
  | nil =>
    intro line
    simp only [pieces]
    split_ifs
    · simp
    · simpa using length_nonneg line
  | cons e l ih =>
    intro line
    simp only [pieces]
    have h1 := length_insert line (l.map (·.p)) e.p
    split_ifs
    · rw [pieces_acc]
      simp only [List.nil_append, List.map_append, List.map_cons, List.map_nil, List.sum_append, List.sum_cons, List.sum_nil, add_zero]
      have h2 := ih []
      have h3 := length_append line (l.map (·.p))
      simp only [List.nil_append] at h2
      linarith
    · exact (ih line).trans h1
    · have := ih (line ++ [e.p]); simpa using this
    · have := ih (line ++ [e.p]); simpa using this
    · exact (ih line).trans h1

theorem length_chain (a b : Pt) : ∀ (ts : List ℚ) (t : ℚ), (t :: ts).Pairwise (· ≤ ·) → (∀ u ∈ t :: ts, u ≤ 1) → ∀ (l : List Pt),
    length (at_ a b t :: ts.map (at_ a b) ++ b :: l) = (1 - t) * euclid a b + length (b :: l) := by
  have hb : at_ a b 1 = b := by simp [at_]
  intro ts
  induction ts with
  | nil =>
    intro t hp h1 l
    have := euclid_at a b t 1 (h1 t (by simp))
    rw [hb] at this
    simp only [List.map_nil, List.cons_append, List.nil_append, length, this]
    push_cast
    ring
  | cons u ts ih =>
    intro t hp h1 l
    have e := ih u (List.pairwise_cons.mp hp).2 (fun v hv => h1 v (List.mem_cons_of_mem _ hv)) l
    have := euclid_at a b t u ((List.pairwise_cons.mp hp).1 u (by simp))
    simp only [List.map_cons, List.cons_append] at e ⊢
    rw [length, e, this]
    ring

theorem length_edge (s : Shape) (inter : Pt → Pt → List Pt) (hI : InterOk s inter) (a b : Pt) (l : List Pt) :
    length (a :: inter a b ++ b :: l) = euclid a b + length (b :: l) := by
  obtain ⟨⟨ts, h1, h2, h3⟩, -⟩ := hI a b
  have ha : at_ a b 0 = a := by simp [at_]
  have := length_chain a b ts 0 (List.pairwise_cons.mpr ⟨fun t ht => (h3 t ht).1, h2⟩) (by
    intro u hu
    rcases List.mem_cons.mp hu with rfl | hu
    · norm_num
    · exact (h3 u hu).2) l
  rw [ha, ← h1] at this
  rw [this]
  push_cast
  ring

theorem length_dropLast (A : List Pt) (x : Pt) : length A ≤ length (A ++ [x]) := by
  have := length_append A [x]
  simp only [length] at this
  linarith

theorem entries_length (s : Shape) (inter : Pt → Pt → List Pt) (hI : InterOk s inter) : ∀ (l : List Pt), 2 ≤ l.length →
    length ((entries s inter l).map (·.p)) ≤ length l ∧ ∃ a t, l.head? = some a ∧ (entries s inter l).map (·.p) = a :: t := by
  intro l
  induction l with
  | nil => intro h; simp at h
  | cons a l ih =>
    intro h
    have hm : ∀ b, ((inter a b).map (fun p => (⟨p, true, false⟩ : Entry))).map (·.p) = inter a b := by
      intro b; simp [Function.comp_def]
    match l, ih with
    | [b], _ =>
      refine ⟨?_, a, _, rfl, by rw [entries_two]; rfl⟩
      rw [entries_two, List.map_append, List.map_cons, hm]
      have e := length_edge s inter hI a b []
      have hl : length [a, b] = length (a :: inter a b ++ [b]) := by rw [e]; simp [length]
      rw [hl]
      split_ifs
      · simpa using length_dropLast (a :: inter a b) b
      · simp
    | b :: c :: l, ih =>
      refine ⟨?_, a, _, rfl, by rw [entries_cons]; rfl⟩
      obtain ⟨h1, a', t, h2, h3⟩ := ih (by simp)
      simp only [List.head?_cons, Option.some.injEq] at h2
      subst h2
      rw [entries_cons, List.map_append, List.map_cons, hm, h3, length_edge s inter hI]
      rw [h3] at h1
      simp only [length] at h1 ⊢
      linarith

end Imgaug.Lines
