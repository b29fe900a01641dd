import Verif.Spec.Boxes
/-! Helper lemmas for the box properties. -/
namespace Imgaug.Props
open Imgaug Imgaug.Spec

theorem init_sorted {x1 y1 x2 y2 : ℚ} (l : Option String) (hx : x1 ≤ x2) (hy : y1 ≤ y2) :
    BB.init x1 y1 x2 y2 l = ⟨x1, y1, x2, y2, l⟩ := by
  simp [BB.init, not_lt.mpr hx, not_lt.mpr hy]

theorem intersection_some_iff (a b r : BB) :
    a.intersection b = some r ↔
      max a.x1 b.x1 ≤ min a.x2 b.x2 ∧ max a.y1 b.y1 ≤ min a.y2 b.y2 ∧
      r = ⟨max a.x1 b.x1, max a.y1 b.y1, min a.x2 b.x2, min a.y2 b.y2, none⟩ := by
  unfold BB.intersection
  simp only [gt_iff_lt]
  split
  · rename_i h
    constructor
    · intro h; cases h
    · rintro ⟨h1, h2, -⟩
      rcases h with h | h
      · exact absurd h1 (not_le.mpr h)
      · exact absurd h2 (not_le.mpr h)
  · rename_i h
    rw [not_or, not_lt, not_lt] at h
    rw [init_sorted none h.1 h.2]
    constructor
    · intro e; exact ⟨h.1, h.2, (Option.some.inj e).symm⟩
    · rintro ⟨-, -, rfl⟩; rfl

theorem intersection_none_iff (a b : BB) :
    a.intersection b = none ↔
      ¬ (max a.x1 b.x1 ≤ min a.x2 b.x2 ∧ max a.y1 b.y1 ≤ min a.y2 b.y2) := by
  unfold BB.intersection
  simp only [gt_iff_lt]
  split
  · rename_i h
    simp only [true_iff]
    rintro ⟨h1, h2⟩
    rcases h with h | h
    · exact absurd h1 (not_le.mpr h)
    · exact absurd h2 (not_le.mpr h)
  · rename_i h
    rw [not_or, not_lt, not_lt] at h
    simp [h]

theorem union_eq (a b : BB) (ha : WF a) : a.union b =
    ⟨min a.x1 b.x1, min a.y1 b.y1, max a.x2 b.x2, max a.y2 b.y2, none⟩ := by
  unfold BB.union
  exact init_sorted _ ((min_le_left _ _).trans (ha.1.trans (le_max_left _ _)))
    ((min_le_left _ _).trans (ha.2.trans (le_max_left _ _)))

theorem area_nonneg {a : BB} (h : WF a) : 0 ≤ a.area :=
  mul_nonneg (sub_nonneg.mpr h.2) (sub_nonneg.mpr h.1)

theorem overlap_nonneg (a b c d : ℚ) : 0 ≤ overlap a b c d := le_max_left _ _

theorem overlapArea_nonneg (a b : BB) : 0 ≤ overlapArea a b :=
  mul_nonneg (overlap_nonneg _ _ _ _) (overlap_nonneg _ _ _ _)

theorem overlap_le {a b : ℚ} (h : a ≤ b) (c d : ℚ) : overlap a b c d ≤ b - a := by
  unfold overlap
  exact max_le (by linarith) (by linarith [min_le_left b d, le_max_left a c])

theorem overlap_comm (a b c d : ℚ) : overlap a b c d = overlap c d a b := by
  unfold overlap; rw [min_comm, max_comm a c]

theorem overlapArea_comm (a b : BB) : overlapArea a b = overlapArea b a := by
  unfold overlapArea
  rw [overlap_comm a.x1, overlap_comm a.y1]

theorem overlapArea_le {a : BB} (h : WF a) (b : BB) : overlapArea a b ≤ a.area := by
  unfold overlapArea BB.area BB.height BB.width
  rw [mul_comm (a.y2 - a.y1)]
  exact mul_le_mul (overlap_le h.1 _ _) (overlap_le h.2 _ _) (overlap_nonneg _ _ _ _)
    (sub_nonneg.mpr h.1)

theorem inter_area {a b r : BB} (h : a.intersection b = some r) : r.area = overlapArea a b := by
  obtain ⟨h1, h2, rfl⟩ := (intersection_some_iff a b r).mp h
  unfold overlapArea overlap BB.area BB.height BB.width
  rw [max_eq_right (sub_nonneg.mpr h1), max_eq_right (sub_nonneg.mpr h2), mul_comm]

theorem inter_none_area {a b : BB} (h : a.intersection b = none) : overlapArea a b = 0 := by
  rw [intersection_none_iff, not_and_or, not_le, not_le] at h
  unfold overlapArea overlap
  rcases h with h | h
  · rw [max_eq_left (by linarith), zero_mul]
  · rw [max_eq_left (a := 0) (b := min a.y2 b.y2 - max a.y1 b.y1) (by linarith), mul_zero]

theorem overlap_self {a b : ℚ} (h : a ≤ b) : overlap a b a b = b - a := by
  unfold overlap; rw [min_self, max_self, max_eq_right (sub_nonneg.mpr h)]

theorem overlap_eq_len {a b c d : ℚ} (h : a < b) (he : overlap a b c d = b - a) : c ≤ a ∧ b ≤ d := by
  unfold overlap at he
  rcases max_cases 0 (min b d - max a c) with ⟨e, -⟩ | ⟨e, -⟩
  · rw [e] at he; linarith
  · rw [e] at he
    have h1 := min_le_left b d
    have h2 := le_max_left a c
    have h3 : min b d = b := by linarith
    have h4 : max a c = a := by linarith
    exact ⟨by rw [← h4]; exact le_max_right _ _, by rw [← h3]; exact min_le_right _ _⟩

theorem overlapArea_eq_area {a b : BB} (ha : WF a) (hpos : 0 < a.area) (h : overlapArea a b = a.area) :
    b.x1 ≤ a.x1 ∧ a.x2 ≤ b.x2 ∧ b.y1 ≤ a.y1 ∧ a.y2 ≤ b.y2 := by
  have hx := overlap_le ha.1 b.x1 b.x2
  have hy := overlap_le ha.2 b.y1 b.y2
  have nx := overlap_nonneg a.x1 a.x2 b.x1 b.x2
  have ny := overlap_nonneg a.y1 a.y2 b.y1 b.y2
  unfold overlapArea at h
  unfold BB.area BB.height BB.width at h hpos
  have px : 0 < a.x2 - a.x1 := by
    rcases (sub_nonneg.mpr ha.1).lt_or_eq with h | h
    · exact h
    · rw [← h, mul_zero] at hpos; exact absurd hpos (lt_irrefl _)
  have py : 0 < a.y2 - a.y1 := by
    rcases (sub_nonneg.mpr ha.2).lt_or_eq with h | h
    · exact h
    · rw [← h, zero_mul] at hpos; exact absurd hpos (lt_irrefl _)
  have ex : overlap a.x1 a.x2 b.x1 b.x2 = a.x2 - a.x1 := by
    by_contra hne
    have hlt := lt_of_le_of_ne hx hne
    nlinarith
  have ey : overlap a.y1 a.y2 b.y1 b.y2 = a.y2 - a.y1 := by
    by_contra hne
    have hlt := lt_of_le_of_ne hy hne
    nlinarith
  have := overlap_eq_len (by linarith) ex
  have := overlap_eq_len (by linarith) ey
  tauto

theorem init_image (w h : ℚ) (hw : 0 ≤ w) (hh : 0 ≤ h) : BB.init 0 0 w h none = ⟨0, 0, w, h, none⟩ :=
  init_sorted _ hw hh

theorem eps_pos : 0 < eps := by unfold eps; norm_num
theorem eps_lt_one : eps < 1 := by unfold eps; norm_num

theorem plane_nonneg {n : Nat} (h : n > 0) : (0 : ℚ) ≤ n - eps := by
  have : (1 : ℚ) ≤ n := by exact_mod_cast h
  linarith [eps_lt_one]

theorem npClip_range {lo hi : ℚ} (h : lo ≤ hi) (v : ℚ) : lo ≤ npClip v lo hi ∧ npClip v lo hi ≤ hi := by
  unfold npClip; exact ⟨le_min (le_max_right _ _) h, min_le_right _ _⟩

theorem npClip_id {lo hi v : ℚ} (h1 : lo ≤ v) (h2 : v ≤ hi) : npClip v lo hi = v := by
  unfold npClip; rw [max_eq_left h1, min_eq_left h2]

theorem npClip_mono {lo hi a b : ℚ} (h : a ≤ b) : npClip a lo hi ≤ npClip b lo hi := by
  unfold npClip; exact min_le_min_right _ (max_le_max_right _ h)

theorem npClip_contract {lo hi a b : ℚ} (h : a ≤ b) : npClip b lo hi - npClip a lo hi ≤ b - a := by
  unfold npClip; grind

theorem mapM_some_of_forall {α β : Type} (f : α → Option β) (g : α → β) (l : List α)
    (h : ∀ a ∈ l, f a = some (g a)) : l.mapM f = some (l.map g) := by
  induction l with
  | nil => rfl
  | cons a l ih =>
    rw [List.mapM_cons, h a (by simp), ih (fun x hx => h x (by simp [hx]))]
    rfl


end Imgaug.Props
