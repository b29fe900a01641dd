import Verif.Model.Extract
import Verif.Spec.Extract
import Verif.Proofs.Num
import Mathlib.Tactic.Linarith
import Mathlib.Tactic.SplitIfs
/-! Lemmas on `extract_from_image`. -/
namespace Imgaug.Extract
open Imgaug Imgaug.Size Imgaug.Extract.Spec Imgaug.Props
variable {α : Type}

theorem axis_eq (size c1 c2 : Int) : axis size c1 c2 = ⟨max 0 (-c1), max 0 (c2 - size), max 0 c1, c2 + max 0 (-c1)⟩ := by
  unfold axis
  by_cases h : c1 < 0
  · rw [if_pos h, abs_of_neg h]
    have e1 : max 0 (-c1) = -c1 := by omega
    have e2 : max 0 c1 = 0 := by omega
    rw [e1, e2]
    congr 1
    split_ifs <;> omega
  · rw [if_neg h]
    have e1 : max 0 (-c1) = 0 := by omega
    have e2 : max 0 c1 = c1 := by omega
    rw [e1, e2]
    congr 1
    · split_ifs <;> omega
    · omega

theorem bound_mid (n : Nat) (i : Int) (h0 : 0 ≤ i) (h1 : i ≤ n) : bound n i = i.toNat := by
  unfold bound
  rw [if_neg (by omega)]
  omega

/-- The four paddings. -/
def pads (a : Img α) (c : Xyxy) : Trbl := ⟨max 0 (-c.y1), max 0 (c.x2 - a.w), max 0 (c.y2 - a.h), max 0 (-c.x1)⟩

theorem limit_enough (m : Option Int) (t : Trbl) (h : ∀ k, m = some k → t.top ≤ k ∧ t.right ≤ k ∧ t.bottom ≤ k ∧ t.left ≤ k) :
    limit m t = t := by
  obtain ⟨t1, t2, t3, t4⟩ := t
  cases m with
  | none => simp only [limit, Option.getD_none, Trbl.mk.injEq]; omega
  | some k =>
    obtain ⟨h1, h2, h3, h4⟩ := h k rfl
    simp only [limit, Option.getD_some, Trbl.mk.injEq]
    simp only at h1 h2 h3 h4
    omega

theorem slice_window (zero : α) (a r : Img α) (c : Xyxy) (hx : c.x1 ≤ c.x2) (hy : c.y1 ≤ c.y2)
    (hp : pad (fun _ _ => zero) a (pads a c) = some r) :
    IsWindow zero a c.y1 c.x1 (c.y2 - c.y1).toNat (c.x2 - c.x1).toNat
      (slice r ⟨max 0 c.x1, max 0 c.y1, c.x2 + max 0 (-c.x1), c.y2 + max 0 (-c.y1)⟩) := by
  have e1 : (pads a c).top = max 0 (-c.y1) := rfl
  have e2 : (pads a c).right = max 0 (c.x2 - a.w) := rfl
  have e3 : (pads a c).bottom = max 0 (c.y2 - a.h) := rfl
  have e4 : (pads a c).left = max 0 (-c.x1) := rfl
  generalize pads a c = t at hp e1 e2 e3 e4
  obtain ⟨t1, t2, t3, t4⟩ := t
  dsimp only at e1 e2 e3 e4
  rw [pad, if_pos (by dsimp only; omega), Option.some.injEq] at hp
  subst hp
  unfold slice
  dsimp only
  rw [bound_mid _ (max 0 c.y1) (by omega) (by omega), bound_mid _ (max 0 c.x1) (by omega) (by omega),
    bound_mid _ (c.y2 + _) (by omega) (by omega), bound_mid _ (c.x2 + _) (by omega) (by omega)]
  refine ⟨by dsimp only; omega, by dsimp only; omega, ?_⟩
  intro i j hi' hj
  dsimp only
  refine ⟨?_, ?_⟩
  · intro p q hp hq f1 f2
    split_ifs with h'
    · congr 1 <;> omega
    · exact absurd (by omega) h'
  · intro h
    split_ifs with h'
    · exact absurd (by omega) h
    · rfl

theorem slice_inside (zero : α) (a : Img α) (c : Xyxy) (hx : c.x1 ≤ c.x2) (hy : c.y1 ≤ c.y2) (h1 : 0 ≤ c.x1) (h2 : 0 ≤ c.y1)
    (h3 : c.x2 ≤ a.w) (h4 : c.y2 ≤ a.h) :
    IsWindow zero a c.y1 c.x1 (c.y2 - c.y1).toNat (c.x2 - c.x1).toNat (slice a c) := by
  unfold slice
  rw [bound_mid _ c.y1 (by omega) (by omega), bound_mid _ c.x1 (by omega) (by omega),
    bound_mid _ c.y2 (by omega) (by omega), bound_mid _ c.x2 (by omega) (by omega)]
  refine ⟨by dsimp only; omega, by dsimp only; omega, ?_⟩
  intro i j hi' hj
  dsimp only
  refine ⟨?_, ?_⟩
  · intro p q hp hq f1 f2
    congr 1 <;> omega
  · intro h
    exact absurd (by omega) h

theorem padded_window (zero : α) (a : Img α) (c : Xyxy) (m : Option Int) (hx : c.x1 ≤ c.x2) (hy : c.y1 ≤ c.y2)
    (hm : ∀ k, m = some k → -c.x1 ≤ k ∧ -c.y1 ≤ k ∧ c.x2 - a.w ≤ k ∧ c.y2 - a.h ≤ k ∧ 0 ≤ k) :
    ∃ r, padded zero a c m = some r ∧ IsWindow zero a c.y1 c.x1 (c.y2 - c.y1).toNat (c.x2 - c.x1).toNat r := by
  unfold padded
  simp only [axis_eq]
  by_cases h : (max 0 (-c.y1) > 0 ∨ max 0 (c.x2 - a.w) > 0 ∨ max 0 (c.y2 - a.h) > 0 ∨ max 0 (-c.x1) > 0)
  · rw [if_pos h, limit_enough m _ (by intro k hk; have := hm k hk; simp only; omega)]
    obtain ⟨r, hr⟩ : ∃ r, pad (fun _ _ => zero) a (pads a c) = some r := by
      rw [pad, if_pos (by simp only [pads]; omega)]
      exact ⟨_, rfl⟩
    refine ⟨_, ?_, slice_window zero a r c hx hy hr⟩
    rw [show (⟨max 0 (-c.y1), max 0 (c.x2 - a.w), max 0 (c.y2 - a.h), max 0 (-c.x1)⟩ : Trbl) = pads a c from rfl, hr]
    rfl
  · rw [if_neg h]
    have e : (⟨max 0 c.x1, max 0 c.y1, c.x2 + max 0 (-c.x1), c.y2 + max 0 (-c.y1)⟩ : Xyxy) = c := by
      obtain ⟨c1, c2, c3, c4⟩ := c
      simp only [Xyxy.mk.injEq]
      simp only at h
      omega
    rw [e]
    exact ⟨_, rfl, slice_inside zero a c hx hy (by omega) (by omega) (by omega) (by omega)⟩

theorem grown_eq (pz : Bool) (c : Xyxy) (hx : c.x1 ≤ c.x2) (hy : c.y1 ≤ c.y2) :
    grown pz c = ⟨c.x1, c.y1, if pz then max c.x2 (c.x1 + 1) else c.x2, if pz then max c.y2 (c.y1 + 1) else c.y2⟩ := by
  cases pz
  · rfl
  · simp only [grown, if_true, Xyxy.mk.injEq, true_and]
    rw [abs_of_nonneg (by omega : (0 : Int) ≤ c.x2 - c.x1), abs_of_nonneg (by omega : (0 : Int) ≤ c.y2 - c.y1)]
    constructor <;> split_ifs <;> omega

theorem within_iff (b : BB) (a : Img α) : b.isFullyWithin ⟨a.h, a.w⟩ = true ↔ Inside b a := by
  simp only [BB.isFullyWithin, Bool.and_eq_true, decide_eq_true_eq, Inside, ge_iff_le]
  tauto

/-- What the coordinates are for a box in the image. -/
theorem clipped_inside (b : BB) (a : Img α) (h : Inside b a) (ho : Ordered b) :
    clipped b ⟨a.h, a.w⟩ = ⟨min (npRound b.x1) (a.w - 1), min (npRound b.y1) (a.h - 1), min (npRound b.x2) (a.w - 1),
      min (npRound b.y2) (a.h - 1)⟩ ∧ 0 ≤ npRound b.x1 ∧ 0 ≤ npRound b.y1 ∧ npRound b.x1 ≤ npRound b.x2 ∧
      npRound b.y1 ≤ npRound b.y2 ∧ npRound b.x2 ≤ a.w ∧ npRound b.y2 ≤ a.h ∧ 0 < a.w ∧ 0 < a.h := by
  obtain ⟨h1, h2, h3, h4⟩ := h
  have n1 := npRound_nonneg h1
  have n3 := npRound_nonneg h3
  have m1 := npRound_mono ho.1
  have m2 := npRound_mono ho.2
  have l2 : npRound b.x2 ≤ ((a.w : Nat) : Int) := npRound_le (by push_cast; exact h2.le)
  have l4 : npRound b.y2 ≤ ((a.h : Nat) : Int) := npRound_le (by push_cast; exact h4.le)
  have w0 : 0 < a.w := by
    have : (0 : ℚ) < a.w := lt_of_le_of_lt (h1.trans ho.1) h2
    exact_mod_cast this
  have h0 : 0 < a.h := by
    have : (0 : ℚ) < a.h := lt_of_le_of_lt (h3.trans ho.2) h4
    exact_mod_cast this
  refine ⟨?_, n1, n3, m1, m2, l2, l4, w0, h0⟩
  rw [clipped, if_pos ((within_iff b a).2 ⟨h1, h2, h3, h4⟩)]
  simp only [rounded, clipI, Xyxy.mk.injEq]
  omega

theorem clipped_outside (b : BB) (a : Img α) (h : ¬ Inside b a) : clipped b ⟨a.h, a.w⟩ = rounded b := by
  rw [clipped, if_neg (fun h' => h ((within_iff b a).1 h'))]

theorem clipped_ordered (b : BB) (a : Img α) (ho : Ordered b) :
    (clipped b ⟨a.h, a.w⟩).x1 ≤ (clipped b ⟨a.h, a.w⟩).x2 ∧ (clipped b ⟨a.h, a.w⟩).y1 ≤ (clipped b ⟨a.h, a.w⟩).y2 := by
  by_cases h : Inside b a
  · obtain ⟨e, h1⟩ := clipped_inside b a h ho
    rw [e]
    simp only
    omega
  · rw [clipped_outside b a h]
    exact ⟨npRound_mono ho.1, npRound_mono ho.2⟩

/-- No coordinate is changed by the clipping. -/
theorem clipped_same (b : BB) (a : Img α) (ho : Ordered b) (h : Inside b a → npRound b.x2 < a.w ∧ npRound b.y2 < a.h) :
    clipped b ⟨a.h, a.w⟩ = rounded b := by
  by_cases h' : Inside b a
  · obtain ⟨e, h1⟩ := clipped_inside b a h' ho
    have h2 := h h'
    rw [e, rounded]
    simp only [Xyxy.mk.injEq]
    omega
  · exact clipped_outside b a h'

theorem bound_le (n : Nat) (i : Int) (h : 0 ≤ i) : bound n i ≤ n := by
  unfold bound
  rw [if_neg (by omega)]
  omega

theorem bound_any (n : Nat) (i : Int) : bound n i ≤ n := by
  unfold bound
  split_ifs <;> omega

theorem padded_size (zero : α) (a r : Img α) (c : Xyxy) (k : Int) (hk : 0 ≤ k) (h : padded zero a c (some k) = some r) :
    (r.h : Int) ≤ a.h + 2 * k ∧ (r.w : Int) ≤ a.w + 2 * k := by
  unfold padded at h
  simp only [axis_eq] at h
  split_ifs at h with h1
  · rw [limit, Option.getD_some, pad] at h
    split_ifs at h with h2
    · rw [Option.map_some, Option.some.injEq] at h
      subst h
      unfold slice
      dsimp only
      simp only at h2
      constructor
      · have := bound_any (a.h + (min (max 0 (-c.y1)) k).toNat + (min (max 0 (c.y2 - a.h)) k).toNat) (c.y2 + max 0 (-c.y1))
        omega
      · have := bound_any (a.w + (min (max 0 (-c.x1)) k).toNat + (min (max 0 (c.x2 - a.w)) k).toNat) (c.x2 + max 0 (-c.x1))
        omega
    · cases h
  · rw [Option.some.injEq] at h
    subst h
    unfold slice
    dsimp only
    have := bound_any a.h (c.y2 + max 0 (-c.y1))
    have := bound_any a.w (c.x2 + max 0 (-c.x1))
    omega

theorem tuple_low (x1 y1 x2 y2 : Int) (h : 0 ≤ x1) (h1 : 0 ≤ y1) (h2 : 0 ≤ x2) (h3 : 0 ≤ y2) :
    (tupleLt [0, 0, 0, 0] [x1, y1, x2, y2] || decide ([0, 0, 0, 0] = [x1, y1, x2, y2])) = true := by
  simp only [tupleLt, Bool.or_eq_true, decide_eq_true_eq, List.cons.injEq, and_true]
  split_ifs <;> simp <;> omega

theorem extent_eq (pz : Bool) (c1 c2 : ℚ) (h : c1 ≤ c2) :
    ((if pz then max (npRound c2) (npRound c1 + 1) else npRound c2) - npRound c1).toNat = extent pz c1 c2 := by
  have := npRound_mono h
  cases pz
  · rfl
  · simp only [extent, if_true]
    omega

end Imgaug.Extract
