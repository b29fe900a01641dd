import Verif.Spec.Draw
import Verif.Proofs.Dtypes
import Verif.Proofs.Params
/-! Lemmas for C116. -/
namespace Imgaug.Draw
open Imgaug Imgaug.Dtypes

theorem u8_cases {v : ℚ} (h : Holds ⟨.u, 1⟩ v) : 0 ≤ v ∧ v ≤ 255 := by
  obtain ⟨h0, h1, -⟩ := h
  have e0 : lo (⟨.u, 1⟩ : DType) = 0 := rfl
  have e1 : hi (⟨.u, 1⟩ : DType) = 255 := by decide
  rw [e0] at h0
  rw [e1] at h1
  exact ⟨by exact_mod_cast h0, by exact_mod_cast h1⟩

theorem back_holds {d : DType} {v : ℚ} (h : Holds d v) : back d v = v := by
  unfold back
  split_ifs with h1 h2
  · rfl
  · subst h2
    obtain ⟨a, b⟩ := u8_cases h
    rw [min_eq_right b, max_eq_right a]
    exact Params.astype_holds v h
  · exact Params.astype_holds v h

theorem astype_u8 {v : ℚ} (h0 : 0 ≤ v) (h1 : v ≤ 255) : astype ⟨.u, 1⟩ v = (⌊v⌋ : Int) := by
  have e : pyInt v = ⌊v⌋ := by unfold pyInt; rw [if_neg (by linarith)]
  have f0 : 0 ≤ ⌊v⌋ := Int.floor_nonneg.2 h0
  have f1 : ⌊v⌋ ≤ 255 := by
    have := Int.floor_le v
    exact_mod_cast le_trans this h1
  have : astype ⟨.u, 1⟩ ((⌊v⌋ : Int) : ℚ) = (⌊v⌋ : Int) := astype_int ⟨.u, 1⟩ ⌊v⌋ f0 (by rw [show hi (⟨.u, 1⟩ : DType) = 255 from by decide]; exact f1)
  unfold astype at this ⊢
  simp only at this ⊢
  rw [e]
  rwa [pyInt_intCast] at this

theorem astype_u8_holds (v : ℚ) : Holds ⟨.u, 1⟩ (astype ⟨.u, 1⟩ v) := by
  have h : astype ⟨.u, 1⟩ v = ((wrap ⟨.u, 1⟩ (pyInt v) : Int) : ℚ) := rfl
  have e0 : lo (⟨.u, 1⟩ : DType) = 0 := rfl
  have e1 : hi (⟨.u, 1⟩ : DType) = 255 := by decide
  have b0 : 0 ≤ wrap ⟨.u, 1⟩ (pyInt v) ∧ wrap ⟨.u, 1⟩ (pyInt v) ≤ 255 := by
    unfold wrap
    rw [e0, e1]
    omega
  rw [h]
  refine ⟨by rw [e0]; exact_mod_cast b0.1, by rw [e1]; exact_mod_cast b0.2, fun _ => ⟨_, rfl⟩⟩

theorem mix_bounds {a v k : ℚ} (h0 : 0 ≤ a) (h1 : a ≤ 1) (v0 : 0 ≤ v) (v1 : v ≤ 255) (k0 : 0 ≤ k) (k1 : k ≤ 255) :
    0 ≤ (1 - a) * v + a * k ∧ (1 - a) * v + a * k ≤ 255 := by
  constructor
  · have := mul_nonneg (sub_nonneg.2 h1) v0
    have := mul_nonneg h0 k0
    linarith
  · nlinarith [mul_nonneg (sub_nonneg.2 h1) (sub_nonneg.2 v1), mul_nonneg h0 (sub_nonneg.2 k1)]

theorem isU8_bounds {k : Color} {c ch : Nat} (h : IsU8 k c) (hc : ch < c) : 0 ≤ k.comp ch ∧ k.comp ch ≤ 255 := by
  obtain ⟨n, h1, h2⟩ := h ch hc
  rw [h2]
  exact ⟨by positivity, by exact_mod_cast h1⟩

theorem back_mix {d : DType} {a v k : ℚ} (h0 : 0 ≤ a) (h1 : a ≤ 1) (hv : Holds d v) (hd : d = ⟨.u, 1⟩ ∨ d.kind = .f) (k0 : 0 ≤ k) (k1 : k ≤ 255) :
    back d ((1 - a) * v + a * k) = over d a k v := by
  rcases hd with rfl | hf
  · obtain ⟨v0, v1⟩ := u8_cases hv
    obtain ⟨b0, b1⟩ := mix_bounds h0 h1 v0 v1 k0 k1
    unfold back over
    rw [if_neg (by decide), if_pos rfl, if_pos rfl, min_eq_right b1, max_eq_right b0]
    exact astype_u8 b0 b1
  · have hn : d ≠ ⟨.u, 1⟩ := by rintro rfl; cases hf
    unfold back over
    rw [if_neg hn, if_neg hn]
    split_ifs
    · rfl
    · unfold astype; rw [hf]

/-- The coordinates of the square after all the clipping. -/
theorem range_iff (v : Int) (r n i : Nat) (hi : i < n) :
    (clipI (max (v - r) 0) 0 n ≤ i ∧ (i : Int) < clipI (min (v + 1 + r) n) 0 n) ↔ |(i : Int) - v| ≤ r := by
  rw [abs_le]
  unfold clipI
  omega

/-- The condition under which something is drawn. -/
theorem visible_iff (v : Int) (r n : Nat) :
    (¬ ((clipI (max (v - r) 0) 0 n < 0 ∨ clipI (max (v - r) 0) 0 n ≥ n) ∧ (clipI (min (v + 1 + r) n) 0 n < 0 ∨ clipI (min (v + 1 + r) n) 0 n ≥ (n : Int) + 1)) ∧
      ¬ clipI (min (v + 1 + r) n) 0 n - clipI (max (v - r) 0) 0 n < 1) ↔ ∃ i : Nat, i < n ∧ |(i : Int) - v| ≤ r := by
  constructor
  · rintro ⟨-, h⟩
    refine ⟨(clipI (max (v - r) 0) 0 n).toNat, ?_, ?_⟩
    · unfold clipI at *; omega
    · rw [abs_le]; unfold clipI at *; omega
  · rintro ⟨i, h1, h2⟩
    rw [abs_le] at h2
    unfold clipI
    omega

theorem within_iff (b : BB) (im : Img) : b.isFullyWithin ⟨im.h, im.w⟩ = true ↔ Within b im := by
  simp [BB.isFullyWithin, Within, and_assoc]

theorem edges_eq (b : BB) (im : Img) (h : b.x1 ≤ b.x2 ∧ b.y1 ≤ b.y2) :
    edges b im = (line b im b.y1 im.h, line b im b.y2 im.h, line b im b.x1 im.w, line b im b.x2 im.w) ∧
      line b im b.y1 im.h ≤ line b im b.y2 im.h ∧ line b im b.x1 im.w ≤ line b im b.x2 im.w := by
  have m1 := Props.npRound_mono h.1
  have m2 := Props.npRound_mono h.2
  by_cases hw : Within b im
  · have hb := (within_iff b im).2 hw
    obtain ⟨w1, w2, w3, w4⟩ := hw
    have n1 := Props.npRound_nonneg w1
    have n2 := Props.npRound_nonneg w3
    have hh : (0 : ℚ) < im.h := by linarith [h.2]
    have hwid : (0 : ℚ) < im.w := by linarith [h.1]
    have hh' : 0 < im.h := by exact_mod_cast hh
    have hw' : 0 < im.w := by exact_mod_cast hwid
    have hW : Within b im := ⟨w1, w2, w3, w4⟩
    simp only [edges, hb, if_true, line, if_pos hW]
    refine ⟨?_, by omega, by omega⟩
    simp only [Prod.mk.injEq, clipI]
    omega
  · have hb : b.isFullyWithin ⟨im.h, im.w⟩ = false := by
      rw [← Bool.not_eq_true, within_iff]; exact hw
    simp only [edges, hb, Bool.false_eq_true, if_false, line, if_neg hw]
    exact ⟨trivial, m2, m1⟩

theorem line_congr (b : BB) (im im' : Img) (h : Same im im') (v : ℚ) (n : Nat) : line b im v n = line b im' v n := by
  unfold line Within
  rw [h.2.1, h.2.2.1]

theorem edges_congr (b : BB) (im im' : Img) (h : Same im im') : edges b im = edges b im' := by
  unfold edges
  rw [h.2.1, h.2.2.1]

/-- The frame of thickness `t + 1`: the one of thickness `t`, and the perimeter at the distance `t`, which have no pixel in common. -/
theorem frame_succ (b : BB) (im : Img) (h : b.x1 ≤ b.x2 ∧ b.y1 ≤ b.y2) (t yy xx : Nat) :
    (OnFrame b im (t + 1) yy xx ↔ OnFrame b im t yy xx ∨
      perimeter (line b im b.y1 im.h - t) (line b im b.y2 im.h + t) (line b im b.x1 im.w - t) (line b im b.x2 im.w + t) yy xx) ∧
    ¬ (OnFrame b im t yy xx ∧ perimeter (line b im b.y1 im.h - t) (line b im b.y2 im.h + t) (line b im b.x1 im.w - t) (line b im b.x2 im.w + t) yy xx) := by
  obtain ⟨-, h1, h2⟩ := edges_eq b im h
  unfold OnFrame perimeter
  generalize line b im b.y1 im.h = a at *
  generalize line b im b.y2 im.h = c at *
  generalize line b im b.x1 im.w = d at *
  generalize line b im b.x2 im.w = e at *
  rw [min_eq_left (by omega), max_eq_right (by omega), min_eq_left (by omega), max_eq_right (by omega)]
  push_cast
  constructor <;> omega

theorem frame_zero (b : BB) (im : Img) (h : b.x1 ≤ b.x2 ∧ b.y1 ≤ b.y2) (yy xx : Nat) : ¬ OnFrame b im 0 yy xx := by
  unfold OnFrame
  omega

open Classical in
/-- The loop. `g` is what becomes of a drawn pixel. -/
theorem loop_spec (im : Img) (b : BB) (hb : b.x1 ≤ b.x2 ∧ b.y1 ≤ b.y2) (color : Color) (alpha : ℚ) (same : Bool) (g : ℚ → Nat → ℚ)
    (hg : alpha ≥ 99 / 100 → ∀ v ch, g v ch = astype im.dt (color.comp ch))
    (hg' : ¬ alpha ≥ 99 / 100 → ∀ v ch, g v ch = if im.dt.kind = .f then max 0 (min 255 ((1 - alpha) * v + alpha * color.comp ch)) else
      astype im.dt (max 0 (min 255 ((1 - alpha) * v + alpha * color.comp ch))))
    (P : ℚ → Prop) (hP : ∀ v ch, ch < im.c → P v → P (g v ch)) (hstay : ¬ alpha ≥ 99 / 100 → ∀ v, P v →
      (if im.dt.kind = .f then max 0 (min 255 v) else astype im.dt (max 0 (min 255 v))) = v)
    (hok : ∀ y x ch, y < im.h → x < im.w → ch < im.c → P (im.px y x ch)) (k : Nat) :
    let s := (List.range k).foldl (boxStep b color alpha) ⟨im, im, same⟩
    Same im s.result ∧ ∀ y x ch, y < im.h → x < im.w → ch < im.c →
      s.result.px y x ch = (if OnFrame b im k y x then g (im.px y x ch) ch else im.px y x ch) := by
  induction k with
  | zero =>
    refine ⟨⟨rfl, rfl, rfl, rfl, rfl⟩, ?_⟩
    intro y x ch _ _ _
    rw [if_neg (frame_zero b im hb y x)]
    rfl
  | succ k ih =>
    rw [List.range_succ, List.foldl_append]
    generalize (List.range k).foldl (boxStep b color alpha) ⟨im, im, same⟩ = s at ih
    obtain ⟨hs, hpx⟩ := ih
    simp only [List.foldl_cons, List.foldl_nil]
    have he : edges b s.result = edges b im := (edges_congr b im s.result hs).symm
    obtain ⟨ee, -, -⟩ := edges_eq b im hb
    have hdt : s.result.dt = im.dt := hs.1.symm
    by_cases ha : alpha ≥ 99 / 100
    · simp only [boxStep, if_pos ha]
      refine ⟨hs, ?_⟩
      intro y x ch h1 h2 h3
      obtain ⟨f1, f2⟩ := frame_succ b im hb k y x
      simp only [paint, he, ee, hdt]
      rw [hpx y x ch h1 h2 h3, hg ha]
      by_cases hp : perimeter (line b im b.y1 im.h - k) (line b im b.y2 im.h + k) (line b im b.x1 im.w - k) (line b im b.x2 im.w + k) y x
      · rw [if_pos hp, if_pos (f1.2 (Or.inr hp))]
      · rw [if_neg hp]
        by_cases hf : OnFrame b im k y x
        · rw [if_pos hf, if_pos (f1.2 (Or.inl hf))]
        · rw [if_neg hf, if_neg (fun h => (f1.1 h).elim hf hp)]
    · have key : ∀ (y x ch : Nat), y < im.h → x < im.w → ch < im.c →
          (if im.dt.kind = .f then max 0 (min 255 ((paint (edges b s.result) k (fun v ch => (1 - alpha) * v + alpha * color.comp ch) s.result).px y x ch)) else
            astype im.dt (max 0 (min 255 ((paint (edges b s.result) k (fun v ch => (1 - alpha) * v + alpha * color.comp ch) s.result).px y x ch)))) =
          (if OnFrame b im (k + 1) y x then g (im.px y x ch) ch else im.px y x ch) := by
        intro y x ch h1 h2 h3
        obtain ⟨f1, f2⟩ := frame_succ b im hb k y x
        simp only [paint, he, ee]
        rw [hpx y x ch h1 h2 h3]
        have hPv := hok y x ch h1 h2 h3
        by_cases hp : perimeter (line b im b.y1 im.h - k) (line b im b.y2 im.h + k) (line b im b.x1 im.w - k) (line b im b.x2 im.w + k) y x
        · have hf : ¬ OnFrame b im k y x := fun h => f2 ⟨h, hp⟩
          rw [if_pos hp, if_neg hf, if_pos (f1.2 (Or.inr hp)), hg' ha]
        · rw [if_neg hp]
          by_cases hf : OnFrame b im k y x
          · rw [if_pos hf, if_pos (f1.2 (Or.inl hf))]
            exact hstay ha _ (hP _ _ h3 hPv)
          · rw [if_neg hf, if_neg (fun h => (f1.1 h).elim hf hp)]
            exact hstay ha _ hPv
      unfold boxStep
      rw [if_neg ha]
      simp only
      by_cases hf : im.dt.kind = .f
      · rw [hdt, if_pos hf]
        refine ⟨hs, ?_⟩
        intro y x ch h1 h2 h3
        have := key y x ch h1 h2 h3
        rw [if_pos hf] at this
        exact this
      · rw [hdt, if_neg hf]
        refine ⟨hs, ?_⟩
        intro y x ch h1 h2 h3
        have := key y x ch h1 h2 h3
        rw [if_neg hf] at this
        simp only [paint, hdt] at this ⊢
        exact this

theorem loop_arg (im : Img) (b : BB) (color : Color) (alpha : ℚ) (k : Nat) :
    ((List.range k).foldl (boxStep b color alpha) ⟨im, im, false⟩).arg = im ∧
    (alpha ≥ 99 / 100 → ((List.range k).foldl (boxStep b color alpha) ⟨im, im, true⟩).arg = ((List.range k).foldl (boxStep b color alpha) ⟨im, im, true⟩).result) := by
  constructor
  · have : ∀ k, ((List.range k).foldl (boxStep b color alpha) ⟨im, im, false⟩).arg = im ∧ ((List.range k).foldl (boxStep b color alpha) ⟨im, im, false⟩).same = false := by
      intro k
      induction k with
      | zero => exact ⟨rfl, rfl⟩
      | succ k ih =>
        rw [List.range_succ, List.foldl_append]
        generalize (List.range k).foldl (boxStep b color alpha) ⟨im, im, false⟩ = s at ih
        simp only [List.foldl_cons, List.foldl_nil, boxStep, ih.2, Bool.false_eq_true, if_false]
        split_ifs <;> exact ⟨ih.1, rfl⟩
    exact (this k).1
  · intro ha
    have : ∀ k, ((List.range k).foldl (boxStep b color alpha) ⟨im, im, true⟩).arg = ((List.range k).foldl (boxStep b color alpha) ⟨im, im, true⟩).result ∧
        ((List.range k).foldl (boxStep b color alpha) ⟨im, im, true⟩).same = true := by
      intro k
      induction k with
      | zero => exact ⟨rfl, rfl⟩
      | succ k ih =>
        rw [List.range_succ, List.foldl_append]
        generalize (List.range k).foldl (boxStep b color alpha) ⟨im, im, true⟩ = s at ih
        simp only [List.foldl_cons, List.foldl_nil, boxStep, ih.2, if_pos ha, if_true, ih.1]
        exact ⟨trivial, trivial⟩
    exact (this k).1

/-- A grey image of 6 × 5 pixels. -/
def grey : Img := ⟨⟨.u, 1⟩, 6, 5, 3, false, fun _ _ _ => 100⟩

/-- Its pixels are values of the dtype. -/
theorem grey_ok : grey.Ok := fun _ _ _ _ _ _ =>
  (⟨by decide +kernel, by decide +kernel, fun _ => ⟨100, rfl⟩⟩ : Holds ⟨.u, 1⟩ 100)

end Imgaug.Draw
