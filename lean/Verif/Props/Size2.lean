import Verif.Proofs.Size2
import Verif.Props.Size
/-! Amounts to crop and pad to reach multiples, powers, aspect ratios and fixed sizes, and the sizes computed by `Resize`. -/
namespace Imgaug.Size
open Imgaug
variable {α : Type}

/-- C48: padding to multiples is accepted for every shape and all positive multiples (or None); it pads each axis to the smallest
positive multiple that is at least its size, as evenly as possible. -/
theorem paddings_multiples (s : Shape) (hm wm : Option Nat) (h1 : hm ≠ some 0) (h2 : wm ≠ some 0) :
    ∃ p, paddingsMultiples s hm wm = some p ∧ PadsTo (sizesOf posMultiples hm) s.h p.top p.bottom ∧
      PadsTo (sizesOf posMultiples wm) s.w p.left p.right :=
  ⟨_, by rw [paddingsMultiples, if_neg (by simp [h1, h2])], padToMultiple_spec s.h hm h1, padToMultiple_spec s.w wm h2⟩

/-- C48: cropping to multiples is accepted likewise; it crops each axis to the largest multiple (possibly zero) that is at most its
size. -/
theorem croppings_multiples (s : Shape) (hm wm : Option Nat) (h1 : hm ≠ some 0) (h2 : wm ≠ some 0) :
    ∃ c, croppingsMultiples s hm wm = some c ∧ CropsTo (sizesOf multiples hm) s.h c.top c.bottom ∧
      CropsTo (sizesOf multiples wm) s.w c.left c.right :=
  ⟨_, by rw [croppingsMultiples, if_neg (by simp [h1, h2])], cropToMultiple_spec s.h hm h1, cropToMultiple_spec s.w wm h2⟩

/-- C48: a multiple of zero is rejected. -/
theorem multiples_reject_zero (s : Shape) (hm wm : Option Nat) (h : hm = some 0 ∨ wm = some 0) :
    paddingsMultiples s hm wm = none ∧ croppingsMultiples s hm wm = none := by
  rw [paddingsMultiples, croppingsMultiples, if_pos h, if_pos h]; exact ⟨rfl, rfl⟩

example : paddingsMultiples ⟨11, 0⟩ (some 4) (some 3) = some ⟨0, 2, 1, 1⟩ ∧
    croppingsMultiples ⟨11, 9⟩ (some 4) none = some ⟨1, 0, 2, 0⟩ := by decide

/-- C49: with exact logarithms, padding to powers pads every non-empty axis to the smallest power, with an exponent of at least
one, that is at least its size, as evenly as possible; whether the exponent zero is allowed makes no difference. -/
theorem paddings_powers_partial (allowZero : Bool) (s : Shape) (hb wb : Option Nat) (h1 : ∀ b, hb = some b → 2 ≤ b)
    (h2 : ∀ b, wb = some b → 2 ≤ b) (hh : 1 ≤ s.h) (hw : 1 ≤ s.w) :
    ∃ p, paddingsPowers exactExpo allowZero s hb wb = some p ∧ PadsTo (sizesOf (powers 1) hb) s.h p.top p.bottom ∧
      PadsTo (sizesOf (powers 1) wb) s.w p.left p.right := by
  refine ⟨_, by rw [paddingsPowers, if_neg]; rintro (⟨b, e, l⟩ | ⟨b, e, l⟩); · have := h1 b e; omega
                · have := h2 b e; omega, ?_, ?_⟩
  · exact padToPower_exact allowZero s.h hb hh h1
  · exact padToPower_exact allowZero s.w wb hw h2

/-- C49: an empty axis is padded to the base, or to one if the exponent zero is allowed. -/
theorem paddings_powers_empty (expo : Nat → Nat → ℝ) (allowZero : Bool) (b : Nat) (hb : 2 ≤ b) :
    ∃ p, paddingsPowers expo allowZero ⟨0, 0⟩ (some b) (some b) = some p ∧
      PadsTo (powers (if allowZero then 0 else 1) b) 0 p.top p.bottom ∧
      PadsTo (powers (if allowZero then 0 else 1) b) 0 p.left p.right := by
  refine ⟨_, by rw [paddingsPowers, if_neg]; simp; omega, ?_, ?_⟩
  all_goals
    simp only [padToPower, if_true]
    cases allowZero
    · apply padsTo_halves
      · simp
      · exact ⟨1, le_rfl, by simp⟩
      · rintro k ⟨e, he, rfl⟩ _
        have := Nat.pow_le_pow_right (show 0 < b by omega) (show 1 ≤ e by simpa using he)
        simp only [pow_one] at this
        simpa using (by exact_mod_cast this : (b : Int) ≤ (b : Int) ^ e)
    · apply padsTo_halves
      · simp
      · exact ⟨0, by simp, by simp⟩
      · rintro k ⟨e, _, rfl⟩ _
        have := Nat.one_le_pow e b (by omega)
        simpa using (by exact_mod_cast this : (1 : Int) ≤ (b : Int) ^ e)

/-- C49: with the exponent zero allowed, an axis of size one is documented to stay as it is, as `1 = B^0`; the function pads it to
the base. -/
theorem paddings_powers_one (expo : Nat → Nat → ℝ) (b : Nat) (hb : 2 ≤ b) :
    ∃ p, paddingsPowers expo true ⟨1, 1⟩ (some b) (some b) = some p ∧ 1 + p.top + p.bottom = b ∧
      ¬ PadsTo (powers 0 b) 1 p.top p.bottom := by
  refine ⟨_, by rw [paddingsPowers, if_neg]; simp; omega, ?_, ?_⟩
  all_goals
    have e : padToPower expo true 1 (some b) = halves ((b : Int) - 1) := by
      simp only [padToPower]; rw [if_neg (by omega), if_pos (by omega)]; rfl
    simp only [e]
  · have := halves_sum ((b : Int) - 1); omega
  · rintro ⟨_, _, _, h⟩
    have h1 := h.2 (show (1 : Int) ∈ _ from ⟨⟨0, le_rfl, by simp⟩, by simp⟩)
    have := halves_sum ((b : Int) - 1)
    push_cast at h1; omega

/-- C49: with exact logarithms, cropping to powers crops every axis that is at least as large as the base to the largest power that
is at most its size, as evenly as possible. -/
theorem croppings_powers_partial (allowZero : Bool) (s : Shape) (hb wb : Option Nat) (h1 : ∀ b, hb = some b → 2 ≤ b ∧ b ≤ s.h)
    (h2 : ∀ b, wb = some b → 2 ≤ b ∧ b ≤ s.w) :
    ∃ c, croppingsPowers exactExpo allowZero s hb wb = some c ∧ CropsTo (sizesOf (powers 0) hb) s.h c.top c.bottom ∧
      CropsTo (sizesOf (powers 0) wb) s.w c.left c.right := by
  refine ⟨_, by rw [croppingsPowers, if_neg]; rintro (⟨b, e, l⟩ | ⟨b, e, l⟩); · have := h1 b e; omega
                · have := h2 b e; omega, ?_, ?_⟩
  · exact cropToPower_exact allowZero s.h hb h1
  · exact cropToPower_exact allowZero s.w wb h2

/-- C49: smaller axes are left unchanged, or cropped to one pixel if the exponent zero is allowed; empty axes are left unchanged. -/
theorem croppings_powers_small (expo : Nat → Nat → ℝ) (allowZero : Bool) (s : Shape) (b : Nat) (hb : 2 ≤ b) (h1 : s.h < b)
    (h2 : s.w < b) :
    ∃ c, croppingsPowers expo allowZero s (some b) (some b) = some c ∧
      (s.h : Int) - c.top - c.bottom = (if allowZero then min s.h 1 else s.h : Nat) ∧
      (s.w : Int) - c.left - c.right = (if allowZero then min s.w 1 else s.w : Nat) ∧ NonNeg c := by
  have key : ∀ n : Nat, n < b → ((n : Int) - (cropToPower expo allowZero n (some b)).1 - (cropToPower expo allowZero n (some b)).2
      = (if allowZero then min n 1 else n : Nat)) ∧ 0 ≤ (cropToPower expo allowZero n (some b)).1 ∧
        0 ≤ (cropToPower expo allowZero n (some b)).2 := by
    intro n hn
    simp only [cropToPower, hn, if_true, halves]
    cases allowZero <;> by_cases h0 : n = 0 <;> (simp [h0]; try omega)
  obtain ⟨k1, k2, k3⟩ := key s.h h1
  obtain ⟨l1, l2, l3⟩ := key s.w h2
  exact ⟨_, by rw [croppingsPowers, if_neg]; simp; omega, k1, l1, k2, l3, k3, l2⟩

/-- C49: bases of one or zero are rejected. -/
theorem powers_reject (expo : Nat → Nat → ℝ) (allowZero : Bool) (s : Shape) (b : Nat) (hb : b ≤ 1) (o : Option Nat) :
    paddingsPowers expo allowZero s (some b) o = none ∧ paddingsPowers expo allowZero s o (some b) = none ∧
    croppingsPowers expo allowZero s (some b) o = none ∧ croppingsPowers expo allowZero s o (some b) = none := by
  refine ⟨?_, ?_, ?_, ?_⟩
  · rw [paddingsPowers, if_pos (Or.inl ⟨b, rfl, hb⟩)]
  · rw [paddingsPowers, if_pos (Or.inr ⟨b, rfl, hb⟩)]
  · rw [croppingsPowers, if_pos (Or.inl ⟨b, rfl, hb⟩)]
  · rw [croppingsPowers, if_pos (Or.inr ⟨b, rfl, hb⟩)]

/-- C49: with logarithms that have a small error (as with floats), a non-empty axis is padded to the right power, or, if its size
already is a power, possibly to the next one. -/
theorem paddings_powers_rounded (expo : Nat → Nat → ℝ) (hexpo : SmallError expo) (allowZero : Bool) (s : Shape) (b : Nat)
    (hb : 2 ≤ b) (hh : 1 ≤ s.h) :
    ∃ p, paddingsPowers expo allowZero s (some b) none = some p ∧ 0 ≤ p.top ∧ 0 ≤ p.bottom ∧
      (PadsTo (powers 1 b) s.h p.top p.bottom ∨ ((s.h : Int) ∈ powers 1 b ∧ s.h + p.top + p.bottom = s.h * b)) := by
  refine ⟨_, by rw [paddingsPowers, if_neg]; simp; omega, ?_⟩
  have h := padToPower_spec expo allowZero s.h b hb hh (separates_of_smallError expo hexpo s.h b hh hb)
  rcases h with h | ⟨e, he⟩
  · exact ⟨h.1, h.2.1, Or.inl h⟩
  · simp only [he]
    have h0 : (0 : Int) ≤ (s.h : Int) * b - s.h := by
      have : (s.h : Int) * 1 ≤ s.h * b := mul_le_mul_of_nonneg_left (by omega) (by omega)
      omega
    obtain ⟨h1, h2, _⟩ := halves_nonneg _ h0
    have hs := halves_sum ((s.h : Int) * b - s.h)
    exact ⟨h1, h2, Or.inr ⟨e, by omega⟩⟩

/-- C49: likewise for cropping: to the right power or, if the size already is a power, possibly to the previous one. -/
theorem croppings_powers_rounded (expo : Nat → Nat → ℝ) (hexpo : SmallError expo) (allowZero : Bool) (s : Shape) (b : Nat)
    (hb : 2 ≤ b) (hh : b ≤ s.h) :
    ∃ c, croppingsPowers expo allowZero s (some b) none = some c ∧ 0 ≤ c.top ∧ 0 ≤ c.bottom ∧
      (CropsTo (powers 0 b) s.h c.top c.bottom ∨ ((s.h : Int) ∈ powers 1 b ∧ (s.h - c.top - c.bottom) * b = s.h)) := by
  refine ⟨_, by rw [croppingsPowers, if_neg]; simp; omega, ?_⟩
  have h := cropToPower_spec expo allowZero s.h b hb hh (separates_of_smallError expo hexpo s.h b (by omega) hb)
  rcases h with h | ⟨m, e, he, hm, h0⟩
  · exact ⟨h.1, h.2.1, Or.inl h⟩
  · simp only [he]
    obtain ⟨h1, h2, _⟩ := halves_nonneg _ h0
    have hs := halves_sum ((s.h : Int) - m)
    refine ⟨h1, h2, Or.inr ⟨e, ?_⟩⟩
    rw [sub_sub, hs]; rw [← hm]; ring

/-- C49: such errors occur: with 64 bit floats the quotient for 1000 and base 10 is just below 3 and an axis of size 1000 is cropped
to 100; the quotient for 125 and base 5 is just above 3 and an axis of size 125 is padded to 625. -/
theorem powers_rounding_errors :
    SmallError roundedExpo ∧
    (∃ c, croppingsPowers roundedExpo false ⟨1000, 1000⟩ (some 10) none = some c ∧ 1000 - c.top - c.bottom = 100 ∧
      ¬ CropsTo (powers 0 10) 1000 c.top c.bottom) ∧
    (∃ p, paddingsPowers roundedExpo false ⟨125, 125⟩ (some 5) none = some p ∧ 125 + p.top + p.bottom = 625 ∧
      ¬ PadsTo (powers 1 5) 125 p.top p.bottom) := by
  refine ⟨smallError_rounded, ⟨_, by rw [croppingsPowers, if_neg]; simp, ?_⟩, ⟨_, by rw [paddingsPowers, if_neg]; simp, ?_⟩⟩
  · have e : cropToPower roundedExpo false 1000 (some 10) = (450, 450) := by
      have : ⌊roundedExpo 1000 10⌋ = 2 := by
        rw [Int.floor_eq_iff, roundedExpo]; norm_num
      simp only [cropToPower, this]; decide
    simp only [e]
    refine ⟨by norm_num, ?_⟩
    rintro ⟨_, _, _, h⟩
    have := h.2 ⟨⟨3, by norm_num, rfl⟩, by norm_num⟩
    norm_num at this
  · have e : padToPower roundedExpo false 125 (some 5) = (250, 250) := by
      have : ⌈roundedExpo 125 5⌉ = 4 := by
        rw [Int.ceil_eq_iff, roundedExpo]; norm_num
      simp only [padToPower, this]; decide
    simp only [e]
    refine ⟨by norm_num, ?_⟩
    rintro ⟨_, _, _, h⟩
    have := h.2 ⟨⟨3, by norm_num, rfl⟩, by norm_num⟩
    norm_num at this

example : ∃ p, paddingsPowers exactExpo false ⟨5, 3⟩ (some 2) none = some p ∧ 5 + p.top + p.bottom = 8 := by
  obtain ⟨p, h1, h2, _⟩ := paddings_powers_partial false ⟨5, 3⟩ (some 2) none (by simp) (by simp) (by decide) (by decide)
  refine ⟨p, h1, ?_⟩
  refine h2.2.2.2.unique ⟨⟨⟨3, by norm_num, rfl⟩, by norm_num⟩, ?_⟩
  rintro k ⟨⟨e, _, rfl⟩, hk⟩
  by_contra hc
  have he : e < 3 := by
    by_contra h
    have := Nat.pow_le_pow_right (show 0 < 2 by norm_num) (not_lt.mp h)
    have : ((2 ^ 3 : Nat) : Int) ≤ ((2 ^ e : Nat) : Int) := by exact_mod_cast this
    push_cast at this hc
    omega
  have : e = 0 ∨ e = 1 ∨ e = 2 := by omega
  rcases this with rfl | rfl | rfl <;> simp at hk

/-- C50: padding to an aspect ratio (width / height) pads a non-empty image along one axis at most, as evenly as possible with an odd
pixel on the right or at the bottom; the padded axis misses the size demanded by the ratio by less than a pixel. -/
theorem paddings_ratio (s : Shape) (r : ℚ) (hr : 0 < r) (hh : 1 ≤ s.h) (hw : 1 ≤ s.w) :
    ∃ p, paddingsRatio s r = some p ∧ NonNeg p ∧ ((p.top = 0 ∧ p.bottom = 0) ∨ (p.left = 0 ∧ p.right = 0)) ∧
      (p.bottom = p.top ∨ p.bottom = p.top + 1) ∧ (p.right = p.left ∨ p.right = p.left + 1) ∧
      ((s.w : ℚ) ≤ r * s.h → p.top + p.bottom = 0 ∧ |(s.w + p.left + p.right : Int) - r * s.h| < 1) ∧
      (r * s.h ≤ (s.w : ℚ) → p.left + p.right = 0 ∧ |(s.h + p.top + p.bottom : Int) - (s.w : ℚ) / r| < 1) := by
  have hh' : (0 : ℚ) < s.h := by exact_mod_cast hh
  have hw' : (0 : ℚ) < s.w := by exact_mod_cast hw
  simp only [paddingsRatio, hr, if_true, show s.h ≠ 0 by omega, show s.w ≠ 0 by omega, if_false, zero_add, div_lt_iff₀ hh', gt_iff_lt,
    lt_div_iff₀ hh']
  split
  · rename_i h1
    refine ⟨_, rfl, ?_⟩
    obtain ⟨a1, a2, a3⟩ := floor_ceil_half (r * s.h - s.w)
    have hp := half_floor_nonneg (r * s.h - s.w) (by linarith)
    refine ⟨⟨le_rfl, by simp only; omega, le_rfl, hp⟩, by simp, by simp, a1, fun _ => ⟨by simp, ?_⟩, fun h => absurd h1 (not_lt.mpr h)⟩
    push_cast
    rw [abs_lt]; constructor <;> linarith
  · split
    · rename_i h1 h2
      refine ⟨_, rfl, ?_⟩
      have e : (1 / r) * (s.w : ℚ) - s.h = s.w / r - s.h := by ring
      have hpos : 0 < (s.w : ℚ) / r - s.h := by
        rw [sub_pos, lt_div_iff₀ hr]; linarith
      rw [e]
      obtain ⟨a1, a2, a3⟩ := floor_ceil_half ((s.w : ℚ) / r - s.h)
      have hp := half_floor_nonneg ((s.w : ℚ) / r - s.h) hpos.le
      refine ⟨⟨hp, le_rfl, by simp only; omega, le_rfl⟩, by simp, a1, by simp, fun h => absurd h2 (not_lt.mpr h), fun _ => ⟨by simp, ?_⟩⟩
      push_cast
      rw [abs_lt]; constructor <;> linarith
    · rename_i h1 h2
      refine ⟨_, rfl, ⟨le_rfl, le_rfl, le_rfl, le_rfl⟩, by simp, by simp, by simp, ?_⟩
      have e : (s.w : ℚ) = r * s.h := by linarith
      constructor
      · intro _; simp [e]
      · intro _; simp [e, hr.ne']

/-- C50: an empty axis counts as one pixel, which is added at the bottom or on the right. -/
theorem paddings_ratio_empty (s : Shape) (r : ℚ) (hr : 0 < r) :
    ∃ p q, paddingsRatio s r = some p ∧ paddingsRatio ⟨max s.h 1, max s.w 1⟩ r = some q ∧
      p.top = q.top ∧ p.left = q.left ∧ s.h + p.bottom = (max s.h 1 : Nat) + q.bottom ∧
      s.w + p.right = (max s.w 1 : Nat) + q.right := by
  have h1 : (if s.h = 0 then ((1, 1) : Nat × Int) else (s.h, 0)) = (max s.h 1, if s.h = 0 then 1 else 0) := by
    split
    · rename_i h; simp [h]
    · rename_i h; rw [max_eq_left (by omega)]
  have h2 : (if s.w = 0 then ((1, 1) : Nat × Int) else (s.w, 0)) = (max s.w 1, if s.w = 0 then 1 else 0) := by
    split
    · rename_i h; simp [h]
    · rename_i h; rw [max_eq_left (by omega)]
  have e3 : max s.h 1 ≠ 0 := by have := le_max_right s.h 1; omega
  have e4 : max s.w 1 ≠ 0 := by have := le_max_right s.w 1; omega
  have e5 : (s.h : Int) + (if s.h = 0 then 1 else 0) = (max s.h 1 : Nat) := by split <;> omega
  have e6 : (s.w : Int) + (if s.w = 0 then 1 else 0) = (max s.w 1 : Nat) := by split <;> omega
  simp only [paddingsRatio, hr, if_true, h1, h2, e3, e4, if_false, zero_add]
  split
  · exact ⟨_, _, rfl, rfl, rfl, rfl, by simpa using e5, by simp only; omega⟩
  · split
    · exact ⟨_, _, rfl, rfl, rfl, rfl, by simp only; omega, by simpa using e6⟩
    · exact ⟨_, _, rfl, rfl, rfl, rfl, by simpa using e5, by simpa using e6⟩

/-- C50: cropping to an aspect ratio crops a non-empty image along one axis at most, as evenly as possible, never below one pixel;
the cropped axis misses the size demanded by the ratio (at least one) by less than a pixel. -/
theorem croppings_ratio (s : Shape) (r : ℚ) (hr : 0 < r) (hh : 1 ≤ s.h) (hw : 1 ≤ s.w) :
    ∃ c, croppingsRatio s r = some c ∧ NonNeg c ∧ ((c.top = 0 ∧ c.bottom = 0) ∨ (c.left = 0 ∧ c.right = 0)) ∧
      (c.bottom = c.top ∨ c.bottom = c.top + 1) ∧ (c.right = c.left ∨ c.right = c.left + 1) ∧
      1 ≤ s.h - c.top - c.bottom ∧ 1 ≤ s.w - c.left - c.right ∧
      ((s.w : ℚ) ≤ r * s.h → c.left + c.right = 0 ∧ |(s.h - c.top - c.bottom : Int) - max ((s.w : ℚ) / r) 1| < 1) ∧
      (r * s.h ≤ (s.w : ℚ) → c.top + c.bottom = 0 ∧ |(s.w - c.left - c.right : Int) - max (r * s.h) 1| < 1) := by
  have hh' : (1 : ℚ) ≤ s.h := by exact_mod_cast hh
  have hw' : (1 : ℚ) ≤ s.w := by exact_mod_cast hw
  have hh0 : (0 : ℚ) < s.h := by linarith
  simp only [croppingsRatio, hr, show 0 < s.h by omega, and_self, if_true, div_lt_iff₀ hh0, gt_iff_lt, lt_div_iff₀ hh0]
  split
  · rename_i h1
    refine ⟨_, rfl, ?_⟩
    have hlt : (s.w : ℚ) / r < s.h := by rw [div_lt_iff₀ hr]; linarith
    generalize hd : min ((s.h : ℚ) - s.w / r) (s.h - 1) = d
    have hd' : d = s.h - max ((s.w : ℚ) / r) 1 := by rw [← hd, min_sub_sub_left]
    have hd0 : 0 ≤ d := by rw [← hd]; apply le_min <;> linarith
    obtain ⟨a1, a2, a3⟩ := floor_ceil_half d
    have hp := half_floor_nonneg d hd0
    have hle : ((⌊d / 2⌋ + ⌈d / 2⌉ : Int) : ℚ) < s.h := by
      have : d ≤ s.h - 1 := by rw [← hd]; exact min_le_right _ _
      push_cast; linarith
    have hle' : ⌊d / 2⌋ + ⌈d / 2⌉ < (s.h : Int) := by exact_mod_cast hle
    refine ⟨⟨hp, le_rfl, by simp only; omega, le_rfl⟩, by simp, a1, by simp, by simp only; omega, by simp only; omega, fun _ => ⟨by simp, ?_⟩,
      fun h => absurd h1 (not_lt.mpr h)⟩
    push_cast
    rw [abs_lt]; constructor <;> linarith
  · split
    · rename_i h1 h2
      refine ⟨_, rfl, ?_⟩
      generalize hd : min ((s.w : ℚ) - s.h * r) (s.w - 1) = d
      have hd' : d = s.w - max (r * s.h) 1 := by rw [← hd, min_sub_sub_left, mul_comm]
      have hd0 : 0 ≤ d := by rw [← hd]; apply le_min <;> linarith
      obtain ⟨a1, a2, a3⟩ := floor_ceil_half d
      have hp := half_floor_nonneg d hd0
      have hle : ((⌊d / 2⌋ + ⌈d / 2⌉ : Int) : ℚ) < s.w := by
        have : d ≤ s.w - 1 := by rw [← hd]; exact min_le_right _ _
        push_cast; linarith
      have hle' : ⌊d / 2⌋ + ⌈d / 2⌉ < (s.w : Int) := by exact_mod_cast hle
      refine ⟨⟨le_rfl, by simp only; omega, le_rfl, hp⟩, by simp, by simp, a1, by simp only; omega, by simp only; omega, fun h => absurd h2 (not_lt.mpr h),
        fun _ => ⟨by simp, ?_⟩⟩
      push_cast
      rw [abs_lt]; constructor <;> linarith
    · rename_i h1 h2
      refine ⟨_, rfl, ⟨le_rfl, le_rfl, le_rfl, le_rfl⟩, by simp, by simp, by simp, by simpa using hh, by simpa using hw, ?_⟩
      have e : (s.w : ℚ) = r * s.h := by linarith
      have e2 : (s.w : ℚ) / r = s.h := by rw [e]; field_simp
      constructor
      · intro _; rw [e2, max_eq_left hh']; simp
      · intro _; rw [← e, max_eq_left hw']; simp

/-- C50: the documentation says that if the ratio cannot be reached exactly, rather one pixel too few is cropped than one too many.
Both happen: for the ratio 2, half a row of a 2x3 image is to be cropped, and one is; one and a half rows of a 4x5 image are to be
cropped, and one is. -/
theorem croppings_ratio_direction :
    croppingsRatio ⟨2, 3⟩ 2 = some ⟨0, 0, 1, 0⟩ ∧ croppingsRatio ⟨4, 5⟩ 2 = some ⟨0, 0, 1, 0⟩ := by
  decide +kernel

/-- C50: non-positive ratios are rejected, and so is cropping an image without rows. -/
theorem ratio_rejects (s : Shape) (r : ℚ) :
    (paddingsRatio s r = none ↔ r ≤ 0) ∧ (croppingsRatio s r = none ↔ r ≤ 0 ∨ s.h = 0) := by
  constructor
  · simp only [paddingsRatio]
    split
    · rename_i h
      simp only [not_le.mpr h, iff_false]
      split_ifs <;> simp
    · rename_i h; simp [not_lt.mp h]
  · simp only [croppingsRatio]
    split
    · rename_i h
      have : ¬ (r ≤ 0 ∨ s.h = 0) := by
        rintro (h1 | h1)
        · exact absurd h.1 (not_lt.mpr h1)
        · omega
      simp only [this, iff_false]
      split_ifs <;> simp
    · rename_i h
      simp only [true_iff]
      by_contra hc
      push Not at hc
      exact h ⟨hc.1, by omega⟩

example : paddingsRatio ⟨20, 30⟩ 2 = some ⟨0, 5, 0, 5⟩ ∧ paddingsRatio ⟨0, 3⟩ 1 = some ⟨1, 0, 2, 0⟩ ∧
    croppingsRatio ⟨20, 30⟩ 1 = some ⟨0, 5, 0, 5⟩ ∧ croppingsRatio ⟨20, 1⟩ 100 = some ⟨9, 0, 10, 0⟩ := by decide +kernel

end Imgaug.Size
