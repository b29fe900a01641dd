import Verif.Spec.Size2
import Verif.Proofs.Size
import Mathlib.Analysis.SpecialFunctions.Log.Basic
/-! Helpers for Props/Size2.lean. -/
namespace Imgaug.Size
open Imgaug

theorem halves_sum (n : Int) : (halves n).1 + (halves n).2 = n := by simp only [halves]; omega

theorem halves_nonneg (n : Int) (h : 0 ≤ n) : 0 ≤ (halves n).1 ∧ 0 ≤ (halves n).2 ∧
    ((halves n).2 = (halves n).1 ∨ (halves n).2 = (halves n).1 + 1) := by simp only [halves]; omega

theorem padsTo_halves (S : Set Int) (size : Nat) (n : Int) (h0 : 0 ≤ n) (hS : (size : Int) + n ∈ S)
    (hmin : ∀ k ∈ S, (size : Int) ≤ k → size + n ≤ k) : PadsTo S size (halves n).1 (halves n).2 := by
  obtain ⟨h1, h2, h3⟩ := halves_nonneg n h0
  refine ⟨h1, h2, h3, ?_⟩
  rw [add_assoc, halves_sum]
  exact ⟨⟨hS, by omega⟩, fun k hk => hmin k hk.1 hk.2⟩

theorem cropsTo_halves (S : Set Int) (size : Nat) (n : Int) (h0 : 0 ≤ n) (hS : (size : Int) - n ∈ S)
    (hmax : ∀ k ∈ S, k ≤ (size : Int) → k ≤ size - n) : CropsTo S size (halves n).1 (halves n).2 := by
  obtain ⟨h1, h2, h3⟩ := halves_nonneg n h0
  refine ⟨h1, h2, h3, ?_⟩
  rw [sub_sub, halves_sum]
  exact ⟨⟨hS, by omega⟩, fun k hk => hmax k hk.1 hk.2⟩

theorem padsTo_univ (size : Nat) : PadsTo Set.univ size 0 0 := by
  have := padsTo_halves Set.univ size 0 le_rfl trivial (fun k _ h => by omega)
  simpa [halves] using this

theorem cropsTo_univ (size : Nat) : CropsTo Set.univ size 0 0 := by
  have := cropsTo_halves Set.univ size 0 le_rfl trivial (fun k _ h => by omega)
  simpa [halves] using this

theorem padToMultiple_spec (size : Nat) (m : Option Nat) (hm : m ≠ some 0) :
    PadsTo (sizesOf posMultiples m) size (padToMultiple size m).1 (padToMultiple size m).2 := by
  cases m with
  | none => exact padsTo_univ size
  | some m =>
    have hm0 : 0 < m := by rcases Nat.eq_zero_or_pos m with h | h; · simp [h] at hm
                           · exact h
    simp only [sizesOf, padToMultiple]
    split
    · subst_vars
      apply padsTo_halves
      · omega
      · exact ⟨by simp; omega, by simp⟩
      · rintro k ⟨hk, hd⟩ _
        simpa using Int.le_of_dvd hk hd
    · rename_i h0
      have hdm := Nat.div_add_mod size m
      split
      · rename_i h1
        apply padsTo_halves
        · omega
        · refine ⟨by omega, ?_⟩
          rw [add_zero]; exact_mod_cast Nat.dvd_of_mod_eq_zero h1
        · rintro k _ hk; omega
      · rename_i h1
        have hlt := Nat.mod_lt size hm0
        have hzi : (m : Int) * (size / m : Nat) + (size % m : Nat) = size := by exact_mod_cast hdm
        apply padsTo_halves
        · omega
        · refine ⟨by omega, ⟨(size / m : Nat) + 1, ?_⟩⟩
          rw [mul_add, mul_one]; omega
        · rintro k ⟨_, ⟨q, rfl⟩⟩ hk
          have hq : ((size / m : Nat) : Int) < q := by
            by_contra hc
            have := mul_le_mul_of_nonneg_left (not_lt.mp hc) (by omega : (0 : Int) ≤ m)
            omega
          have := mul_le_mul_of_nonneg_left (Int.add_one_le_iff.mpr hq) (by omega : (0 : Int) ≤ m)
          rw [mul_add, mul_one] at this; omega

theorem cropToMultiple_spec (size : Nat) (m : Option Nat) (hm : m ≠ some 0) :
    CropsTo (sizesOf multiples m) size (cropToMultiple size m).1 (cropToMultiple size m).2 := by
  cases m with
  | none => exact cropsTo_univ size
  | some m =>
    have hm0 : 0 < m := by rcases Nat.eq_zero_or_pos m with h | h; · simp [h] at hm
                           · exact h
    simp only [sizesOf, cropToMultiple]
    have key : (if size = 0 then halves 0 else if size % m = 0 then halves 0 else halves (size % m : Nat)) =
        halves (size % m : Nat) := by
      split
      · subst_vars; simp
      · split
        · rename_i h; rw [h]; rfl
        · rfl
    rw [key]
    have hdm := Nat.div_add_mod size m
    have hlt := Nat.mod_lt size hm0
    have hzi : (m : Int) * (size / m : Nat) + (size % m : Nat) = size := by exact_mod_cast hdm
    apply cropsTo_halves
    · omega
    · exact ⟨(size / m : Nat), by omega⟩
    · rintro k ⟨q, rfl⟩ hk
      have hq : q < ((size / m : Nat) : Int) + 1 := by
        by_contra hc
        have := mul_le_mul_of_nonneg_left (not_lt.mp hc) (by omega : (0 : Int) ≤ m)
        rw [mul_add, mul_one] at this; omega
      have := mul_le_mul_of_nonneg_left (Int.lt_add_one_iff.mp hq) (by omega : (0 : Int) ≤ m)
      omega

/-! Logarithms. -/

theorem log_base_pos (b : Nat) (hb : 2 ≤ b) : 0 < Real.log b := Real.log_pos (by exact_mod_cast hb)

/-- Half of what an accurate quotient of logarithms tells: strictly below and above. -/
structure Separates (expo : Nat → Nat → ℝ) (n b : Nat) : Prop where
  below : ∀ e : Nat, b ^ e < n → (e : ℝ) < expo n b
  above : ∀ e : Nat, n < b ^ e → expo n b < e

theorem separates_of_smallError (expo : Nat → Nat → ℝ) (h : SmallError expo) (n b : Nat) (hn : 1 ≤ n) (hb : 2 ≤ b) :
    Separates expo n b := by
  have hl := log_base_pos b hb
  have hn' : (0 : ℝ) < n := by exact_mod_cast hn
  have he := abs_lt.mp (h n b hn hb)
  have hpos : (0 : ℝ) < (n + 1) * Real.log b := by positivity
  have hd : (n + 1 : ℝ) * Real.log b * (1 / ((n + 1) * Real.log b)) = 1 := by field_simp
  have hx : exactExpo n b * Real.log b = Real.log n := by simp only [exactExpo]; field_simp
  have hpow : ∀ e : Nat, Real.log ((b : ℝ) ^ e) = e * Real.log b := fun e => Real.log_pow _ _
  refine ⟨fun e hlt => ?_, fun e hlt => ?_⟩
  · have h1 : (b : ℝ) ^ e ≤ n - 1 := by
      have : b ^ e + 1 ≤ n := hlt
      have : ((b : ℝ) ^ e + 1) ≤ n := by exact_mod_cast this
      linarith
    have hbp : (0 : ℝ) < (b : ℝ) ^ e := by positivity
    have h2 : Real.log ((b : ℝ) ^ e / n) ≤ (b : ℝ) ^ e / n - 1 := Real.log_le_sub_one_of_pos (by positivity)
    rw [Real.log_div hbp.ne' hn'.ne', hpow] at h2
    have h3 : (b : ℝ) ^ e / n - 1 ≤ -(1 / n) := by
      have : (b : ℝ) ^ e / n ≤ (n - 1) / n := by gcongr
      have e2 : (n - 1 : ℝ) / n = 1 - 1 / n := by field_simp
      linarith
    have h4 : (1 : ℝ) / (n + 1) ≤ 1 / n := by
      apply one_div_le_one_div_of_le hn'; linarith
    have h5 : exactExpo n b - 1 / ((n + 1) * Real.log b) < expo n b := by linarith
    have h6 : (e : ℝ) * Real.log b < expo n b * Real.log b := by
      have := mul_lt_mul_of_pos_right h5 hl
      rw [sub_mul, hx] at this
      have e3 : (1 : ℝ) / ((n + 1) * Real.log b) * Real.log b = 1 / (n + 1) := by field_simp
      rw [e3] at this
      linarith
    exact lt_of_mul_lt_mul_right h6 hl.le
  · have h1 : (n : ℝ) + 1 ≤ (b : ℝ) ^ e := by exact_mod_cast hlt
    have hbp : (0 : ℝ) < (b : ℝ) ^ e := by positivity
    have h2 : Real.log (n / (b : ℝ) ^ e) ≤ n / (b : ℝ) ^ e - 1 := Real.log_le_sub_one_of_pos (by positivity)
    rw [Real.log_div hn'.ne' hbp.ne', hpow] at h2
    have h3 : (n : ℝ) / (b : ℝ) ^ e - 1 ≤ -(1 / (n + 1)) := by
      have : (n : ℝ) / (b : ℝ) ^ e ≤ n / (n + 1) := by gcongr
      have e2 : (n : ℝ) / (n + 1) = 1 - 1 / (n + 1) := by field_simp; ring
      linarith
    have h5 : expo n b < exactExpo n b + 1 / ((n + 1) * Real.log b) := by linarith
    have h6 : expo n b * Real.log b < (e : ℝ) * Real.log b := by
      have := mul_lt_mul_of_pos_right h5 hl
      rw [add_mul, hx] at this
      have e3 : (1 : ℝ) / ((n + 1) * Real.log b) * Real.log b = 1 / (n + 1) := by field_simp
      rw [e3] at this
      linarith
    exact lt_of_mul_lt_mul_right h6 hl.le

theorem smallError_exact : SmallError exactExpo := by
  intro n b hn hb
  have hl := log_base_pos b hb
  rw [sub_self, abs_zero]; positivity

theorem exactExpo_pow (b e : Nat) (hb : 2 ≤ b) : exactExpo (b ^ e) b = e := by
  have hl := log_base_pos b hb
  simp only [exactExpo, Nat.cast_pow, Real.log_pow]
  field_simp

/-- Padding: what the ceiling of a separating quotient gives. -/
theorem ceil_separates (expo : Nat → Nat → ℝ) (n b : Nat) (hb : 2 ≤ b) (hbn : b < n) (h : Separates expo n b) :
    ∃ e : Nat, b ^ e < n ∧ n ≤ b ^ (e + 1) ∧
      (⌈expo n b⌉.toNat = e + 1 ∨ (n = b ^ (e + 1) ∧ ⌈expo n b⌉.toNat = e + 2)) := by
  obtain ⟨e, h1, h2⟩ : ∃ e : Nat, b ^ e < n ∧ n ≤ b ^ (e + 1) := by
    refine ⟨Nat.clog b n - 1, ?_, ?_⟩
    · exact Nat.pow_pred_clog_lt_self (by omega) (by omega)
    · have : 0 < Nat.clog b n := Nat.clog_pos (by omega) (by omega)
      rw [Nat.sub_add_cancel this]
      exact Nat.le_pow_clog (by omega) n
  refine ⟨e, h1, h2, ?_⟩
  have b1 := h.below e h1
  have b2 := h.above (e + 2) (lt_of_le_of_lt h2 (Nat.pow_lt_pow_right (by omega) (by omega)))
  have c1 : (e : Int) < ⌈expo n b⌉ := by rw [Int.lt_ceil]; exact_mod_cast b1
  have c2 : ⌈expo n b⌉ ≤ (e + 2 : Nat) := by rw [Int.ceil_le]; exact_mod_cast b2.le
  rcases lt_or_eq_of_le h2 with hlt | heq
  · have b3 := h.above (e + 1) hlt
    have c3 : ⌈expo n b⌉ ≤ (e + 1 : Nat) := by rw [Int.ceil_le]; exact_mod_cast b3.le
    left; omega
  · by_cases hc : ⌈expo n b⌉ ≤ (e + 1 : Nat)
    · left; omega
    · right; exact ⟨heq, by omega⟩

theorem floor_separates (expo : Nat → Nat → ℝ) (n b : Nat) (hb : 2 ≤ b) (hbn : b ≤ n) (h : Separates expo n b) :
    ∃ e : Nat, 1 ≤ e ∧ b ^ e ≤ n ∧ n < b ^ (e + 1) ∧
      (⌊expo n b⌋.toNat = e ∨ (n = b ^ e ∧ ⌊expo n b⌋.toNat = e - 1)) := by
  have h1 : 1 ≤ Nat.log b n := Nat.log_pos (by omega) hbn
  have h2 : b ^ Nat.log b n ≤ n := Nat.pow_log_le_self b (by omega)
  have h3 : n < b ^ (Nat.log b n + 1) := Nat.lt_pow_succ_log_self (by omega) n
  generalize Nat.log b n = e at h1 h2 h3
  refine ⟨e, h1, h2, h3, ?_⟩
  have b2 := h.above (e + 1) h3
  have b1 := h.below (e - 1) (lt_of_lt_of_le (Nat.pow_lt_pow_right (by omega) (by omega)) h2)
  have c2 : ⌊expo n b⌋ < (e + 1 : Nat) := by rw [Int.floor_lt]; exact_mod_cast b2
  have c1 : ((e - 1 : Nat) : Int) ≤ ⌊expo n b⌋ := by rw [Int.le_floor]; exact_mod_cast b1.le
  rcases lt_or_eq_of_le h2 with hlt | heq
  · have b3 := h.below e hlt
    have c3 : (e : Int) ≤ ⌊expo n b⌋ := by rw [Int.le_floor]; exact_mod_cast b3.le
    left; omega
  · by_cases hc : (e : Int) ≤ ⌊expo n b⌋
    · left; omega
    · right; exact ⟨heq.symm, by omega⟩

theorem pow_lt_iff' (b e f : Nat) (hb : 2 ≤ b) (h : b ^ e < b ^ f) : e < f := (Nat.pow_lt_pow_iff_right (by omega)).mp h

theorem padToPower_spec (expo : Nat → Nat → ℝ) (allowZero : Bool) (n b : Nat) (hb : 2 ≤ b) (hn : 1 ≤ n) (h : Separates expo n b) :
    PadsTo (powers 1 b) n (padToPower expo allowZero n (some b)).1 (padToPower expo allowZero n (some b)).2 ∨
    (∃ _ : (n : Int) ∈ powers 1 b, padToPower expo allowZero n (some b) = halves ((n : Int) * b - n)) := by
  simp only [padToPower]
  rw [if_neg (by omega)]
  split
  · rename_i hle
    left
    apply padsTo_halves
    · omega
    · exact ⟨1, le_rfl, by simp⟩
    · rintro k ⟨e, he, rfl⟩ _
      have := Nat.pow_le_pow_right (show 0 < b by omega) he
      have : ((b ^ 1 : Nat) : Int) ≤ ((b ^ e : Nat) : Int) := by exact_mod_cast this
      push_cast at this; simpa using this
  · rename_i hlt
    obtain ⟨e, h1, h2, h3 | ⟨h3, h4⟩⟩ := ceil_separates expo n b hb (by omega) h
    · left
      rw [h3]
      have h2' : (n : Int) ≤ (b : Int) ^ (e + 1) := by exact_mod_cast h2
      apply padsTo_halves
      · omega
      · exact ⟨e + 1, by omega, by ring⟩
      · rintro k ⟨f, hf, rfl⟩ hk
        have hk' : n ≤ b ^ f := by exact_mod_cast hk
        have : e < f := pow_lt_iff' b e f hb (lt_of_lt_of_le h1 hk')
        have := Nat.pow_le_pow_right (show 0 < b by omega) this
        have : ((b ^ (e + 1) : Nat) : Int) ≤ ((b ^ f : Nat) : Int) := by exact_mod_cast this
        push_cast at this
        have e4 : (n : Int) + ((b : Int) ^ (e + 1) - n) = (b : Int) ^ (e + 1) := by ring
        rw [e4]; exact this
    · right
      refine ⟨⟨e + 1, by omega, by exact_mod_cast h3⟩, ?_⟩
      have h3' : (n : Int) = (b : Int) ^ (e + 1) := by exact_mod_cast h3
      rw [h4, h3']
      congr 1

theorem cropToPower_spec (expo : Nat → Nat → ℝ) (allowZero : Bool) (n b : Nat) (hb : 2 ≤ b) (hn : b ≤ n) (h : Separates expo n b) :
    CropsTo (powers 0 b) n (cropToPower expo allowZero n (some b)).1 (cropToPower expo allowZero n (some b)).2 ∨
    (∃ (m : Int) (_ : (n : Int) ∈ powers 1 b), cropToPower expo allowZero n (some b) = halves ((n : Int) - m) ∧
      m * b = n ∧ 0 ≤ (n : Int) - m) := by
  simp only [cropToPower]
  rw [if_neg (by omega), if_neg (by omega)]
  obtain ⟨e, he, h1, h2, h3 | ⟨h3, h4⟩⟩ := floor_separates expo n b hb hn h
  · left
    rw [h3]
    have h1' : (b : Int) ^ e ≤ n := by exact_mod_cast h1
    apply cropsTo_halves
    · omega
    · exact ⟨e, by omega, by ring⟩
    · rintro k ⟨f, hf, rfl⟩ hk
      have hk' : b ^ f ≤ n := by exact_mod_cast hk
      have : f < e + 1 := pow_lt_iff' b f (e + 1) hb (lt_of_le_of_lt hk' h2)
      have := Nat.pow_le_pow_right (show 0 < b by omega) (show f ≤ e by omega)
      have : ((b ^ f : Nat) : Int) ≤ ((b ^ e : Nat) : Int) := by exact_mod_cast this
      push_cast at this
      linarith
  · right
    have h3' : (n : Int) = (b : Int) ^ e := by exact_mod_cast h3
    have h5 : (b : Int) ^ (e - 1) * b = (b : Int) ^ e := by
      rw [← pow_succ, Nat.sub_add_cancel he]
    refine ⟨(b : Int) ^ (e - 1), ⟨e, by omega, h3'⟩, by rw [h4], by rw [h5, h3'], ?_⟩
    have := Nat.pow_le_pow_right (show 0 < b by omega) (show e - 1 ≤ e by omega)
    have : ((b ^ (e - 1) : Nat) : Int) ≤ ((b ^ e : Nat) : Int) := by exact_mod_cast this
    push_cast at this
    omega

theorem padToPower_exact (allowZero : Bool) (n : Nat) (b : Option Nat) (hn : 1 ≤ n) (hb : ∀ k, b = some k → 2 ≤ k) :
    PadsTo (sizesOf (powers 1) b) n (padToPower exactExpo allowZero n b).1 (padToPower exactExpo allowZero n b).2 := by
  cases b with
  | none => exact padsTo_univ n
  | some b =>
    have hb := hb b rfl
    simp only [sizesOf]
    rcases padToPower_spec exactExpo allowZero n b hb hn (separates_of_smallError _ smallError_exact n b hn hb) with h | ⟨⟨e, he, hp⟩, _⟩
    · exact h
    · have hp' : n = b ^ e := by exact_mod_cast hp
      have : padToPower exactExpo allowZero n (some b) = halves 0 := by
        simp only [padToPower]
        rw [if_neg (by omega)]
        split
        · rename_i hle
          have : b ^ 1 ≤ b ^ e := Nat.pow_le_pow_right (by omega) he
          rw [pow_one] at this
          have : n = b := by omega
          subst this; simp
        · rw [hp', exactExpo_pow b e hb]; simp
      rw [this]
      apply padsTo_halves _ _ _ le_rfl
      · exact ⟨e, he, by rw [add_zero]; exact hp⟩
      · intro k _ hk; omega

theorem cropToPower_exact (allowZero : Bool) (n : Nat) (b : Option Nat) (hb : ∀ k, b = some k → 2 ≤ k ∧ k ≤ n) :
    CropsTo (sizesOf (powers 0) b) n (cropToPower exactExpo allowZero n b).1 (cropToPower exactExpo allowZero n b).2 := by
  cases b with
  | none => exact cropsTo_univ n
  | some b =>
    obtain ⟨hb, hn⟩ := hb b rfl
    simp only [sizesOf]
    rcases cropToPower_spec exactExpo allowZero n b hb hn (separates_of_smallError _ smallError_exact n b (by omega) hb) with
      h | ⟨m, ⟨e, he, hp⟩, _⟩
    · exact h
    · have hp' : n = b ^ e := by exact_mod_cast hp
      have : cropToPower exactExpo allowZero n (some b) = halves 0 := by
        simp only [cropToPower]
        rw [if_neg (by omega), if_neg (by omega), hp', exactExpo_pow b e hb]; simp
      rw [this]
      apply cropsTo_halves _ _ _ le_rfl
      · exact ⟨e, by omega, by rw [sub_zero]; exact hp⟩
      · intro k _ hk; omega

theorem log_le_base (b : Nat) (hb : 1 ≤ b) : Real.log b ≤ b - 1 := Real.log_le_sub_one_of_pos (by exact_mod_cast hb)

theorem smallError_rounded : SmallError roundedExpo := by
  intro n b hn hb
  have hl := log_base_pos b hb
  simp only [roundedExpo]
  split
  · rename_i h
    obtain ⟨rfl, rfl⟩ := h
    have h1 : exactExpo 1000 10 = 3 := by
      have := exactExpo_pow 10 3 (by norm_num); norm_num at this; exact_mod_cast this
    have h2 := log_le_base 10 (by norm_num)
    rw [h1, lt_div_iff₀ (by positivity)]
    norm_num at h2 hl ⊢
    nlinarith
  · split
    · rename_i h
      obtain ⟨rfl, rfl⟩ := h
      have h1 : exactExpo 125 5 = 3 := by
        have := exactExpo_pow 5 3 (by norm_num); norm_num at this; exact_mod_cast this
      have h2 := log_le_base 5 (by norm_num)
      rw [h1, lt_div_iff₀ (by positivity)]
      norm_num at h2 hl ⊢
      nlinarith
    · rw [sub_self, abs_zero]; positivity

theorem floor_ceil_half (d : ℚ) : (⌈d / 2⌉ = ⌊d / 2⌋ ∨ ⌈d / 2⌉ = ⌊d / 2⌋ + 1) ∧
    d - 1 < (⌊d / 2⌋ : ℚ) + ⌈d / 2⌉ ∧ (⌊d / 2⌋ : ℚ) + ⌈d / 2⌉ < d + 1 := by
  have h1 := Int.floor_le (d / 2)
  have h2 := Int.lt_floor_add_one (d / 2)
  have h3 := Int.le_ceil (d / 2)
  have h4 := Int.ceil_lt_add_one (d / 2)
  refine ⟨?_, by linarith, by linarith⟩
  have a1 : ⌈d / 2⌉ < ⌊d / 2⌋ + 2 := by
    have : (⌈d / 2⌉ : ℚ) < ⌊d / 2⌋ + 2 := by linarith
    exact_mod_cast this
  have a2 := Int.floor_le_ceil (d / 2)
  omega

theorem half_floor_nonneg (d : ℚ) (h : 0 ≤ d) : 0 ≤ ⌊d / 2⌋ := Int.floor_nonneg.mpr (by linarith)

theorem pyInt_part (p : ℚ) (t : Int) (hp : 0 ≤ p ∧ p ≤ 1) (ht : 0 ≤ t) :
    0 ≤ pyInt (p * (t : ℚ)) ∧ pyInt (p * (t : ℚ)) ≤ t ∧ (p = 1 → pyInt (p * (t : ℚ)) = t) ∧ (p = 0 → pyInt (p * (t : ℚ)) = 0) ∧
      (p = 1 / 2 → pyInt (p * (t : ℚ)) = t / 2) := by
  have ht' : (0 : ℚ) ≤ t := by exact_mod_cast ht
  have h0 : 0 ≤ p * t := mul_nonneg hp.1 ht'
  rw [pyInt, if_neg (not_lt.mpr h0)]
  refine ⟨Int.floor_nonneg.mpr h0, ?_, ?_, ?_, ?_⟩
  · have : ⌊p * (t : ℚ)⌋ ≤ ⌊(t : ℚ)⌋ := Int.floor_mono (by nlinarith [hp.2])
    rwa [Int.floor_intCast] at this
  · rintro rfl; rw [one_mul, Int.floor_intCast]
  · rintro rfl; simp
  · rintro rfl
    rw [Int.floor_eq_iff]
    have e := Int.mul_ediv_add_emod t 2
    have e2 := Int.emod_two_eq_zero_or_one t
    have e' : (2 : ℚ) * ((t / 2 : Int) : ℚ) + ((t % 2 : Int) : ℚ) = t := by exact_mod_cast e
    rcases e2 with h | h <;> rw [h] at e' <;> push_cast at e' <;> constructor <;> linarith

theorem fixedCrop_axis (n : Nat) (m : Option Int) (p : ℚ) (hp : 0 ≤ p ∧ p ≤ 1) :
    let lr : Int × Int := match m with
      | some m => if (n : Int) > m then (pyInt (p * ((n : ℚ) - m)), n - m - pyInt (p * ((n : ℚ) - m))) else (0, 0)
      | none => (0, 0)
    0 ≤ lr.1 ∧ 0 ≤ lr.2 ∧ n - lr.1 - lr.2 = min (n : Int) (m.getD n) ∧ (p = 0 → lr.1 = 0) ∧ (p = 1 → lr.2 = 0) ∧
      (p = 1 / 2 → lr.2 = lr.1 ∨ lr.2 = lr.1 + 1) := by
  cases m with
  | none => simp
  | some m =>
    simp only [Option.getD_some]
    split
    · rename_i h
      have e : ((n : ℚ) - m) = (((n : Int) - m : Int) : ℚ) := by push_cast; ring
      rw [e]
      generalize ht : (n : Int) - m = t
      have ht0 : 0 < t := by omega
      obtain ⟨a1, a2, a3, a4, a5⟩ := pyInt_part p t hp ht0.le
      refine ⟨a1, by simp only; omega, by simp only; omega, a4, fun h => ?_, fun h => ?_⟩
      · simp only; have := a3 h; omega
      · simp only; have := a5 h; omega
    · rename_i h
      refine ⟨le_rfl, le_rfl, by simp only; omega, by simp, by simp, by simp⟩

theorem npRound_near (q : ℚ) : |(npRound q : ℚ) - q| ≤ 1 / 2 := by
  have h1 := Int.floor_le q
  have h2 := Int.lt_floor_add_one q
  simp only [npRound]
  split_ifs <;> push_cast <;> rw [abs_le] <;> constructor <;> linarith

theorem npRound_int (n : Int) : npRound (n : ℚ) = n := by simp [npRound]

theorem npRound_pos (q : ℚ) (h : 1 / 2 < q) : 1 ≤ npRound q := by
  have h0 := abs_le.mp (npRound_near q)
  have : (0 : ℚ) < npRound q := by linarith [h0.1]
  have : 0 < npRound q := by exact_mod_cast this
  omega

theorem npRound_small (q : ℚ) (h0 : 0 ≤ q) (h : q ≤ 1 / 2) : npRound q = 0 := by
  have hf : ⌊q⌋ = 0 := Int.floor_eq_zero_iff.mpr ⟨h0, by linarith⟩
  simp only [npRound, hf]
  split_ifs <;> first | rfl | (exfalso; simp at *; try linarith)

theorem resolveSize_spec (n : Nat) (a : SizeArg) (ha : Accepted a) (hna : a ≠ .keepAspectRatio) (hn : 1 ≤ n) :
    ∃ k, resolveSize n a = some (some k) ∧ 1 ≤ k ∧ Requested n a k := by
  cases a with
  | int k => exact ⟨k, rfl, ha, rfl⟩
  | keep => exact ⟨n, rfl, by omega, rfl⟩
  | keepAspectRatio => exact absurd rfl hna
  | float q =>
    have hq : 0 < q := ha
    have hn' : (0 : ℚ) < n := by exact_mod_cast hn
    refine ⟨_, by simp only [resolveSize, hq, if_true]; rfl, ?_, ?_, ?_⟩
    · split <;> omega
    · intro h
      rw [if_pos (by have := npRound_pos _ h; omega)]; exact npRound_near _
    · intro h
      rw [if_neg (by rw [npRound_small _ (by positivity) h]; omega)]

/-- One axis of `fixedPaddings`. -/
theorem fixedPad_axis (n : Nat) (m : Option Int) (p : ℚ) (hp : 0 ≤ p ∧ p ≤ 1) :
    let lr : Int × Int := match m with
      | some m => if (n : Int) < m then (pyInt ((1 - p) * ((m - n : Int) : ℚ)), (m - n) - pyInt ((1 - p) * ((m - n : Int) : ℚ))) else (0, 0)
      | none => (0, 0)
    0 ≤ lr.1 ∧ 0 ≤ lr.2 ∧ n + lr.1 + lr.2 = max (n : Int) (m.getD n) ∧ (p = 0 → lr.2 = 0) ∧ (p = 1 → lr.1 = 0) ∧
      (p = 1 / 2 → lr.2 = lr.1 ∨ lr.2 = lr.1 + 1) := by
  cases m with
  | none => simp
  | some m =>
    simp only [Option.getD_some]
    split
    · rename_i h
      generalize ht : m - (n : Int) = t
      have ht0 : 0 < t := by omega
      obtain ⟨a1, a2, a3, a4, a5⟩ := pyInt_part (1 - p) t ⟨by linarith [hp.2], by linarith [hp.1]⟩ ht0.le
      refine ⟨a1, by simp only; omega, by simp only; omega, fun h => ?_, fun h => ?_, fun h => ?_⟩
      · simp only; have := a3 (by linarith); omega
      · exact a4 (by linarith)
      · simp only; have := a5 (by linarith); omega
    · rename_i h
      refine ⟨le_rfl, le_rfl, by simp only; omega, by simp, by simp, by simp⟩

end Imgaug.Size
