import Verif.Proofs.Quantize
import Verif.Props.Lut
/-! Uniform quantisation of images. -/
namespace Imgaug.Quantize
open Imgaug Imgaug.Props
open Imgaug.Lut (SameShape)

/-- C79: `bin` is the documented `floor(v/q)` with `q = 256/nb`. -/
theorem bin_is_floor (nb v : Nat) (h : 1 ≤ nb) : (bin nb v : Int) = ⌊(v : ℚ) / (256 / nb)⌋ := by
  have hn : (0 : ℚ) < nb := by exact_mod_cast h
  symm
  rw [Int.floor_eq_iff, bin]
  have e : (v : ℚ) / (256 / nb) = v * nb / 256 := by field_simp
  rw [e, le_div_iff₀ (by norm_num), div_lt_iff₀ (by norm_num)]
  have d1 : v * nb / 256 * 256 ≤ v * nb := Nat.div_mul_le_self _ _
  have d2 : v * nb < (v * nb / 256 + 1) * 256 := by omega
  exact ⟨by exact_mod_cast d1, by exact_mod_cast d2⟩

/-- C79: every component of a uint8 image is replaced by the entry of the table for its value. -/
theorem quantize_px (im : Lut.Img) (hu : im.uint8 = true) (nb : Nat) (h1 : 2 ≤ nb) (h2 : nb ≤ 255) (centre : Bool) :
    ∃ r, quantizeUniform im nb centre = some r ∧ SameShape r im ∧ r.uint8 = true ∧
      ∀ y x k, Inside im y x k → r.px y x k = row centre nb (im.px y x k) := by
  by_cases he : im.empty = true
  · refine ⟨im, by simp only [quantizeUniform, he, or_true, if_true], ⟨rfl, rfl, rfl, rfl⟩, hu, ?_⟩
    intro y x k ⟨hy, hx, hk⟩
    simp only [Lut.Img.empty, Bool.or_eq_true, beq_iff_eq, Bool.and_eq_true, Bool.not_eq_true'] at he
    rcases he with (h | h) | h
    · omega
    · omega
    · simp [Lut.Img.channels, h] at hk
  · have hne : ¬ ((nb : Int) = 256 ∨ im.empty = true) := by
      rintro (h | h)
      · omega
      · exact he h
    obtain ⟨r, a, b, c, d⟩ := Lut.lut_pixel im (.one 256 (row centre nb)) hu rfl
    refine ⟨r, ?_, b, c, fun y x k h => d y x k h.1 h.2.1 h.2.2⟩
    rw [quantizeUniform, if_neg hne, if_neg (by simp [hu]), if_pos (by omega)]
    simpa using a

/-- C79 (partial): `quantize_uniform` puts every component to the integer nearest to `floor(v/q)*q + q/2` (or `floor(v/q)*q`) with `q = 256/N`,
unless the component lies exactly on the border of two bins. -/
theorem quantize_documented_partial (im : Lut.Img) (hu : im.uint8 = true) (hb : Bytes im) (nb : Nat) (h1 : 2 ≤ nb) (h2 : nb ≤ 254)
    (centre : Bool) :
    ∃ r, quantizeUniform im nb centre = some r ∧ SameShape r im ∧ r.uint8 = true ∧ ∀ y x k, Inside im y x k →
      (¬ 256 ∣ im.px y x k * nb ∨ im.px y x k = 0 ∨ ∃ b, nb = 2 ^ b) →
      |(r.px y x k : ℚ) - binValue centre nb (bin nb (im.px y x k))| < 1 / 2 := by
  obtain ⟨r, a, b, c, d⟩ := quantize_px im hu nb h1 (by omega) centre
  refine ⟨r, a, b, c, ?_⟩
  intro y x k hin hc
  rw [d y x k hin]
  have hv := hb y x k
  generalize im.px y x k = v at hc hv ⊢
  obtain ⟨j, hj, hr, hf⟩ := row_bin (nb := nb) (by omega) h2 (v := v) (by omega) centre
  have hjb : j = bin nb v := by
    rcases hj with hj | ⟨hd, hj⟩
    · exact hj
    rcases hc with hc | rfl | ⟨e, rfl⟩
    · exact absurd hd hc
    · simp [bin] at hj
    · have he : e ≤ 7 := by
        by_contra hc
        have : 2 ^ 8 ≤ 2 ^ e := Nat.pow_le_pow_right (by norm_num) (by omega)
        omega
      have := (floor_pow he (v := v) (by omega)).2
      rw [hf] at this
      have hz : j = v / 2 ^ (8 - e) := by exact_mod_cast this
      rw [hz, bin, show 256 = 2 ^ (8 - e) * 2 ^ e by rw [← pow_add, show 8 - e + e = 8 by omega]; norm_num]
      exact (Nat.mul_div_mul_right v _ (by positivity)).symm
  rw [← hjb]; exact hr

/-- A small image with all kinds of values. -/
def ramp : Lut.Img := ⟨true, false, 4, 64, 3, fun y x _ => (y * 64 + x) % 256⟩

example : ramp.uint8 = true ∧ Bytes ramp ∧ Inside ramp 1 36 0 ∧ ¬ 256 ∣ ramp.px 1 36 0 * 6 ∧ bin 6 (ramp.px 1 36 0) = 2 :=
  ⟨rfl, fun _ _ _ => Nat.mod_lt _ (by norm_num), by simp [Inside, ramp, Lut.Img.channels], by decide, by decide⟩

/-- C79 is false for components on the border of two bins: with 14 bins, 128 is exactly the lower end of bin 7, but goes to bin 6 (110 instead
of 128), by rounding errors of float32. -/
theorem border_of_bins (im : Lut.Img) (hu : im.uint8 = true) (y x k : Nat) (hi : Inside im y x k) (hv : im.px y x k = 128) :
    bin 14 128 = 7 ∧ binValue false 14 7 = 128 ∧ ∃ r, quantizeUniform im 14 false = some r ∧ r.px y x k = 110 := by
  refine ⟨by decide, by norm_num [binValue], ?_⟩
  obtain ⟨r, a, _, _, d⟩ := quantize_px im hu 14 (by norm_num) (by norm_num) false
  refine ⟨r, a, ?_⟩
  rw [d y x k hi, hv]
  have b0 : binsize 14 = 5146971002709138 * 2 ^ (-48 : Int) := by
    have := flt_eq (p := 53) (x := 256 / 14) (e := 4) (m := 5146971002709138) (by norm_num) (by norm_num)
      (npRound_unique _ _ (by norm_num [abs_lt]))
    rw [binsize, f64]
    push_cast at this ⊢
    rw [this]
  have b1 : f32 (binsize 14) = 9586981 / 524288 := by
    rw [b0]
    have := flt_eq (p := 24) (x := 5146971002709138 * 2 ^ (-48 : Int)) (e := 4) (m := 9586981) (by norm_num) (by norm_num)
      (npRound_unique _ _ (by norm_num [abs_lt]))
    rw [f32, this]; norm_num
  have b2 : f32 ((128 : Nat) / f32 (binsize 14)) = 14680063 / 2097152 := by
    rw [b1]
    have := flt_eq (p := 24) (x := 128 / (9586981 / 524288)) (e := 2) (m := 14680063) (by norm_num) (by norm_num)
      (npRound_unique _ _ (by norm_num [abs_lt]))
    rw [f32]; push_cast; rw [this]; norm_num
  obtain ⟨j, _, hr, hf⟩ := row_bin (nb := 14) (by norm_num) (by norm_num) (v := 128) (by norm_num) false
  rw [b2] at hf
  have hj : j = 6 := by
    have : ⌊(14680063 / 2097152 : ℚ)⌋ = 6 := by rw [Int.floor_eq_iff]; norm_num
    rw [this] at hf
    omega
  subst hj
  rw [binValue, abs_lt] at hr
  norm_num at hr
  have l1 : (109 : ℚ) < row false 14 128 := by linarith
  have l2 : (row false 14 128 : ℚ) < 111 := by linarith
  have l1' : 109 < row false 14 128 := by exact_mod_cast l1
  have l2' : row false 14 128 < 111 := by exact_mod_cast l2
  omega

example : Inside ramp 2 0 0 ∧ ramp.px 2 0 0 = 128 := by simp [Inside, ramp, Lut.Img.channels]

/-- C79: with up to 254 bins no component moves further than half a bin (quantisation to centres), or down by a bin (to lower ends), up to rounding. -/
theorem quantize_near (im : Lut.Img) (hu : im.uint8 = true) (hb : Bytes im) (nb : Nat) (h1 : 2 ≤ nb) (h2 : nb ≤ 254) (centre : Bool) :
    ∃ r, quantizeUniform im nb centre = some r ∧ ∀ y x k, Inside im y x k →
      (centre = true → |(r.px y x k : ℚ) - im.px y x k| < (256 / nb) / 2 + 1 / 2) ∧
      (centre = false → (r.px y x k : ℚ) < im.px y x k + 1 / 2 ∧ (im.px y x k : ℚ) < r.px y x k + 256 / nb + 1 / 2) := by
  obtain ⟨r, a, _, _, d⟩ := quantize_px im hu nb h1 (by omega) centre
  refine ⟨r, a, ?_⟩
  intro y x k hin
  rw [d y x k hin]
  have hv := hb y x k
  generalize im.px y x k = v at hv ⊢
  obtain ⟨j, hj, hr, _⟩ := row_bin (nb := nb) (by omega) h2 (v := v) (by omega) centre
  generalize row centre nb v = o at hr ⊢
  have hn : (0 : ℚ) < nb := by exact_mod_cast (by omega : 0 < nb)
  have hB : (256 : ℚ) / nb * nb = 256 := by field_simp
  have hBp : (0 : ℚ) < 256 / nb := by positivity
  -- the component lies in the (closed) bin
  have hlo : j * 256 ≤ v * nb ∧ v * nb ≤ (j + 1) * 256 := by
    rcases hj with rfl | ⟨hd, hj⟩
    · rw [bin]; omega
    · obtain ⟨c, hc⟩ := hd
      rw [bin, hc] at hj
      rw [hc]
      omega
  have q1 : (j : ℚ) * 256 ≤ v * nb := by exact_mod_cast hlo.1
  have q2 : (v : ℚ) * nb ≤ (j + 1) * 256 := by exact_mod_cast hlo.2
  rw [binValue, abs_lt] at hr
  generalize (256 : ℚ) / nb = B at hB hBp hr ⊢
  have c1 : (j : ℚ) * B ≤ v := by
    rw [← hB] at q1
    by_contra hc
    have := mul_lt_mul_of_pos_right (not_le.mp hc) hn
    linarith
  have c2 : (v : ℚ) ≤ (j + 1) * B := by
    rw [← hB] at q2
    by_contra hc
    have := mul_lt_mul_of_pos_right (not_le.mp hc) hn
    linarith
  constructor
  · rintro rfl
    simp only [if_true] at hr
    rw [abs_lt]; constructor <;> linarith
  · rintro rfl
    simp only [Bool.false_eq_true, if_false] at hr
    constructor <;> linarith

/-- C79: at most `nb_bins` different values come out, always the same ones for the same number of bins. -/
theorem quantize_colours (nb : Nat) (h1 : 2 ≤ nb) (h2 : nb ≤ 256) (centre : Bool) :
    ∃ values : List Nat, values.length ≤ nb ∧ ∀ im r, im.uint8 = true → Bytes im → quantizeUniform im nb centre = some r →
      ∀ y x k, Inside im y x k → r.px y x k ∈ values := by
  by_cases h256 : nb = 256
  · subst h256
    refine ⟨List.range 256, by simp, ?_⟩
    intro im r _ hb hr y x k _
    rw [quantizeUniform, if_pos (.inl rfl)] at hr
    cases hr
    exact List.mem_range.mpr (hb y x k)
  by_cases h255 : nb = 255
  · subst h255
    refine ⟨[0], by simp, ?_⟩
    intro im r hu _ hr y x k hin
    obtain ⟨r', a, _, _, d⟩ := quantize_px im hu 255 (by norm_num) (by norm_num) centre
    rw [a] at hr
    cases hr
    rw [d y x k hin]
    simp [row]
  · refine ⟨(List.range nb).map (fun j => (npRound (binValue centre nb j)).toNat), by simp, ?_⟩
    intro im r hu hb hr y x k hin
    obtain ⟨r', a, _, _, d⟩ := quantize_px im hu nb h1 (by omega) centre
    rw [a] at hr
    cases hr
    rw [d y x k hin]
    have hv := hb y x k
    generalize im.px y x k = v at hv ⊢
    obtain ⟨j, hj, hr, _⟩ := row_bin (nb := nb) (by omega) (by omega) (v := v) (by omega) centre
    have hl := bin_lt (nb := nb) (by omega) (v := v) (by omega)
    refine List.mem_map.mpr ⟨j, List.mem_range.mpr (by rcases hj with h | ⟨_, h⟩ <;> omega), ?_⟩
    have := npRound_unique (binValue centre nb j) (row centre nb v : Int) (by exact_mod_cast hr)
    rw [this]; simp

/-- C79: brighter components stay at least as bright. -/
theorem quantize_monotone (im : Lut.Img) (hu : im.uint8 = true) (nb : Nat) (h1 : 2 ≤ nb) (h2 : nb ≤ 256) (centre : Bool) :
    ∃ r, quantizeUniform im nb centre = some r ∧ SameShape r im ∧ ∀ y x k y' x' k', Inside im y x k → Inside im y' x' k' →
      im.px y x k ≤ im.px y' x' k' → r.px y x k ≤ r.px y' x' k' := by
  by_cases h256 : nb = 256
  · subst h256
    exact ⟨im, by rw [quantizeUniform, if_pos (.inl rfl)], ⟨rfl, rfl, rfl, rfl⟩, fun _ _ _ _ _ _ _ _ h => h⟩
  obtain ⟨r, a, b, _, d⟩ := quantize_px im hu nb h1 (by omega) centre
  refine ⟨r, a, b, ?_⟩
  intro y x k y' x' k' hi hi' h
  rw [d y x k hi, d y' x' k' hi']
  exact row_mono h

/-- C79: 256 bins change nothing. -/
theorem quantize_256 (im : Lut.Img) (centre : Bool) : quantizeUniform im 256 centre = some im := by
  rw [quantizeUniform, if_pos (.inl rfl)]

/-- C79 is false for 255 bins: every image becomes black, as the table for 255 bins is never filled. -/
theorem quantize_255_black (im : Lut.Img) (hu : im.uint8 = true) (centre : Bool) :
    ∃ r, quantizeUniform im 255 centre = some r ∧ ∀ y x k, Inside im y x k → r.px y x k = 0 := by
  obtain ⟨r, a, _, _, d⟩ := quantize_px im hu 255 (by norm_num) (by norm_num) centre
  exact ⟨r, a, fun y x k hi => by rw [d y x k hi]; simp [row]⟩

example : ∃ r, quantizeUniform ramp 255 true = some r ∧ r.px 3 63 0 = 0 ∧ ramp.px 3 63 0 = 255 := by
  obtain ⟨r, a, b⟩ := quantize_255_black ramp rfl true
  exact ⟨r, a, b 3 63 0 (by simp [Inside, ramp, Lut.Img.channels]), by decide⟩

/-- C79: nonempty images are accepted exactly if they are uint8 and the number of bins is from 2 to 256; 256 bins and empty images pass always. -/
theorem quantize_accepts (im : Lut.Img) (nb : Int) (centre : Bool) :
    (quantizeUniform im nb centre).isSome = true ↔ nb = 256 ∨ im.empty = true ∨ (im.uint8 = true ∧ 2 ≤ nb ∧ nb ≤ 256) := by
  by_cases h : nb = 256 ∨ im.empty = true
  · simp only [quantizeUniform, if_pos h, Option.isSome_some, true_iff]
    tauto
  rw [quantizeUniform, if_neg h]
  cases hu : im.uint8
  · simp only [if_true, Option.isSome_none, Bool.false_eq_true, false_and, or_false, false_iff]
    exact h
  · rw [if_neg (by simp)]
    split
    · rename_i hb
      have he : im.empty = false := by
        cases h' : im.empty
        · rfl
        · exact absurd (.inr h') h
      rw [(Lut.lut_accepts im _).2 he]
      exact ⟨fun _ => .inr (.inr ⟨rfl, hb⟩), fun _ => ⟨hu, rfl⟩⟩
    · rename_i hb
      simp only [Option.isSome_none, Bool.false_eq_true, false_iff]
      tauto

/-- C79: quantising to the centres of bins twice is the same as once. -/
theorem centres_idempotent (im : Lut.Img) (hu : im.uint8 = true) (hb : Bytes im) (nb : Nat) (h1 : 2 ≤ nb) (h2 : nb ≤ 256) :
    ∃ r s, quantizeUniform im nb true = some r ∧ quantizeUniform r nb true = some s ∧ SameShape s r ∧
      ∀ y x k, Inside im y x k → s.px y x k = r.px y x k := by
  by_cases h256 : nb = 256
  · subst h256
    exact ⟨im, im, quantize_256 _ _, quantize_256 _ _, ⟨rfl, rfl, rfl, rfl⟩, fun _ _ _ _ => rfl⟩
  obtain ⟨r, a, b, c, d⟩ := quantize_px im hu nb h1 (by omega) true
  obtain ⟨s, a', b', _, d'⟩ := quantize_px r c nb h1 (by omega) true
  refine ⟨r, s, a, a', b', ?_⟩
  intro y x k hi
  have hi' : Inside r y x k := by
    obtain ⟨b1, b2, b3, b4⟩ := b
    obtain ⟨i1, i2, i3⟩ := hi
    refine ⟨by omega, by omega, ?_⟩
    simp only [Lut.Img.channels, b1, b4] at i3 ⊢
    exact i3
  rw [d' y x k hi', d y x k hi]
  have hv := hb y x k
  generalize im.px y x k = v at hv ⊢
  by_cases h255 : nb = 255
  · subst h255; simp [row]
  obtain ⟨j, hj, hr, _⟩ := row_bin (nb := nb) (by omega) (by omega) (v := v) (by omega) true
  have hjl : j < nb := by
    have hl := bin_lt (nb := nb) (by omega) (v := v) (by omega)
    rcases hj with h | ⟨_, h⟩ <;> omega
  generalize row true nb v = o at hr ⊢
  have hn : (0 : ℚ) < nb := by exact_mod_cast (by omega : 0 < nb)
  have hn2 : (nb : ℚ) ≤ 254 := by exact_mod_cast (by omega : nb ≤ 254)
  -- `o` lies strictly inside of bin `j`
  have hr' := hr
  rw [binValue, abs_lt] at hr
  simp only [if_true] at hr
  have hB : (256 : ℚ) / nb * nb = 256 := by field_simp
  have u1 : (j * 256 : ℚ) < o * nb := by
    have := mul_lt_mul_of_pos_right hr.1 hn
    have e : ((o : ℚ) - (j * (256 / nb) + 256 / nb / 2)) * nb = o * nb - (j * 256 + 128) := by field_simp; ring
    rw [e] at this
    linarith
  have u2 : (o * nb : ℚ) < (j + 1) * 256 := by
    have := mul_lt_mul_of_pos_right hr.2 hn
    have e : ((o : ℚ) - (j * (256 / nb) + 256 / nb / 2)) * nb = o * nb - (j * 256 + 128) := by field_simp; ring
    rw [e] at this
    linarith
  have u1' : j * 256 < o * nb := by exact_mod_cast u1
  have u2' : o * nb < (j + 1) * 256 := by exact_mod_cast u2
  have hbin : bin nb o = j := by rw [bin]; omega
  have ho : o ≤ 255 := by
    by_contra hc
    have : 256 * nb ≤ o * nb := Nat.mul_le_mul_right nb (by omega)
    have : (j + 1) * 256 ≤ nb * 256 := Nat.mul_le_mul_right 256 (by omega)
    omega
  obtain ⟨j', hj', hr'', _⟩ := row_bin (nb := nb) (by omega) (by omega) (v := o) ho true
  have : j' = j := by
    rcases hj' with h | ⟨h, h'⟩
    · omega
    · omega
  subst this
  rw [abs_lt] at hr' hr''
  have x1 : (row true nb o : ℚ) < o + 1 := by linarith
  have x2 : (o : ℚ) < row true nb o + 1 := by linarith
  have x1' : row true nb o < o + 1 := by exact_mod_cast x1
  have x2' : o < row true nb o + 1 := by exact_mod_cast x2
  omega

example : ramp.uint8 = true ∧ Bytes ramp ∧ (2 ≤ 7 ∧ 7 ≤ 256) := ⟨rfl, fun _ _ _ => Nat.mod_lt _ (by norm_num), by norm_num⟩

/-- C79: quantising to the lower ends of bins is not idempotent: with three bins 100 becomes 85 and 85 becomes 0. -/
theorem lower_ends_not_idempotent (im : Lut.Img) (hu : im.uint8 = true) (y x k : Nat) (hi : Inside im y x k) (hv : im.px y x k = 100) :
    ∃ r s, quantizeUniform im 3 false = some r ∧ quantizeUniform r 3 false = some s ∧ r.px y x k = 85 ∧ s.px y x k = 0 := by
  obtain ⟨r, a, b, c, d⟩ := quantize_px im hu 3 (by norm_num) (by norm_num) false
  obtain ⟨s, a', b', _, d'⟩ := quantize_px r c 3 (by norm_num) (by norm_num) false
  have hi' : Inside r y x k := by
    obtain ⟨b1, b2, b3, b4⟩ := b
    obtain ⟨i1, i2, i3⟩ := hi
    refine ⟨by omega, by omega, ?_⟩
    simp only [Lut.Img.channels, b1, b4] at i3 ⊢
    exact i3
  have e1 : row false 3 100 = 85 := by
    obtain ⟨j, hj, hr, _⟩ := row_bin (nb := 3) (by norm_num) (by norm_num) (v := 100) (by norm_num) false
    have : j = 1 := by
      rcases hj with h | ⟨h, _⟩
      · simpa [bin] using h
      · omega
    subst this
    rw [binValue, abs_lt] at hr
    norm_num at hr
    have l1 : (84 : ℚ) < row false 3 100 := by linarith
    have l2 : (row false 3 100 : ℚ) < 86 := by linarith
    have l1' : 84 < row false 3 100 := by exact_mod_cast l1
    have l2' : row false 3 100 < 86 := by exact_mod_cast l2
    omega
  have e2 : row false 3 85 = 0 := by
    obtain ⟨j, hj, hr, _⟩ := row_bin (nb := 3) (by norm_num) (by norm_num) (v := 85) (by norm_num) false
    have : j = 0 := by
      rcases hj with h | ⟨h, _⟩
      · simpa [bin] using h
      · omega
    subst this
    rw [binValue, abs_lt] at hr
    norm_num at hr
    have l2 : (row false 3 85 : ℚ) < 1 := by linarith
    have l2' : row false 3 85 < 1 := by exact_mod_cast l2
    omega
  refine ⟨r, s, a, a', ?_, ?_⟩
  · rw [d y x k hi, hv, e1]
  · rw [d' y x k hi', d y x k hi, hv, e1, e2]

example : Inside ramp 1 36 0 ∧ ramp.px 1 36 0 = 100 := by simp [Inside, ramp, Lut.Img.channels]

/-- C79: `posterize` keeps the `nb_bits` highest bits of every component and sets all others to zero. -/
theorem posterize_bits (im : Lut.Img) (hu : im.uint8 = true) (hb : Bytes im) (bits : Nat) (h1 : 1 ≤ bits) (h2 : bits ≤ 8) :
    ∃ r, toNBits im bits = some r ∧ SameShape r im ∧ r.uint8 = true ∧
      ∀ y x k, Inside im y x k → ∀ i, (r.px y x k).testBit i = (decide (8 - bits ≤ i) && (im.px y x k).testBit i) := by
  by_cases h8 : bits = 8
  · subst h8
    exact ⟨im, by simp [toNBits, quantizeUniform], ⟨rfl, rfl, rfl, rfl⟩, hu, fun y x k _ i => by simp⟩
  have hp : 2 ^ bits ≤ 2 ^ 7 := Nat.pow_le_pow_right (by norm_num) (by omega)
  have hp2 : 2 ^ 1 ≤ 2 ^ bits := Nat.pow_le_pow_right (by norm_num) h1
  obtain ⟨r, a, b, c, d⟩ := quantize_px im hu (2 ^ bits) (by omega) (by omega) false
  refine ⟨r, ?_, b, c, ?_⟩
  · rw [toNBits, if_pos (by omega)]
    simpa using a
  · intro y x k hi i
    have := hb y x k
    rw [d y x k hi, row_pow (by omega) (by omega), Nat.mul_comm, Nat.testBit_two_pow_mul, Nat.testBit_div_two_pow]
    by_cases hge : 8 - bits ≤ i
    · simp only [ge_iff_le, hge, decide_true, Bool.true_and]
      congr 1
      omega
    · simp [hge]

example : ramp.uint8 = true ∧ Bytes ramp ∧ ramp.px 2 59 0 = 0b10111011 := ⟨rfl, fun _ _ _ => Nat.mod_lt _ (by norm_num), by decide⟩

/-- C79: the number of bits is from 1 to 8. -/
theorem posterize_accepts (im : Lut.Img) (bits : Int) :
    (toNBits im bits).isSome = true ↔ (1 ≤ bits ∧ bits ≤ 8) ∧ (bits = 8 ∨ im.empty = true ∨ im.uint8 = true) := by
  by_cases h : 1 ≤ bits ∧ bits ≤ 8
  · rw [toNBits, if_pos h, quantize_accepts]
    obtain ⟨n, rfl⟩ := Int.eq_ofNat_of_zero_le (by omega : 0 ≤ bits)
    have hn : n ≤ 8 := by omega
    have hn1 : 1 ≤ n := by omega
    have e : ((2 : Int) ^ (n : Int).toNat = 256) ↔ n = 8 := by
      simp only [Int.toNat_natCast]
      constructor
      · intro h
        have h : 2 ^ n = 2 ^ 8 := by exact_mod_cast h
        exact Nat.pow_right_injective (le_refl 2) h
      · rintro rfl; norm_num
    have l1 : (2 : Int) ≤ 2 ^ (n : Int).toNat := by
      simp only [Int.toNat_natCast]
      exact_mod_cast (show 2 ^ 1 ≤ 2 ^ n from Nat.pow_le_pow_right (by norm_num) hn1)
    have l2 : (2 : Int) ^ (n : Int).toNat ≤ 256 := by
      simp only [Int.toNat_natCast]
      exact_mod_cast (show 2 ^ n ≤ 2 ^ 8 from Nat.pow_le_pow_right (by norm_num) hn)
    rw [e]
    constructor
    · rintro (h' | h' | h')
      · exact ⟨h, .inl (by omega)⟩
      · exact ⟨h, .inr (.inl h')⟩
      · exact ⟨h, .inr (.inr h'.1)⟩
    · rintro ⟨_, h' | h' | h'⟩
      · exact .inl (by omega)
      · exact .inr (.inl h')
      · exact .inr (.inr ⟨h', l1, l2⟩)
  · simp only [toNBits, if_neg h, Option.isSome_none, Bool.false_eq_true, false_iff]
    tauto

/-- C79: `UniformColorQuantization` uses the drawn number of colours, at least 2; draws above 256 make it fail on every nonempty image. -/
theorem colours_drawn (im : Lut.Img) (he : im.empty = false) (drawn : ℚ) :
    (∀ n : Int, drawn = n → 2 ≤ n → count 2 none drawn = n) ∧ (drawn ≤ 2 → count 2 none drawn = 2) ∧
    (257 ≤ drawn → quantizeUniform im (count 2 none drawn) true = none) := by
  refine ⟨?_, ?_, ?_⟩
  · rintro n rfl h
    simp only [count, npRound_int]; omega
  · intro h
    have := npRound_le (n := 2) (by exact_mod_cast h : drawn ≤ ((2 : Int) : ℚ))
    simp only [count]; omega
  · intro h
    have := le_npRound (n := 257) (by exact_mod_cast h : ((257 : Int) : ℚ) ≤ drawn)
    have hc : 257 ≤ count 2 none drawn := by simp only [count]; omega
    cases hr : quantizeUniform im (count 2 none drawn) true with
    | none => rfl
    | some r =>
      have hs : (quantizeUniform im (count 2 none drawn) true).isSome = true := by rw [hr]; rfl
      rw [quantize_accepts] at hs
      rcases hs with h | h | h
      · omega
      · rw [he] at h; cases h
      · omega

example : ramp.empty = false ∧ count 2 none 300 = 300 := ⟨by decide, (colours_drawn ramp (by decide) 300).1 300 (by norm_num) (by norm_num)⟩

/-- C79: `UniformColorQuantizationToNBits` and `Posterize` never fail because of the drawn number of bits. -/
theorem bits_drawn (im : Lut.Img) (hu : im.uint8 = true) (drawn : ℚ) :
    (∀ n : Int, drawn = n → 1 ≤ n → n ≤ 8 → count 1 (some 8) drawn = n) ∧ (toNBits im (count 1 (some 8) drawn)).isSome = true := by
  constructor
  · rintro n rfl h1 h2
    simp only [count, npRound_int]; omega
  · rw [posterize_accepts]
    refine ⟨?_, .inr (.inr hu)⟩
    simp only [count]; omega

open Resize in
/-- C79: the quantisation augmenters return images of the original shape and dtype, whatever the intermediate size. -/
theorem quantization_shape (cv : Cv) (ip : Option Inter) (maxSize : Option Nat) (cs csInv quantize : Im → Option Im)
    (h1 : Keeps cs) (h2 : Keeps csInv) (h3 : Keeps quantize) (a r : Im)
    (hr : augmentSingle cv ip maxSize cs csInv quantize a = some r) : r.shape = a.shape ∧ r.dt = a.dt := by
  obtain ⟨hc, b, r0, hb, hq, hl⟩ := augment_steps cv ip maxSize cs csInv quantize a r hr
  obtain ⟨b1, b2, _⟩ := ensure_cases cv ip maxSize a b hb
  obtain ⟨k1, k2⟩ := quantized_keeps cs csInv quantize h1 h2 h3 b r0 hq
  by_cases hs : a.shape ≠ r0.shape
  · rw [if_pos hs] at hl
    obtain ⟨c1, c2, c3, c4⟩ := single_int cv ip _ _ r0 r hl
    refine ⟨?_, by rw [c1, k2, b2]⟩
    simp only [Im.shape, Prod.mk.injEq] at k1 ⊢
    exact ⟨by omega, by omega, by rw [c4, k1.2.2, b1]⟩
  · rw [if_neg hs] at hl
    cases hl
    exact ⟨(not_not.mp hs).symm, by rw [k2, b2]⟩

open Resize in
/-- C79: the quantisation augmenters keep the alpha channel of images that are not larger than `max_size` as it is and treat the colours
exactly as they would treat the image without alpha channel. -/
theorem quantization_alpha (cv : Cv) (ip : Option Inter) (maxSize : Option Nat) (cs csInv quantize : Im → Option Im)
    (h1 : Keeps cs) (h2 : Keeps csInv) (h3 : Keeps quantize) (a : Im) (hc : a.c = some 4) (hm : ∀ m, maxSize = some m → a.h ≤ m ∧ a.w ≤ m) :
    (augmentSingle cv ip maxSize cs csInv quantize a).isSome = (augmentSingle cv ip maxSize cs csInv quantize { a with c := some 3 }).isSome ∧
    ∀ r s, augmentSingle cv ip maxSize cs csInv quantize a = some r →
      augmentSingle cv ip maxSize cs csInv quantize { a with c := some 3 } = some s →
      ∀ y x, r.px y x 3 = a.px y x 3 ∧ ∀ k, k < 3 → r.px y x k = s.px y x k := by
  have e1 := small_steps cv ip maxSize cs csInv quantize a (by simp [hc]) hm
  have e2 := small_steps cv ip maxSize cs csInv quantize { a with c := some 3 } (by simp) hm
  rw [if_neg (by simp [hc])] at e1
  rw [if_neg (by simp)] at e2
  simp only [colourful, hc, if_true] at e1
  simp only [colourful, Option.some.injEq, show (3 : Nat) ≠ 4 by decide, if_false] at e2
  rw [e1, e2]
  simp only [colours]
  cases hq : ((cs { a with c := some 3 }).bind quantize).bind csInv with
  | none => simp
  | some q =>
    obtain ⟨q1, q2⟩ := chain_keeps cs csInv quantize h1 h2 h3 _ q hq
    simp only [Im.shape, Prod.mk.injEq] at q1
    obtain ⟨qh, qw, qc⟩ := q1
    have ha : addAlpha q a = some { q with c := some 4, px := fun y x k => if k < 3 then q.px y x k else a.px y x 3 } := by
      simp only [addAlpha, qh, qw, qc, and_self, if_true, Option.map_some]
    simp only [Option.bind_some, ha]
    have s1 : ¬ (a.shape ≠ Im.shape { q with c := some 4, px := fun y x k => if k < 3 then q.px y x k else a.px y x 3 }) := by
      simp [Im.shape, qh, qw, hc]
    have s2 : ¬ (Im.shape { a with c := some 3 } ≠ q.shape) := by simp [Im.shape, qh, qw, qc]
    rw [if_neg s1, if_neg s2]
    refine ⟨rfl, ?_⟩
    intro r s hr hs y x
    cases hr
    cases hs
    exact ⟨by simp, fun k hk => by simp [hk]⟩

open Resize in
/-- C79: images of 1, 3 or 4 channels only. -/
theorem quantization_channels (cv : Cv) (ip : Option Inter) (maxSize : Option Nat) (cs csInv quantize : Im → Option Im) (a : Im)
    (hc : a.c ≠ some 1 ∧ a.c ≠ some 3 ∧ a.c ≠ some 4) : augmentSingle cv ip maxSize cs csInv quantize a = none := by
  rw [augmentSingle, if_neg (by tauto)]

open Resize in
/-- C79 is false for thin images: if one side is more than `max_size` times as long as the other, the image would be downscaled to nothing and
the augmenter fails. -/
theorem thin_images_rejected (cv : Cv) (ip : Option Inter) (m : Nat) (cs csInv quantize : Im → Option Im)
    (h1 : Keeps cs) (h2 : Keeps csInv) (h3 : Keeps quantize) (a : Im) (hh : 0 < a.h) (hw : 0 < a.w)
    (ht : a.h * m < a.w ∨ a.w * m < a.h) : augmentSingle cv ip (some m) cs csInv quantize a = none := by
  cases hr : augmentSingle cv ip (some m) cs csInv quantize a with
  | none => rfl
  | some r =>
    exfalso
    obtain ⟨hc, b, r0, hb, hq, hl⟩ := augment_steps cv ip _ cs csInv quantize a r hr
    obtain ⟨b1, b2, b3⟩ := ensure_cases cv ip _ a b hb
    obtain ⟨k1, _⟩ := quantized_keeps cs csInv quantize h1 h2 h3 b r0 hq
    have hz := thin_empty cv ip m a b hb hh hw ht
    simp only [Im.shape, Prod.mk.injEq] at k1
    have hs : a.shape ≠ r0.shape := by
      simp only [Im.shape, ne_eq, Prod.mk.injEq]
      omega
    rw [if_pos hs] at hl
    have hs' := single_isSome cv ip (.tuple [.int a.h, .int a.w]) (.int a.h, .int a.w) r0 (by simp [pair, Size.val])
    rw [hl, Option.isSome_some] at hs'
    have := (core_isSome cv ip (.int a.h, .int a.w) { r0 with c := some (r0.c.getD 1) }).mp hs'.symm
    have hc0 : r0.c = a.c := by rw [k1.2.2, b1]
    simp only [target, Int.toNat_natCast, Option.some.injEq] at this
    rw [hc0] at this
    rcases this with h | h | h | h | h
    · omega
    · omega
    · omega
    · rcases hc with hc | hc | hc <;> simp [hc] at h
    · omega

/-- A long image with three channels. -/
def strip : Resize.Im := ⟨⟨.u, 1⟩, 1, 200, some 3, fun _ x _ => (x : ℚ)⟩

example : 0 < strip.h ∧ 0 < strip.w ∧ strip.h * 128 < strip.w ∧ Keeps some ∧ Keeps (onArray (fun i => quantizeUniform i 4 true)) :=
  ⟨by decide, by decide, by decide, fun _ _ h => by cases h; exact ⟨rfl, rfl⟩, onArray_keeps _⟩

end Imgaug.Quantize
