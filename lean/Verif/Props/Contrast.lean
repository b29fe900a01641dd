import Verif.Proofs.Contrast
import Verif.Props.Dtypes
import Verif.Proofs.Channels
import Mathlib.Analysis.Convex.SpecificFunctions.Basic
/-! Contrast functions. -/
namespace Imgaug.Contrast
open Imgaug Imgaug.Dtypes Imgaug.Props
open Imgaug.Lut (SameShape)

/-- C80: `adjust_contrast_gamma` with a gamma above zero gives every component `v` of a uint8 image the value `255*((v/255)**gamma)` without its
fraction. -/
theorem gamma_value (gamma : ℝ) (hg : 0 < gamma) (im : Lut.Img) (hu : im.uint8 = true) :
    ∃ r, adjust (gammaTable gamma) im = some r ∧ SameShape r im ∧ r.uint8 = true ∧ ∀ y x k, y < im.h → x < im.w → k < im.channels →
      im.px y x k ≤ 255 → (r.px y x k : ℝ) ≤ 255 * ((im.px y x k : ℝ) / 255) ^ gamma ∧
        255 * ((im.px y x k : ℝ) / 255) ^ gamma < r.px y x k + 1 := by
  obtain ⟨r, a, b, c, d⟩ := adjust_px (gammaTable gamma) im hu
  refine ⟨r, a, b, c, ?_⟩
  intro y x k hy hx hk hv
  rw [d y x k hy hx hk]
  generalize im.px y x k = v at hv ⊢
  obtain ⟨f0, f1⟩ := frac_range hv
  rw [gammaTable, if_neg (by rintro ⟨_, h⟩; linarith), mul_comm (255 : ℝ)]
  have p0 : 0 ≤ ((v : ℝ) / 255) ^ gamma := Real.rpow_nonneg f0 _
  have p1 : ((v : ℝ) / 255) ^ gamma ≤ 1 := Real.rpow_le_one f0 f1 hg.le
  exact entry_spec (by positivity) (by linarith)

/-- C80: gamma contrast keeps black and white, and the order of components; it changes nothing for gamma 1, darkens for larger and brightens for
smaller ones. -/
theorem gamma_laws (gamma : ℝ) (hg : 0 < gamma) :
    gammaTable gamma 0 = 0 ∧ gammaTable gamma 255 = 255 ∧
    (∀ v w, v ≤ w → gammaTable gamma v ≤ gammaTable gamma w) ∧
    (∀ v, v ≤ 255 → gammaTable 1 v = v) ∧
    (1 ≤ gamma → ∀ v, v ≤ 255 → gammaTable gamma v ≤ v) ∧
    (gamma ≤ 1 → ∀ v, v ≤ 255 → v ≤ gammaTable gamma v) := by
  have e : ∀ v, gammaTable gamma v = entry (((v : ℝ) / 255) ^ gamma * 255) := by
    intro v
    rw [gammaTable, if_neg (by rintro ⟨_, h⟩; linarith)]
  have back : ∀ v : Nat, ((v : ℝ) / 255) * 255 = v := fun v => by field_simp
  refine ⟨?_, ?_, ?_, ?_, ?_, ?_⟩
  · rw [e, Nat.cast_zero, zero_div, Real.zero_rpow hg.ne', zero_mul]
    exact entry_low (le_refl _)
  · rw [e, show ((255 : Nat) : ℝ) / 255 = 1 by norm_num, Real.one_rpow, one_mul]
    exact entry_high (le_refl _)
  · intro v w h
    rw [e, e]
    have h' : (v : ℝ) / 255 ≤ (w : ℝ) / 255 := div_le_div_of_nonneg_right (by exact_mod_cast h) (by norm_num)
    have := Real.rpow_le_rpow (by positivity) h' hg.le
    exact entry_mono (by linarith)
  · intro v hv
    rw [gammaTable, if_neg (by rintro ⟨_, h⟩; linarith), Real.rpow_one, back, entry_nat hv]
  · intro h v hv
    rw [e]
    obtain ⟨f0, f1⟩ := frac_range hv
    refine entry_le_of_le ?_ hv
    rcases eq_or_lt_of_le f0 with h0 | h0
    · rw [← h0, Real.zero_rpow hg.ne', zero_mul]; positivity
    · have := Real.rpow_le_rpow_of_exponent_ge h0 f1 h
      rw [Real.rpow_one] at this
      have hb := back v
      nlinarith
  · intro h v hv
    rw [e]
    obtain ⟨f0, f1⟩ := frac_range hv
    refine le_entry_of_le ?_ hv
    rcases eq_or_lt_of_le f0 with h0 | h0
    · have hb := back v
      rw [← h0, Real.zero_rpow hg.ne', zero_mul]
      rw [← h0, zero_mul] at hb
      exact hb.symm.le
    · have := Real.rpow_le_rpow_of_exponent_ge h0 f1 h
      rw [Real.rpow_one] at this
      have hb := back v
      nlinarith

example : (0 : ℝ) < 7 / 10 ∧ ∃ im : Lut.Img, im.uint8 = true ∧ 0 < im.h := ⟨by norm_num, ⟨true, true, 2, 2, 0, fun y x _ => y + x⟩, rfl, by decide⟩

/-- Gammas that are not above zero, which `GammaContrast` accepts, make every image white. -/
theorem gamma_white (gamma : ℝ) (hg : gamma ≤ 0) (v : Nat) (hv : v ≤ 255) : gammaTable gamma v = 255 := by
  rw [gammaTable]
  split
  · rfl
  rename_i hn
  obtain ⟨f0, f1⟩ := frac_range hv
  refine entry_high ?_
  have : 1 ≤ ((v : ℝ) / 255) ^ gamma := by
    rcases eq_or_lt_of_le hg with rfl | hg
    · rw [Real.rpow_zero]
    · rcases eq_or_lt_of_le f0 with h0 | h0
      · have : v = 0 := by
          have : (v : ℝ) = 0 := by have := h0.symm; field_simp at this; simpa using this
          exact_mod_cast this
        exact absurd ⟨this, hg⟩ hn
      · exact Real.one_le_rpow_of_pos_of_le_one_of_nonpos h0 f1 hg.le
  linarith

/-- C80: `adjust_contrast_sigmoid` gives every component the value `255*1/(1+exp(gain*(cutoff-v/255)))` without its fraction, and keeps the order
of components if the gain is not negative. -/
theorem sigmoid_value (gain cutoff : ℝ) (im : Lut.Img) (hu : im.uint8 = true) :
    (∃ r, adjust (sigmoidTable gain cutoff) im = some r ∧ SameShape r im ∧ r.uint8 = true ∧
      ∀ y x k, y < im.h → x < im.w → k < im.channels →
        (r.px y x k : ℝ) ≤ 255 * (1 / (1 + Real.exp (gain * (cutoff - (im.px y x k : ℝ) / 255)))) ∧
        255 * (1 / (1 + Real.exp (gain * (cutoff - (im.px y x k : ℝ) / 255)))) < r.px y x k + 1) ∧
    (0 ≤ gain → ∀ v w, v ≤ w → sigmoidTable gain cutoff v ≤ sigmoidTable gain cutoff w) := by
  constructor
  · obtain ⟨r, a, b, c, d⟩ := adjust_px (sigmoidTable gain cutoff) im hu
    refine ⟨r, a, b, c, ?_⟩
    intro y x k hy hx hk
    rw [d y x k hy hx hk]
    generalize im.px y x k = v
    rw [sigmoidTable, mul_div_assoc]
    have hp := Real.exp_pos (gain * (cutoff - (v : ℝ) / 255))
    refine entry_spec (by positivity) ?_
    have : 1 / (1 + Real.exp (gain * (cutoff - (v : ℝ) / 255))) ≤ 1 := by
      rw [div_le_one (by linarith)]; linarith
    linarith
  · intro hg v w h
    rw [sigmoidTable, sigmoidTable]
    refine entry_mono ?_
    have hp := Real.exp_pos (gain * (cutoff - (w : ℝ) / 255))
    refine div_le_div_of_nonneg_left (by norm_num) (by linarith) ?_
    have h' : (v : ℝ) / 255 ≤ (w : ℝ) / 255 := div_le_div_of_nonneg_right (by exact_mod_cast h) (by norm_num)
    have := Real.exp_le_exp.mpr (mul_le_mul_of_nonneg_left (show cutoff - (w : ℝ) / 255 ≤ cutoff - (v : ℝ) / 255 by linarith) hg)
    linarith

/-- C80: `adjust_contrast_log` gives every component the value `255*gain*log2(1+v/255)`, at most 255, without its fraction; black stays black, the order
of components is kept, and gain 1 keeps white and darkens nothing. -/
theorem log_value (gain : ℝ) (hg : 0 ≤ gain) (im : Lut.Img) (hu : im.uint8 = true) :
    (∃ r, adjust (logTable gain) im = some r ∧ SameShape r im ∧ r.uint8 = true ∧
      ∀ y x k, y < im.h → x < im.w → k < im.channels →
        (r.px y x k : ℝ) ≤ min 255 (255 * gain * Real.logb 2 (1 + (im.px y x k : ℝ) / 255)) ∧
        min 255 (255 * gain * Real.logb 2 (1 + (im.px y x k : ℝ) / 255)) < r.px y x k + 1) ∧
    logTable gain 0 = 0 ∧ (∀ v w, v ≤ w → logTable gain v ≤ logTable gain w) ∧ logTable 1 255 = 255 ∧
    (∀ v, v ≤ 255 → v ≤ logTable 1 v) := by
  have nn : ∀ v : Nat, 0 ≤ Real.logb 2 (1 + (v : ℝ) / 255) := by
    intro v
    refine Real.logb_nonneg (by norm_num) ?_
    have : (0 : ℝ) ≤ (v : ℝ) / 255 := by positivity
    linarith
  refine ⟨?_, ?_, ?_, ?_, ?_⟩
  · obtain ⟨r, a, b, c, d⟩ := adjust_px (logTable gain) im hu
    refine ⟨r, a, b, c, ?_⟩
    intro y x k hy hx hk
    rw [d y x k hy hx hk]
    have hn := nn (im.px y x k)
    have h0 : 0 ≤ 255 * gain * Real.logb 2 (1 + (im.px y x k : ℝ) / 255) := by positivity
    rw [logTable, entry, max_eq_left h0, min_comm (255 : ℝ)]
    exact ⟨Nat.floor_le (le_min h0 (by norm_num)), Nat.lt_floor_add_one _⟩
  · rw [logTable]; norm_num
    exact entry_low (le_refl _)
  · intro v w h
    rw [logTable, logTable]
    refine entry_mono (mul_le_mul_of_nonneg_left ?_ (by positivity))
    have h' : (v : ℝ) / 255 ≤ (w : ℝ) / 255 := div_le_div_of_nonneg_right (by exact_mod_cast h) (by norm_num)
    have p : (0 : ℝ) ≤ (v : ℝ) / 255 := by positivity
    exact Real.logb_le_logb_of_le (by norm_num) (by linarith) (by linarith)
  · rw [logTable]; norm_num
    exact entry_high (le_refl _)
  · intro v hv
    rw [logTable]
    refine le_entry_of_le ?_ hv
    obtain ⟨f0, f1⟩ := frac_range hv
    have hb : (v : ℝ) / 255 * 255 = v := by field_simp
    generalize (v : ℝ) / 255 = p at f0 f1 hb ⊢
    have : (2 : ℝ) ^ p ≤ 1 + p := by
      have := _root_.rpow_one_add_le_one_add_mul_self (s := 1) (by norm_num) f0 f1
      norm_num at this
      linarith
    have := (Real.le_logb_iff_rpow_le (b := 2) (by norm_num) (show (0 : ℝ) < 1 + p by linarith)).mpr this
    linarith

example : ∃ im : Lut.Img, im.uint8 = true ∧ im.empty = false := ⟨⟨true, true, 2, 2, 0, fun y x _ => y + x⟩, rfl, by decide⟩

/-- C80: `adjust_contrast_linear` gives every component of a uint8 image the value `127+alpha*(v-127)`, limited to 0..255, without its fraction. -/
theorem linear_value (alpha : ℝ) (im : Lut.Img) (hu : im.uint8 = true) :
    ∃ r, adjust (linearTable alpha) im = some r ∧ SameShape r im ∧ r.uint8 = true ∧ ∀ y x k, y < im.h → x < im.w → k < im.channels →
      (r.px y x k : ℝ) ≤ min (max (127 + alpha * ((im.px y x k : ℝ) - 127)) 0) 255 ∧
      min (max (127 + alpha * ((im.px y x k : ℝ) - 127)) 0) 255 < r.px y x k + 1 := by
  obtain ⟨r, a, b, c, d⟩ := adjust_px (linearTable alpha) im hu
  refine ⟨r, a, b, c, ?_⟩
  intro y x k hy hx hk
  rw [d y x k hy hx hk, linearTable, centre_u8, entry]
  push_cast
  exact ⟨Nat.floor_le (le_min (le_max_right _ _) (by norm_num)), Nat.lt_floor_add_one _⟩

/-- C80: linear contrast keeps 127, changes nothing for alpha 1, gives plain grey for alpha 0 and keeps (or, for negative alphas, reverses) the order of
components. -/
theorem linear_laws (alpha : ℝ) :
    linearTable alpha 127 = 127 ∧ (∀ v, v ≤ 255 → linearTable 1 v = v) ∧ (∀ v, linearTable 0 v = 127) ∧
    (0 ≤ alpha → ∀ v w, v ≤ w → linearTable alpha v ≤ linearTable alpha w) ∧
    (alpha ≤ 0 → ∀ v w, v ≤ w → linearTable alpha w ≤ linearTable alpha v) := by
  have h127 := entry_nat (n := 127) (by norm_num)
  push_cast at h127
  refine ⟨?_, ?_, ?_, ?_, ?_⟩
  · rw [linearTable, centre_u8]; norm_num
    exact h127
  · intro v hv
    rw [linearTable, centre_u8]; norm_num
    exact entry_nat hv
  · intro v
    rw [linearTable, centre_u8]; norm_num
    exact h127
  · intro h v w hvw
    rw [linearTable, linearTable]
    have : (v : ℝ) ≤ w := by exact_mod_cast hvw
    exact entry_mono (by nlinarith)
  · intro h v w hvw
    rw [linearTable, linearTable]
    have : (v : ℝ) ≤ w := by exact_mod_cast hvw
    exact entry_mono (by nlinarith)

/-- C80: for other dtypes up to 32 bits the value is `c+alpha*(v-c)` with the centre `c` of the range (0 for signed integers and floats), limited to the
range and, other than for uint8, rounded to the nearest integer. -/
theorem linear_other (d : DType) (hd : d ∈ [⟨.u, 2⟩, ⟨.u, 4⟩, ⟨.i, 1⟩, ⟨.i, 2⟩, ⟨.i, 4⟩, ⟨.f, 2⟩, ⟨.f, 4⟩])
    (alpha v : ℚ) (h : Holds ⟨.f, 8⟩ (centre d + alpha * (v - centre d))) :
    linearOther d alpha v = some (clamp d (if d.kind = .f then centre d + alpha * (v - centre d)
      else (npRound (centre d + alpha * (v - centre d)) : ℚ))) ∧
    (d.kind ≠ .u → centre d = 0) ∧ (d.kind = .u → 2 * centre d + 1 = hi d) := by
  refine ⟨?_, ?_, ?_⟩
  · have hall : d ∈ all ∧ ⟨.f, 8⟩ ≠ d ∧ BoundFits ⟨.f, 8⟩ d ∧ d.kind ≠ .b := by
      simp only [List.mem_cons, List.not_mem_nil, or_false] at hd
      rcases hd with rfl | rfl | rfl | rfl | rfl | rfl | rfl <;> decide +kernel
    obtain ⟨w, hw, _, he⟩ := change_dtype_partial ⟨.f, 8⟩ d hall.1 hall.2.1 rfl hall.2.2.1 _ h
    rw [linearOther, if_neg hall.2.2.2, hw, he]
    by_cases hf : d.kind = .f
    · simp [hf]
    · simp [hf]
  · intro hk
    simp only [List.mem_cons, List.not_mem_nil, or_false] at hd
    rcases hd with rfl | rfl | rfl | rfl | rfl | rfl | rfl <;>
      first | (exact absurd rfl hk) | rfl | (simp only [centre]; rw [pyInt, if_pos (by norm_num)]; norm_num)
  · intro hk
    simp only [List.mem_cons, List.not_mem_nil, or_false] at hd
    rcases hd with rfl | rfl | rfl | rfl | rfl | rfl | rfl
    · decide +kernel
    · decide +kernel
    all_goals cases hk

example : Holds ⟨.f, 8⟩ (centre ⟨.i, 2⟩ + 3 / 2 * (1000 - centre ⟨.i, 2⟩)) := by
  rw [(show centre ⟨.i, 2⟩ = 0 by simp only [centre]; rw [pyInt, if_pos (by norm_num)]; norm_num)]
  refine ⟨?_, ?_, fun h => absurd rfl h⟩
  · have : lo ⟨.f, 8⟩ ≤ 0 := by decide +kernel
    have : ((lo ⟨.f, 8⟩ : Int) : ℚ) ≤ ((0 : Int) : ℚ) := Int.cast_le.mpr this
    generalize ((lo ⟨.f, 8⟩ : Int) : ℚ) = l at this ⊢
    norm_num at this ⊢
    linarith
  · have : 1500 ≤ hi ⟨.f, 8⟩ := by decide +kernel
    have : ((1500 : Int) : ℚ) ≤ ((hi ⟨.f, 8⟩ : Int) : ℚ) := Int.cast_le.mpr this
    generalize ((hi ⟨.f, 8⟩ : Int) : ℚ) = l at this ⊢
    norm_num at this ⊢
    linarith

/-- C80: without `per_channel` a contrast augmenter uses one sample for all channels of an image; with it, every channel gets its own sample; shape
and dtype stay. -/
theorem contrast_channels (pc : ℚ) (table : Nat → Nat → Nat) (im : Lut.Img) (hu : im.uint8 = true) (hf : im.flat = false)
    (hc : pc > 1 / 2 → im.c ≠ 0) :
    ∃ r, augmentOne pc table im = some r ∧ SameShape r im ∧ r.uint8 = true ∧
      ∀ y x k, y < im.h → x < im.w → k < im.c →
        r.px y x k = (if pc > 1 / 2 then table k (im.px y x k) else table 0 (im.px y x k)) := by
  have hch : im.channels = im.c := by simp [Lut.Img.channels, hf]
  by_cases hp : pc > 1 / 2
  · have hch : ∀ c ∈ List.range im.c, ∃ r, adjust (table c) (channel im c) = some r := fun c _ =>
      let ⟨r, h, _⟩ := adjust_px (table c) (channel im c) hu
      ⟨r, h⟩
    obtain ⟨l, hl⟩ := Channels.mapM_exists _ _ hch
    refine ⟨{ im with px := fun y x k => (l.getD k im).px y x 0 }, ?_, ⟨rfl, rfl, rfl, rfl⟩, hu, ?_⟩
    · rw [augmentOne, if_pos hp, if_neg (hc hp), hl]; rfl
    · intro y x k hy hx hk
      rw [if_pos hp]
      obtain ⟨r, hk', hr⟩ := mapM_nth _ _ _ hl k k (by simp [hk])
      obtain ⟨r', h1, _, _, h4⟩ := adjust_px (table k) (channel im k) hu
      rw [hr] at h1
      cases h1
      have := h4 y x 0 hy hx (by simp [Lut.Img.channels, channel])
      simp only [List.getD_eq_getElem?_getD, hk', Option.getD_some]
      exact this
  · obtain ⟨r, h1, h2, h3, h4⟩ := adjust_px (table 0) im hu
    refine ⟨r, by rw [augmentOne, if_neg hp, h1], h2, h3, ?_⟩
    intro y x k hy hx hk
    rw [if_neg hp]
    exact h4 y x k hy hx (by omega)

/-- C80 is false for images without channels: with `per_channel` the augmenters fail. -/
theorem contrast_no_channels (pc : ℚ) (hp : pc > 1 / 2) (table : Nat → Nat → Nat) (im : Lut.Img) (hc : im.c = 0) :
    augmentOne pc table im = none := by
  rw [augmentOne, if_pos hp, if_pos hc]

/-- C80: every image of a batch is changed by its own samples alone. -/
theorem contrast_rows (rows : List (Lut.Img × ℚ × (Nat → Nat → Nat))) (out : List Lut.Img) (h : augmentBatch rows = some out) :
    out.length = rows.length ∧ ∀ (i : Nat) (row : Lut.Img × ℚ × (Nat → Nat → Nat)), rows[i]? = some row → ∃ r, out[i]? = some r ∧ augmentOne row.2.1 row.2.2 row.1 = some r := by
  refine ⟨mapM_len _ _ _ h, ?_⟩
  intro i row hr
  obtain ⟨r, h1, h2⟩ := mapM_nth _ _ _ h i row hr
  exact ⟨r, h1, h2⟩

/-- Two images, one of them augmented per channel. -/
noncomputable def twoRows : List (Lut.Img × ℚ × (Nat → Nat → Nat)) :=
  [(⟨true, false, 2, 2, 3, fun y x k => y + x + k⟩, 1, fun c => gammaTable (c + 1)), (⟨true, false, 1, 4, 1, fun _ x _ => x⟩, 0, fun _ => linearTable 2)]

example : ∃ out, augmentBatch twoRows = some out := by
  obtain ⟨a, ha, _⟩ := contrast_channels 1 (fun c => gammaTable (c + 1)) ⟨true, false, 2, 2, 3, fun y x k => y + x + k⟩ rfl rfl (by simp)
  obtain ⟨b, hb, _⟩ := contrast_channels 0 (fun _ => linearTable 2) ⟨true, false, 1, 4, 1, fun _ x _ => x⟩ rfl rfl (by simp)
  exact ⟨[a, b], by simp [augmentBatch, twoRows, ha, hb]⟩

end Imgaug.Contrast
