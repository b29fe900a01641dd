import Verif.Spec.MulHue
import Verif.Props.Hue
import Verif.Props.AffineArgs
import Verif.Proofs.Float
import Verif.Proofs.Num
/-! Property C136: multiplying hue and saturation. -/
namespace Imgaug.MulHue
open Imgaug Imgaug.Dtypes Imgaug.Color Imgaug.Hue Imgaug.Params Imgaug.Props Imgaug.Hue.Props

theorem at_children (s : Samples) (l : List HS) : ∃ back, children s l = some back ∧ back.length = l.length ∧
    ∀ (i : Nat) (b : HS), l[i]? = some b → back[i]? = some { b with px := b.px.map (fun p =>
      (((s.at i).1.map (fun m => times m p.1)).getD p.1, ((s.at i).2.map (fun m => times m p.2)).getD p.2)) } := by
  cases s with
  | both values perChannel =>
    refine ⟨_, rfl, by simp [mulBoth], ?_⟩
    intro i b hb
    simp [mulBoth, hb, Samples.at]
  | each hue sat =>
    refine ⟨_, rfl, ?_, ?_⟩
    · cases hue <;> cases sat <;> simp [mulFirst, mulSecond]
    · intro i b hb
      cases hue <;> cases sat <;> simp [mulFirst, mulSecond, hb, Samples.at]

/-- C136: in HSV, the hue of every pixel of image `i` becomes `newHue` and its saturation `newSat` for the multipliers of the image, and its value remains;
shapes remain. -/
theorem multiply_px (cv : Cv) (hcv : cv.Bytes) (f : Space) (hg : f ≠ .gray) (s : Samples) (array : Bool) (images : List Img)
    (hc : ∀ im ∈ images, im.Colour) :
    ∃ r, augment cv f s array (some images) = some (some r) ∧ r.length = images.length ∧
      ∀ (i : Nat) im, images[i]? = some im → ∃ im', r[i]? = some im' ∧ im'.h = im.h ∧ im'.w = im.w ∧
        im'.px = im.px.map (fun p => converted cv .hsv f (newHue (s.at i).1 (converted cv f .hsv p).1, newSat (s.at i).2 (converted cv f .hsv p).2.1,
          (converted cv f .hsv p).2.2)) := by
  obtain ⟨given, hl, hgiven, h⟩ := with_hue_saturation_partial cv hcv f hg (children s) array images hc
  obtain ⟨back, hback, hbl, hb⟩ := at_children s given
  have hsz : ∀ (i : Nat) im b, images[i]? = some im → back[i]? = some b → b.h = im.h ∧ b.w = im.w ∧ b.px.length = im.px.length := by
    intro i im b hi hbi
    rw [hb i _ (hgiven i im hi)] at hbi
    cases hbi
    simp
  obtain ⟨r, hr, hrl, hpx⟩ := h back hback (by omega) hsz
  refine ⟨r, hr, hrl, fun i im hi => ?_⟩
  obtain ⟨im', h1, h2, h3, h4⟩ := hpx i im _ hi (hb i _ (hgiven i im hi))
  refine ⟨im', h1, h2, h3, ?_⟩
  rw [h4]
  simp only [List.map_map, List.zipWith_map_left, List.zipWith_self]
  refine List.map_congr_left (fun p _ => ?_)
  simp only [Function.comp, newHue, newSat, hueDown_eq]

/-- The hypotheses are met, and the saturation of the second image only is removed. -/
example : swap.Bytes ∧ (∀ im ∈ [dot true, dot true], im.Colour) ∧ ((Samples.each none (some [1, 0])).at 1) = (none, some 0) :=
  ⟨swap_bytes, by intro im h; simp at h; rw [h]; exact dot_colour _, by decide +kernel⟩

/-- A product in float32 and its rounding. -/
theorem times_near (m : ℚ) (v : Int) (h : |m * v| ≤ 2550) : |(times m v : ℚ) - m * v| ≤ 501 / 1000 := by
  have key : ∀ x : ℚ, 0 ≤ x → x ≤ 2550 → |(npRound (f32 x) : ℚ) - x| ≤ 501 / 1000 := by
    intro x h0 h1
    have e1 := npRound_dist (f32 x)
    have e2 : |f32 x - x| ≤ x * 2 ^ (-(24 : Int)) := flt_err 24 h0
    have e3 : x * (2 : ℚ) ^ (-(24 : Int)) ≤ 1 / 1000 := by
      rw [show (2 : ℚ) ^ (-(24 : Int)) = 1 / 16777216 by norm_num]
      linarith
    have e4 := e2.trans e3
    rw [abs_le] at e1 e4 ⊢
    constructor <;> linarith
  rw [abs_le] at h
  unfold times
  split_ifs with hn
  · have := key (-(m * v)) (by linarith) (by linarith)
    rw [abs_le] at *
    push_cast
    constructor <;> linarith
  · exact key _ (not_lt.1 hn) h.2

theorem times_zero (v : Int) : times 0 v = 0 := by
  unfold times
  rw [if_neg (by simp), zero_mul, show f32 0 = 0 from flt_zero 24]
  simpa using npRound_int 0

theorem times_one (v : Nat) (h : v ≤ 255) : times 1 v = v := by
  unfold times
  have : (0 : ℚ) ≤ v := by positivity
  rw [if_neg (by push_cast; linarith), one_mul, show f32 ((v : Int) : ℚ) = ((v : Int) : ℚ) from by
    have := flt_nat (p := 24) (m := v) (by omega)
    simpa [f32] using this]
  exact npRound_int v

theorem times_nonneg {m : ℚ} {v : Int} (hm : 0 ≤ m * v) : 0 ≤ times m v := by
  unfold times
  rw [if_neg (not_lt.2 hm)]
  exact npRound_nonneg (flt_nonneg _ _)

theorem times_nonpos {m : ℚ} {v : Int} (hm : m * v ≤ 0) : times m v ≤ 0 := by
  unfold times
  split_ifs with h
  · have := npRound_nonneg (flt_nonneg 24 (-(m * v)))
    unfold f32
    omega
  · have : m * v = 0 := le_antisymm hm (not_lt.1 h)
    rw [this, show f32 0 = 0 from flt_zero 24]
    have := npRound_int 0
    simp at this
    omega

theorem times_mono {m m' : ℚ} {v v' : Int} (h0 : 0 ≤ m * v) (h : m * v ≤ m' * v') : times m v ≤ times m' v' := by
  unfold times
  rw [if_neg (not_lt.2 h0), if_neg (not_lt.2 (h0.trans h))]
  exact npRound_mono (flt_mono (by norm_num) h)

/-- C136: the saturation is multiplied, rounded and limited to 255: it differs from the product by at most 0.501. Multipliers below zero make it zero. -/
theorem saturation_multiplied (m : ℚ) (hm : m ≤ 10) (hm' : -10 ≤ m) (s : Nat) (hs : s ≤ 255) :
    newSat (some m) s ≤ 255 ∧ |(newSat (some m) s : ℚ) - min 255 (max 0 (m * s))| ≤ 501 / 1000 ∧ (m ≤ 0 → newSat (some m) s = 0) := by
  have hs0 : (0 : ℚ) ≤ s := by positivity
  have hs1 : (s : ℚ) ≤ 255 := by exact_mod_cast hs
  have hb : |m * ((s : Int) : ℚ)| ≤ 2550 := by
    rw [abs_le]
    push_cast
    constructor <;> nlinarith
  have e := times_near m s hb
  have e' : newSat (some m) s = limited (times m s) := rfl
  rw [e']
  push_cast at e
  refine ⟨?_, ?_, ?_⟩
  · unfold limited
    split_ifs <;> omega
  · unfold limited
    split_ifs with h1 h2
    · have h1' : (times m s : ℚ) ≤ -1 := by
        have : times m s ≤ -1 := by omega
        exact_mod_cast this
      have : m * s ≤ 0 := by
        by_contra hc
        have := times_nonneg (m := m) (v := s) (by push_cast; linarith)
        omega
      rw [max_eq_left this]
      norm_num
    · have h2' : (256 : ℚ) ≤ times m s := by
        have : 256 ≤ times m s := by omega
        exact_mod_cast this
      rw [abs_le] at e
      have : 255 ≤ m * s := by linarith
      rw [max_eq_right (by linarith), min_eq_left this]
      norm_num
    · have h3 : ((times m s).toNat : ℚ) = times m s := by
        have : ((times m s).toNat : Int) = times m s := Int.toNat_of_nonneg (by omega)
        exact_mod_cast this
      rw [h3]
      have a1 : (0 : ℚ) ≤ times m s := by exact_mod_cast (not_lt.1 h1)
      have a2 : (times m s : ℚ) ≤ 255 := by exact_mod_cast (not_lt.1 h2)
      rw [abs_le] at *
      rcases min_cases (255 : ℚ) (max 0 (m * s)) with ⟨q, q'⟩ | ⟨q, q'⟩ <;> rcases max_cases (0 : ℚ) (m * s) with ⟨p, p'⟩ | ⟨p, p'⟩ <;>
        rw [q] <;> rw [p] at q' <;> (try rw [p]) <;> constructor <;> linarith
  · intro h
    have := times_nonpos (m := m) (v := s) (by push_cast; exact mul_nonpos_of_nonpos_of_nonneg h hs0)
    unfold limited
    split_ifs <;> omega

/-- Half of 101 is 50 (half to even), 1.7 times 200 is 255. -/
example : newSat (some (1 / 2)) 101 = 50 ∧ newSat (some (17 / 10)) 200 = 255 ∧ newSat (some (-3)) 200 = 0 := by decide +kernel

/-- C136: a greater multiplier or a greater saturation does not give a lower saturation, the multiplier 1 keeps it, and so does not multiplying it. -/
theorem saturation_mono (m m' : ℚ) (h0 : 0 ≤ m) (h : m ≤ m') (s s' : Nat) (hs : s ≤ s') (hs' : s' ≤ 255) :
    newSat (some m) s ≤ newSat (some m') s' ∧ newSat (some 1) s' = s' ∧ newSat none s' = s' := by
  have lim : ∀ a b : Int, a ≤ b → limited a ≤ limited b := by
    intro a b hab
    unfold limited
    split_ifs <;> omega
  have keep : limited (s' : Int) = s' := by
    unfold limited
    split_ifs <;> omega
  have a1 : (0 : ℚ) ≤ s := by positivity
  have a2 : (s : ℚ) ≤ s' := by exact_mod_cast hs
  refine ⟨lim _ _ (times_mono ?_ ?_), ?_, keep⟩
  · push_cast; exact mul_nonneg h0 a1
  · push_cast; exact mul_le_mul h a2 a1 (h0.trans h)
  · show limited (times 1 s') = s'
    rw [times_one s' hs', keep]

/-- C136: `RemoveSaturation`: a value from 0 to 1 never increases the saturation, 1 makes images grey and 0 keeps them; the greater the value, the lower is the
saturation. -/
theorem saturation_removed (v w : ℚ) (h0 : 0 ≤ v) (hvw : v ≤ w) (h1 : w ≤ 1) (s : Nat) (hs : s ≤ 255) :
    newSat (some (removed w)) s ≤ newSat (some (removed v)) s ∧ newSat (some (removed v)) s ≤ s ∧ newSat (some (removed 1)) s = 0 ∧
    newSat (some (removed 0)) s = s := by
  have one := (saturation_mono 1 1 (by norm_num) le_rfl s s le_rfl hs).2.1
  refine ⟨(saturation_mono _ _ (by unfold removed; linarith) (by unfold removed; linarith) s s le_rfl hs).1, ?_, ?_, ?_⟩
  · have := (saturation_mono (removed v) 1 (by unfold removed; linarith) (by unfold removed; linarith) s s le_rfl hs).1
    rwa [one] at this
  · exact (saturation_multiplied (removed 1) (by norm_num [removed]) (by norm_num [removed]) s hs).2.2 (by norm_num [removed])
  · rw [show removed 0 = 1 by norm_num [removed]]
    exact one

/-- A quarter of the saturation is removed. -/
example : newSat (some (removed (1 / 4))) 200 = 150 := by decide +kernel

/-- C136 (partial): the hue, as an angle of which 180 is the full circle, is multiplied, up to an error that is less than 24/17, plus 12/17 per unit of the
multiplier. Missing: multiplication without the errors of scaling the hue before it, see `hue_not_multiplied`. -/
theorem hue_multiplied_partial (m : ℚ) (hm : |m| ≤ 10) (h : Nat) (hh : h < 180) :
    newHue (some m) h < 180 ∧ ∃ k : Int, |(newHue (some m) h : ℚ) - (m * h + 180 * k)| < (24 + 12 * |m|) / 17 := by
  have e' : newHue (some m) h = hueDown (times m ((h * 255 / 180 : Nat) : Int)) := rfl
  rw [e', hueDown_eq]
  set u : Nat := h * 255 / 180 with hu
  have u1 : u ≤ 254 := by omega
  have u2 : 180 * u ≤ 255 * h ∧ 255 * h < 180 * u + 180 := by omega
  have u3 : (180 : ℚ) * u ≤ 255 * h := by exact_mod_cast u2.1
  have u4 : (255 : ℚ) * h < 180 * u + 180 := by exact_mod_cast u2.2
  have u5 : (u : ℚ) ≤ 254 := by exact_mod_cast u1
  have u6 : (0 : ℚ) ≤ u := by positivity
  have hb : |m * ((u : Int) : ℚ)| ≤ 2550 := by
    rw [abs_mul]
    have : |((u : Int) : ℚ)| ≤ 254 := by
      push_cast
      rw [abs_of_nonneg u6]
      exact u5
    nlinarith [abs_nonneg m, abs_nonneg (((u : Int) : ℚ))]
  have e := times_near m u hb
  push_cast at e
  set a := times m (u : Int) with ha
  have b0 : 0 ≤ a % 255 := Int.emod_nonneg _ (by norm_num)
  have b1 : a % 255 < 255 := Int.emod_lt_of_pos _ (by norm_num)
  set r : Nat := (a % 255).toNat with hr
  have r1 : (r : Int) = a - 255 * (a / 255) := by
    have := Int.emod_def a 255
    omega
  set d : Nat := r * 180 / 255 with hd
  have d1 : 255 * d ≤ 180 * r ∧ 180 * r < 255 * d + 255 := by omega
  have d2 : (255 : ℚ) * d ≤ 180 * r := by exact_mod_cast d1.1
  have d3 : (180 : ℚ) * r < 255 * d + 255 := by exact_mod_cast d1.2
  have r2 : (r : ℚ) = a - 255 * ((a / 255 : Int) : ℚ) := by exact_mod_cast r1
  refine ⟨by omega, -(a / 255), ?_⟩
  push_cast
  have hmu : |m * u - m * (255 / 180 * h)| ≤ |m| := by
    rw [← mul_sub, abs_mul]
    have : |(u : ℚ) - 255 / 180 * h| ≤ 1 := by
      rw [abs_le]
      constructor <;> linarith
    nlinarith [abs_nonneg m]
  rw [abs_le] at e hmu
  rw [abs_lt]
  constructor <;> linarith

/-- A hue of 60 (green) times 2 is nearly 120 (blue). -/
example : newHue (some 2) 60 = 120 ∧ newHue (some (-1)) 60 = 120 := by decide +kernel

/-- C136 is false for the hue: 7 times 10 is 63, and 1 times 1 is 0, as the hue is scaled to [0,255) and cut to an integer before. Also if only the saturation
is multiplied, the hue is changed. -/
theorem hue_not_multiplied : newHue (some 10) 7 = 63 ∧ newHue (some 1) 1 = 0 ∧
    ∀ h < 180, newHue none h = newHue (some 1) h ∧ (newHue none h = h ↔ 12 ∣ h) := by
  refine ⟨by decide +kernel, by decide +kernel, fun h hh => ?_⟩
  have e : newHue none h = hueDown (hueUp h) := by
    rw [hueUp_eq h (by omega)]
    rfl
  refine ⟨?_, ?_⟩
  · show hueDown _ = hueDown (times 1 ((h * 255 / 180 : Nat) : Int))
    rw [times_one _ (by omega)]
    rfl
  · rw [e, hue_drifts h hh]
    split_ifs with hd
    · simp [hd]
    · constructor
      · intro hc
        exfalso
        rcases Nat.eq_zero_or_pos h with rfl | hp
        · exact hd (dvd_zero 12)
        · omega
      · intro hc
        exact absurd hc hd

/-- C136: either `mul`, from -10 to 10, or any of `mul_hue`, from -10 to 10, and `mul_saturation`, from 0 to 10, are accepted. -/
theorem multiply_accepts (a : Args) : (init a).isSome = true ↔
    (∃ v, a.mul = some v ∧ a.hue = none ∧ a.sat = none ∧ AffineArgs.NumOk (.interval (some (-10)) (some 10)) true v) ∨
    (a.mul = none ∧ (∀ v, a.hue = some v → AffineArgs.NumOk (.interval (some (-10)) (some 10)) true v) ∧
      ∀ v, a.sat = some v → AffineArgs.NumOk (.interval (some 0) (some 10)) true v) := by
  have w : ∀ lo hi v, (within lo hi v).isSome = true ↔ AffineArgs.NumOk (.interval (some lo) (some hi)) true v :=
    fun lo hi v => continuous_accepts v _ true true
  rcases a with ⟨mul, hue, sat⟩
  cases mul with
  | some v =>
    cases hue <;> cases sat <;> simp [init, w]
  | none =>
    cases hue with
    | none =>
      cases sat with
      | none =>
        simp only [reduceCtorEq, false_and, exists_false, false_or, true_and, false_implies, implies_true, and_self, iff_true]
        decide +kernel
      | some s => cases hs : within 0 10 s <;> simp [init, optional, hs, ← w]
    | some h =>
      cases sat with
      | none => cases hh : within (-10) 10 h <;> simp [init, optional, hh, ← w]
      | some s => cases hh : within (-10) 10 h <;> cases hs : within 0 10 s <;> simp [init, optional, hh, hs, ← w]

/-- A multiplier of the hue from a list. -/
example : (init ⟨none, some (.iter [.num ⟨false, 1 / 2⟩, .num ⟨true, -2⟩]), none⟩).isSome = true ∧
    init ⟨some (AffineArgs.int 1), some (AffineArgs.int 1), none⟩ = none := by decide +kernel

/-- C136: what is multiplied: without arguments the hue by 0.5 to 1.5 and the saturation by 0 to 1.7; with `mul` both, and otherwise only what is requested.
`MultiplyHue` does not multiply the saturation, and `MultiplySaturation` not the hue. -/
theorem multiply_requested (a : Args) (c : Conf) (h : init a = some c) :
    (a = ⟨none, none, none⟩ → c = .each (some (.uniform ⟨false, 1 / 2⟩ ⟨false, 3 / 2⟩)) (some (.uniform ⟨false, 0⟩ ⟨false, 17 / 10⟩))) ∧
    (a.mul ≠ none → ∃ d, c = .both d) ∧
    (a.mul = none → a ≠ ⟨none, none, none⟩ → ∃ hue sat, c = .each hue sat ∧ (hue = none ↔ a.hue = none) ∧ (sat = none ↔ a.sat = none)) := by
  rcases a with ⟨mul, hue, sat⟩
  refine ⟨?_, ?_, ?_⟩
  · intro e
    rw [e] at h
    have : init ⟨none, none, none⟩ = some (.each (some (.uniform ⟨false, 1 / 2⟩ ⟨false, 3 / 2⟩)) (some (.uniform ⟨false, 0⟩ ⟨false, 17 / 10⟩))) := by
      decide +kernel
    rw [this] at h
    exact (Option.some.inj h).symm
  · intro hm
    cases mul with
    | none => exact absurd rfl hm
    | some v =>
      cases hue <;> cases sat <;> simp [init] at h
      obtain ⟨d, _, rfl⟩ := h
      exact ⟨d, rfl⟩
  · rintro hm hne
    simp only at hm
    subst hm
    cases hue with
    | none =>
      cases sat with
      | none => exact absurd rfl hne
      | some s =>
        simp [init, optional] at h
        obtain ⟨d, _, rfl⟩ := h
        exact ⟨_, _, rfl, by simp, by simp⟩
    | some x =>
      cases sat with
      | none =>
        simp [init, optional, Option.bind_eq_some_iff] at h
        obtain ⟨d, _, rfl⟩ := h
        exact ⟨_, _, rfl, by simp, by simp⟩
      | some s =>
        simp [init, optional, Option.bind_eq_some_iff] at h
        obtain ⟨d, _, d', _, rfl⟩ := h
        exact ⟨_, _, rfl, by simp, by simp⟩

/-- `MultiplyHue((-3, 3))` and `MultiplySaturation((0, 3))`, the default values. -/
example : multiplyHue (AffineArgs.floats (-3) 3) = some (.each (some (.uniform ⟨false, -3⟩ ⟨false, 3⟩)) none) ∧
    multiplySaturation (AffineArgs.floats 0 3) = some (.each none (some (.uniform ⟨false, 0⟩ ⟨false, 3⟩))) := by decide +kernel

end Imgaug.MulHue
