import Verif.Proofs.Blur
import Verif.Props.Conv
/-! C88. -/
namespace Imgaug.Blur
open Imgaug Imgaug.Dtypes Imgaug.Resize

/-- C88: the size of the Gaussian kernel is odd, at least five, and between 2.6 and 3.3 times sigma, up to one, where five is not enough. -/
theorem ksize_bounds (sigma : ℚ) (hs : 0 ≤ sigma) : ksizeOf sigma % 2 = 1 ∧ 5 ≤ ksizeOf sigma ∧
    26 / 10 * sigma - 1 < ksizeOf sigma ∧ (ksizeOf sigma : ℚ) ≤ max 5 (33 / 10 * sigma + 1) := by
  obtain ⟨q, hq⟩ : ∃ q : ℚ, q = if sigma < 3 then 33 / 10 * sigma else if sigma < 5 then 29 / 10 * sigma else 26 / 10 * sigma := ⟨_, rfl⟩
  have hq1 : 26 / 10 * sigma ≤ q ∧ q ≤ 33 / 10 * sigma := by
    rw [hq]; split_ifs <;> constructor <;> linarith
  have hm0 : (0 : ℚ) ≤ max q 5 := le_trans (by norm_num) (le_max_right _ _)
  obtain ⟨n, hn⟩ : ∃ n, n = pyInt (max q 5) := ⟨_, rfl⟩
  have hk : ksizeOf sigma = if n % 2 = 0 then n + 1 else n := by
    simp only [ksizeOf, ← hq, ← hn]
  rw [Quantize.pyInt_floor hm0] at hn
  have h5 : 5 ≤ n := by
    rw [hn]; apply Int.le_floor.2; push_cast; exact le_max_right _ _
  have hl : (n : ℚ) ≤ max q 5 := by rw [hn]; exact Int.floor_le _
  have hu : max q 5 < (n : ℚ) + 1 := by rw [hn]; exact Int.lt_floor_add_one _
  have hu' : q < (n : ℚ) + 1 := lt_of_le_of_lt (le_max_left _ _) hu
  rw [hk]
  refine ⟨by split_ifs <;> omega, by split_ifs <;> omega, ?_, ?_⟩
  · split_ifs <;> push_cast <;> linarith [hq1.1]
  · by_cases hn5 : n = 5
    · subst hn5
      simp
    · have hq5 : 5 < q := by
        have : (6 : ℚ) ≤ n := by exact_mod_cast (show 6 ≤ n by omega)
        by_contra hc
        rw [max_eq_right (not_lt.1 hc)] at hl
        linarith
      rw [max_eq_left (le_of_lt hq5)] at hl
      apply le_max_of_le_right
      split_ifs <;> push_cast <;> linarith [hq1.2]

example : ksizeOf 1 = 5 ∧ ksizeOf 2 = 7 ∧ ksizeOf 4 = 11 ∧ ksizeOf 10 = 27 := by decide +kernel

/-- C88 is false as to more blur for larger sigmas: the kernel for 5 is smaller than the one for 4.99. -/
theorem ksize_not_monotone : ksizeOf (499 / 100) = 15 ∧ ksizeOf 5 = 13 := by decide +kernel

/-- C88 (partial): below 5, and from 5 on, a larger sigma has no smaller kernel. -/
theorem ksize_monotone_partial (s t : ℚ) (h : s ≤ t) (hp : t < 5 ∨ 5 ≤ s) : ksizeOf s ≤ ksizeOf t := by
  have key : ∀ u v : ℚ, u ≤ v → (if pyInt (max u 5) % 2 = 0 then pyInt (max u 5) + 1 else pyInt (max u 5)) ≤
      (if pyInt (max v 5) % 2 = 0 then pyInt (max v 5) + 1 else pyInt (max v 5)) := by
    intro u v huv
    have hm : pyInt (max u 5) ≤ pyInt (max v 5) := by
      rw [Quantize.pyInt_floor (le_trans (by norm_num) (le_max_right _ _)), Quantize.pyInt_floor (le_trans (by norm_num) (le_max_right _ _))]
      exact Int.floor_le_floor (max_le_max_right _ huv)
    split_ifs <;> omega
  rcases hp with h1 | h1
  · by_cases ht : t < 3
    · simp only [ksizeOf, if_pos (lt_of_le_of_lt h ht), if_pos ht]
      exact key _ _ (by linarith)
    · by_cases hs : s < 3
      · have e1 : ksizeOf s ≤ 9 := by
          simp only [ksizeOf, if_pos hs]
          have h9 : pyInt (max (33 / 10 * s) 5) < 10 := by
            rw [Quantize.pyInt_floor (le_trans (by norm_num) (le_max_right _ _)), Int.floor_lt]
            exact max_lt (by push_cast; linarith) (by norm_num)
          split_ifs <;> omega
        have e2 : 9 ≤ ksizeOf t := by
          simp only [ksizeOf, if_neg ht, if_pos h1]
          have h8 : 8 ≤ pyInt (max (29 / 10 * t) 5) := by
            rw [Quantize.pyInt_floor (le_trans (by norm_num) (le_max_right _ _))]
            apply Int.le_floor.2
            apply le_max_of_le_left
            push_cast; linarith
          split_ifs <;> omega
        omega
      · simp only [ksizeOf, if_neg hs, if_neg ht, if_pos (lt_of_le_of_lt h h1), if_pos h1]
        exact key _ _ (by linarith)
  · have a1 : ¬ s < 3 := by linarith
    have a2 : ¬ s < 5 := by linarith
    have a3 : ¬ t < 3 := by linarith
    have a4 : ¬ t < 5 := by linarith
    simp only [ksizeOf, if_neg a1, if_neg a2, if_neg a3, if_neg a4]
    exact key _ _ (by linarith)

/-- C88: `blur_gaussian_` returns empty images and images for a sigma below `eps` as they are, of whatever dtype. -/
theorem gaussian_kept (G : Gauss) (b : Backend) (ksize : Option Int) (eps sigma : ℚ) (im : Im)
    (h : im.h = 0 ∨ im.w = 0 ∨ im.c = some 0 ∨ sigma < eps) : blurGaussian G b ksize eps sigma im = some im := by
  rw [blurGaussian]
  by_cases he : empty im
  · rw [if_pos he]
  · rw [if_neg he]
    rcases h with h | h | h | h
    · simp [empty, h] at he
    · simp [empty, h] at he
    · simp [empty, h] at he
    · rw [if_pos h]

/-- C88: apart from these it raises exactly for float128 and for dtypes that OpenCV cannot blur if OpenCV was requested. -/
theorem gaussian_result_iff (G : Gauss) (b : Backend) (hb : b ≠ .unknown) (ksize : Option Int) (eps sigma : ℚ) (im : Im)
    (h0 : 0 < im.h ∧ 0 < im.w ∧ im.c ≠ some 0) (hs : eps ≤ sigma) :
    (blurGaussian G b ksize eps sigma im).isSome ↔ im.dt ≠ ⟨.f, 16⟩ ∧ (b = .cv2 → im.dt ∉ [⟨.u, 4⟩, ⟨.u, 8⟩, (⟨.i, 8⟩ : DType)]) := by
  have he : empty im = false := by simp [empty, h0.2.2]; omega
  rw [blurGaussian, if_neg (by simp [he]), if_neg (not_lt.2 hs)]
  by_cases h1 : im.dt = ⟨.f, 16⟩
  · simp [h1]
  · rw [if_neg h1]
    have hn : noCv im.dt = true ↔ im.dt ∈ [⟨.u, 4⟩, ⟨.u, 8⟩, (⟨.i, 8⟩ : DType)] := by simp [noCv, h1, or_assoc]
    cases b with
    | auto =>
      simp only [chosen, Option.bind_some]
      by_cases hc : noCv im.dt
      · simp [hc, h1]
      · simp [hc, h1]
    | cv2 =>
      simp only [chosen]
      by_cases hc : noCv im.dt = true
      · rw [if_pos hc]
        have := hn.1 hc
        simp only [Option.bind_none, Option.isSome_none, Bool.false_eq_true, false_iff]
        intro h; exact h.2 trivial this
      · rw [if_neg hc]
        have : im.dt ∉ [⟨.u, 4⟩, ⟨.u, 8⟩, (⟨.i, 8⟩ : DType)] := fun h => hc (hn.2 h)
        simp only [Option.bind_some, if_neg hc]
        rw [if_neg (by decide)]
        simp only [Option.isSome_some, true_iff]
        exact ⟨h1, fun _ => this⟩
    | scipy => simp [chosen, h1]
    | unknown => exact absurd rfl hb

/-- A filter that returns channels as they are. -/
def idle : Gauss := ⟨fun _ _ _ _ _ f => f, fun _ _ _ _ f => f⟩

example : (blurGaussian idle .cv2 none (1 / 1000) 1 (Conv.small ⟨.u, 4⟩ none)).isNone ∧
    (blurGaussian idle .auto none (1 / 1000) 1 (Conv.small ⟨.u, 4⟩ none)).isSome := by decide +kernel

/-- C88 is false for backends of other names: they are not rejected but taken for OpenCV. -/
theorem unknown_backend (G : Gauss) (ksize : Option Int) (eps sigma : ℚ) (im : Im) (hd : noCv im.dt = false) :
    blurGaussian G .unknown ksize eps sigma im = blurGaussian G .cv2 ksize eps sigma im := by
  simp [blurGaussian, chosen, hd]

/-- C88: Gaussian blur keeps shape and dtype, every component stays a value of the dtype, and no component leaves the range of its channel, for all
dtypes, backends, sigmas and sizes of kernels. -/
theorem gaussian_within (G : Gauss) (hG : Gaussian G) (b : Backend) (ksize : Option Int) (eps sigma : ℚ) (im r : Im) (hd : im.dt ∈ all) (hv : Valid im)
    (h0 : 0 < im.h ∧ 0 < im.w) (h : blurGaussian G b ksize eps sigma im = some r) :
    r.dt = im.dt ∧ r.shape = im.shape ∧ ∀ k, ∀ lo' hi' : ℚ, Holds im.dt lo' → Holds im.dt hi' →
      (∀ y x, y < im.h → x < im.w → lo' ≤ im.px y x k ∧ im.px y x k ≤ hi') →
      ∀ y x, y < im.h → x < im.w → (lo' ≤ r.px y x k ∧ r.px y x k ≤ hi') ∧ Holds im.dt (r.px y x k) := by
  have hkeep : r = im → r.dt = im.dt ∧ r.shape = im.shape ∧ ∀ k, ∀ lo' hi' : ℚ, Holds im.dt lo' → Holds im.dt hi' →
      (∀ y x, y < im.h → x < im.w → lo' ≤ im.px y x k ∧ im.px y x k ≤ hi') →
      ∀ y x, y < im.h → x < im.w → (lo' ≤ r.px y x k ∧ r.px y x k ≤ hi') ∧ Holds im.dt (r.px y x k) := by
    intro e; subst e
    exact ⟨rfl, rfl, fun k lo' hi' _ _ hr y x hy hx => ⟨hr y x hy hx, hv y x k⟩⟩
  rw [blurGaussian] at h
  by_cases he : empty im
  · rw [if_pos he] at h; exact hkeep (Option.some.inj h).symm
  · rw [if_neg he] at h
    by_cases hs : sigma < eps
    · rw [if_pos hs] at h; exact hkeep (Option.some.inj h).symm
    · rw [if_neg hs] at h
      by_cases hf : im.dt = ⟨.f, 16⟩
      · rw [if_pos hf] at h; cases h
      · rw [if_neg hf, Option.bind_eq_some_iff] at h
        obtain ⟨b', _, h⟩ := h
        by_cases hb : b' = .scipy
        · rw [if_pos hb] at h
          have h := (Option.some.inj h).symm
          subst h
          refine ⟨rfl, rfl, ?_⟩
          intro k lo' hi' hlo hhi hr y x hy hx
          obtain ⟨s1, s2⟩ := (hG (spInner im.dt) im.h im.w sigma h0.1 h0.2).2 (fun y x => im.px y x k)
            (fun hk y x => (hv y x k).2.2 (fun hk' => hk (spInner_float _ hk')))
          obtain ⟨s3, s4⟩ := s1 lo' hi' hr y x hy hx
          exact back_between _ _ hd (spInner_wider _ hd) lo' hi' _ hlo hhi s3 s4 (fun hk => s2 hk y x)
        · rw [if_neg hb] at h
          split at h
          · cases h
          · have h := (Option.some.inj h).symm
            subst h
            refine ⟨rfl, rfl, ?_⟩
            intro k lo' hi' hlo hhi hr y x hy hx
            have key : (lo' ≤ cvApplied G (cvInner im.dt) (ksizeUsed sigma ksize) sigma im.h im.w (fun y x => im.px y x k) y x ∧
                cvApplied G (cvInner im.dt) (ksizeUsed sigma ksize) sigma im.h im.w (fun y x => im.px y x k) y x ≤ hi') ∧
                ((cvInner im.dt).kind ≠ .f → ∃ n : Int, cvApplied G (cvInner im.dt) (ksizeUsed sigma ksize) sigma im.h im.w (fun y x => im.px y x k) y x = n) := by
              rw [cvApplied]
              split_ifs
              · obtain ⟨s1, s2⟩ := (hG (cvInner im.dt) im.h im.w sigma h0.1 h0.2).1 (ksizeUsed sigma ksize) (fun y x => im.px y x k)
                  (fun hk y x => (hv y x k).2.2 (fun hk' => hk (cvInner_float _ hk')))
                exact ⟨s1 lo' hi' hr y x hy hx, fun hk => s2 hk y x⟩
              · exact ⟨hr y x hy hx, fun hk => (hv y x k).2.2 (fun hk' => hk (cvInner_float _ hk'))⟩
            exact back_between _ _ hd (cvInner_wider _ hd) lo' hi' _ hlo hhi key.1.1 key.1.2 key.2

/-- Filters that copy the pixel to the left. -/
def shifting : Gauss := ⟨fun _ _ _ _ _ f y x => f y (x - 1), fun _ _ _ _ f y x => f y (x - 1)⟩

example : Gaussian shifting := by
  intro d h w s h1 h2
  have key : ∀ f : Plane, (d.kind ≠ .f → ∀ y x, ∃ n : Int, f y x = n) →
      (∀ a b, Range h w f a b → Range h w (fun y x => f y (x - 1)) a b) ∧ (d.kind ≠ .f → ∀ y x, ∃ n : Int, f y (x - 1) = n) :=
    fun f hf => ⟨fun a b hr y x hy hx => hr y (x - 1) hy (by omega), fun hk y x => hf hk y (x - 1)⟩
  exact ⟨fun k f hf => key f hf, fun f hf => key f hf⟩

example : (blurGaussian shifting .auto none (1 / 1000) 1 (Conv.small ⟨.i, 4⟩ none)).map (fun r => (r.dt, r.px 1 2 0)) = some (⟨.i, 4⟩, 11) := by
  decide +kernel

/-- C88: every channel is blurred on its own, as an image with that single channel would be. -/
theorem gaussian_channels (G : Gauss) (b : Backend) (ksize : Option Int) (eps sigma : ℚ) (im r : Im) (hc : im.c ≠ some 0)
    (h : blurGaussian G b ksize eps sigma im = some r) (k : Nat) :
    ∃ s, blurGaussian G b ksize eps sigma (channel im k) = some s ∧ ∀ y x, r.px y x k = s.px y x 0 := by
  have he : empty (channel im k) = empty im := by simp [empty, channel, hc]
  rw [blurGaussian] at h ⊢
  rw [he]
  by_cases h1 : empty im
  · rw [if_pos h1] at h ⊢
    cases h
    exact ⟨_, rfl, fun y x => rfl⟩
  · rw [if_neg h1] at h ⊢
    by_cases h2 : sigma < eps
    · rw [if_pos h2] at h ⊢
      cases h
      exact ⟨_, rfl, fun y x => rfl⟩
    · rw [if_neg h2] at h ⊢
      have hdt : (channel im k).dt = im.dt := rfl
      rw [hdt]
      by_cases h3 : im.dt = ⟨.f, 16⟩
      · rw [if_pos h3] at h; cases h
      · rw [if_neg h3] at h ⊢
        rw [Option.bind_eq_some_iff] at h
        obtain ⟨b', e, h⟩ := h
        rw [e, Option.bind_some]
        by_cases h4 : b' = .scipy
        · rw [if_pos h4] at h ⊢
          cases h
          exact ⟨_, rfl, fun y x => rfl⟩
        · rw [if_neg h4] at h ⊢
          by_cases h5 : noCv im.dt = true
          · rw [if_pos h5] at h; cases h
          · rw [if_neg h5] at h ⊢
            cases h
            exact ⟨_, rfl, fun y x => rfl⟩

/-- C88: an even size of the kernel means the next odd one; sizes below zero leave the image as it is. -/
theorem gaussian_ksize (G : Gauss) (b : Backend) (eps sigma : ℚ) (im : Im) (n : Int) :
    (n % 2 = 0 → blurGaussian G b (some n) eps sigma im = blurGaussian G b (some (n + 1)) eps sigma im) ∧
    (n < 0 → noCv im.dt = false → im.dt ∈ all → Valid im → b ≠ .scipy → ∃ r, blurGaussian G b (some n) eps sigma im = some r ∧ SameIm r im) := by
  constructor
  · intro hn
    have : ksizeUsed sigma (some n) = ksizeUsed sigma (some (n + 1)) := by
      simp only [ksizeUsed]; split_ifs <;> omega
    simp only [blurGaussian, gaussCv, this]
  · intro hn hd hall hv hb
    have hsame : SameIm im im := ⟨rfl, rfl, fun y x k _ _ _ => rfl⟩
    rw [blurGaussian]
    by_cases h1 : empty im
    · rw [if_pos h1]; exact ⟨im, rfl, hsame⟩
    · rw [if_neg h1]
      by_cases h2 : sigma < eps
      · rw [if_pos h2]; exact ⟨im, rfl, hsame⟩
      · rw [if_neg h2, if_neg (by intro h; rw [h] at hd; revert hd; decide)]
        have hc : (chosen b im.dt).bind (fun b' => if b' = .scipy then some (gaussSp G sigma im) else if noCv im.dt then none
            else some (gaussCv G sigma (some n) im)) = some (gaussCv G sigma (some n) im) := by
          cases b <;> simp_all [chosen]
        rw [hc]
        refine ⟨_, rfl, rfl, rfl, ?_⟩
        intro y x k _ _ _
        have hk : ¬ ksizeUsed sigma (some n) > 0 := by simp only [ksizeUsed]; split_ifs <;> omega
        simp only [gaussCv, cvApplied, if_neg hk]
        exact back_holds _ _ hall (cvInner_wider _ hall) _ (hv y x k) (fun hk => (hv y x k).2.2 (fun hk' => hk (cvInner_float _ hk')))

example : (blurGaussian shifting .auto (some (-2)) (1 / 1000) 1 (Conv.small ⟨.i, 1⟩ none)).map (fun r => r.px 1 2 0) = some 12 ∧
    (blurGaussian shifting .auto (some 0) (1 / 1000) 1 (Conv.small ⟨.i, 1⟩ none)).map (fun r => r.px 1 2 0) = some 11 := by decide +kernel

/-- C88: `blur_avg_` returns empty images and images for windows of no size or of one pixel as they are, of whatever dtype. -/
theorem average_kept (rnd : DType → ℚ → ℚ) (kh kw : Int) (im : Im)
    (h : im.h = 0 ∨ im.w = 0 ∨ im.c = some 0 ∨ kh ≤ 0 ∨ kw ≤ 0 ∨ (kh = 1 ∧ kw = 1)) : blurAvg rnd kh kw im = some im := by
  rw [blurAvg]
  by_cases he : empty im
  · rw [if_pos he]
  · rw [if_neg he]
    rcases h with h | h | h | h
    · simp [empty, h] at he
    · simp [empty, h] at he
    · simp [empty, h] at he
    · rw [if_pos h]

/-- C88: for all other windows it raises exactly for the dtypes that are not supported, keeps shape and dtype, and computes at every pixel the mean of
the pixels under the window, mirrored at the borders: a closest integer for integer images, whether it is above one half for bool images, the mean
itself for floats. No component leaves the range of its channel. -/
theorem average (rnd : DType → ℚ → ℚ) (hr : Nearest rnd) (kh kw : Nat) (im : Im) (hall : im.dt ∈ all) (hv : Valid im)
    (h0 : 0 < im.h ∧ 0 < im.w ∧ im.c ≠ some 0) (hk : 0 < kh ∧ 0 < kw) (h1 : (kh, kw) ≠ (1, 1)) :
    (im.dt ∉ Conv.supported → blurAvg rnd kh kw im = none) ∧
    (im.dt ∈ Conv.supported → ∃ r, blurAvg rnd kh kw im = some r ∧ r.dt = im.dt ∧ r.shape = im.shape ∧
      ∃ sy sx, Conv.Mirrored im.h sy ∧ Conv.Mirrored im.w sx ∧ ∀ k, ∀ y x : Nat,
        ∃ m : ℚ, m = (∑ i ∈ Finset.range kh, ∑ j ∈ Finset.range kw,
          im.px (sy ((y : Int) + i - (kh / 2 : Nat))) (sx ((x : Int) + j - (kw / 2 : Nat))) k) / (kh * kw) ∧
        (im.dt.kind = .f → r.px y x k = m) ∧ (im.dt.kind = .b → r.px y x k = if m > 1 / 2 then 1 else 0) ∧
        (im.dt.kind ≠ .f → im.dt.kind ≠ .b → |r.px y x k - m| ≤ 1 / 2) ∧ Holds im.dt (r.px y x k) ∧
        ∀ a b : ℚ, Holds im.dt a → Holds im.dt b → (∀ y x, y < im.h → x < im.w → a ≤ im.px y x k ∧ im.px y x k ≤ b) →
          a ≤ r.px y x k ∧ r.px y x k ≤ b) := by
  have he : empty im = false := by simp [empty, h0.2.2]; omega
  have hrej : Conv.rejected im.dt = true ↔ im.dt ∉ Conv.supported := by
    simp only [all, List.mem_cons, List.not_mem_nil, or_false] at hall
    rcases hall with h | h | h | h | h | h | h | h | h | h | h | h | h <;> rw [h] <;> decide
  have hk1 : ¬ ((kh : Int) ≤ 0 ∨ (kw : Int) ≤ 0 ∨ ((kh : Int) = 1 ∧ (kw : Int) = 1)) := by
    rintro (h | h | ⟨h, h'⟩)
    · omega
    · omega
    · exact h1 (by rw [show kh = 1 by omega, show kw = 1 by omega])
  constructor
  · intro h
    rw [blurAvg, if_neg (by simp [he]), if_neg hk1, if_pos (hrej.2 h)]
  · intro h
    refine ⟨averaged rnd kh kw im, ?_, rfl, rfl, Conv.reflect im.h, Conv.reflect im.w, Conv.reflect_mirrored _ h0.1, Conv.reflect_mirrored _ h0.2.1, ?_⟩
    · rw [blurAvg, if_neg (by simp [he]), if_neg hk1, if_neg (fun h' => hrej.1 h' h), Int.toNat_natCast, Int.toNat_natCast]
    · intro k y x
      obtain ⟨m, hm⟩ : ∃ m, m = Conv.weighted (box kh kw) im.h im.w (fun y x => im.px y x k) y x := ⟨_, rfl⟩
      have hb := box_average kh kw hk.1 hk.2
      have hrange : ∀ a b : ℚ, (∀ y x, y < im.h → x < im.w → a ≤ im.px y x k ∧ im.px y x k ≤ b) → a ≤ m ∧ m ≤ b := by
        intro a b hab
        rw [hm]
        exact Conv.weighted_range _ hb _ _ _ a b h0.1 h0.2.1 hab y x
      have hpx : (averaged rnd kh kw im).px y x k = back (Conv.inner im.dt) im.dt (rnd (Conv.inner im.dt) m) := by
        simp only [averaged]
        rw [restored_back _ hall, ← hm]
      have hlh : (lo im.dt : ℚ) ≤ m ∧ m ≤ hi im.dt := hrange _ _ (fun y x _ _ => ⟨(hv y x k).1, (hv y x k).2.1⟩)
      have hH : Holds im.dt (lo im.dt) ∧ Holds im.dt (hi im.dt) := by
        have : (lo im.dt : ℚ) ≤ hi im.dt := le_trans hlh.1 hlh.2
        exact ⟨⟨le_refl _, this, fun _ => ⟨_, rfl⟩⟩, ⟨this, le_refl _, fun _ => ⟨_, rfl⟩⟩⟩
      -- the rounded mean stays between two values of the dtype
      have hkind : (Conv.inner im.dt).kind ≠ .f → im.dt.kind ≠ .f := by
        intro h1 h2
        apply h1
        simp only [Conv.inner]
        split_ifs with h3 h4
        · rfl
        · rw [h4] at h2; cases h2
        · exact h2
      have hrnd : ∀ a b : ℚ, Holds im.dt a → Holds im.dt b → a ≤ m → m ≤ b →
          (a ≤ rnd (Conv.inner im.dt) m ∧ rnd (Conv.inner im.dt) m ≤ b) := by
        intro a b ha hb' h1 h2
        by_cases hf : (Conv.inner im.dt).kind = .f
        · rw [(hr _ _).1 hf]; exact ⟨h1, h2⟩
        · obtain ⟨n, hn⟩ := ha.2.2 (hkind hf)
          obtain ⟨n', hn'⟩ := hb'.2.2 (hkind hf)
          rw [hn] at h1 ⊢; rw [hn'] at h2 ⊢
          exact nearest_between rnd hr _ hf n n' m h1 h2
      have hbetween : ∀ a b : ℚ, Holds im.dt a → Holds im.dt b → a ≤ m → m ≤ b →
          (a ≤ back (Conv.inner im.dt) im.dt (rnd (Conv.inner im.dt) m) ∧ back (Conv.inner im.dt) im.dt (rnd (Conv.inner im.dt) m) ≤ b) ∧
            Holds im.dt (back (Conv.inner im.dt) im.dt (rnd (Conv.inner im.dt) m)) := by
        intro a b ha hb' h1 h2
        obtain ⟨q1, q2⟩ := hrnd a b ha hb' h1 h2
        exact back_between _ _ hall (inner_wider _ hall) a b _ ha hb' q1 q2 (fun hf => ((hr _ _).2 hf).1)
      refine ⟨m, ?_, ?_, ?_, ?_, ?_, ?_⟩
      · rw [hm, Conv.weighted_sum]
        simp only [box]
        rw [eq_div_iff (by have h1 : (0 : ℚ) < kh := by exact_mod_cast hk.1
                           have h2 : (0 : ℚ) < kw := by exact_mod_cast hk.2
                           positivity), Finset.sum_mul]
        apply Finset.sum_congr rfl
        intro i _
        rw [Finset.sum_mul]
        apply Finset.sum_congr rfl
        intro j _
        have h1 : (kh : ℚ) ≠ 0 := by exact_mod_cast (show kh ≠ 0 by omega)
        have h2 : (kw : ℚ) ≠ 0 := by exact_mod_cast (show kw ≠ 0 by omega)
        field_simp
      · intro hf
        rw [hpx]
        have hinf : (Conv.inner im.dt).kind = .f := by by_contra hc; exact hkind hc hf
        rw [(hr _ _).1 hinf]
        exact back_holds _ _ hall (inner_wider _ hall) _ ⟨hlh.1, hlh.2, fun hc => absurd hf hc⟩ (fun hc => absurd hinf hc)
      · intro hb'
        rw [hpx, back, if_pos hb']
        have : (Conv.inner im.dt).kind = .f := by
          have : im.dt = ⟨.b, 1⟩ := by
            simp only [all, List.mem_cons, List.not_mem_nil, or_false] at hall
            rcases hall with h | h | h | h | h | h | h | h | h | h | h | h | h <;> rw [h] at hb' ⊢ <;> cases hb'
          rw [this]; decide
        rw [(hr _ _).1 this]
      · intro hf hb'
        rw [hpx]
        have hin : (Conv.inner im.dt).kind ≠ .f := by
          simp only [Conv.inner]
          split_ifs with h3 h4
          · rcases h3 with h3 | h3
            · rw [h3] at hb'; exact absurd rfl hb'
            · rw [h3] at hf; exact absurd rfl hf
          · decide
          · exact hf
        obtain ⟨⟨n, hn⟩, hd⟩ := (hr (Conv.inner im.dt) m).2 hin
        obtain ⟨q1, q2⟩ := hrnd _ _ hH.1 hH.2 hlh.1 hlh.2
        rw [back_holds _ _ hall (inner_wider _ hall) _ ⟨q1, q2, fun _ => ⟨n, hn⟩⟩ (fun _ => ⟨n, hn⟩)]
        exact hd
      · rw [hpx]; exact (hbetween _ _ hH.1 hH.2 hlh.1 hlh.2).2
      · intro a b ha hb' hab
        rw [hpx]
        obtain ⟨q1, q2⟩ := hrange a b hab
        exact (hbetween a b ha hb' q1 q2).1

/-- Rounding half to even. -/
def even (d : DType) (v : ℚ) : ℚ := if d.kind = .f then v else npRound v

example : Nearest even := by
  intro d v
  refine ⟨fun h => if_pos h, fun h => ?_⟩
  rw [even, if_neg h]
  exact ⟨⟨_, rfl⟩, Props.npRound_dist v⟩

example : ((blurAvg even 2 3 (Conv.small ⟨.u, 1⟩ (some 2))).map (fun r => (r.px 0 0 0, r.px 1 1 1))) = some (6, 106) := by decide +kernel
example : (blurAvg even 3 3 (Conv.small ⟨.i, 4⟩ none)).isNone ∧ (blurAvg even 1 1 (Conv.small ⟨.i, 4⟩ none)).isSome := by decide +kernel

/-- C88: `AverageBlur` accepts exactly a number, a parameter, two numbers, two parameters, or two entries each of which is a number or has at least
two numbers. -/
theorem average_arguments (k : KSpec) : (parseK k).isSome ↔
    (∃ q, k = .num q) ∨ (∃ i, k = .param i) ∨ (∃ i j, k = .iter [.param i, .param j]) ∨
    (∃ a b, k = .iter [a, b] ∧ ∀ e ∈ [a, b], (∃ q, e = .num q) ∨ ∃ l, e = .nums l ∧ 2 ≤ l.length) := by
  have hent : ∀ e : Entry, (parseEntry e).isSome ↔ (∃ q, e = .num q) ∨ ∃ l, e = .nums l ∧ 2 ≤ l.length := by
    intro e
    cases e with
    | num q => simp [parseEntry]
    | nums l => match l with
      | [] => simp [parseEntry]
      | [a] => simp [parseEntry]
      | a :: b :: t => simp [parseEntry]
    | param i => simp [parseEntry]
    | other => simp [parseEntry]
  cases k with
  | num q => simp [parseK]
  | param i => simp [parseK]
  | other => simp [parseK]
  | iter l =>
    match l with
    | [] => simp [parseK]
    | [a] => cases a <;> simp [parseK]
    | a :: b :: c :: t => cases a <;> cases b <;> simp [parseK]
    | [a, b] =>
      have hbind : ((parseEntry a).bind (fun x => (parseEntry b).map (fun y => KParam.two x y))).isSome ↔ (parseEntry a).isSome ∧ (parseEntry b).isSome := by
        cases parseEntry a <;> cases parseEntry b <;> simp
      have hall : ((parseEntry a).isSome ∧ (parseEntry b).isSome) ↔ (∀ e ∈ [a, b], (∃ q, e = .num q) ∨ ∃ l, e = .nums l ∧ 2 ≤ l.length) := by
        rw [hent a, hent b]; simp
      have hrhs : ((∃ q, KSpec.iter [a, b] = .num q) ∨ (∃ i, KSpec.iter [a, b] = .param i) ∨ (∃ i j, KSpec.iter [a, b] = .iter [.param i, .param j]) ∨
          (∃ a' b', KSpec.iter [a, b] = .iter [a', b'] ∧ ∀ e ∈ [a', b'], (∃ q, e = .num q) ∨ ∃ l, e = .nums l ∧ 2 ≤ l.length)) ↔
          ((∃ i, a = .param i) ∧ (∃ j, b = .param j)) ∨ ((parseEntry a).isSome ∧ (parseEntry b).isSome) := by
        rw [hall]
        constructor
        · rintro (⟨q, h⟩ | ⟨i, h⟩ | ⟨i, j, h⟩ | ⟨a', b', h, h'⟩)
          · cases h
          · cases h
          · cases h; exact Or.inl ⟨⟨i, rfl⟩, ⟨j, rfl⟩⟩
          · cases h; exact Or.inr h'
        · rintro (⟨⟨i, h⟩, ⟨j, h'⟩⟩ | h)
          · subst h; subst h'; exact Or.inr (Or.inr (Or.inl ⟨i, j, rfl⟩))
          · exact Or.inr (Or.inr (Or.inr ⟨a, b, rfl, h⟩))
      rw [hrhs]
      cases a <;> cases b <;> simp only [parseK] <;> first | (rw [hbind]; simp) | simp [parseEntry]

/-- C88: what the sizes of the windows are then: a number means that size (without its fraction) along both axes, two numbers a size between
them, the same along both axes, for every image anew, and two entries that are not both numbers a size per axis: first height, then width. -/
theorem average_sizes (draw : Draw → Nat → Nat → Int) (hd : ∀ (d : Draw) j i, d.Allows (draw d j i)) (i : Nat) :
    (∀ q, ∃ p, parseK (.num q) = some p ∧ avgSizes draw p i = (pyInt q, pyInt q)) ∧
    (∀ a b, ∃ p n, parseK (.iter [.num a, .num b]) = some p ∧ avgSizes draw p i = (n, n) ∧
      min (pyInt a) (pyInt b) ≤ n ∧ n ≤ max (pyInt a) (pyInt b)) ∧
    (∀ a c d, ∃ p n, parseK (.iter [.num a, .nums [c, d]]) = some p ∧ avgSizes draw p i = (pyInt a, n) ∧
      min (pyInt c) (pyInt d) ≤ n ∧ n ≤ max (pyInt c) (pyInt d)) ∧
    (∀ a b d, ∃ p n, parseK (.iter [.nums [a, b], .num d]) = some p ∧ avgSizes draw p i = (n, pyInt d) ∧
      min (pyInt a) (pyInt b) ≤ n ∧ n ≤ max (pyInt a) (pyInt b)) ∧
    (∀ a b c d, ∃ p n m, parseK (.iter [.nums [a, b], .nums [c, d]]) = some p ∧ avgSizes draw p i = (n, m) ∧
      (min (pyInt a) (pyInt b) ≤ n ∧ n ≤ max (pyInt a) (pyInt b)) ∧ (min (pyInt c) (pyInt d) ≤ m ∧ m ≤ max (pyInt c) (pyInt d))) ∧
    (∀ u, ∃ p, parseK (.param u) = some p ∧ avgSizes draw p i = (draw (.param u) 0 i, draw (.param u) 0 i)) ∧
    (∀ u v, ∃ p, parseK (.iter [.param u, .param v]) = some p ∧ avgSizes draw p i = (draw (.param u) 0 i, draw (.param v) 1 i)) := by
  have hc : ∀ n j, draw (.const n) j i = n := fun n j => hd (.const n) j i
  have hr : ∀ a b j, min a b ≤ draw (.range a b) j i ∧ draw (.range a b) j i ≤ max a b := fun a b j => hd (.range a b) j i
  refine ⟨?_, ?_, ?_, ?_, ?_, ?_, ?_⟩
  · intro q; exact ⟨_, rfl, by simp [avgSizes, hc]⟩
  · intro a b; exact ⟨_, _, rfl, rfl, hr _ _ _⟩
  · intro a c d; exact ⟨_, draw (.range (pyInt c) (pyInt d)) 1 i, rfl, by simp [avgSizes, hc], hr _ _ _⟩
  · intro a b d; exact ⟨_, draw (.range (pyInt a) (pyInt b)) 0 i, rfl, by simp [avgSizes, hc], hr _ _ _⟩
  · intro a b c d; exact ⟨_, _, _, rfl, rfl, hr _ _ _, hr _ _ _⟩
  · intro u; exact ⟨_, rfl, rfl⟩
  · intro u v; exact ⟨_, rfl, rfl⟩

/-- C88 is false for entries with more than two numbers: the others are ignored without an error. -/
theorem average_ignored (a b c : ℚ) (l : List ℚ) : parseK (.iter [.nums (a :: b :: l), .num c]) = parseK (.iter [.nums [a, b], .num c]) := rfl

/-- Draws the smallest of the allowed sizes. -/
def least : Draw → Nat → Nat → Int
  | .const n, _, _ => n
  | .range a b, _, _ => min a b
  | .param _, _, i => i

example : ∀ (d : Draw) j i, d.Allows (least d j i) := by
  intro d j i
  cases d with
  | const n => rfl
  | range a b => exact ⟨le_refl _, by simp [least]⟩
  | param u => trivial

/-- C88: all blurring augmenters work image by image: image `i` of the result is made of image `i` and its samples. -/
theorem batch (f : Nat → Im → Option Im) (images r : List Im) (h : each f images = some r) :
    r.length = images.length ∧ ∀ (k : Nat) im, images[k]? = some im → ∃ o, r[k]? = some o ∧ f k im = some o := by
  have hl := mapM_len _ _ _ h
  rw [List.length_zipIdx] at hl
  refine ⟨hl, ?_⟩
  intro k im hk
  exact mapM_nth _ _ _ h k (im, k) (by rw [List.getElem?_zipIdx, hk]; simp)

example : ((avgBatch even least (.two (.const 1) (.param 0)) [Conv.small ⟨.u, 1⟩ none, Conv.small ⟨.u, 1⟩ none, Conv.small ⟨.u, 1⟩ none]).map
    (fun r => r.map (fun o => o.px 1 0 0))) = some [10, 10, 10] := by decide +kernel

/-- C88: `MedianBlur` keeps shape and dtype and gives every pixel of every channel the median of the pixels under the window, whose size is the next
odd number, the borders being repeated: a value that occurs there, with more than half of the pixels not above and more than half not below it. -/
theorem median_spec (n : Int) (hn : 1 < n) (im : Im) (h0 : 0 < im.h ∧ 0 < im.w ∧ im.c ≠ some 0) :
    (median n im).dt = im.dt ∧ (median n im).shape = im.shape ∧ ∃ k : Nat, k % 2 = 1 ∧ ((k : Int) = n ∨ (k : Int) = n + 1) ∧
      ∃ sy sx, Repeated im.h sy ∧ Repeated im.w sx ∧ ∀ y x c : Nat,
        (∃ i j, i < k ∧ j < k ∧ (median n im).px y x c = im.px (sy ((y : Int) + i - (k / 2 : Nat))) (sx ((x : Int) + j - (k / 2 : Nat))) c) ∧
        k * k < 2 * (∑ i ∈ Finset.range k, ∑ j ∈ Finset.range k,
          if im.px (sy ((y : Int) + i - (k / 2 : Nat))) (sx ((x : Int) + j - (k / 2 : Nat))) c ≤ (median n im).px y x c then 1 else 0) ∧
        k * k < 2 * (∑ i ∈ Finset.range k, ∑ j ∈ Finset.range k,
          if (median n im).px y x c ≤ im.px (sy ((y : Int) + i - (k / 2 : Nat))) (sx ((x : Int) + j - (k / 2 : Nat))) c then 1 else 0) := by
  have he : empty im = false := by simp [empty, h0.2.2]; omega
  have hm : median n im = medianed (odd n).toNat im := by rw [median, if_pos ⟨hn, he⟩]
  rw [hm]
  obtain ⟨o1, o2, _⟩ := odd_spec n
  refine ⟨rfl, rfl, (odd n).toNat, by omega, by omega, edge im.h, edge im.w, edge_repeated _, edge_repeated _, ?_⟩
  intro y x c
  obtain ⟨k, hk⟩ : ∃ k, k = (odd n).toNat := ⟨_, rfl⟩
  rw [← hk]
  have hko : k % 2 = 1 := by omega
  have hlen := window_length k im.h im.w (fun y x => im.px y x c) y x
  have hodd : (window k im.h im.w (fun y x => im.px y x c) y x).length % 2 = 1 := by
    rw [hlen, Nat.mul_mod, hko]
  obtain ⟨m1, m2, m3⟩ := middle_median _ hodd
  rw [hlen, window_count] at m2 m3
  have hpx : (medianed k im).px y x c = middle (window k im.h im.w (fun y x => im.px y x c) y x) := rfl
  rw [hpx]
  refine ⟨window_mem k _ _ _ _ _ _ m1, ?_, ?_⟩
  · simpa only [decide_eq_true_eq] using m2
  · simpa only [decide_eq_true_eq] using m3

example : (median 2 (Conv.small ⟨.u, 1⟩ none)).px 0 0 0 = 1 ∧ (median 2 (Conv.small ⟨.u, 1⟩ none)).px 1 1 0 = 10 := by decide +kernel

/-- C88: samples up to one and empty images: nothing is changed. -/
theorem median_kept (n : Int) (im : Im) (h : n ≤ 1 ∨ im.h = 0 ∨ im.w = 0 ∨ im.c = some 0) : median n im = im := by
  rw [median, if_neg]
  rintro ⟨h1, h2⟩
  rcases h with h | h | h | h
  · omega
  · simp [empty, h] at h2
  · simp [empty, h] at h2
  · simp [empty, h] at h2

/-- C88: the median invents no values: all of its values are values of the channel, so that values of a dtype stay that and no range is left. -/
theorem median_values (n : Int) (im : Im) (y x c : Nat) (hy : y < im.h) (hx : x < im.w) :
    ∃ y' x', y' < im.h ∧ x' < im.w ∧ (median n im).px y x c = im.px y' x' c := by
  by_cases h : n ≤ 1 ∨ im.h = 0 ∨ im.w = 0 ∨ im.c = some 0
  · rw [median_kept n im h]; exact ⟨y, x, hy, hx, rfl⟩
  · have he : empty im = false := by
      simp only [not_or] at h
      simp [empty, h.2.2.2]; omega
    have hm : median n im = medianed (odd n).toNat im := by rw [median, if_pos ⟨by omega, he⟩]
    rw [hm]
    obtain ⟨o1, o2, _⟩ := odd_spec n
    have hodd : (window (odd n).toNat im.h im.w (fun y x => im.px y x c) y x).length % 2 = 1 := by
      rw [window_length, Nat.mul_mod, show (odd n).toNat % 2 = 1 by omega]
    obtain ⟨i, j, _, _, e⟩ := window_mem _ _ _ _ _ _ _ (middle_median _ hodd).1
    exact ⟨_, _, edge_lt _ (by omega) _, edge_lt _ (by omega) _, e⟩

/-- C88: an accepted integer, and every integer between the two of an accepted tuple, lead to an odd size of the window that is still within the
bounds (or to no change). -/
theorem median_sizes (a b n : Int) (h : (medianInit (.pair a b)).isSome) (h1 : min a b ≤ n) (h2 : n ≤ max a b) :
    odd n % 2 = 1 ∧ min a b ≤ odd n ∧ odd n ≤ max a b := by
  simp only [medianInit] at h
  split_ifs at h with hc
  · obtain ⟨o1, o2, o3⟩ := odd_spec n
    refine ⟨o1, by omega, ?_⟩
    by_cases hn : n % 2 = 1
    · rw [o3 hn]; exact h2
    · have : n < max a b := by
        rcases le_total a b with h' | h'
        · rw [max_eq_right h'] at h2 ⊢; omega
        · rw [max_eq_left h'] at h2 ⊢; omega
      omega
  · simp at h

example : (medianInit (.pair 7 3)).isSome ∧ (medianInit (.pair 3 6)).isNone ∧ (medianInit (.int 4)).isNone ∧ (medianInit (.list [1, 3, 5])).isSome := by
  decide

/-- C88: the matrix of `MotionBlur` has the next odd size and averages: its entries are not negative and their sum is one, for all directions and
angles. -/
theorem motion_average (rot : Nat → Plane → Plane) (hr : Rotates rot) (k direction : ℚ) (hk : 2 ≤ k) :
    (motion rot k direction).h = (motion rot k direction).w ∧ (motion rot k direction).h % 2 = 1 ∧
      (((motion rot k direction).h : Int) = pyInt k ∨ ((motion rot k direction).h : Int) = pyInt k + 1) ∧ Conv.Average (motion rot k direction) := by
  have hk2 : 2 ≤ pyInt k := by
    rw [Quantize.pyInt_floor (by linarith)]; exact Int.le_floor.2 (by exact_mod_cast hk)
  obtain ⟨o1, o2, _⟩ := odd_spec (pyInt k)
  obtain ⟨n, hn⟩ : ∃ n, n = (odd (pyInt k)).toNat := ⟨_, rfl⟩
  have hn1 : n % 2 = 1 := by omega
  have hn3 : 3 ≤ n := by omega
  have hm : motion rot k direction = normalised n (rot n (streak n direction)) := by rw [motion, hn]
  rw [hm]
  refine ⟨rfl, hn1, ?_, ?_⟩
  · show ((n : Int) = pyInt k ∨ (n : Int) = pyInt k + 1)
    omega
  · obtain ⟨r1, r2⟩ := hr n (streak n direction) hn1 (fun i j hi' _ => streak_nonneg n (by omega) direction i j hi')
    refine normalised_average n _ r1 ⟨n / 2, n / 2, by omega, by omega, ?_⟩
    rw [r2, streak_mid n (by omega) hn1]
    norm_num

example : Rotates (fun k m i j => m (k - 1 - i) (k - 1 - j)) := by
  intro k m hk h0
  refine ⟨fun i j _ _ => h0 _ _ (by omega) (by omega), ?_⟩
  simp only
  rw [show k - 1 - k / 2 = k / 2 by omega]

example : ((List.range 3).map (fun i => (motion (fun _ m => m) 2 (1 / 2)).k i 1)) = [191 / 381, 1 / 3, 21 / 127] := by decide +kernel

/-- C88: so `MotionBlur` keeps shape and dtype, and no component leaves the range of its channel. -/
theorem motion_within (rot : Nat → Plane → Plane) (hr : Rotates rot) (k direction : ℚ) (hk : 2 ≤ k) (im : Im) (hg : Conv.Good im) :
    ∃ r, motionBlur rot k direction im = some r ∧ r.dt = im.dt ∧ r.shape = im.shape ∧ ∀ c, c < im.c.getD 1 → ∀ a b : ℚ, Holds im.dt a → Holds im.dt b →
      (∀ y x, y < im.h → x < im.w → a ≤ im.px y x c ∧ im.px y x c ≤ b) → ∀ y x, a ≤ r.px y x c ∧ r.px y x c ≤ b := by
  obtain ⟨m1, m2, m3, m4⟩ := motion_average rot hr k direction hk
  have hpos : 0 < (motion rot k direction).h ∧ 0 < (motion rot k direction).w := by omega
  have hu : (List.replicate (im.c.getD 1) (some (motion rot k direction))).all Conv.usable = true := by
    rw [List.all_eq_true]
    intro a ha
    rw [(List.mem_replicate.1 ha).2]
    simp only [Conv.usable, Bool.and_eq_true, bne_iff_ne]
    omega
  obtain ⟨r, e1, e2, e3, e4⟩ := Conv.matrix_per_channel im hg _ (List.length_replicate) hu
  refine ⟨r, e1, e2, e3, ?_⟩
  intro c hc a b ha hb hab y x
  obtain ⟨s, f1, f2⟩ := (e4 y x c hc).2 _ (by rw [List.getElem?_replicate, if_pos hc])
  have hgc : Conv.Good (channel im c) := ⟨hg.h, hg.w, by simp [channel], hg.dt, fun y x _ => hg.valid y x c⟩
  obtain ⟨s', g1, g2⟩ := Conv.average_within (channel im c) hgc _ hpos m4 0 (by simp [channel]) a b hab ha hb
  rw [f1, Option.some.injEq] at g1
  subst g1
  rw [f2]
  exact g2 y x

/-- C88: the opposite direction is the same streak upside down, and with direction zero all pixels of the streak have the same weight; directions
beyond one mean one. -/
theorem motion_directions (k : Nat) (hk : 2 ≤ k) (direction : ℚ) (i j : Nat) (hi' : i < k) :
    streak k (-direction) i j = streak k direction (k - 1 - i) j ∧ streak k 0 i j = (if j = k / 2 then 127 else 0) ∧
      (1 ≤ direction → streak k direction i j = streak k 1 i j) ∧ (direction ≤ -1 → streak k direction i j = streak k (-1) i j) := by
  refine ⟨?_, ?_, ?_, ?_⟩
  · simp only [streak]
    rw [share_neg, show (1 : ℚ) - (1 - shareOf direction) = shareOf direction by ring]
    have := linspace_mirror (1 - shareOf direction) k i hk hi'
    rw [show (1 : ℚ) - (1 - shareOf direction) = shareOf direction by ring] at this
    rw [this]
  · simp only [streak]
    have : linspace (shareOf 0) (1 - shareOf 0) k i = 1 / 2 := by
      have hs : shareOf 0 = 1 / 2 := by norm_num [shareOf]
      rw [hs, linspace, if_neg (by omega)]
      norm_num
    rw [this]
    split_ifs
    · have : pyInt (1 / 2 * 255) = 127 := by decide +kernel
      exact_mod_cast this
    · rfl
  · intro h
    have : shareOf direction = shareOf 1 := by
      simp only [shareOf]; rw [max_eq_left (by linarith), min_eq_right h]; norm_num
    simp only [streak, this]
  · intro h
    have : shareOf direction = shareOf (-1) := by
      simp only [shareOf]; rw [max_eq_right h]; norm_num
    simp only [streak, this]

/-- C88: `blur_mean_shift_` keeps shape and dtype; images without channel axis and with one channel get the same components; empty images are kept;
it raises exactly for other dtypes than uint8 and for images that have neither one nor three channels. -/
theorem mean_shift (F : Shift) (s c : ℚ) (im : Im) :
    ((meanShift F s c im).isSome ↔ (im.h = 0 ∨ im.w = 0) ∨ (im.dt = ⟨.u, 1⟩ ∧ (im.c = none ∨ im.c = some 1 ∨ im.c = some 3))) ∧
    ((im.h = 0 ∨ im.w = 0) → meanShift F s c im = some im) ∧
    (∀ r, meanShift F s c im = some r → r.dt = im.dt ∧ r.shape = im.shape) ∧
    (∀ a b, meanShift F s c ⟨im.dt, im.h, im.w, none, im.px⟩ = some a → meanShift F s c ⟨im.dt, im.h, im.w, some 1, im.px⟩ = some b →
      ∀ y x, a.px y x 0 = b.px y x 0) := by
  have hk : (im.h = 0 ∨ im.w = 0) → meanShift F s c im = some im := fun h => by rw [meanShift, if_pos h]
  refine ⟨?_, hk, ?_, ?_⟩
  · by_cases h : im.h = 0 ∨ im.w = 0
    · rw [hk h]; simp [h]
    · rw [meanShift, if_neg h]
      by_cases hd : im.dt = ⟨.u, 1⟩
      · rw [if_neg (by simp [hd])]
        obtain ⟨dt, h', w', cc, px⟩ := im
        simp only at h hd ⊢
        rcases cc with _ | n
        · simp [hd]
        · match n with
          | 0 => simp [h]
          | 1 => simp [hd]
          | 2 => simp [h]
          | 3 => simp [hd]
          | n + 4 => simp [h]
      · rw [if_pos hd]; simp [h, hd]
  · intro r hr
    rw [meanShift] at hr
    by_cases h : im.h = 0 ∨ im.w = 0
    · rw [if_pos h] at hr; cases hr; exact ⟨rfl, rfl⟩
    · rw [if_neg h] at hr
      by_cases hd : im.dt ≠ ⟨.u, 1⟩
      · rw [if_pos hd] at hr; cases hr
      · rw [if_neg hd] at hr
        split at hr
        · rename_i hc; cases hr; exact ⟨rfl, by simp [Im.shape, hc]⟩
        · rename_i hc; cases hr; exact ⟨rfl, by simp [Im.shape, hc]⟩
        · rename_i hc; cases hr; exact ⟨rfl, by simp [Im.shape, hc]⟩
        · cases hr
  · intro a b ha hb y x
    simp only [meanShift] at ha hb
    by_cases h : im.h = 0 ∨ im.w = 0
    · rw [if_pos h] at ha hb; cases ha; cases hb; rfl
    · rw [if_neg h] at ha hb
      by_cases hd : im.dt ≠ ⟨.u, 1⟩
      · rw [if_pos hd] at ha; cases ha
      · rw [if_neg hd] at ha hb
        cases ha; cases hb; rfl

/-- C88 is false for images without channels: `MeanShiftBlur` raises for them, though it keeps other empty images. -/
theorem mean_shift_no_channels (F : Shift) : meanShift F 5 5 (Conv.small ⟨.u, 1⟩ (some 0)) = none := rfl

example : (meanShift (fun _ _ _ _ f y x k => f y x k + k) 5 5 (Conv.small ⟨.u, 1⟩ (some 1))).map (fun r => (r.px 1 2 0, r.c)) = some (12, some 1) := by
  decide +kernel

/-- C88: `BilateralBlur` raises, before it changes anything, exactly if some image has not three channels; otherwise it changes the images that are
not empty and whose diameter is not one. -/
theorem bilateral_images (F : Nat → Im → Im) (d : Nat → Int) (images : List Im) :
    ((bilateral F d images).isSome ↔ ∀ im ∈ images, im.c = some 3) ∧
    ∀ r, bilateral F d images = some r → r.length = images.length ∧ ∀ (k : Nat) im, images[k]? = some im →
      r[k]? = some (if d k = 1 ∨ im.h = 0 ∨ im.w = 0 then im else F k im) := by
  by_cases h : images.all (fun im => im.c == some 3) = true
  · have h' : ∀ im ∈ images, im.c = some 3 := by simpa using h
    refine ⟨by rw [bilateral, if_pos h]; simp only [Option.isSome_some, true_iff]; exact h', ?_⟩
    intro r hr
    rw [bilateral, if_pos h, Option.some.injEq] at hr
    subst hr
    refine ⟨by simp, ?_⟩
    intro k im hk
    rw [List.getElem?_map, List.getElem?_zipIdx, hk]
    have hc := h' im (List.mem_of_getElem? hk)
    simp only [Option.map_some, Nat.zero_add]
    have he : empty im = true ↔ im.h = 0 ∨ im.w = 0 := by simp [empty, hc]
    congr 1
    by_cases h1 : d k = 1
    · simp [h1]
    · by_cases h2 : im.h = 0 ∨ im.w = 0
      · rw [if_neg (by intro h3; rw [he.2 h2] at h3; cases h3.2), if_pos (Or.inr h2)]
      · rw [if_pos ⟨h1, by simpa using fun h3 => h2 (he.1 h3)⟩, if_neg (by intro h3; rcases h3 with h3 | h3; exacts [h1 h3, h2 h3])]
  · refine ⟨?_, ?_⟩
    · rw [bilateral, if_neg h]
      simp only [Option.isSome_none, Bool.false_eq_true, false_iff]
      intro h'; apply h; simpa using h'
    · intro r hr
      rw [bilateral, if_neg h] at hr; cases hr

example : (bilateral (fun _ im => im) (fun _ => 5) [Conv.small ⟨.u, 1⟩ (some 3), Conv.small ⟨.u, 1⟩ (some 1)]).isNone := by decide +kernel

/-- C88: `AverageBlur` uses the sizes drawn for this image: one for both axes, or one per axis. -/
theorem average_batch (rnd : DType → ℚ → ℚ) (draw : Draw → Nat → Nat → Int) (images r : List Im) (k : Nat) (im : Im) (hk : images[k]? = some im) :
    (∀ d, avgBatch rnd draw (.single d) images = some r → r[k]? = blurAvg rnd (draw d 0 k) (draw d 0 k) im) ∧
    (∀ a b, avgBatch rnd draw (.two a b) images = some r → r[k]? = blurAvg rnd (draw a 0 k) (draw b 1 k) im) := by
  constructor
  · intro d h
    obtain ⟨o, h1, h2⟩ := (batch _ _ _ h).2 k im hk
    rw [h1, ← h2]
    rfl
  · intro a b h
    obtain ⟨o, h1, h2⟩ := (batch _ _ _ h).2 k im hk
    rw [h1, ← h2]
    rfl

/-- C88: `GaussianBlur` uses the sigma drawn for this image; sigmas below 0.001 change nothing, all others blur. -/
theorem gaussian_batch (G : Gauss) (sigma : Nat → ℚ) (images r : List Im) (h : gaussBatch G sigma images = some r) (k : Nat) (im : Im)
    (hk : images[k]? = some im) :
    (sigma k < 1 / 1000 → r[k]? = some im) ∧ (1 / 1000 ≤ sigma k → r[k]? = blurGaussian G .auto none 0 (sigma k) im) := by
  obtain ⟨o, h1, h2⟩ := (batch _ _ _ h).2 k im hk
  rw [h1, ← h2]
  simp only [blurGaussian]
  constructor
  · intro hs
    rw [if_pos hs]
    split_ifs <;> rfl
  · intro hs
    rw [if_neg (not_lt.mpr hs), if_neg (not_lt.mpr (le_trans (by norm_num) hs))]

/-- C88: neither library ever sees an array of bools or of float16: these are blurred as float32. -/
theorem gaussian_single_precision (G G' : Gauss) (b : Backend) (ksize : Option Int) (eps sigma : ℚ) (im : Im) (hd : im.dt = ⟨.b, 1⟩ ∨ im.dt = ⟨.f, 2⟩)
    (h1 : G.cv ⟨.f, 4⟩ = G'.cv ⟨.f, 4⟩) (h2 : G.sp ⟨.f, 4⟩ = G'.sp ⟨.f, 4⟩) :
    blurGaussian G b ksize eps sigma im = blurGaussian G' b ksize eps sigma im := by
  have e1 : spInner im.dt = ⟨.f, 4⟩ := by rw [spInner, if_pos hd]
  have e2 : cvInner im.dt = ⟨.f, 4⟩ := by rw [cvInner, if_pos hd]
  simp only [blurGaussian, gaussSp, gaussCv, cvApplied, e1, e2, h1, h2]

/-- C88: the radii arrive in the order of the arguments, negative ones as zero; images with three channels are filtered as they are. -/
theorem mean_shift_radii (F : Shift) (s c : ℚ) (im : Im) (h0 : 0 < im.h ∧ 0 < im.w) (hd : im.dt = ⟨.u, 1⟩) (hc : im.c = some 3) :
    ∃ r, meanShift F s c im = some r ∧ r.px = F (max s 0) (max c 0) im.h im.w im.px := by
  obtain ⟨d, h, w, c', px⟩ := im
  simp only at h0 hd hc
  subst hd hc
  refine ⟨⟨⟨.u, 1⟩, h, w, some 3, fun y x k => F (max s 0) (max c 0) h w px y x k⟩, ?_, rfl⟩
  rw [meanShift, if_neg (by simp only; omega), if_neg (by simp)]
  rfl

end Imgaug.Blur
