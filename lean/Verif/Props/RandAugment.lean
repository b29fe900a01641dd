import Verif.Proofs.RandAugment
import Verif.Props.Handle
/-! C114: how strong the transformations of `RandAugment` are. -/
namespace Imgaug.RandAugment
open Imgaug Imgaug.Dtypes Imgaug.Params
variable {σ : Type}

/-- C114: each transformation of an image has the strength that belongs to a level `k` drawn from `m`: rotations have `k` degrees, shears and
translations `k / 30` of the documented maximum, squares that are cut out `k / 30` of 20/32 of the image, at most this maximum; images keep
`8 - k / 5` bits, at least 2, components from `256 - k * 256 / 30` on are inverted, and the factors of enhancements are `1 + 0.9 * k / 30` or
`1 - 0.9 * k / 30`, between 0.1 and 1.9. Levels are at most 3000 here, far above the documented 30. -/
theorem strengths (E : Env σ) (hE : E.Ok) (m : Param σ) (b : Int) (hb : b ≤ 3000) (hm : Yields m (intsBetween 0 b)) (hF : FloatProducts E m)
    (shearMax : ℚ) (h0 : 0 ≤ shearMax) (h1 : shearMax ≤ 360) :
    Follows (rotation E m) m (fun k v => |v| = k) ∧
    Follows (shear E shearMax m) m (fun k v => |v| = k / 30 * shearMax) ∧
    Follows (translation E m) m (fun k v => |v| = k / 30 * (33 / 100)) ∧
    Follows (cutoutSize E m) m (fun k v => v = min (k / 30) 1 * (20 / 32)) ∧
    Follows (bits E m) m (fun k v => v = 8 - min (⌊k / 5⌋ : ℚ) 6) ∧
    Follows (threshold E m) m (fun k v => v = max (256 - (⌊k / 30 * 256⌋ : ℚ)) 0) ∧
    Follows (enhance E m) m (fun k v => |v - 1| = min (k / 30) 1 * (9 / 10)) := by
  have nn : ∀ k ∈ intsBetween 0 b, 0 ≤ k ∧ k ≤ 3000 := by
    rintro k ⟨n, rfl, n0, n1⟩
    exact ⟨by exact_mod_cast n0, by exact_mod_cast (by omega : n ≤ 3000)⟩
  have sgn : ∀ c : ℚ, 0 ≤ c → c ≤ 3000 → Follows (randomSign E (floatParam E m c) (1 / 2)) m (fun k v => |v| = k / 30 * c) := by
    intro c c0 c1
    refine follows_mono hm (sign_follows E hE _ _ _ (float_follows E m c (by unfold mMax; linarith) (by unfold mMax; linarith))) ?_
    rintro k hk v ⟨w, rfl, h⟩
    obtain ⟨k0, -⟩ := nn k hk
    have e : k * (c / mMax) = k / 30 * c := by unfold mMax; ring
    have hnn : 0 ≤ k * (c / mMax) := by rw [e]; positivity
    rw [abs_of_nonneg hnn] at h
    rcases h with rfl | rfl
    · rw [abs_of_nonneg hnn, e]
    · rw [abs_neg, abs_of_nonneg hnn, e]
  have int : ∀ c : ℚ, 0 ≤ c → c ≤ 300 → Follows (intParam E m c) m (fun k v => v = (⌊k / 30 * c⌋ : Int)) := by
    intro c c0 c1
    refine follows_mono hm (discretize_follows E _ _ _ (float_dt E m hF c (by unfold mMax; linarith) (by unfold mMax; linarith))
      (float_follows E m c (by unfold mMax; linarith) (by unfold mMax; linarith))) ?_
    rintro k hk v ⟨w, dt, hdt, rfl, rfl⟩
    obtain ⟨k0, k1⟩ := nn k hk
    have e : k * (c / mMax) = k / 30 * c := by unfold mMax; ring
    rw [e]
    refine astype_nonneg dt hdt _ (by positivity) ?_
    have : k / 30 * c ≤ 100 * 300 := by
      apply mul_le_mul (by linarith) c1 c0 (by norm_num)
    linarith
  refine ⟨?_, sgn shearMax h0 (by linarith), sgn _ (by norm_num) (by norm_num), ?_, ?_, ?_, ?_⟩
  · refine follows_mono hm (sgn 30 (by norm_num) (by norm_num)) ?_
    intro k _ v h
    rw [h]; ring
  · refine follows_mono hm (clip_follows E _ _ _ 0 (20 / 32) (float_follows E m _ (by unfold mMax; norm_num) (by unfold mMax; norm_num))) ?_
    rintro k hk v ⟨w, rfl, rfl⟩
    obtain ⟨k0, -⟩ := nn k hk
    unfold mMax
    rw [max_eq_left (by positivity)]
    rcases le_total (k / 30) 1 with h | h
    · rw [min_eq_left h, min_eq_left (by linarith)]; ring
    · rw [min_eq_right h, min_eq_right (by linarith)]; ring
  · refine follows_mono hm (arith_follows E (· - ·) true 8 (holds_i32 8 (by norm_num) (by norm_num)) _ m rfl _
      (clip_follows E _ _ _ 0 6 (int 6 (by norm_num) (by norm_num)))) ?_
    rintro k hk v ⟨w, ⟨x, rfl, rfl⟩, rfl⟩
    obtain ⟨k0, -⟩ := nn k hk
    have e : k / 30 * 6 = k / 5 := by ring
    have : (0 : ℚ) ≤ (⌊k / 5⌋ : Int) := by exact_mod_cast Int.floor_nonneg.2 (by positivity)
    rw [e, max_eq_left this]
  · refine follows_mono hm (clip_follows E _ _ _ 0 256 (arith_follows E (· - ·) true 256 (holds_i32 256 (by norm_num) (by norm_num)) _ m rfl _
      (int 256 (by norm_num) (by norm_num)))) ?_
    rintro k hk v ⟨w, ⟨x, rfl, rfl⟩, rfl⟩
    obtain ⟨k0, -⟩ := nn k hk
    have : (0 : ℚ) ≤ (⌊k / 30 * 256⌋ : Int) := by exact_mod_cast Int.floor_nonneg.2 (by positivity)
    rw [min_eq_left]
    exact max_le (by linarith) (by norm_num)
  · refine follows_mono hm (clip_follows E _ _ _ (1 / 10) (19 / 10) (arith_follows E (· + ·) false 1 (holds_f32 1 (by norm_num) (by norm_num)) _ m rfl _
      (sign_follows E hE _ _ _ (float_follows E m (9 / 10) (by unfold mMax; norm_num) (by unfold mMax; norm_num))))) ?_
    rintro k hk v ⟨w, ⟨x, ⟨y, rfl, hx⟩, rfl⟩, rfl⟩
    obtain ⟨k0, -⟩ := nn k hk
    have e : k * (9 / 10 / mMax) = k / 30 * (9 / 10) := by unfold mMax; ring
    have hnn : 0 ≤ k / 30 := by positivity
    rw [e, abs_of_nonneg (by positivity)] at hx
    generalize k / 30 = q at *
    rcases hx with rfl | rfl
    · rw [max_eq_left (by linarith)]
      rcases le_total q 1 with h | h
      · rw [min_eq_left (by linarith), min_eq_left h, abs_of_nonneg (by linarith)]; ring
      · rw [min_eq_right (by linarith), min_eq_right h, abs_of_nonneg (by norm_num)]; norm_num
    · rw [min_eq_left (max_le (by linarith) (by norm_num))]
      rcases le_total q 1 with h | h
      · rw [max_eq_left (by linarith), min_eq_left h, abs_of_nonpos (by linarith)]; ring
      · rw [max_eq_right (by linarith), min_eq_right h, abs_of_nonpos (by norm_num)]; norm_num

/-- C114: the level 0 is neutral: nothing is rotated, sheared, translated or cut out, images keep 8 bits, the threshold is above all components and the
factors are 1. -/
theorem weakest (E : Env σ) (hE : E.Ok) (m : Param σ) (hm : Yields m {0}) (hF : FloatProducts E m)
    (shearMax : ℚ) (h0 : 0 ≤ shearMax) (h1 : shearMax ≤ 360) :
    Yields (rotation E m) {0} ∧ Yields (shear E shearMax m) {0} ∧ Yields (translation E m) {0} ∧ Yields (cutoutSize E m) {0} ∧ Yields (bits E m) {8} ∧
    Yields (threshold E m) {256} ∧ Yields (enhance E m) {1} := by
  have hm' : Yields m (intsBetween 0 0) := by
    intro size s r s' h v hv
    exact ⟨0, by simpa using hm _ _ _ _ h v hv, le_refl _, le_refl _⟩
  have out : ∀ (p : Param σ) (R : ℚ → ℚ → Prop) (c : ℚ), Follows p m R → (∀ v, R 0 v → v = c) → Yields p {c} := by
    intro p R c hp hR size s r s' h v hv
    obtain ⟨t0, l, t1, hl, hv'⟩ := hp _ _ _ _ h
    obtain ⟨i, hi⟩ := List.mem_iff_getElem?.1 hv
    obtain ⟨k, hk, hr⟩ := hv' i v hi
    have : k = 0 := hm _ _ _ _ hl k (List.mem_of_getElem? hk)
    subst this
    exact hR v hr
  obtain ⟨a1, a2, a3, a4, a5, a6, a7⟩ := strengths E hE m 0 (by norm_num) hm' hF shearMax h0 h1
  refine ⟨out _ _ _ a1 ?_, out _ _ _ a2 ?_, out _ _ _ a3 ?_, out _ _ _ a4 ?_, out _ _ _ a5 ?_, out _ _ _ a6 ?_, out _ _ _ a7 ?_⟩
  · intro v h; exact abs_eq_zero.1 h
  · intro v h; exact abs_eq_zero.1 (by simpa using h)
  · intro v h; exact abs_eq_zero.1 (by simpa using h)
  · intro v h; simpa using h
  · intro v h; simpa using h
  · intro v h; simpa using h
  · intro v h
    have : |v - 1| = 0 := by simpa using h
    have := abs_eq_zero.1 this
    linarith

/-- C114: for the documented levels, 0 to 30, the strengths are within their maxima: rotations by at most 30 degrees, translations by at most 33% of
the image, squares of at most 20/32 of the image, at least 2 of 8 bits, factors between 0.1 and 1.9. -/
theorem documented_levels (E : Env σ) (hE : E.Ok) (m : Param σ) (hm : Yields m (intsBetween 0 30)) (hF : FloatProducts E m)
    (shearMax : ℚ) (h0 : 0 ≤ shearMax) (h1 : shearMax ≤ 360) :
    Yields (rotation E m) (between (-30) 30) ∧ Yields (shear E shearMax m) (between (-shearMax) shearMax) ∧
    Yields (translation E m) (between (-33 / 100) (33 / 100)) ∧ Yields (cutoutSize E m) (between 0 (20 / 32)) ∧ Yields (bits E m) (intsBetween 2 8) ∧
    Yields (threshold E m) (intsBetween 0 256) ∧ Yields (enhance E m) (between (1 / 10) (19 / 10)) := by
  have out : ∀ (p : Param σ) (R : ℚ → ℚ → Prop) (S : Set ℚ), Follows p m R → (∀ k v, 0 ≤ k → k ≤ 30 → R k v → v ∈ S) → Yields p S := by
    intro p R S hp hR size s r s' h v hv
    obtain ⟨t0, l, t1, hl, hv'⟩ := hp _ _ _ _ h
    obtain ⟨i, hi⟩ := List.mem_iff_getElem?.1 hv
    obtain ⟨k, hk, hr⟩ := hv' i v hi
    obtain ⟨n, rfl, n0, n1⟩ := hm _ _ _ _ hl k (List.mem_of_getElem? hk)
    exact hR _ v (by exact_mod_cast n0) (by exact_mod_cast n1) hr
  obtain ⟨a1, a2, a3, a4, a5, a6, a7⟩ := strengths E hE m 30 (by norm_num) hm hF shearMax h0 h1
  refine ⟨out _ _ _ a1 ?_, out _ _ _ a2 ?_, out _ _ _ a3 ?_, out _ _ _ a4 ?_, out _ _ _ a5 ?_, out _ _ _ a6 ?_, out _ _ _ a7 ?_⟩
  · intro k v k0 k1 h
    exact abs_le.1 (by rw [h]; exact k1)
  · intro k v k0 k1 h
    exact abs_le.1 (by rw [h]; nlinarith)
  · intro k v k0 k1 h
    have := abs_le.1 (show |v| ≤ 33 / 100 by rw [h]; linarith)
    exact ⟨by linarith [this.1], this.2⟩
  · intro k v k0 k1 h
    rw [h, min_eq_left (by linarith)]
    exact ⟨by linarith, by linarith⟩
  · intro k v k0 k1 h
    have f0 : 0 ≤ ⌊k / 5⌋ := Int.floor_nonneg.2 (by linarith)
    have f1 : ⌊k / 5⌋ ≤ 6 := by
      have := Int.floor_le (k / 5)
      exact_mod_cast (by linarith : ((⌊k / 5⌋ : Int) : ℚ) ≤ 6)
    refine ⟨8 - ⌊k / 5⌋, ?_, by omega, by omega⟩
    rw [h, min_eq_left (by exact_mod_cast f1)]
    push_cast; ring
  · intro k v k0 k1 h
    have f0 : 0 ≤ ⌊k / 30 * 256⌋ := Int.floor_nonneg.2 (by positivity)
    have f1 : ⌊k / 30 * 256⌋ ≤ 256 := by
      have := Int.floor_le (k / 30 * 256)
      exact_mod_cast (by linarith : ((⌊k / 30 * 256⌋ : Int) : ℚ) ≤ 256)
    refine ⟨256 - ⌊k / 30 * 256⌋, ?_, by omega, by omega⟩
    rw [h, max_eq_left (by have : ((⌊k / 30 * 256⌋ : Int) : ℚ) ≤ 256 := by exact_mod_cast f1
                           linarith)]
    push_cast; ring
  · intro k v k0 k1 h
    rw [min_eq_left (by linarith)] at h
    have := abs_le.1 (show |v - 1| ≤ 9 / 10 by rw [h]; linarith)
    exact ⟨by linarith [this.1], by linarith [this.2]⟩

/-- C114 (partial): crops: for all images of a batch there is one level `k` drawn from `m`, and at most `k / 224` of an image is cropped at each of
its sides. Missing: that the level of a crop is drawn for each image, as documented, see `crops_share_level`. -/
theorem crops_partial (E : Env σ) (hE : E.Ok) (m : Param σ) (b : Int) (hm : Yields m (intsBetween 0 b)) (size : List Nat) (s : σ) (r : Arr) (s' : σ)
    (h : (crop E m).draw size s = some (r, s')) :
    ∃ k ∈ intsBetween 0 b, ∀ v ∈ r.vals, 0 ≤ v ∧ v ≤ k / 224 := by
  simp only [crop, divide, arith, Option.bind_eq_some_iff] at h
  obtain ⟨⟨r0, s0⟩, e, h⟩ := h
  have hb : ((true && !(deterministic true 224 : Param σ).isDet)) = false := rfl
  simp only [hb, Bool.false_eq_true, if_false, Option.map_eq_some_iff, Prod.mk.injEq] at h
  obtain ⟨⟨y, d, s2⟩, e2, h, -⟩ := h
  obtain ⟨rfl, -⟩ := det_sample (holds_i32 224 (by norm_num) (by norm_num)) e2
  obtain ⟨s1, e1, -⟩ := drawSamples_some e
  simp only [uniform, Option.bind_eq_some_iff, Option.map_eq_some_iff] at e1
  obtain ⟨⟨va, da, sa⟩, ea, ⟨vb, db, sb⟩, eb, e1⟩ := e1
  obtain ⟨rfl, -⟩ := det_sample (holds_i32 0 (by norm_num) (by norm_num)) ea
  have hk := hm.sample eb
  have k0 : 0 ≤ vb := by obtain ⟨n, rfl, n0, -⟩ := hk; exact_mod_cast n0
  have key : ∀ v ∈ r0.vals, 0 ≤ v ∧ v ≤ vb := by
    simp only at e1
    push_cast at e1
    have hng : ¬ ((0 : ℚ) > vb) := not_lt.2 k0
    simp only [hng, if_false] at e1
    split_ifs at e1 with h0
    · simp only [Prod.mk.injEq] at e1
      intro v hv
      rw [← e1.1] at hv
      rw [full_mem hv, astype_f32, ← h0]
      exact ⟨le_refl _, le_refl _⟩
    · simp only [Prod.mk.injEq] at e1
      intro v hv
      rw [← e1.1] at hv
      obtain ⟨w, hw, e⟩ := conv_mem hv
      rw [e, astype_f32]
      exact (hE.uniform 0 vb size.prod sb (lt_of_le_of_ne k0 h0)).2 w hw
  refine ⟨vb, hk, ?_⟩
  intro v hv
  rw [← h] at hv
  simp only [List.mem_map] at hv
  obtain ⟨w, hw, rfl⟩ := hv
  obtain ⟨w0, w1⟩ := key w hw
  simp only [safeDiv]
  rw [if_neg (by norm_num)]
  push_cast
  exact ⟨by positivity, by linarith⟩

/-- C114 is false for the level of the crops, which is documented to be sampled per image: here the images of a batch have the levels 0 and 30, but
neither is cropped, and if they are exchanged, both are. -/
theorem crops_share_level :
    let E : Env Unit := ⟨id, fun a _ n s => (List.replicate n a, s), fun _ n _ _ s => some (List.replicate n 0, s), fun _ n s => (List.replicate n 1, s),
      fun _ n s => (List.replicate n 0, s), fun _ b n s => (List.replicate n b, s), fun m _ n s => (List.replicate n m, s),
      fun _ _ a _ n s => (List.replicate n a, s), fun _ _ n s => (List.replicate n 0, s), fun _ _ => f64⟩
    ((crop E (deterministicList i32 [0, 30])).draw [2, 4] ()).map (fun r => r.1.vals) = some [0, 0, 0, 0, 0, 0, 0, 0] ∧
    ((crop E (deterministicList i32 [30, 0])).draw [2, 4] ()).map (fun r => r.1.vals) = some (List.replicate 8 (30 / 224)) ∧
    ((cutoutSize E (deterministicList i32 [0, 30])).draw [2] ()).map (fun r => r.1.vals) = some [0, 20 / 32] := by
  refine ⟨by decide +kernel, by decide +kernel, by decide +kernel⟩

/-- C114: the argument `m`: integers from 0 on, pairs and lists of them, and stochastic parameters are accepted, nothing else. -/
theorem levels_accepted (param : Val) : (levelArg param).isSome = true ↔
    (∃ i, param = .atom (.par i)) ∨
      ((∀ a ∈ numbers param, ∃ n : Num, a = .num n ∧ n.isInt = true ∧ 0 ≤ n.q) ∧ ∀ l, param = .tuple l → l.length = 2) := by
  rw [levelArg, discrete_accepts]
  refine or_congr_right ?_
  simp only [NumericArg, AllAllowed]
  constructor
  · rintro ⟨⟨h1, h2⟩, h3⟩
    refine ⟨?_, ?_⟩
    · intro a ha
      obtain ⟨n, rfl, hn⟩ := h1 a ha
      refine ⟨n, rfl, by simpa using hn, ?_⟩
      have := h3 n ha
      exact this.1 0 rfl
    · rintro l rfl
      exact h2.2
  · rintro ⟨h1, h2⟩
    refine ⟨⟨?_, ?_⟩, ?_⟩
    · intro a ha
      obtain ⟨n, e, hn, -⟩ := h1 a ha
      exact ⟨n, e, Or.inr hn⟩
    · cases param with
      | atom a => trivial
      | tuple l => exact ⟨trivial, h2 l rfl⟩
      | iter l => trivial
    · intro n hn
      obtain ⟨n', e, -, h0⟩ := h1 _ hn
      cases e
      exact ⟨fun l hl => by cases hl; exact h0, fun h hh => by cases hh⟩

/-- The hypotheses of the theorems above are met by the default levels 6 to 12 and by fixed levels. -/
example (E : Env σ) (hE : E.Ok) : Yields (discreteUniform E (deterministic true 6) (deterministic true 12)) (intsBetween 6 12) ∧
    Yields (deterministic true 0 : Param σ) {0} ∧ Yields (deterministic true 9 : Param σ) (intsBetween 0 30) := by
  have det : ∀ n : Int, -1000 ≤ n → n ≤ 1000 → ∀ size (s : σ) r s', (deterministic true (n : ℚ) : Param σ).draw size s = some (r, s') → ∀ v ∈ r.vals, v = n := by
    intro n h0 h1 size s r s' h v hv
    rw [deterministic_constant true n (holds_i32 n h0 h1)] at h
    cases h
    exact List.eq_of_mem_replicate hv
  refine ⟨?_, ?_, ?_⟩
  · refine (discrete_uniform_range E hE _ _ 6 6 12 12 ?_ ?_ (by decide +kernel) (by decide +kernel)).1
    · intro size s r s' h v hv
      exact ⟨6, by have := det 6 (by norm_num) (by norm_num) size s r s' (by exact_mod_cast h) v hv; exact_mod_cast this, by norm_num, by norm_num⟩
    · intro size s r s' h v hv
      exact ⟨12, by have := det 12 (by norm_num) (by norm_num) size s r s' (by exact_mod_cast h) v hv; exact_mod_cast this, by norm_num, by norm_num⟩
  · intro size s r s' h v hv
    have := det 0 (by norm_num) (by norm_num) size s r s' (by exact_mod_cast h) v hv
    simpa using this
  · intro size s r s' h v hv
    exact ⟨9, by have := det 9 (by norm_num) (by norm_num) size s r s' (by exact_mod_cast h) v hv; exact_mod_cast this, by norm_num, by norm_num⟩

/-- Level 9, the recommended one: the number of bits, the threshold, and factors with both signs. -/
example : let E : Env Unit := ⟨id, fun a _ n s => (List.replicate n a, s), fun _ n _ _ s => some (List.replicate n 0, s),
      fun _ n s => ((List.range n).map (· % 2), s),
      fun _ n s => (List.replicate n 0, s), fun _ b n s => (List.replicate n b, s), fun m _ n s => (List.replicate n m, s),
      fun _ _ a _ n s => (List.replicate n a, s), fun _ _ n s => (List.replicate n 0, s), fun _ _ => f64⟩
    ((bits E (deterministic true 9)).draw [1] ()).map (fun r => r.1.vals) = some [7] ∧
    ((threshold E (deterministic true 9)).draw [1] ()).map (fun r => r.1.vals) = some [180] ∧
    ((enhance E (deterministic true 9)).draw [2] ()).map (fun r => r.1.vals) = some [73 / 100, 127 / 100] := by
  refine ⟨by decide +kernel, by decide +kernel, by decide +kernel⟩

end Imgaug.RandAugment
