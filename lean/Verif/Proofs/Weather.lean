import Verif.Spec.Weather
import Verif.Proofs.Dtypes
import Mathlib.Tactic.Linarith
import Mathlib.Tactic.Positivity
namespace Imgaug.Weather
open Imgaug Imgaug.Dtypes

theorem u8_eq (v : ℚ) : u8 v = ((⌊clipTo 0 255 v⌋ : Int) : ℚ) ∧ 0 ≤ ⌊clipTo 0 255 v⌋ ∧ ⌊clipTo 0 255 v⌋ ≤ 255 := by
  have h1 : (0 : ℚ) ≤ clipTo 0 255 v := by unfold clipTo; grind
  have h2 : clipTo 0 255 v ≤ 255 := by unfold clipTo; grind
  have h3 : 0 ≤ ⌊clipTo 0 255 v⌋ := Int.floor_nonneg.mpr h1
  have h4 : ⌊clipTo 0 255 v⌋ ≤ 255 := by
    have := Int.floor_mono h2
    simpa using this
  refine ⟨?_, h3, h4⟩
  have hl : lo ⟨.u, 1⟩ = 0 := by decide +kernel
  have hh : hi ⟨.u, 1⟩ = 255 := by decide +kernel
  have hp : pyInt (clipTo 0 255 v) = ⌊clipTo 0 255 v⌋ := by rw [pyInt, if_neg (not_lt.mpr h1)]
  unfold u8 astype
  simp only [hp]
  rw [wrap_id _ _ (by rw [hl]; exact h3) (by rw [hh]; exact h4)]

theorem u8_byte (v : ℚ) : Byte (u8 v) := by
  obtain ⟨h1, h2, h3⟩ := u8_eq v
  refine ⟨⌊clipTo 0 255 v⌋.toNat, ?_, by omega⟩
  rw [h1]
  exact_mod_cast (Int.toNat_of_nonneg h2).symm

theorem u8_mono {v w : ℚ} (h : v ≤ w) : u8 v ≤ u8 w := by
  rw [(u8_eq v).1, (u8_eq w).1]
  exact_mod_cast Int.floor_mono (by unfold clipTo; grind)

theorem u8_of_byte {v : ℚ} (h : Byte v) : u8 v = v := by
  obtain ⟨n, rfl, hn⟩ := h
  rw [(u8_eq _).1]
  have h1 : (n : ℚ) ≤ 255 := by exact_mod_cast hn
  have : clipTo 0 255 (n : ℚ) = ((n : Int) : ℚ) := by
    unfold clipTo
    have : (0 : ℚ) ≤ n := by positivity
    push_cast
    grind
  rw [this, Int.floor_intCast]
  norm_cast

theorem byte_le_u8 {n v : ℚ} (hn : Byte n) (h : n ≤ v) : n ≤ u8 v := by
  rw [← u8_of_byte hn]; exact u8_mono h

theorem u8_le_byte {n v : ℚ} (hn : Byte n) (h : v ≤ n) : u8 v ≤ n := by
  rw [← u8_of_byte hn]; exact u8_mono h

theorem byte_bounds {v : ℚ} (h : Byte v) : 0 ≤ v ∧ v ≤ 255 := by
  obtain ⟨n, rfl, hn⟩ := h
  exact ⟨by positivity, by exact_mod_cast hn⟩

theorem gated_ok {lib : Lib} {n g : Map} : (gated lib n g).h = n.h ∧ (gated lib n g).w = n.w ∧ (gated lib n g).Bytes :=
  ⟨rfl, rfl, fun _ _ _ _ => u8_byte _⟩

theorem motionBlur_ok {lib : Lib} (hl : lib.Ok) (a s : ℚ) {n : Map} (hn : n.Bytes) :
    (motionBlur lib a s n).h = n.h ∧ (motionBlur lib a s n).w = n.w ∧ (motionBlur lib a s n).Bytes := by
  unfold motionBlur
  simp only
  split
  · exact ⟨rfl, rfl, hn⟩
  · obtain ⟨h1, h2, h3⟩ := hl.motion (max (pyInt (s * (max n.h n.w : Nat))) 3).toNat a n
    exact ⟨h1, h2, h3 (by omega) hn⟩

theorem noiseMap_ok {lib : Lib} (hl : lib.Ok) (rain : Bool) (s : Samples) (h w : Nat) :
    (noiseMap lib rain s h w).h = h ∧ (noiseMap lib rain s h w).w = w ∧ (noiseMap lib rain s h w).Bytes := by
  unfold noiseMap
  simp only
  obtain ⟨r1, r2, r3⟩ := hl.resize (gated lib (lib.salt s.density (downscaled h s.flake) (downscaled w s.flake)) s.gate) h w
  have r4 := r3 gated_ok.2.2
  cases rain
  · simp only [Bool.false_eq_true, if_false]
    obtain ⟨b1, b2, b3⟩ := hl.blur (sigma s h w) (lib.resize (gated lib (lib.salt s.density (downscaled h s.flake) (downscaled w s.flake)) s.gate) h w)
    obtain ⟨m1, m2, m3⟩ := motionBlur_ok hl s.angle s.speed (b3 r4)
    exact ⟨m1.trans (b1.trans r1), m2.trans (b2.trans r2), m3⟩
  · simp only [if_true]
    obtain ⟨m1, m2, m3⟩ := motionBlur_ok hl s.angle s.speed r4
    exact ⟨m1.trans r1, m2.trans r2, m3⟩

theorem snowNoise_ok {lib : Lib} (hl : lib.Ok) (s : Samples) (hu : s.uniformity ≤ 1) {n : Map} (hn : n.Bytes) (y x : Nat) (hy : y < n.h) (hx : x < n.w) :
    0 ≤ (snowNoise lib s n).v y x := by
  obtain ⟨g1, g2, g3⟩ := hl.gamma (1 + 2 * (1 - s.uniformity)) n
  unfold snowNoise
  simp only
  have := (byte_bounds (g3 hn y x (by omega) (by omega))).1
  apply mul_nonneg this
  linarith

theorem blendSnow_ge {s v n : ℚ} (hv : Byte v) (hn : 0 ≤ n) (hs : 0 ≤ s) : v ≤ blendSnow s v n := by
  unfold blendSnow
  simp only
  apply byte_le_u8 hv
  apply le_trans _ (le_max_left _ _)
  apply byte_le_u8 hv
  have : 0 ≤ (1 / 10 + 20 * s) * n := by positivity
  linarith

theorem blendSnow_mono {s v w n : ℚ} (h : v ≤ w) : blendSnow s v n ≤ blendSnow s w n := by
  unfold blendSnow
  simp only
  exact u8_mono (max_le_max_right _ (u8_mono (by linarith)))

theorem blendSnow_zero {s v : ℚ} (hv : Byte v) : blendSnow s v 0 = v := by
  unfold blendSnow
  simp only [mul_zero, add_zero]
  rw [u8_of_byte hv, max_eq_left (byte_bounds hv).1, u8_of_byte hv]

theorem clip01 (v : ℚ) : 0 ≤ clipTo 0 1 v ∧ clipTo 0 1 v ≤ 1 := by
  unfold clipTo
  constructor
  · grind
  · grind

theorem blendRain_between {c v n : ℚ} (hv : Byte v) (hc : Byte c) : Between v c (blendRain c v n) := by
  unfold blendRain
  simp only
  obtain ⟨h1, h2⟩ := clip01 (13 / 10 * (n / 255))
  generalize clipTo 0 1 (13 / 10 * (n / 255)) = a at h1 h2
  have hmin : Byte (min v c) := by
    rcases le_total v c with h | h
    · rwa [min_eq_left h]
    · rwa [min_eq_right h]
  have hmax : Byte (max v c) := by
    rcases le_total v c with h | h
    · rwa [max_eq_right h]
    · rwa [max_eq_left h]
  refine ⟨byte_le_u8 hmin ?_, u8_le_byte hmax ?_⟩
  · have e1 := min_le_left v c
    have e2 := min_le_right v c
    nlinarith
  · have e1 := le_max_left v c
    have e2 := le_max_right v c
    nlinarith

theorem blendRain_mono {c v w n : ℚ} (h : v ≤ w) : blendRain c v n ≤ blendRain c w n := by
  unfold blendRain
  simp only
  obtain ⟨h1, h2⟩ := clip01 (13 / 10 * (n / 255))
  generalize clipTo 0 1 (13 / 10 * (n / 255)) = a at h1 h2
  exact u8_mono (by nlinarith)

theorem blendRain_zero {c v : ℚ} (hv : Byte v) : blendRain c v 0 = v := by
  unfold blendRain
  have : clipTo 0 1 (13 / 10 * (0 / 255)) = 0 := by unfold clipTo; norm_num
  simp only [this]
  rw [sub_zero, one_mul, zero_mul, add_zero, u8_of_byte hv]

theorem map_sum_bytes {l : List ℚ} (h : ∀ v ∈ l, Byte v) : ∃ n : Nat, l.sum = n := by
  induction l with
  | nil => exact ⟨0, by simp⟩
  | cons a t ih =>
    obtain ⟨n, hn⟩ := ih (fun v hv => h v (List.mem_cons_of_mem _ hv))
    obtain ⟨m, hm, -⟩ := h a List.mem_cons_self
    exact ⟨m + n, by simp [hn, hm]⟩

theorem dropColor_bounds {n : Map} (hn : n.Bytes) (c : Nat) : Byte (dropColor n c) ∧ 110 ≤ dropColor n c ∧ dropColor n c ≤ 240 := by
  have hs : ∃ t : Nat, noiseSum n c = t := by
    apply map_sum_bytes
    intro v hv
    simp only [List.mem_map, List.mem_range] at hv
    obtain ⟨k, hk, rfl⟩ := hv
    have hk : k < n.h * n.w * c := lt_of_lt_of_le hk (min_le_right _ _)
    have hc : 0 < c := by
      rcases Nat.eq_zero_or_pos c with h | h
      · rw [h] at hk; simp at hk
      · exact h
    have hkc : k / c < n.h * n.w := by
      rw [Nat.div_lt_iff_lt_mul hc]; exact hk
    have hw : 0 < n.w := by
      rcases Nat.eq_zero_or_pos n.w with h | h
      · rw [h] at hkc; simp at hkc
      · exact h
    apply hn
    · rw [Nat.div_lt_iff_lt_mul hw]; exact hkc
    · exact Nat.mod_lt _ hw
  obtain ⟨t, ht⟩ := hs
  have key : ∃ m : Nat, 1 ≤ m ∧ pyInt (if 0 < noiseSum n c then noiseSum n c else 1) = m := by
    rw [ht]
    split
    · rename_i h
      have h' : 0 < t := by exact_mod_cast h
      exact ⟨t, h', by exact_mod_cast pyInt_intCast (t : Int)⟩
    · exact ⟨1, le_refl _, by exact_mod_cast pyInt_intCast (1 : Int)⟩
  obtain ⟨m, hm, e⟩ := key
  have e' : dropColor n c = 110 + (((130 % (m : Int)) : Int) : ℚ) := by
    unfold dropColor
    simp only [e]
    norm_num
  have h1 : 0 ≤ (130 : Int) % m := Int.emod_nonneg _ (by omega)
  have h2 : (130 : Int) % m ≤ 130 := by
    exact_mod_cast Nat.mod_le 130 m
  generalize (130 : Int) % m = r at *
  have h1' : (0 : ℚ) ≤ r := by exact_mod_cast h1
  have h2' : (r : ℚ) ≤ 130 := by exact_mod_cast h2
  rw [e']
  refine ⟨⟨(110 + r).toNat, ?_, by omega⟩, by linarith, by linarith⟩
  have : (((110 + r).toNat : Nat) : Int) = 110 + r := by omega
  have : (((110 + r).toNat : Nat) : ℚ) = ((110 + r : Int) : ℚ) := by exact_mod_cast this
  rw [this]
  push_cast
  ring

theorem motionBlur_zero {lib : Lib} (hz : lib.KeepsZero) (a s : ℚ) {n : Map} (hn : n.Zero) : (motionBlur lib a s n).Zero := by
  unfold motionBlur
  simp only
  split
  · exact hn
  · exact hz.motion _ _ _ hn

theorem gated_zero {lib : Lib} {n g : Map} (hn : n.Zero) : (gated lib n g).Zero := by
  intro y x hy hx
  have h0 := hn y x hy hx
  simp only [gated, h0, zero_mul]
  exact u8_of_byte ⟨0, by simp, by omega⟩

theorem noiseMap_zero {lib : Lib} (hz : lib.KeepsZero) (rain : Bool) (s : Samples) (h w : Nat) (hs : ∀ h w, (lib.salt s.density h w).Zero) :
    (noiseMap lib rain s h w).Zero := by
  unfold noiseMap
  simp only
  apply motionBlur_zero hz
  cases rain
  · exact hz.blur _ _ (hz.resize _ _ _ (gated_zero (hs _ _)))
  · exact hz.resize _ _ _ (gated_zero (hs _ _))

theorem u8_le_self {v : ℚ} (h : 0 ≤ v) : u8 v ≤ v := by
  rw [(u8_eq v).1]
  refine le_trans (Int.floor_le _) ?_
  unfold clipTo
  grind

theorem restore_eq (v : ℚ) : changeDtype ⟨.f, 8⟩ ⟨.u, 1⟩ true v = some (((min (max (npRound v) 0) 255 : Int) : ℚ)) := by
  have h1 : lo ⟨.u, 1⟩ = 0 := by decide +kernel
  have h2 : hi ⟨.u, 1⟩ = 255 := by decide +kernel
  have h3 : ¬ (0 : Int) < lo ⟨.f, 8⟩ := by decide +kernel
  have h4 : ¬ (0 : Int) < lo ⟨.f, 8⟩ := by decide +kernel
  have h5 : ¬ hi ⟨.f, 8⟩ < (255 : Int) := by decide +kernel
  have h6 : stored ⟨.f, 8⟩ 0 = 0 := by decide +kernel
  have h7 : stored ⟨.f, 8⟩ 255 = 255 := by decide +kernel
  have h8 : lo ⟨.f, 8⟩ ≤ 0 := by decide +kernel
  have h9 : clippable ⟨.f, 8⟩ = true := by decide +kernel
  have h10 : (Kind.f != Kind.f) = false := rfl
  unfold changeDtype
  rw [if_neg (by decide)]
  simp only [h1, h2, clip, h9, if_true, Bool.true_and]
  rw [if_pos (by decide), if_neg (by omega), if_neg (by omega), h6, h7]
  have e2 : Dtypes.npClip ((npRound v : Int) : ℚ) (some 0) (some 255) = (((min (max (npRound v) 0) 255 : Int)) : ℚ) := by
    simp only [Dtypes.npClip]
    push_cast
    rfl
  simp only [Option.map_some]
  rw [e2, astype_int _ _ (by rw [h1]; omega) (by rw [h2]; omega)]

theorem restore_byte {v : ℚ} (h : Byte v) : changeDtype ⟨.f, 8⟩ ⟨.u, 1⟩ true v = some v := by
  obtain ⟨n, rfl, hn⟩ := h
  rw [restore_eq]
  have : npRound ((n : Nat) : ℚ) = n := by exact_mod_cast Imgaug.Props.npRound_int (n : Int)
  rw [this]
  have : min (max (n : Int) 0) 255 = n := by omega
  rw [this]
  simp

theorem lighter_spec (thresh lmul : ℚ) (hm : 0 ≤ lmul) {v : ℚ} (h : Byte v) :
    ∃ l, lighter thresh lmul v = some l ∧ Byte l ∧ (thresh ≤ v → l = v) ∧ (v < thresh → |l - min 255 (v * lmul)| ≤ 1 / 2) ∧ (1 ≤ lmul → v ≤ l) := by
  unfold lighter
  by_cases hv : v < thresh
  · rw [if_pos hv, restore_eq]
    have hb := byte_bounds h
    have h0 : 0 ≤ v * lmul := mul_nonneg hb.1 hm
    have hd := Imgaug.Props.npRound_dist (v * lmul)
    have hr : 0 ≤ npRound (v * lmul) := Imgaug.Props.le_npRound (by exact_mod_cast h0)
    refine ⟨_, rfl, ⟨(min (max (npRound (v * lmul)) 0) 255).toNat, ?_, by omega⟩, fun e => absurd e (not_le.mpr hv), fun _ => ?_, fun h1 => ?_⟩
    · have : (((min (max (npRound (v * lmul)) 0) 255).toNat : Nat) : Int) = min (max (npRound (v * lmul)) 0) 255 := by omega
      exact_mod_cast this.symm
    · rw [max_eq_left hr]
      by_cases h2 : npRound (v * lmul) ≤ 255
      · rw [min_eq_left h2]
        by_cases h3 : v * lmul ≤ 255
        · rw [min_eq_right h3]; exact hd
        · rw [min_eq_left (by linarith)]
          have h4 : (255 : ℚ) ≤ v * lmul := by linarith
          have h5 : 255 ≤ npRound (v * lmul) := Imgaug.Props.le_npRound (by exact_mod_cast h4)
          have h6 : npRound (v * lmul) = 255 := by omega
          rw [h6]
          norm_num
      · rw [min_eq_right (by omega)]
        have h3 : ¬ v * lmul < 255 := by
          intro h3
          have := Imgaug.Props.npRound_le (n := 255) (q := v * lmul) (by push_cast; linarith)
          omega
        rw [min_eq_left (by linarith)]
        norm_num
    · obtain ⟨n, rfl, hn⟩ := h
      have h4 : ((n : Int) : ℚ) ≤ (n : ℚ) * lmul := by
        push_cast
        nlinarith [hb.1]
      have h5 := Imgaug.Props.le_npRound h4
      have h6 : (n : Int) ≤ min (max (npRound ((n : ℚ) * lmul)) 0) 255 := by omega
      exact_mod_cast h6
  · rw [if_neg hv, restore_byte h]
    exact ⟨v, rfl, h, fun _ => rfl, fun e => absurd e hv, fun _ => le_refl _⟩

end Imgaug.Weather
