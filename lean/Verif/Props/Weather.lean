import Verif.Proofs.Weather
import Verif.Props.Dtypes
/-! C122: snow, rain, clouds and snowy landscapes. -/
namespace Imgaug.Weather
open Imgaug Imgaug.Dtypes

/-- A library in which noise is a pattern, and blurring does nothing. -/
def demoLib : Lib :=
  ⟨fun d h w => ⟨h, w, fun y x => if d ≠ 0 ∧ (y + x) % 2 = 0 then 255 else 0⟩, fun m h w => ⟨h, w, fun y x => if y < m.h ∧ x < m.w then m.v y x else 0⟩,
    fun _ m => m, fun _ _ m => m, fun _ m => m⟩

theorem demoLib_ok : demoLib.Ok := by
  refine ⟨fun d h w => ⟨rfl, rfl, ?_⟩, fun m h w => ⟨rfl, rfl, ?_⟩, fun _ m => ⟨rfl, rfl, id⟩, fun _ _ m => ⟨rfl, rfl, fun _ => id⟩,
    fun _ m => ⟨rfl, rfl, id⟩⟩
  · intro y x _ _
    simp only [demoLib]
    split
    · exact ⟨255, by norm_num, by omega⟩
    · exact ⟨0, by norm_num, by omega⟩
  · intro hm y x _ _
    simp only [demoLib]
    split
    · rename_i h; exact hm y x h.1 h.2
    · exact ⟨0, by norm_num, by omega⟩

theorem demoLib_zero : demoLib.KeepsZero := by
  refine ⟨?_, fun _ _ => id, fun _ _ _ => id, fun _ _ => id⟩
  intro m h w hm y x _ _
  simp only [demoLib]
  split
  · rename_i h; exact hm y x h.1 h.2
  · rfl

/-- Samples. -/
def demoSamples (d : ℚ) : Samples := ⟨d, 1 / 2, 1 / 2, 10, 1 / 100, 1 / 1000, ⟨8, 8, fun _ _ => 1 / 5⟩, 1 / 2, 15 / 4⟩

/-- An image. -/
def demoImg : Draw.Img := ⟨⟨.u, 1⟩, 4, 4, 3, false, fun y x ch => 10 * y + x + 70 * ch⟩

theorem demoImg_bytes : Bytes demoImg := by
  refine ⟨rfl, ?_⟩
  intro y x ch hy hx hc
  simp only [demoImg] at *
  exact ⟨10 * y + x + 70 * ch, by push_cast; ring, by omega⟩

/-- C122: snow and rain need images with a channel axis, of 1 or 3 channels, and nothing else. -/
theorem layers_accept (lib : Lib) (rain : Bool) (s : Samples) (a : Draw.Img) : draw lib rain s a ≠ none ↔ a.flat = false ∧ (a.c = 1 ∨ a.c = 3) := by
  unfold draw
  split
  · rename_i h
    simp only
    split <;> simp [h]
  · rename_i h
    simp [h]

example : draw demoLib false (demoSamples 1) demoImg ≠ none := by rw [layers_accept]; simp [demoImg]

/-- C122: the result of snow and rain is an image of `uint8` of the same shape, whatever the image was. -/
theorem result_uint8 (lib : Lib) (rain : Bool) (s : Samples) (a b : Draw.Img) (h : draw lib rain s a = some b) : Bytes b ∧ SameShape a b := by
  unfold draw at h
  split at h
  · simp only at h
    split at h
    · injection h with h
      subst h
      exact ⟨⟨rfl, fun _ _ _ _ _ _ => u8_byte _⟩, rfl, rfl, rfl, rfl⟩
    · injection h with h
      subst h
      exact ⟨⟨rfl, fun _ _ _ _ _ _ => u8_byte _⟩, rfl, rfl, rfl, rfl⟩
  · simp at h

/-- C122: snow makes no pixel of an image of `uint8` darker, in any channel. -/
theorem snow_never_darkens (lib : Lib) (hl : lib.Ok) (s : Samples) (hu : s.uniformity ≤ 1) (hs : 0 ≤ s.speed) (a b : Draw.Img) (ha : Bytes a)
    (h : draw lib false s a = some b) (y x ch : Nat) (hy : y < a.h) (hx : x < a.w) (hc : ch < a.c) : a.px y x ch ≤ b.px y x ch := by
  unfold draw at h
  split at h
  · simp only [Bool.false_eq_true, if_false] at h
    injection h with h
    subst h
    obtain ⟨n1, n2, n3⟩ := noiseMap_ok hl false s a.h a.w
    exact blendSnow_ge (ha.2 y x ch hy hx hc) (snowNoise_ok hl s hu n3 y x (by omega) (by omega)) hs
  · simp at h

example : demoLib.Ok ∧ Bytes demoImg ∧ (draw demoLib false (demoSamples 1) demoImg).map (fun b => (b.px 0 0 0, b.px 0 1 0, b.px 0 0 2, b.px 1 1 0)) =
    some (214, 1, 214, 214) := ⟨demoLib_ok, demoImg_bytes, by decide +kernel⟩

/-- C122: several layers of snow make no pixel darker either, and keep the shape and the dtype. -/
theorem snow_layers (lib : Lib) (hl : lib.Ok) (l : List Samples) (hs : ∀ s ∈ l, s.uniformity ≤ 1 ∧ 0 ≤ s.speed) (a b : Draw.Img) (ha : Bytes a)
    (h : layers lib false l a = some b) :
    Bytes b ∧ SameShape a b ∧ ∀ y x ch, y < a.h → x < a.w → ch < a.c → a.px y x ch ≤ b.px y x ch := by
  induction l generalizing a with
  | nil =>
    simp only [layers] at h
    injection h with h
    subst h
    exact ⟨ha, ⟨rfl, rfl, rfl, rfl⟩, fun _ _ _ _ _ _ => le_refl _⟩
  | cons s t ih =>
    simp only [layers, Option.bind_eq_some_iff] at h
    obtain ⟨m, h1, h2⟩ := h
    obtain ⟨r1, r2, r3, r4, r5⟩ := result_uint8 lib false s a m h1
    obtain ⟨i1, ⟨i2, i3, i4, i5⟩, i6⟩ := ih (fun s hs' => hs s (List.mem_cons_of_mem _ hs')) m r1 h2
    obtain ⟨u, v⟩ := hs s List.mem_cons_self
    refine ⟨i1, ⟨i2.trans r2, i3.trans r3, i4.trans r4, i5.trans r5⟩, ?_⟩
    intro y x ch hy hx hc
    exact (snow_never_darkens lib hl s u v a m ha h1 y x ch hy hx hc).trans (i6 y x ch (by omega) (by omega) (by omega))

example : (layers demoLib false [demoSamples 1, demoSamples 0, demoSamples 1] demoImg).map (fun b => (b.px 0 0 0, b.px 0 1 0)) = some (255, 1) := by
  decide +kernel

/-- C122: snow and rain keep the order of the channels of each pixel, so that grey stays grey. -/
theorem order_of_channels (lib : Lib) (rain : Bool) (s : Samples) (a b : Draw.Img) (h : draw lib rain s a = some b) : KeepsOrder a b := by
  unfold draw at h
  intro y x c d _ _ _ _ hle
  split at h
  · simp only at h
    split at h
    · injection h with h
      subst h
      exact blendRain_mono hle
    · injection h with h
      subst h
      exact blendSnow_mono hle
  · simp at h

/-- C122: without a single flake or drop an image of `uint8` stays as it is. -/
theorem no_flakes (lib : Lib) (hl : lib.Ok) (hz : lib.KeepsZero) (rain : Bool) (s : Samples) (hs : ∀ h w, (lib.salt s.density h w).Zero) (a b : Draw.Img)
    (ha : Bytes a) (h : draw lib rain s a = some b) (y x ch : Nat) (hy : y < a.h) (hx : x < a.w) (hc : ch < a.c) : b.px y x ch = a.px y x ch := by
  obtain ⟨n1, n2, n3⟩ := noiseMap_ok hl rain s a.h a.w
  have h0 := noiseMap_zero hz rain s a.h a.w hs
  unfold draw at h
  split at h
  · simp only at h
    split at h
    · injection h with h
      subst h
      simp only [h0 y x (by omega) (by omega)]
      exact blendRain_zero (ha.2 y x ch hy hx hc)
    · rename_i hr
      injection h with h
      subst h
      have hg := hz.gamma (1 + 2 * (1 - s.uniformity)) _ h0
      obtain ⟨g1, g2, -⟩ := hl.gamma (1 + 2 * (1 - s.uniformity)) (noiseMap lib rain s a.h a.w)
      have hm : (snowNoise lib s (noiseMap lib rain s a.h a.w)).v y x = 0 := by
        simp only [snowNoise]
        rw [hg y x (by omega) (by omega), zero_mul]
      simp only [hm]
      exact blendSnow_zero (ha.2 y x ch hy hx hc)
  · simp at h

example : demoLib.KeepsZero ∧ ∀ h w, (demoLib.salt (demoSamples 0).density h w).Zero :=
  ⟨demoLib_zero, fun h w y x _ _ => by simp [demoLib, demoSamples]⟩

/-- C122: rain moves each pixel towards one colour per image, which is between 110 and 240 and the same in all channels, and never past it. -/
theorem rain_towards_colour (lib : Lib) (hl : lib.Ok) (s : Samples) (a b : Draw.Img) (ha : Bytes a) (h : draw lib true s a = some b) :
    ∃ color : ℚ, 110 ≤ color ∧ color ≤ 240 ∧ ∀ y x ch, y < a.h → x < a.w → ch < a.c → Between (a.px y x ch) color (b.px y x ch) := by
  obtain ⟨n1, n2, n3⟩ := noiseMap_ok hl true s a.h a.w
  obtain ⟨c1, c2, c3⟩ := dropColor_bounds n3 a.c
  unfold draw at h
  split at h
  · simp only [if_true] at h
    injection h with h
    subst h
    exact ⟨_, c2, c3, fun y x ch hy hx hc => blendRain_between (ha.2 y x ch hy hx hc) c1⟩
  · simp at h

example : (draw demoLib true (demoSamples 1) demoImg).map (fun b => (b.px 0 0 0, b.px 0 1 0, b.px 0 0 2)) = some (62, 1, 166) := by decide +kernel

/-- C122: larger flakes are drawn from a smaller noise map; the map has at least one row and column and is never larger than the image. -/
theorem flake_size (size : Nat) (f f' : ℚ) (h : f ≤ f') :
    1 ≤ downscaled size f ∧ (1 ≤ size → downscaled size f ≤ size) ∧ downscaled size f' ≤ downscaled size f := by
  have hc : ∀ f : ℚ, 0 ≤ clipTo (1 / 1000) 1 (1 - f) ∧ clipTo (1 / 1000) 1 (1 - f) ≤ 1 := by
    intro f
    unfold clipTo
    exact ⟨le_min (le_max_of_le_right (by norm_num)) (by norm_num), min_le_right _ _⟩
  have hp : ∀ f : ℚ, pyInt (size * clipTo (1 / 1000) 1 (1 - f)) = ⌊(size : ℚ) * clipTo (1 / 1000) 1 (1 - f)⌋ := by
    intro f
    have : 0 ≤ (size : ℚ) * clipTo (1 / 1000) 1 (1 - f) := mul_nonneg (by positivity) (hc f).1
    rw [pyInt, if_neg (not_lt.mpr this)]
  have hle : ⌊(size : ℚ) * clipTo (1 / 1000) 1 (1 - f)⌋ ≤ size := by
    have : ⌊(size : ℚ) * clipTo (1 / 1000) 1 (1 - f)⌋ ≤ ⌊((size : Int) : ℚ)⌋ := by
      apply Int.floor_mono
      push_cast
      have := hc f
      have hs : (0 : ℚ) ≤ size := by positivity
      nlinarith
    simpa using this
  have hmo : ⌊(size : ℚ) * clipTo (1 / 1000) 1 (1 - f')⌋ ≤ ⌊(size : ℚ) * clipTo (1 / 1000) 1 (1 - f)⌋ := by
    apply Int.floor_mono
    apply mul_le_mul_of_nonneg_left _ (by positivity)
    unfold clipTo
    exact min_le_min_right _ (max_le_max_right _ (by linarith))
  unfold downscaled
  rw [hp f, hp f']
  omega

example : downscaled 100 (1 / 4) = 75 ∧ downscaled 100 1 = 1 ∧ downscaled 7 (-3) = 7 := by decide +kernel

/-- C122: the blur of snow is as strong as asked for, in relation to the image, within the limits. -/
theorem blur_within_limits (s : Samples) (h w : Nat) (hl : s.sigmaMin ≤ s.sigmaMax) :
    s.sigmaMin ≤ sigma s h w ∧ sigma s h w ≤ s.sigmaMax ∧
      (s.sigmaMin ≤ max h w * s.blurFraction → max h w * s.blurFraction ≤ s.sigmaMax → sigma s h w = max h w * s.blurFraction) := by
  unfold sigma clipTo
  refine ⟨by grind, by grind, fun h1 h2 => ?_⟩
  rw [max_eq_left h1, min_eq_left h2]

/-- C122: the gate, enlarged to the size of the noise, only takes flakes away: none becomes brighter, where the gate is 1 or more they stay as they are, where it
is 0 or less there are none, and in between they are weakened in proportion, up to rounding. -/
theorem gate_takes_away (lib : Lib) (noise gate : Map) (y x : Nat) (hb : Byte (noise.v y x)) :
    (gated lib noise gate).v y x ≤ noise.v y x ∧
    (1 ≤ (lib.resize gate noise.h noise.w).v y x → (gated lib noise gate).v y x = noise.v y x) ∧
    ((lib.resize gate noise.h noise.w).v y x ≤ 0 → (gated lib noise gate).v y x = 0) ∧
    (0 ≤ (lib.resize gate noise.h noise.w).v y x → (lib.resize gate noise.h noise.w).v y x ≤ 1 →
      |(gated lib noise gate).v y x - noise.v y x * (lib.resize gate noise.h noise.w).v y x| < 1) := by
  have hg : (gated lib noise gate).v y x = u8 (noise.v y x * clipTo 0 1 ((lib.resize gate noise.h noise.w).v y x)) := rfl
  rw [hg]
  generalize (lib.resize gate noise.h noise.w).v y x = g
  have h0 : 0 ≤ noise.v y x := by obtain ⟨n, e, -⟩ := hb; rw [e]; exact Nat.cast_nonneg n
  have h255 : noise.v y x ≤ 255 := by obtain ⟨n, e, hn⟩ := hb; rw [e]; exact_mod_cast (by omega : n ≤ 255)
  have hc : 0 ≤ clipTo 0 1 g ∧ clipTo 0 1 g ≤ 1 := by unfold clipTo; constructor <;> grind
  refine ⟨?_, fun h => ?_, fun h => ?_, fun h1 h2 => ?_⟩
  · conv_rhs => rw [← u8_of_byte hb]
    exact u8_mono (by nlinarith)
  · rw [show clipTo 0 1 g = 1 by unfold clipTo; grind, mul_one, u8_of_byte hb]
  · rw [show clipTo 0 1 g = 0 by unfold clipTo; grind, mul_zero]
    exact u8_of_byte ⟨0, by simp, by omega⟩
  · rw [show clipTo 0 1 g = g by unfold clipTo; grind, (u8_eq _).1]
    have e : clipTo 0 255 (noise.v y x * g) = noise.v y x * g := by
      have a1 : 0 ≤ noise.v y x * g := mul_nonneg h0 h1
      have a2 : noise.v y x * g ≤ 255 := by nlinarith
      unfold clipTo; grind
    rw [e, abs_lt]
    constructor
    · linarith [Int.lt_floor_add_one (noise.v y x * g)]
    · linarith [Int.floor_le (noise.v y x * g)]

/-- C122: flakes and drops are drawn out by motion blur if at the given speed they cross at least two pixels, in relation to the longer side, over at least three
pixels; otherwise they stay as they are. -/
theorem motion_blur_when (lib : Lib) (angle speed : ℚ) (noise : Map) :
    (speed * max noise.h noise.w < 2 → 0 ≤ speed → motionBlur lib angle speed noise = noise) ∧
    (∀ n : Nat, 2 ≤ n → (n : ℚ) ≤ speed * max noise.h noise.w → speed * max noise.h noise.w < n + 1 →
      motionBlur lib angle speed noise = lib.motion (max n 3) angle noise) := by
  have key : ∀ q : ℚ, 0 ≤ q → pyInt q = ⌊q⌋ := fun q h => by unfold pyInt; rw [if_neg (not_lt.2 h)]
  refine ⟨fun h h0 => ?_, fun n hn h1 h2 => ?_⟩
  · unfold motionBlur
    have hq : 0 ≤ speed * ((max noise.h noise.w : Nat) : ℚ) := by positivity
    simp only
    rw [if_pos]
    have e := key _ hq
    push_cast at e hq ⊢
    rw [e]
    have : ⌊speed * max (noise.h : ℚ) noise.w⌋ < 2 := Int.floor_lt.2 (by push_cast at h ⊢; exact h)
    omega
  · unfold motionBlur
    push_cast at h1 h2
    have hq : 0 ≤ speed * max (noise.h : ℚ) noise.w := le_trans (Nat.cast_nonneg n) h1
    have e := key _ hq
    have f : ⌊speed * max (noise.h : ℚ) noise.w⌋ = n := by
      rw [Int.floor_eq_iff]; push_cast; exact ⟨h1, h2⟩
    simp only
    push_cast
    rw [e, f, if_neg (by omega)]
    congr 1
    omega

example : (motionBlur demoLib 0 (1 / 4) ⟨8, 3, fun _ _ => 1⟩).h = 8 ∧ (2 : ℚ) ≤ 1 / 4 * max 8 3 := by decide +kernel

/-- C122: the colour of drops is found from the first 1000 values of the noise: others do not matter, and if they are all 0 or all 1 the colour is 110 or 240 (with
at least 1000 values). -/
theorem drop_colour (n m : Map) (c : Nat) :
    (n.h = m.h → n.w = m.w → (∀ k < 1000, n.v (k / c / n.w) (k / c % n.w) = m.v (k / c / n.w) (k / c % n.w)) → dropColor n c = dropColor m c) ∧
    ((∀ y x, n.v y x = 0) → dropColor n c = 110) ∧
    (1000 ≤ n.h * n.w * c → (∀ y x, n.v y x = 1) → noiseSum n c = 1000 ∧ dropColor n c = 240) := by
  refine ⟨fun h1 h2 h => ?_, fun h => ?_, fun hs h => ?_⟩
  · have : noiseSum n c = noiseSum m c := by
      unfold noiseSum
      rw [← h1, ← h2]
      congr 1
      apply List.map_congr_left
      intro k hk
      exact h k (by have := List.mem_range.1 hk; omega)
    simp only [dropColor, this]
  · have : noiseSum n c = 0 := by
      unfold noiseSum
      rw [List.map_congr_left (g := fun _ => (0 : ℚ)) (fun k _ => h _ _), List.map_const', List.sum_replicate]
      simp
    simp only [dropColor, this]
    decide +kernel
  · have : noiseSum n c = 1000 := by
      unfold noiseSum
      rw [Nat.min_eq_left hs, List.map_congr_left (g := fun _ => (1 : ℚ)) (fun k _ => h _ _), List.map_const', List.sum_replicate, List.length_range]
      norm_num
    refine ⟨this, ?_⟩
    simp only [dropColor, this]
    decide +kernel

example : Byte ((⟨40, 30, fun _ _ => 200⟩ : Map).v 3 4) := ⟨200, by norm_num, by omega⟩
example : 1000 ≤ (⟨40, 30, fun _ _ => 1⟩ : Map).h * (⟨40, 30, fun _ _ => 1⟩ : Map).w * 3 := by decide

/-- C122 is false of images of floats: they are made images of `uint8`, and what is after the point is lost, also without a single flake. -/
theorem floats_truncated : ∃ a b : Draw.Img, a.dt = ⟨.f, 4⟩ ∧ (∀ y x ch, 0 ≤ a.px y x ch ∧ a.px y x ch ≤ 1) ∧ draw demoLib false (demoSamples 0) a = some b ∧
    b.dt = ⟨.u, 1⟩ ∧ a.px 0 0 0 = 1 / 2 ∧ b.px 0 0 0 = 0 := by
  refine ⟨⟨⟨.f, 4⟩, 4, 4, 3, false, fun _ _ _ => 1 / 2⟩, _, rfl, ?_, rfl, rfl, rfl, ?_⟩
  · intro _ _ _; norm_num
  · decide +kernel

/-- C122: clouds can be drawn on images of `uint8` and of floats, not on others. -/
theorem clouds_accept (pow : ℚ → ℚ → ℚ) (k : Cloud) (a : Draw.Img) : drawClouds pow k a ≠ none ↔ a.dt = ⟨.u, 1⟩ ∨ a.dt.kind = .f := by
  unfold drawClouds
  split
  · rename_i h; simp [h]
  · split
    · rename_i h; simp [h]
    · rename_i h1 h2; simp [h1, h2]

/-- C122: clouds mix each pixel with a brightness that is the same in all channels: the result is between the two and keeps the order of the channels. In images
of `uint8` the brightness is between 0 and 255, and the result is an image of `uint8`. -/
theorem clouds_mix (pow : ℚ → ℚ → ℚ) (k : Cloud) (a b : Draw.Img) (h : drawClouds pow k a = some b) :
    SameShape a b ∧ b.dt = a.dt ∧ KeepsOrder a b ∧
    (∀ y x, ∃ v : ℚ, (a.dt = ⟨.u, 1⟩ → 0 ≤ v ∧ v ≤ 255) ∧ ∀ ch, (a.dt.kind = .f → Between (a.px y x ch) v (b.px y x ch)) ∧
      (a.dt = ⟨.u, 1⟩ → Byte (a.px y x ch) → Byte (b.px y x ch) ∧ min (a.px y x ch) (u8 v) ≤ b.px y x ch ∧ b.px y x ch ≤ max (a.px y x ch) v)) := by
  unfold drawClouds at h
  split at h
  · rename_i hk
    injection h with h
    subst h
    have hne : a.dt ≠ ⟨.u, 1⟩ := by intro e; rw [e] at hk; simp at hk
    refine ⟨⟨rfl, rfl, rfl, rfl⟩, rfl, ?_, ?_⟩
    · intro y x c d _ _ _ _ hle
      obtain ⟨h1, h2⟩ := clip01 (pow (k.alphaMin + k.alphaMultiplier * k.mask y x) k.sparsity * k.density)
      simp only [alpha]
      nlinarith
    · intro y x
      refine ⟨intensity k y x, fun e => absurd e hne, fun ch => ⟨fun _ => ?_, fun e => absurd e hne⟩⟩
      obtain ⟨h1, h2⟩ := clip01 (pow (k.alphaMin + k.alphaMultiplier * k.mask y x) k.sparsity * k.density)
      simp only [alpha, Between]
      generalize intensity k y x = v
      generalize clipTo 0 1 _ = t at h1 h2
      have e1 := min_le_left (a.px y x ch) v
      have e2 := min_le_right (a.px y x ch) v
      have e3 := le_max_left (a.px y x ch) v
      have e4 := le_max_right (a.px y x ch) v
      constructor <;> nlinarith
  · split at h
    · rename_i hk hu
      injection h with h
      subst h
      refine ⟨⟨rfl, rfl, rfl, rfl⟩, rfl, ?_, ?_⟩
      · intro y x c d _ _ _ _ hle
        obtain ⟨h1, h2⟩ := clip01 (pow (k.alphaMin + k.alphaMultiplier * k.mask y x) k.sparsity * k.density)
        simp only [alpha]
        exact u8_mono (by nlinarith)
      · intro y x
        refine ⟨clipTo 0 255 (intensity k y x), fun _ => ⟨by unfold clipTo; grind, by unfold clipTo; grind⟩, fun ch => ⟨fun e => absurd e hk, fun _ hb => ?_⟩⟩
        obtain ⟨h1, h2⟩ := clip01 (pow (k.alphaMin + k.alphaMultiplier * k.mask y x) k.sparsity * k.density)
        simp only [alpha]
        have hv0 : 0 ≤ clipTo 0 255 (intensity k y x) := by unfold clipTo; grind
        have hv1 : clipTo 0 255 (intensity k y x) ≤ 255 := by unfold clipTo; grind
        generalize clipTo 0 255 (intensity k y x) = v at *
        generalize clipTo 0 1 _ = t at h1 h2
        have e1 := min_le_left (a.px y x ch) v
        have e2 := min_le_right (a.px y x ch) v
        have e3 := le_max_left (a.px y x ch) v
        have e4 := le_max_right (a.px y x ch) v
        obtain ⟨b1, b2⟩ := byte_bounds hb
        refine ⟨u8_byte _, ?_, ?_⟩
        · have : min (a.px y x ch) (u8 v) = u8 (min (a.px y x ch) v) := by
            rcases le_total (a.px y x ch) v with hle | hle
            · rw [min_eq_left hle, min_eq_left (byte_le_u8 hb hle), u8_of_byte hb]
            · rw [min_eq_right hle, min_eq_right (u8_le_byte hb hle)]
          rw [this]
          exact u8_mono (by nlinarith)
        · refine le_trans (u8_le_self ?_) ?_
          · nlinarith [mul_nonneg (sub_nonneg.mpr h2) b1, mul_nonneg h1 hv0]
          · nlinarith
    · simp at h

/-- A cloud. -/
def demoCloud (density : ℚ) : Cloud := ⟨200, 0, 1, 1, density, fun _ _ => 200, fun _ _ => 1 / 2, fun _ x => x / 4⟩

example : (drawClouds (fun a _ => a) (demoCloud 1) demoImg).map (fun b => (b.px 0 0 0, b.px 0 2 0, b.px 3 3 2)) = some (0, 101, 193) := by decide +kernel

/-- C122: the fine structure of clouds changes their brightness by at most a fifth of the mean, and by as much where it is largest. -/
theorem fine_structure (k : Cloud) (y x : Nat) (hm : 0 ≤ k.mean) (h0 : 0 ≤ k.fine y x) (h1 : k.fine y x ≤ 1) :
    |intensity k y x - k.coarse y x| ≤ k.mean / 5 ∧ (k.fine y x = 1 → intensity k y x = k.coarse y x + k.mean / 5) := by
  unfold intensity
  refine ⟨?_, fun h => by rw [h]; ring⟩
  rw [abs_le]
  constructor <;> nlinarith

/-- C122: denser clouds hide more of an image of floats: the larger the density, the closer is each pixel to the brightness of the cloud, and where the density is
large enough only the cloud is seen. -/
theorem denser_clouds (pow : ℚ → ℚ → ℚ) (hp : ∀ u v, 0 ≤ pow u v) (k : Cloud) (d d' : ℚ) (hd : 0 ≤ d) (h : d ≤ d') (a : Draw.Img) (ha : a.dt.kind = .f) (y x : Nat) :
    ∃ v : ℚ, ∃ b b' : Draw.Img, drawClouds pow { k with density := d } a = some b ∧ drawClouds pow { k with density := d' } a = some b' ∧
      ∀ ch, |b'.px y x ch - v| ≤ |b.px y x ch - v| ∧
        (d = 0 → b.px y x ch = a.px y x ch) ∧ (1 ≤ pow (k.alphaMin + k.alphaMultiplier * k.mask y x) k.sparsity * d' → b'.px y x ch = v) := by
  refine ⟨intensity k y x, _, _, by simp only [drawClouds, ha, if_true]; rfl, by simp only [drawClouds, ha, if_true]; rfl, ?_⟩
  intro ch
  simp only [alpha]
  have hv : ∀ e : ℚ, intensity { k with density := e } y x = intensity k y x := fun _ => rfl
  simp only [hv]
  generalize intensity k y x = v
  have hp' := hp (k.alphaMin + k.alphaMultiplier * k.mask y x) k.sparsity
  generalize pow (k.alphaMin + k.alphaMultiplier * k.mask y x) k.sparsity = q at hp'
  obtain ⟨h1, h2⟩ := clip01 (q * d)
  obtain ⟨h3, h4⟩ := clip01 (q * d')
  have hm : clipTo 0 1 (q * d) ≤ clipTo 0 1 (q * d') := by
    have : q * d ≤ q * d' := mul_le_mul_of_nonneg_left h hp'
    unfold clipTo
    grind
  refine ⟨?_, ?_, ?_⟩
  · have e1 : (1 - clipTo 0 1 (q * d')) * a.px y x ch + clipTo 0 1 (q * d') * v - v = (1 - clipTo 0 1 (q * d')) * (a.px y x ch - v) := by ring
    have e2 : (1 - clipTo 0 1 (q * d)) * a.px y x ch + clipTo 0 1 (q * d) * v - v = (1 - clipTo 0 1 (q * d)) * (a.px y x ch - v) := by ring
    have n1 : 0 ≤ 1 - clipTo 0 1 (q * d') := by linarith
    have n2 : 0 ≤ 1 - clipTo 0 1 (q * d) := by linarith
    rw [e1, e2, abs_mul, abs_mul, abs_of_nonneg n1, abs_of_nonneg n2]
    exact mul_le_mul_of_nonneg_right (by linarith) (abs_nonneg _)
  · intro h0
    have : clipTo 0 1 (q * d) = 0 := by rw [h0, mul_zero]; unfold clipTo; norm_num
    rw [this]
    ring
  · intro h1
    have : clipTo 0 1 (q * d') = 1 := by unfold clipTo; grind
    rw [this]
    ring

/-- C122 is false of clouds on images of floats between 0 and 1: the brightness of the clouds is that for `uint8`, and the result leaves the range. -/
theorem clouds_leave_range : ∃ a b : Draw.Img, a.dt = ⟨.f, 4⟩ ∧ (∀ y x ch, 0 ≤ a.px y x ch ∧ a.px y x ch ≤ 1) ∧
    drawClouds (fun a _ => a) (demoCloud 1) a = some b ∧ b.px 0 2 0 = 401 / 4 := by
  refine ⟨⟨⟨.f, 4⟩, 4, 4, 3, false, fun _ _ _ => 1 / 2⟩, _, rfl, ?_, rfl, ?_⟩
  · intro _ _ _; norm_num
  · decide +kernel

/-- C122: in a snowy landscape hue and saturation stay as they are; lightness below the threshold is multiplied, up to rounding and the limit of 255, and other
lightness stays as it is. So if the multiplier is at least 1 no pixel gets less light. -/
theorem snowy_landscape (cvt : Cvt) (thresh lmul : ℚ) (hm : 0 ≤ lmul) (p : ℚ × ℚ × ℚ)
    (hb : Byte (cvt.toHls p).h ∧ Byte (cvt.toHls p).l ∧ Byte (cvt.toHls p).s) :
    ∃ l : ℚ, landscape cvt thresh lmul p = some (cvt.back ⟨(cvt.toHls p).h, l, (cvt.toHls p).s⟩) ∧ Byte l ∧
      (thresh ≤ (cvt.toHls p).l → l = (cvt.toHls p).l) ∧
      ((cvt.toHls p).l < thresh → |l - min 255 ((cvt.toHls p).l * lmul)| ≤ 1 / 2) ∧ (1 ≤ lmul → (cvt.toHls p).l ≤ l) := by
  obtain ⟨h1, h2, h3⟩ := hb
  obtain ⟨l, l1, l2, l3, l4⟩ := lighter_spec thresh lmul hm h2
  refine ⟨l, ?_, l2, l3, l4⟩
  simp only [landscape, restore_byte h1, restore_byte h3, l1]

example : lighter 100 2 (99 : ℚ) = some 198 ∧ lighter 100 4 (99 : ℚ) = some 255 ∧ lighter 100 4 (100 : ℚ) = some 100 := by decide +kernel

end Imgaug.Weather
