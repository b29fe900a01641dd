import Verif.Spec.Enhance
import Verif.Proofs.Dtypes
import Mathlib.Tactic.Linarith
/-! C133: enhancements and filters of PIL. -/
namespace Imgaug.Enhance.Props
open Imgaug Imgaug.Enhance

/-- The mean of the three values as brightness, no smoothing. -/
def demoLib : Lib := ⟨fun r g b => (r + g + b) / 3, fun _ => 100, fun p => { p with px := fun _ _ _ => 7 }⟩

example : demoLib.Sane := ⟨fun v => by show (v + v + v) / 3 = v; omega, fun r g b _ _ _ _ _ _ => by show 0 ≤ (r + g + b) / 3 ∧ (r + g + b) / 3 ≤ 255; omega,
  fun _ => by show (0 : Int) ≤ 100 ∧ (100 : Int) ≤ 255; decide, fun _ _ _ _ => by show (0 : Int) ≤ 7 ∧ (7 : Int) ≤ 255; decide⟩

def demoArr (flat : Bool) (c : Nat) : Arr := ⟨true, flat, 2, 3, c, fun y x b => (50 * y + 20 * x + b : Nat) % 256⟩

example (c : Nat) : (demoArr false c).Ok := ⟨fun y x b => by show 0 ≤ ((50 * y + 20 * x + b : Nat) : Int) % 256 ∧ ((50 * y + 20 * x + b : Nat) : Int) % 256 ≤ 255; omega, by intro h; cases h⟩

theorem blend_range (d v : Int) (f : ℚ) : 0 ≤ blend d v f ∧ blend d v f ≤ 255 := by
  unfold blend
  dsimp only
  split_ifs with h1 h2
  · decide
  · decide
  · push Not at h1 h2
    have : ⌊(d : ℚ) + f * (v - d)⌋ < 255 := Int.floor_lt.2 (by exact_mod_cast h2)
    exact ⟨Int.floor_nonneg.2 h1.le, by omega⟩

theorem blend_int {d v : Int} {f : ℚ} {n : Int} (h : (d : ℚ) + f * (v - d) = n) (h0 : 0 ≤ n) (h1 : n ≤ 255) : blend d v f = n := by
  unfold blend
  dsimp only
  rw [h]
  split_ifs with a b
  · have : n ≤ 0 := by exact_mod_cast a
    omega
  · have : 255 ≤ n := by exact_mod_cast b
    omega
  · exact Int.floor_intCast n

theorem blend_le {d v : Int} {f : ℚ} {n : Int} (h : (d : ℚ) + f * (v - d) ≤ n) (h0 : 0 ≤ n) : blend d v f ≤ n := by
  unfold blend
  dsimp only
  split_ifs with a b
  · exact h0
  · have : (255 : ℚ) ≤ n := b.trans h
    exact_mod_cast this
  · have := (Int.floor_le _).trans h
    exact_mod_cast this

theorem le_blend {d v : Int} {f : ℚ} {n : Int} (h : (n : ℚ) ≤ d + f * (v - d)) (h0 : n ≤ 255) : n ≤ blend d v f := by
  unfold blend
  dsimp only
  split_ifs with a b
  · have : (n : ℚ) ≤ 0 := h.trans a
    exact_mod_cast this
  · exact h0
  · exact Int.le_floor.2 h

/-- The bands of the PIL image are the channels of the array. -/
theorem toPic_eq (a : Arr) (ha : a.flat = true → a.c = 1) (p : Pic) (h : toPic a = some p) :
    p.h = a.h ∧ p.w = a.w ∧ p.bands = a.c ∧ ∀ y x b, b < a.c → p.px y x b = a.px y x b := by
  unfold toPic at h
  by_cases h1 : a.flat = true ∨ a.c = 1
  · rw [if_pos h1] at h
    cases h
    have : a.c = 1 := h1.elim ha id
    refine ⟨rfl, rfl, this.symm, fun y x b hb => ?_⟩
    have : b = 0 := by omega
    subst this
    rfl
  · rw [if_neg h1] at h
    split_ifs at h
    cases h
    exact ⟨rfl, rfl, rfl, fun _ _ _ _ => rfl⟩

/-- C133: the functions accept exactly the uint8 arrays that have no pixels or have the shape (H,W), (H,W,1), (H,W,3) or (H,W,4); shape and dtype stay,
and arrays without pixels stay as they are. -/
theorem accepts (L : Lib) (k : Kind) (f : ℚ) (a : Arr) (ha : a.Ok) :
    ((enhance L k f a).isSome ↔ a.uint8 = true ∧ (a.h = 0 ∨ a.w = 0 ∨ a.c = 0 ∨ a.c = 1 ∨ a.c = 3 ∨ a.c = 4)) ∧
    ∀ r, enhance L k f a = some r → SameShape a r ∧ r.Ok ∧ (a.h = 0 ∨ a.w = 0 ∨ a.c = 0 → r = a) := by
  have he : a.empty = true ↔ a.h = 0 ∨ a.w = 0 ∨ a.c = 0 := by
    unfold Arr.empty
    rcases hf : a.flat with _ | _
    · simp [or_assoc]
    · have := ha.2 hf
      simp [this]
  have hp : (toPic a).isSome ↔ a.c = 1 ∨ a.c = 3 ∨ a.c = 4 := by
    unfold toPic
    rcases hf : a.flat with _ | _
    · by_cases h1 : a.c = 1
      · simp [h1]
      · by_cases h2 : a.c = 3 ∨ a.c = 4
        · simp [h1, h2]
        · simp [h1, h2]
    · simp [ha.2 hf]
  unfold enhance apply
  by_cases hu : a.uint8 = false
  · simp [hu]
  · have hu' : a.uint8 = true := by simpa using hu
    rw [if_neg hu]
    by_cases hz : a.empty = true
    · rw [if_pos hz]
      refine ⟨⟨fun _ => ⟨hu', ?_⟩, fun _ => rfl⟩, ?_⟩
      · have := he.1 hz
        tauto
      · rintro r h
        cases h
        exact ⟨⟨rfl, rfl, rfl, rfl, rfl⟩, ha, fun _ => rfl⟩
    · rw [if_neg hz]
      have hn : ¬ (a.h = 0 ∨ a.w = 0 ∨ a.c = 0) := fun h => hz (he.2 h)
      constructor
      · rw [Option.isSome_map, hp]
        tauto
      · intro r hr
        obtain ⟨p, hpp, rfl⟩ := Option.map_eq_some_iff.1 hr
        obtain ⟨e1, e2, e3, -⟩ := toPic_eq a ha.2 p hpp
        have hfl : (fromPic a (enhancePic L k f p)).flat = a.flat := by
          show (a.flat || (a.c != 1 && p.bands == 1)) = a.flat
          rw [e3]
          by_cases h1 : a.c = 1 <;> simp [h1]
        refine ⟨⟨hu'.symm, hfl, e1, e2, e3⟩, ⟨fun y x b => blend_range _ _ _, fun h => ?_⟩, fun h => absurd h hn⟩
        rw [hfl] at h
        exact e3.trans (ha.2 h)

example : (enhance demoLib .color 2 (demoArr false 3)).isSome ∧ ¬ (enhance demoLib .color 2 (demoArr false 2)).isSome := by decide

/-- The values of a result. -/
theorem value (L : Lib) (k : Kind) (f : ℚ) (a r : Arr) (ha : a.Ok) (hn : a.h ≠ 0 ∧ a.w ≠ 0 ∧ a.c ≠ 0) (h : enhance L k f a = some r) :
    ∃ p, toPic a = some p ∧ ∀ y x b, b < a.c → r.px y x b = blend ((degeneratePic L k p).px y x b) (a.px y x b) f := by
  unfold enhance apply at h
  split_ifs at h with h1 h2
  · exfalso
    unfold Arr.empty at h2
    simp [hn.1, hn.2.1, hn.2.2] at h2
  · obtain ⟨p, hp, rfl⟩ := Option.map_eq_some_iff.1 h
    refine ⟨p, hp, fun y x b hb => ?_⟩
    show blend _ (p.px y x b) f = _
    rw [(toPic_eq a ha.2 p hp).2.2.2 y x b hb]

/-- C133: with the factor 1 nothing changes. -/
theorem factor_one (L : Lib) (k : Kind) (a r : Arr) (ha : a.Ok) (h : enhance L k 1 a = some r) :
    SameShape a r ∧ ∀ y x b, b < a.c → r.px y x b = a.px y x b := by
  have hs := (accepts L k 1 a ha).2 r h
  refine ⟨hs.1, fun y x b hb => ?_⟩
  by_cases hn : a.h = 0 ∨ a.w = 0 ∨ a.c = 0
  · rw [hs.2.2 hn]
  · push Not at hn
    obtain ⟨p, -, hv⟩ := value L k 1 a r ha hn h
    rw [hv y x b hb]
    exact blend_int (by ring) (ha.1 y x b).1 (ha.1 y x b).2

example : (enhance demoLib .contrast 1 (demoArr true 1)).isSome := by decide

/-- C133: `enhance_brightness` multiplies: every color value becomes the smaller one of 255 and its product with the factor, with the fraction cut off. -/
theorem brightness (L : Lib) (f : ℚ) (a r : Arr) (ha : a.Ok) (hf : 0 ≤ f) (hn : a.h ≠ 0 ∧ a.w ≠ 0) (h : enhance L .brightness f a = some r) :
    ∀ y x b, b < a.c → b < 3 → r.px y x b = min 255 ⌊f * a.px y x b⌋ := by
  intro y x b hb h3
  obtain ⟨p, -, hv⟩ := value L .brightness f a r ha ⟨hn.1, hn.2, by omega⟩ h
  rw [hv y x b hb]
  have : (degeneratePic L .brightness p).px y x b = 0 := by
    show (if b = 3 then _ else _) = _
    rw [if_neg (by omega)]
    rfl
  rw [this]
  have h0 : 0 ≤ f * (a.px y x b : ℚ) := mul_nonneg hf (by exact_mod_cast (ha.1 y x b).1)
  unfold blend
  have e : ((0 : Int) : ℚ) + f * ((a.px y x b : ℚ) - ((0 : Int) : ℚ)) = f * a.px y x b := by push_cast; ring
  simp only [e]
  split_ifs with h1 h2
  · have : f * (a.px y x b : ℚ) = 0 := le_antisymm h1 h0
    rw [this]; rfl
  · have : (255 : Int) ≤ ⌊f * (a.px y x b : ℚ)⌋ := Int.le_floor.2 (by exact_mod_cast h2)
    omega
  · push Not at h2
    have : ⌊f * (a.px y x b : ℚ)⌋ < 255 := Int.floor_lt.2 (by exact_mod_cast h2)
    omega

example : ∃ r, enhance demoLib .brightness 2 (demoArr false 4) = some r := Option.isSome_iff_exists.1 (by decide)

/-- C133: the fourth channel, the opacity, is never changed. -/
theorem alpha_kept (L : Lib) (k : Kind) (f : ℚ) (a r : Arr) (ha : a.Ok) (h4 : a.c = 4) (h : enhance L k f a = some r) :
    ∀ y x, r.px y x 3 = a.px y x 3 := by
  intro y x
  by_cases hn : a.h = 0 ∨ a.w = 0 ∨ a.c = 0
  · rw [((accepts L k f a ha).2 r h).2.2 hn]
  · push Not at hn
    obtain ⟨p, hp, hv⟩ := value L k f a r ha hn h
    rw [hv y x 3 (by omega)]
    have : (degeneratePic L k p).px y x 3 = a.px y x 3 := (toPic_eq a ha.2 p hp).2.2.2 y x 3 (by omega)
    rw [this]
    exact blend_int (by ring) (ha.1 y x 3).1 (ha.1 y x 3).2

example : (demoArr false 4).c = 4 ∧ (enhance demoLib .sharpness 2 (demoArr false 4)).isSome := by decide

/-- C133: the four enhancements lead away from an image that does not depend on the factor, which is the result for the factor 0 (a gray, a uniform, a black
or a smoothed image): factors below 1 lead to values between those of that image and the given one, factors above 1 to values on the other side. -/
theorem direction (L : Lib) (hL : L.Sane) (k : Kind) (a : Arr) (ha : a.Ok) (z : Arr) (hz : enhance L k 0 a = some z) (f : ℚ) (r : Arr)
    (h : enhance L k f a = some r) (hf : 0 ≤ f) (y x b : Nat) (hb : b < a.c) :
    (f ≤ 1 → min (z.px y x b) (a.px y x b) ≤ r.px y x b ∧ r.px y x b ≤ max (z.px y x b) (a.px y x b)) ∧
    (1 ≤ f → (z.px y x b ≤ a.px y x b → a.px y x b ≤ r.px y x b) ∧ (a.px y x b ≤ z.px y x b → r.px y x b ≤ a.px y x b)) := by
  have hv := ha.1 y x b
  by_cases hn : a.h = 0 ∨ a.w = 0 ∨ a.c = 0
  · rw [((accepts L k f a ha).2 r h).2.2 hn]
    exact ⟨fun _ => ⟨min_le_right _ _, le_max_right _ _⟩, fun _ => ⟨fun _ => le_rfl, fun _ => le_rfl⟩⟩
  · push Not at hn
    obtain ⟨p, hp, h0⟩ := value L k 0 a z ha hn hz
    obtain ⟨p', hp', h1⟩ := value L k f a r ha hn h
    rw [hp] at hp'
    cases hp'
    have hpx := (toPic_eq a ha.2 p hp)
    have hok : ∀ y x b, 0 ≤ p.px y x b ∧ p.px y x b ≤ 255 := by
      intro y x b
      unfold toPic at hp
      split_ifs at hp
      · cases hp; exact ha.1 y x 0
      · cases hp; exact ha.1 y x b
    have hd : 0 ≤ (degeneratePic L k p).px y x b ∧ (degeneratePic L k p).px y x b ≤ 255 := by
      show 0 ≤ (if b = 3 then p.px y x 3 else degenerate L p k y x b) ∧ (if b = 3 then p.px y x 3 else degenerate L p k y x b) ≤ 255
      split_ifs with e
      · exact hok y x 3
      · cases k
        · show 0 ≤ (if p.bands = 1 then _ else _) ∧ (if p.bands = 1 then _ else _) ≤ 255
          split_ifs
          · exact hok y x 0
          · exact hL.gray_range _ _ _ (hok y x 0).1 (hok y x 0).2 (hok y x 1).1 (hok y x 1).2 (hok y x 2).1 (hok y x 2).2
        · exact hL.mean_range p
        · show (0 : Int) ≤ 0 ∧ (0 : Int) ≤ 255
          decide
        · exact hL.smooth_range p y x b
    rw [h1 y x b hb, h0 y x b hb]
    rw [blend_int (f := 0) (n := (degeneratePic L k p).px y x b) (by ring) hd.1 hd.2]
    generalize (degeneratePic L k p).px y x b = d at hd
    generalize a.px y x b = v at hv
    rcases le_total d v with hdv | hdv
    · have hq : (0 : ℚ) ≤ (v : ℚ) - d := sub_nonneg.2 (by exact_mod_cast hdv)
      rw [min_eq_left hdv, max_eq_right hdv]
      refine ⟨fun hf1 => ⟨le_blend (by nlinarith) hd.2, blend_le (by nlinarith) hv.1⟩, fun hf1 => ⟨fun _ => le_blend (by nlinarith) hv.2, fun hh => ?_⟩⟩
      have : d = v := le_antisymm hdv hh
      subst this
      exact blend_le (by ring_nf; exact le_rfl) hv.1
    · have hq : (v : ℚ) - d ≤ 0 := sub_nonpos.2 (by exact_mod_cast hdv)
      rw [min_eq_right hdv, max_eq_left hdv]
      refine ⟨fun hf1 => ⟨le_blend (by nlinarith) hv.2, blend_le (by nlinarith) hd.1⟩, fun hf1 => ⟨fun hh => ?_, fun _ => blend_le (by nlinarith) hv.1⟩⟩
      have : d = v := le_antisymm hh hdv
      subst this
      exact le_blend (by ring_nf; exact le_rfl) hv.2

example : ∃ z r, enhance demoLib .contrast 0 (demoArr false 3) = some z ∧ enhance demoLib .contrast (3 / 2) (demoArr false 3) = some r :=
  let ⟨z, hz⟩ := Option.isSome_iff_exists.1 (show (enhance demoLib .contrast 0 (demoArr false 3)).isSome from rfl)
  let ⟨r, hr⟩ := Option.isSome_iff_exists.1 (show (enhance demoLib .contrast (3 / 2) (demoArr false 3)).isSome from rfl)
  ⟨z, r, hz, hr⟩

/-- C133: what the factor 0 gives: for contrast the color values are all the same, for brightness they are all 0, and for color each pixel has three equal
values. -/
theorem factor_zero (L : Lib) (hL : L.Sane) (a r : Arr) (ha : a.Ok) (hn : a.h ≠ 0 ∧ a.w ≠ 0) :
    (enhance L .contrast 0 a = some r → ∀ y x b y' x' b', b < a.c → b' < a.c → b < 3 → b' < 3 → r.px y x b = r.px y' x' b') ∧
    (enhance L .brightness 0 a = some r → ∀ y x b, b < a.c → b < 3 → r.px y x b = 0) ∧
    (enhance L .color 0 a = some r → 3 ≤ a.c → ∀ y x b b', b < 3 → b' < 3 → r.px y x b = r.px y x b') := by
  refine ⟨?_, ?_, ?_⟩
  · intro h y x b y' x' b' hb hb' h3 h3'
    obtain ⟨p, hp, hv⟩ := value L .contrast 0 a r ha ⟨hn.1, hn.2, by omega⟩ h
    have e : ∀ y x b, b < a.c → b < 3 → r.px y x b = L.mean p := by
      intro y x b hb h3
      rw [hv y x b hb]
      refine blend_int ?_ (hL.mean_range p).1 (hL.mean_range p).2
      rw [show (degeneratePic L .contrast p).px y x b = L.mean p from if_neg (by omega)]
      ring
    rw [e y x b hb h3, e y' x' b' hb' h3']
  · intro h y x b hb h3
    rw [brightness L 0 a r ha le_rfl hn h y x b hb h3]
    simp
  · intro h hc y x b b' hb hb'
    obtain ⟨p, hp, hv⟩ := value L .color 0 a r ha ⟨hn.1, hn.2, by omega⟩ h
    have hpe := toPic_eq a ha.2 p hp
    rw [hv y x b (by omega), hv y x b' (by omega)]
    have e : ∀ b, b < 3 → (degeneratePic L .color p).px y x b = L.gray (a.px y x 0) (a.px y x 1) (a.px y x 2) := by
      intro b hb
      show (if b = 3 then _ else (if p.bands = 1 then _ else _)) = _
      rw [if_neg (by omega), if_neg (by omega), hpe.2.2.2 y x 0 (by omega), hpe.2.2.2 y x 1 (by omega), hpe.2.2.2 y x 2 (by omega)]
    rw [e b hb, e b' hb']
    unfold blend
    simp

example : (enhance demoLib .color 0 (demoArr false 3)).isSome := by decide

/-- C133: `enhance_color` does not change grayscale images, and not the pixels of color images that are gray, whatever the factor is. -/
theorem color_keeps_gray (L : Lib) (hL : L.Sane) (f : ℚ) (a r : Arr) (ha : a.Ok) (h : enhance L .color f a = some r) (y x : Nat)
    (hg : a.c = 1 ∨ (a.px y x 0 = a.px y x 1 ∧ a.px y x 1 = a.px y x 2)) : ∀ b, b < a.c → r.px y x b = a.px y x b := by
  intro b hb
  by_cases hn : a.h = 0 ∨ a.w = 0 ∨ a.c = 0
  · rw [((accepts L .color f a ha).2 r h).2.2 hn]
  · push Not at hn
    obtain ⟨p, hp, hv⟩ := value L .color f a r ha hn h
    have hpe := toPic_eq a ha.2 p hp
    rw [hv y x b hb]
    have : (degeneratePic L .color p).px y x b = a.px y x b := by
      show (if b = 3 then p.px y x 3 else (if p.bands = 1 then p.px y x 0 else L.gray (p.px y x 0) (p.px y x 1) (p.px y x 2))) = _
      by_cases h3 : b = 3
      · subst h3
        rw [if_pos rfl, hpe.2.2.2 y x 3 hb]
      · rw [if_neg h3]
        by_cases h1 : p.bands = 1
        · have : b = 0 := by have := hpe.2.2.1; omega
          subst this
          rw [if_pos h1, hpe.2.2.2 y x 0 hb]
        · have hc : a.c = 3 ∨ a.c = 4 := by
            have := hpe.2.2.1
            have hs := ((accepts L .color f a ha).1.1 (by rw [h]; rfl)).2
            omega
          rcases hg with hg | ⟨g1, g2⟩
          · omega
          · rw [if_neg h1, hpe.2.2.2 y x 0 (by omega), hpe.2.2.2 y x 1 (by omega), hpe.2.2.2 y x 2 (by omega), ← g2, ← g1, hL.gray_same]
            have : b = 0 ∨ b = 1 ∨ b = 2 := by omega
            rcases this with rfl | rfl | rfl
            · rfl
            · exact g1
            · exact g1.trans g2
    rw [this]
    exact blend_int (by ring) (ha.1 y x b).1 (ha.1 y x b).2

example : (enhance demoLib .color 3 (demoArr true 1)).isSome := by decide

/-- C133: `EnhanceColor` and the other augmenters enhance every image by its own factor and keep number, order, shapes and dtypes of the images. -/
theorem batch (L : Lib) (k : Kind) (ims rs : List Arr) (fs : List ℚ) (hlen : fs.length = ims.length)
    (h : enhanceBatch L k ims fs = some rs) :
    rs.length = ims.length ∧ ∀ (i : Nat) (a : Arr) (f : ℚ), ims[i]? = some a → fs[i]? = some f →
      ∃ r e, rs[i]? = some r ∧ enhance L k f a = some e ∧ SameShape a r ∧ r.px = e.px := by
  unfold enhanceBatch at h
  have h1 := Dtypes.mapM_len _ _ _ h
  rw [List.length_zip, hlen, min_self] at h1
  refine ⟨h1, fun i a f ha hf => ?_⟩
  obtain ⟨r, hr, hfr⟩ := Dtypes.mapM_nth _ _ _ h i (a, f) (List.getElem?_zip_eq_some.2 ⟨ha, hf⟩)
  obtain ⟨e, he, hs⟩ := Option.bind_eq_some_iff.1 hfr
  unfold store at hs
  split_ifs at hs
  cases hs
  exact ⟨_, e, hr, he, ⟨rfl, rfl, rfl, rfl, rfl⟩, rfl⟩

/-- C133: a batch of arrays that the function accepts is augmented without an exception. -/
theorem batch_accepts (L : Lib) (k : Kind) (ims : List Arr) (fs : List ℚ) (hok : ∀ a ∈ ims, a.Ok)
    (hs : ∀ a ∈ ims, a.uint8 = true ∧ (a.h = 0 ∨ a.w = 0 ∨ a.c = 0 ∨ a.c = 1 ∨ a.c = 3 ∨ a.c = 4)) : (enhanceBatch L k ims fs).isSome := by
  unfold enhanceBatch
  refine Option.isSome_iff_exists.2 ⟨_, Dtypes.mapM_some _ (fun p => { p.1 with px := ((enhance L k p.2 p.1).getD p.1).px }) _ ?_⟩
  rintro ⟨a, f⟩ hm
  have ha : a ∈ ims := (List.of_mem_zip hm).1
  obtain ⟨e, he⟩ := Option.isSome_iff_exists.1 ((accepts L k f a (hok a ha)).1.2 (hs a ha))
  have hsh := ((accepts L k f a (hok a ha)).2 e he).1
  simp only [he, Option.bind_some]
  unfold store
  rw [if_pos ⟨hsh.2.2.1, hsh.2.2.2.1, hsh.2.1, hsh.2.2.2.2⟩]
  rfl

example : (enhanceBatch demoLib .sharpness [demoArr true 1, demoArr false 3] [1, 2]).isSome := by decide

/-- C133: the filters of PIL see every image for itself, images of the shape (H,W,1) as images of the shape (H,W); shapes and dtypes stay. -/
theorem filters (f : Pic → Pic) (ims rs : List Arr) (hok : ∀ a ∈ ims, a.Ok)
    (h : filterBatch f ims = some rs) :
    rs.length = ims.length ∧ ∀ (i : Nat) (a : Arr), ims[i]? = some a → ∃ r, rs[i]? = some r ∧ SameShape a r ∧ a.uint8 = true ∧
      ((a.h = 0 ∨ a.w = 0 ∨ a.c = 0) ∧ r = a ∨ a.h ≠ 0 ∧ a.w ≠ 0 ∧
        (a.c = 1 ∧ r.px = (f ⟨a.h, a.w, 1, fun y x _ => a.px y x 0⟩).px ∨ (a.c = 3 ∨ a.c = 4) ∧ r.px = (f ⟨a.h, a.w, a.c, a.px⟩).px)) := by
  unfold filterBatch at h
  refine ⟨Dtypes.mapM_len _ _ _ h, fun i a ha => ?_⟩
  have hm : a ∈ ims := List.mem_of_getElem? ha
  obtain ⟨r, hr, hfr⟩ := Dtypes.mapM_nth _ _ _ h i a ha
  obtain ⟨e, he, hs⟩ := Option.bind_eq_some_iff.1 hfr
  unfold store at hs
  split_ifs at hs
  cases hs
  refine ⟨_, hr, ⟨rfl, rfl, rfl, rfl, rfl⟩, ?_⟩
  unfold apply at he
  split_ifs at he with h1 h2
  · cases he
    refine ⟨by simpa using h1, .inl ⟨?_, rfl⟩⟩
    unfold Arr.empty at h2
    simp at h2
    tauto
  · obtain ⟨p, hp, rfl⟩ := Option.map_eq_some_iff.1 he
    refine ⟨by simpa using h1, .inr ?_⟩
    have hne : a.h ≠ 0 ∧ a.w ≠ 0 := by
      unfold Arr.empty at h2
      simp at h2
      exact ⟨h2.1.1, h2.1.2⟩
    refine ⟨hne.1, hne.2, ?_⟩
    unfold toPic at hp
    split_ifs at hp with g1 g2
    · cases hp
      exact .inl ⟨g1.elim (hok a hm).2 id, rfl⟩
    · cases hp
      exact .inr ⟨g2, rfl⟩

/-- C133: batches of uint8 arrays of the allowed shapes are filtered without an exception, if the filter keeps size and bands of an image. -/
theorem filters_accept (f : Pic → Pic) (hf : ∀ p, (f p).h = p.h ∧ (f p).w = p.w ∧ (f p).bands = p.bands) (ims : List Arr) (hok : ∀ a ∈ ims, a.Ok)
    (hs : ∀ a ∈ ims, a.uint8 = true ∧ (a.h = 0 ∨ a.w = 0 ∨ a.c = 0 ∨ a.c = 1 ∨ a.c = 3 ∨ a.c = 4)) : (filterBatch f ims).isSome := by
  unfold filterBatch
  refine Option.isSome_iff_exists.2 ⟨_, Dtypes.mapM_some _ (fun a => { a with px := ((apply f a).getD a).px }) _ ?_⟩
  intro a ha
  obtain ⟨hu, hc⟩ := hs a ha
  unfold apply
  rw [if_neg (by simp [hu])]
  by_cases hz : a.empty = true
  · rw [if_pos hz]
    simp [store]
  · rw [if_neg hz]
    have hp : ∃ p, toPic a = some p := by
      unfold toPic
      by_cases h1 : a.flat = true ∨ a.c = 1
      · exact ⟨_, if_pos h1⟩
      · rw [if_neg h1]
        refine ⟨_, if_pos ?_⟩
        unfold Arr.empty at hz
        simp at hz
        have h0 : a.c ≠ 0 := hz.2 (by simpa using fun h => h1 (.inl h))
        have h2 : a.c ≠ 1 := fun h => h1 (.inr h)
        have := hz.1
        omega
    obtain ⟨p, hp⟩ := hp
    obtain ⟨e1, e2, e3, -⟩ := toPic_eq a (hok a ha).2 p hp
    obtain ⟨f1, f2, f3⟩ := hf p
    simp only [hp, Option.map_some, Option.bind_some, Option.getD_some]
    unfold store
    rw [if_pos]
    refine ⟨f1.trans e1, f2.trans e2, ?_, f3.trans e3⟩
    show (a.flat || (a.c != 1 && (f p).bands == 1)) = a.flat
    rw [f3, e3]
    by_cases h1 : a.c = 1 <;> simp [h1]

example : (filterBatch (fun p => p) [demoArr false 1, demoArr false 4]).isSome := by decide

end Imgaug.Enhance.Props
