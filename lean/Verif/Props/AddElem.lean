import Verif.Spec.AddElem
import Verif.Proofs.MulElem
import Verif.Props.AddMul
/-! C140: `add_elementwise` and the augmenters that add noise. -/
namespace Imgaug.AddElem
open Imgaug Imgaug.Dtypes Imgaug.Resize
open Imgaug.AddMul (promote gated addElemUint8 fitted targetAdd)
open Imgaug.MulElem (spread tiled Matches In factor spread_some tiled_matches tiled_factor)

/-- For the examples: a 2×2 image with 2 channels. -/
def demo (d : DType) (c : Option Nat) (f : Nat → ℚ) : Im := ⟨d, 2, 2, c, fun y x k => f (4 * y + 2 * x + k)⟩

/-- The components of an image with 2×2 pixels and at most 2 channels, for the examples. -/
def list (a : Im) : List ℚ := (List.range 4).flatMap (fun i => (List.range (a.c.getD 1)).map (fun k => a.px (i / 2) (i % 2) k))

theorem withAxis_id (m : Im) (c : Nat) (h : m.c = some c) : withAxis m = m := by
  cases m
  simp only at h
  subst h
  simp [withAxis]

/-- The values for uint8 images belong to their components. -/
theorem uint8_values (img m : Im) (c : Nat) (hc : img.c = some c) (hm : Matches img m) :
    ∃ f, (if useCv2 img m then cv2Values img m else spread img m) = some f ∧ ∀ y x k, In img y x k → f y x k = factor m y x k := by
  obtain ⟨f, hf, hv⟩ := spread_some img m c hc hm
  by_cases hu : useCv2 img m = true
  · rw [if_pos hu]
    obtain ⟨c', hc'⟩ : ∃ c', m.c = some c' := by
      rcases hm.2.2 with h | h
      · exact ⟨1, h⟩
      · exact ⟨c, by rw [h, hc]⟩
    have hn : ¬ (img.c = none ∧ m.c ≠ none) := by rw [hc]; simp
    have hn2 : ¬ (img.c = none) := by rw [hc]; simp
    unfold cv2Values
    rw [if_neg hn]
    simp only [if_neg hn2, withAxis_id m c' hc', hc']
    by_cases h1 : c' = 1
    · rw [if_pos h1]; exact ⟨f, hf, hv⟩
    · rw [if_neg h1]
      have h2 : m.c = img.c := by
        refine hm.2.2.resolve_left ?_
        rw [hc']; simpa using h1
      rw [if_pos (by simp [Im.shape, hm.1, hm.2.1, h2])]
      refine ⟨m.px, rfl, fun y x k _ => ?_⟩
      unfold factor
      rw [if_neg (by rw [hc']; simpa using h1)]
  · rw [if_neg hu]; exact ⟨f, hf, hv⟩

/-- C140: values of the documented shapes with a channel axis are accepted for all uint8 images, also empty ones. Shape and dtype stay, and every
component is, within one half, its sum with the value of its pixel and channel, limited to 0 and 255; for values that are integers it is exactly that. -/
theorem sum_uint8 (img m : Im) (c : Nat) (hc : img.c = some c) (hd : img.dt = ⟨.u, 1⟩) (hv : Valid img) (hm : Matches img m) (hmv : Valid m) :
    ∃ r, addElem img m = some r ∧ r.dt = img.dt ∧ r.shape = img.shape ∧ ∀ y x k, In img y x k →
      |r.px y x k - clamp ⟨.u, 1⟩ (img.px y x k + factor m y x k)| ≤ 1 / 2 ∧
      ((∃ n : Int, factor m y x k = n) → r.px y x k = clamp ⟨.u, 1⟩ (img.px y x k + factor m y x k)) := by
  obtain ⟨f, hf, hfv⟩ := uint8_values img m c hc hm
  have hg : ¬ (img.dt ∉ gated) := by rw [hd]; decide
  refine ⟨⟨img.dt, img.h, img.w, img.c, fun y x k => addElemUint8 (decide (img.c = none)) (img.c.getD 1) m.dt (img.px y x k) (f y x k)⟩,
    by rw [addElem, if_neg hg, if_pos hd, addUint8, hf, Option.map_some], rfl, rfl, ?_⟩
  intro y x k hin
  simp only
  rw [hfv y x k hin]
  have hx : Holds m.dt (factor m y x k) := by unfold factor; split_ifs <;> exact hmv _ _ _
  exact AddMul.add_elementwise_uint8 _ _ _ _ _ (hd ▸ hv y x k) hx

example : (addElem (demo ⟨.u, 1⟩ (some 2) (fun n => 30 * n)) (demo ⟨.i, 4⟩ (some 1) (fun n => 50 - 20 * n))).map list
    = some [50, 80, 70, 100, 90, 120, 110, 140] := by decide +kernel
example : (addElem (demo ⟨.u, 1⟩ (some 2) (fun n => 30 * n)) (demo ⟨.i, 8⟩ (some 2) (fun n => if n < 4 then -300 else 300))).map list
    = some [0, 0, 0, 0, 255, 255, 255, 255] := by decide +kernel

theorem whole_rounded (d vd : DType) (x : ℚ) (hx : Holds vd x) : rounded d vd x = whole d x := by
  unfold rounded whole
  by_cases h1 : d.kind = .f
  · rw [if_pos h1, if_neg (by simp [h1])]
  · rw [if_neg h1]
    by_cases h2 : vd.kind = .f
    · rw [if_pos ⟨h1, h2⟩]
    · rw [if_neg (by simp [h2])]
      obtain ⟨n, rfl⟩ := hx.2.2 h2
      rw [Imgaug.Props.npRound_int]

theorem whole_small (d : DType) (x : ℚ) (h : |x| ≤ 32000) : |whole d x| ≤ 32000 := by
  unfold whole
  split
  · exact h
  · obtain ⟨h1, h2⟩ := abs_le.mp h
    have a := Imgaug.Props.npRound_mono h1
    have b := Imgaug.Props.npRound_mono h2
    have e1 := Imgaug.Props.npRound_int (-32000)
    have e2 := Imgaug.Props.npRound_int 32000
    push_cast at e1 e2
    rw [e1] at a
    rw [e2] at b
    rw [abs_le]
    exact ⟨by exact_mod_cast a, by exact_mod_cast b⟩

theorem rounded_holds (d vd : DType) (x : ℚ) (hx : Holds vd x) : Holds vd (rounded d vd x) := by
  unfold rounded
  split
  · rename_i h
    obtain ⟨h1, h2, _⟩ := hx
    have a := Imgaug.Props.npRound_mono h1
    have b := Imgaug.Props.npRound_mono h2
    rw [Imgaug.Props.npRound_int] at a b
    exact ⟨by exact_mod_cast a, by exact_mod_cast b, fun h' => absurd h.2 h'⟩
  · exact hx

theorem clip_id (vd T : DType) (hT : T ∈ all) (hc : clippable vd = true) (hb : BoundFits vd T) (v : ℚ) (hv : Holds vd v) (h1 : (lo T : ℚ) ≤ v)
    (h2 : v ≤ hi T) : (clip vd v (lo T) (hi T)).getD 0 = v := by
  rw [clip_eq vd T hT hc hb v hv, Option.getD_some, clamp]
  grind

/-- C140 (partial): for the other dtypes, values of the documented shapes with a channel axis are accepted if they are at most 32000 in absolute value, not
boolean, not 64 bit integers, and not unsigned for int16 images. Shape and dtype stay, and every component is its sum with the value of its pixel and
channel, which is rounded unless the image has floats, limited to the range of the image's dtype. Missing: larger values (`late_values`). -/
theorem sum_other_partial (img m : Im) (c : Nat) (hc : img.c = some c) (hd : img.dt ∈ gated) (hu : img.dt ≠ ⟨.u, 1⟩)
    (hne : 0 < img.h ∧ 0 < img.w ∧ 0 < c) (hv : Valid img) (hm : Matches img m) (hmd : m.dt ∈ Dtypes.all) (hmv : Valid m)
    (hb : m.dt.kind ≠ .b) (h64 : m.dt ≠ ⟨.i, 8⟩ ∧ m.dt ≠ ⟨.u, 8⟩) (h16 : ¬ (img.dt = ⟨.i, 2⟩ ∧ m.dt.kind = .u))
    (hs : ∀ y x k, |m.px y x k| ≤ 32000) :
    ∃ r, addElem img m = some r ∧ r.dt = img.dt ∧ r.shape = img.shape ∧
      ∀ y x k, In img y x k → r.px y x k = clamp img.dt (img.px y x k + whole img.dt (factor m y x k)) := by
  obtain ⟨p1, p2, p3⟩ := hne
  obtain ⟨c', hc'⟩ : ∃ c', m.c = some c' := by
    rcases hm.2.2 with h | h
    · exact ⟨1, h⟩
    · exact ⟨c, by rw [h, hc]⟩
  have hc0 : c' ≠ 0 := by
    rcases hm.2.2 with h | h
    · rw [hc'] at h; simp at h; omega
    · rw [hc', hc] at h; simp at h; omega
  have hcl : clippable m.dt = true := by
    obtain ⟨a, b⟩ := h64
    revert a b hmd; generalize m.dt = vd; revert vd; decide +kernel
  have hT : target img.dt m.dt ∈ Dtypes.all := (AddMul.add_target_mem img.dt m.dt hd hmd).mpr hb
  obtain ⟨r1, r2, r3, r4⟩ := AddMul.add_room img.dt m.dt hd hu hmd hcl hb h16
  have hrange : ∀ y x k, (lo (target img.dt m.dt) : ℚ) ≤ rounded img.dt m.dt (m.px y x k) ∧ rounded img.dt m.dt (m.px y x k) ≤ hi (target img.dt m.dt) := by
    intro y x k
    rw [whole_rounded _ _ _ (hmv y x k)]
    obtain ⟨w1, w2⟩ := abs_le.mp (whole_small img.dt _ (hs y x k))
    have r3' : (32000 : ℚ) ≤ hi (target img.dt m.dt) := by exact_mod_cast r3
    refine ⟨?_, by linarith⟩
    rcases r4 with r4 | ⟨hk, r4⟩
    · have r4' : (lo (target img.dt m.dt) : ℚ) ≤ -32000 := by exact_mod_cast r4
      linarith
    · have r4' : (lo (target img.dt m.dt) : ℚ) = 0 := by exact_mod_cast r4
      rw [r4']
      have h0 := (hmv y x k).1
      have e : lo m.dt = 0 := by simp [lo, hk]
      rw [e] at h0
      push_cast at h0
      unfold whole
      split
      · exact h0
      · exact_mod_cast Imgaug.Props.npRound_nonneg h0
  have hacc : accepted (target img.dt m.dt) (roundedIm img.dt m) = true := by
    simp only [accepted, roundedIm, withAxis_id m c' hc', hcl, Bool.true_and, Bool.and_eq_true, decide_eq_true_eq, hc']
    refine ⟨⟨by rw [hm.1]; omega, by rw [hm.2.1]; omega, by simpa using hc0⟩, ?_⟩
    intro y _ x _ k _ _
    exact hrange y x k
  have hP : ¬ (promote img.dt (target img.dt m.dt) ≠ img.dt ∧ clippable (promote img.dt (target img.dt m.dt)) = false) := by
    have hn := AddMul.nice_add img.dt m.dt hd hmd hu hT hcl h16
    obtain ⟨_, a, _⟩ := hn
    rintro ⟨b1, b2⟩
    change clippable (promote img.dt (target img.dt m.dt)) = true at a
    rw [a] at b2
    simp at b2
  have hcm : (clipped img.dt m).c = m.c ∧ ∀ y x k, (clipped img.dt m).px y x k = rounded img.dt m.dt (m.px y x k) := by
    refine ⟨by simp only [clipped, withAxis_id m c' hc'], fun y x k => ?_⟩
    simp only [clipped, withAxis_id m c' hc']
    exact clip_id _ _ hT hcl (AddMul.fits_add img.dt m.dt hd hmd hT) _ (rounded_holds _ _ _ (hmv y x k)) (hrange y x k).1 (hrange y x k).2
  have himg : ({ img with c := some (img.c.getD 1) } : Im) = img := by
    cases img
    simp only at hc
    subst hc
    rfl
  have hmat : Matches img (clipped img.dt m) := ⟨hm.1, hm.2.1, by rw [hcm.1]; exact hm.2.2⟩
  obtain ⟨f, hf, hfv⟩ := spread_some img (tiled (img.c.getD 1) (clipped img.dt m)) c hc (by
    rw [hc]; exact tiled_matches img _ c hc hmat)
  refine ⟨⟨img.dt, img.h, img.w, img.c, fun y x k => component img.dt (target img.dt m.dt) (img.px y x k) (f y x k)⟩, ?_, rfl, rfl, ?_⟩
  · rw [addElem, if_neg (by simpa using hd), if_neg hu, addOther]
    simp only [if_neg (not_not.mpr hT), hacc, Bool.true_eq_false, if_false, if_neg hP, himg, hf, Option.map_some]
  · intro y x k hin
    simp only
    rw [hfv y x k hin, tiled_factor]
    have e : factor (clipped img.dt m) y x k = rounded img.dt m.dt (factor m y x k) := by
      unfold factor
      rw [hcm.1]
      split_ifs <;> exact hcm.2 _ _ _
    have hx : Holds m.dt (factor m y x k) := by unfold factor; split_ifs <;> exact hmv _ _ _
    have hxs : |factor m y x k| ≤ 32000 := by unfold factor; split_ifs <;> exact hs _ _ _
    have hxr : (lo (target img.dt m.dt) : ℚ) ≤ rounded img.dt m.dt (factor m y x k) ∧ rounded img.dt m.dt (factor m y x k) ≤ hi (target img.dt m.dt) := by
      unfold factor; split_ifs <;> exact hrange _ _ _
    rw [e]
    have hvd := hv y x k
    obtain ⟨v1, v2, v3⟩ := hvd
    have r1' : (32000 : ℚ) + hi img.dt ≤ hi (promote img.dt (targetAdd img.dt m.dt)) := by exact_mod_cast r1
    have hwr := whole_rounded img.dt m.dt _ hx
    obtain ⟨w1, w2⟩ := abs_le.mp (whole_small img.dt _ hxs)
    have hint : m.dt.kind ≠ .f → ∃ n : Int, rounded img.dt m.dt (factor m y x k) = n := by
      intro h
      rw [rounded, if_neg (by simp [h])]
      exact hx.2.2 h
    have key := AddMul.op_component (· + ·) (fun a b => ⟨a + b, by push_cast; rfl⟩) img.dt (targetAdd img.dt m.dt) (AddMul.gated_all _ hd)
      (AddMul.nice_add img.dt m.dt hd hmd hu hT hcl h16) (img.px y x k) (rounded img.dt m.dt (factor m y x k)) (hv y x k) hxr.1 hxr.2 hint
      (by
        rw [hwr]
        rcases r2 with r2 | ⟨hk, r2⟩
        · have r2' : (lo (promote img.dt (targetAdd img.dt m.dt)) : ℚ) ≤ lo img.dt - 32000 := by exact_mod_cast r2
          show _ ≤ img.px y x k + whole img.dt (factor m y x k)
          linarith
        · have r2' : (lo (promote img.dt (targetAdd img.dt m.dt)) : ℚ) ≤ lo img.dt := by exact_mod_cast r2
          have h0 := hx.1
          have e0 : lo m.dt = 0 := by simp [lo, hk]
          rw [e0] at h0
          push_cast at h0
          have : 0 ≤ whole img.dt (factor m y x k) := by
            unfold whole
            split
            · exact h0
            · exact_mod_cast Imgaug.Props.npRound_nonneg h0
          show _ ≤ img.px y x k + whole img.dt (factor m y x k)
          linarith)
      (by
        rw [hwr]
        show img.px y x k + whole img.dt (factor m y x k) ≤ _
        linarith)
    have key2 : component img.dt (target img.dt m.dt) (img.px y x k) (rounded img.dt m.dt (factor m y x k)) =
        fitted img.dt (img.px y x k + rounded img.dt m.dt (factor m y x k)) := by
      unfold component
      exact congrArg (fun o => Option.getD o 0) key
    rw [key2, hwr, fitted]
    by_cases hk : img.dt.kind = .f
    · rw [if_pos hk]
    · rw [if_neg hk]
      obtain ⟨n, hn⟩ := v3 hk
      have : img.px y x k + whole img.dt (factor m y x k) = ((n + npRound (factor m y x k) : Int) : ℚ) := by
        rw [hn, whole, if_neg hk]; push_cast; rfl
      rw [this, Imgaug.Props.npRound_int]

example : (addElem (demo ⟨.i, 1⟩ (some 2) (fun n => 20 * n)) (demo ⟨.f, 4⟩ (some 1) (fun n => n - 3 / 2))).map list
    = some [-2, 18, 40, 60, 82, 102, 124, 127] := by decide +kernel
example : (addElem (demo ⟨.f, 4⟩ (some 2) (fun n => n)) (demo ⟨.f, 4⟩ (some 2) (fun n => n / 2))).map list
    = some [0, 3 / 2, 3, 9 / 2, 6, 15 / 2, 9, 21 / 2] := by decide +kernel

/-- C140 is false of large values: only the first 100 values are checked. A value that does not fit into twice the bytes of the image is rejected among
these, and clipped among the others, and then the sum can wrap around: adding 40000 to a component 1 of an int8 image gives -128. -/
theorem late_values :
    addElem ⟨⟨.i, 1⟩, 1, 101, some 1, fun _ _ _ => 1⟩ ⟨⟨.i, 4⟩, 1, 101, some 1, fun _ x _ => if x = 99 then 40000 else 0⟩ = none ∧
    (addElem ⟨⟨.i, 1⟩, 1, 101, some 1, fun _ _ _ => 1⟩ ⟨⟨.i, 4⟩, 1, 101, some 1, fun _ x _ => if x = 100 then 40000 else 0⟩).map
      (fun r => (r.px 0 99 0, r.px 0 100 0)) = some (1, -128) := by
  have h : ∀ a : Option Im, a.isSome = false → a = none := by intro a; cases a <;> simp
  exact ⟨h _ (by decide +kernel), by decide +kernel⟩

/-- C140: for the other dtypes, boolean values, 64 bit integers, and, for int16 images, unsigned integers are always rejected. -/
theorem rejects (img m : Im) (hu : img.dt ≠ ⟨.u, 1⟩) (hmd : m.dt ∈ Dtypes.all)
    (h : m.dt.kind = .b ∨ m.dt = ⟨.i, 8⟩ ∨ m.dt = ⟨.u, 8⟩ ∨ (img.dt = ⟨.i, 2⟩ ∧ m.dt.kind = .u)) : addElem img m = none := by
  unfold addElem
  by_cases hd : img.dt ∈ gated
  · rw [if_neg (by simpa using hd), if_neg hu]
    have e : (roundedIm img.dt m).dt = m.dt := rfl
    unfold addOther
    by_cases hT : target img.dt m.dt ∈ Dtypes.all
    · have hb : m.dt.kind ≠ .b := (AddMul.add_target_mem img.dt m.dt hd hmd).mp hT
      simp only [if_neg (not_not.mpr hT)]
      rcases h with h | h | h | h
      · exact absurd h hb
      · rw [if_pos (by rw [accepted, e, h]; rfl)]
      · rw [if_pos (by rw [accepted, e, h]; rfl)]
      · have := (AddMul.add_promoted img.dt m.dt hd hu hmd hb).not.mpr (by simpa using h)
        have hp : promote img.dt (target img.dt m.dt) ≠ img.dt ∧ clippable (promote img.dt (target img.dt m.dt)) = false := by
          push Not at this
          refine ⟨this.1, ?_⟩
          by_cases h8 : promote img.dt (target img.dt m.dt) = ⟨.i, 8⟩
          · rw [h8]; rfl
          · have h9 : promote img.dt (target img.dt m.dt) = ⟨.u, 8⟩ := this.2 h8
            rw [h9]; rfl
        split
        · rfl
        · rfl
    · simp only [if_pos hT]
  · rw [if_pos hd]

example : addElem (demo ⟨.i, 2⟩ (some 2) (fun n => n)) (demo ⟨.u, 1⟩ (some 1) (fun n => n)) = none :=
  rejects _ _ (by decide) (by decide) (Or.inr (Or.inr (Or.inr ⟨rfl, rfl⟩)))

/-- C140 is false of empty images that are not uint8: adding values of their shape fails. -/
theorem empty_images (img m : Im) (hu : img.dt ≠ ⟨.u, 1⟩) (hm : Matches img m) (h0 : img.h = 0 ∨ img.w = 0) : addElem img m = none := by
  unfold addElem
  split
  · rfl
  · unfold addOther
    have : accepted (target img.dt m.dt) (roundedIm img.dt m) = false := by
      have e : ¬ ((roundedIm img.dt m).h ≠ 0 ∧ (roundedIm img.dt m).w ≠ 0 ∧ (roundedIm img.dt m).c ≠ some 0) := by
        rintro ⟨a, b, _⟩
        have a' : m.h ≠ 0 := a
        have b' : m.w ≠ 0 := b
        rw [hm.1] at a'
        rw [hm.2.1] at b'
        rcases h0 with h | h
        · exact a' h
        · exact b' h
      unfold accepted
      rw [decide_eq_false e]
      simp
    simp only [this, if_true, ite_self]

example : addElem ⟨⟨.f, 4⟩, 0, 4, some 3, fun _ _ _ => 0⟩ ⟨⟨.f, 4⟩, 0, 4, some 1, fun _ _ _ => 0⟩ = none :=
  empty_images _ _ (by decide) ⟨rfl, rfl, Or.inl rfl⟩ (Or.inl rfl)

/-- C140 (partial): values without a channel axis do the same as those with one channel. Missing: for uint8 images, 64 bit integers, float16 and boolean
values, and images with more than 512 channels (`flat_values`). -/
theorem flat_values_partial (img : Im) (c : Nat) (hc : img.c = some c) (d : DType) (h w : Nat) (f : Nat → Nat → ℚ)
    (hd : img.dt ≠ ⟨.u, 1⟩ ∨ (d ∈ [⟨.i, 1⟩, ⟨.i, 2⟩, ⟨.i, 4⟩, ⟨.u, 1⟩, ⟨.u, 2⟩, ⟨.f, 4⟩, ⟨.f, 8⟩] ∧ c ≤ 512 ∧ 0 < img.h ∧ 0 < img.w ∧ 0 < c)) :
    addElem img ⟨d, h, w, none, fun y x _ => f y x⟩ = addElem img ⟨d, h, w, some 1, fun y x _ => f y x⟩ := by
  have ew : withAxis ⟨d, h, w, none, fun y x _ => f y x⟩ = withAxis ⟨d, h, w, some 1, fun y x _ => f y x⟩ := by simp [withAxis]
  unfold addElem
  split
  · rfl
  · by_cases hu : img.dt = ⟨.u, 1⟩
    · obtain ⟨a1, a2, a3, a4, a5⟩ := hd.resolve_left (not_not.mpr hu)
      rw [if_pos hu, if_pos hu]
      have u : ∀ m : Im, m.dt = d → useCv2 img m = true := by
        intro m hm
        have a1' : d ∈ cv2Dtypes := a1
        simp only [useCv2, hm, hc, Option.getD_some, a2, a1', decide_true, Bool.true_and, Bool.and_true, decide_eq_true_eq]
        exact ⟨by omega, by omega, by simp; omega⟩
      have n2 : ¬ img.c = none := by rw [hc]; simp
      unfold addUint8
      rw [if_pos (u _ rfl), if_pos (u _ rfl)]
      have : cv2Values img ⟨d, h, w, none, fun y x _ => f y x⟩ = cv2Values img ⟨d, h, w, some 1, fun y x _ => f y x⟩ := by
        unfold cv2Values
        simp only [n2, false_and, if_false, ew]
      rw [this]
    · rw [if_neg hu, if_neg hu]
      unfold addOther roundedIm clipped
      simp only [ew]

example : (addElem (demo ⟨.u, 1⟩ (some 2) (fun n => 30 * n)) (demo ⟨.i, 4⟩ none (fun n => n))).isSome = true := by decide +kernel

/-- C140 is false of values without a channel axis for uint8 images if they are 64 bit integers, which numpy makes by default: they fail, unless
height, width and number of channels are all the same; then they are added along the wrong axes. -/
theorem flat_values :
    (∀ (img m : Im) (c : Nat), img.dt = ⟨.u, 1⟩ → img.c = some c → m.dt = ⟨.i, 8⟩ → m.c = none → m.h = img.h → m.w = img.w →
      1 < img.h → 1 < img.w → (img.h ≠ img.w ∨ img.w ≠ c) → addElem img m = none) ∧
    (addElem (demo ⟨.u, 1⟩ (some 2) (fun _ => 0)) (demo ⟨.i, 8⟩ none (fun n => n))).map list = some [0, 2, 4, 6, 0, 2, 4, 6] := by
  refine ⟨?_, by decide +kernel⟩
  intro img m c hd hc hm hn e1 e2 h1 h2 h3
  have hg : ¬ (img.dt ∉ gated) := by rw [hd]; decide
  have hu : useCv2 img m = false := by
    have : ¬ m.dt ∈ cv2Dtypes := by rw [hm]; decide
    simp [useCv2, this]
  rw [addElem, if_neg hg, if_pos hd, addUint8, hu]
  have : spread img m = none := by
    simp only [spread, hc, hn]
    rw [if_neg]
    simp only [MulElem.fits, e1, e2, Bool.and_eq_true, Bool.or_eq_true, beq_iff_eq]
    omega
  rw [if_neg (by simp), this]
  rfl

/-- C140: values are rejected if their height, their width or their number of channels is neither one nor that of the image. -/
theorem sizes_must_fit (img m : Im) (c c' : Nat) (hc : img.c = some c) (hc' : m.c = some c')
    (h : (m.h ≠ img.h ∧ m.h ≠ 1) ∨ (m.w ≠ img.w ∧ m.w ≠ 1) ∨ (c' ≠ c ∧ c' ≠ 1)) : addElem img m = none := by
  have hs : ∀ a b : Im, a.h = img.h → a.w = img.w → a.c = some c → b.h = m.h → b.w = m.w → (b.c = some c' ∨ (c' = 1 ∧ b.c = some c)) →
      spread a b = none := by
    intro a b a1 a2 a3 b1 b2 b3
    have hf : ∀ e, b.c = some e → ¬ ((MulElem.fits a.h b.h && MulElem.fits a.w b.w && MulElem.fits c e) = true) := by
      intro e he
      rw [a1, a2, b1, b2]
      simp only [MulElem.fits, Bool.and_eq_true, Bool.or_eq_true, beq_iff_eq]
      rw [he] at b3
      simp only [Option.some.injEq] at b3
      omega
    rcases b3 with b3 | ⟨b0, b3⟩
    · simp only [spread, a3, b3]
      rw [if_neg (hf _ b3)]
    · simp only [spread, a3, b3]
      rw [if_neg (hf _ b3)]
  unfold addElem
  split
  · rfl
  · split
    · unfold addUint8
      have h1 : spread img m = none := hs img m rfl rfl hc rfl rfl (Or.inl hc')
      have h2 : cv2Values img m = none := by
        unfold cv2Values
        have n1 : ¬ (img.c = none ∧ m.c ≠ none) := by rw [hc]; simp
        have n2 : ¬ (img.c = none) := by rw [hc]; simp
        rw [if_neg n1]
        simp only [if_neg n2, withAxis_id m c' hc', hc', h1]
        by_cases e : c' = 1
        · rw [if_pos e]
        · rw [if_neg e, if_neg]
          simp only [Im.shape, hc, hc', Prod.mk.injEq, Option.some.injEq]
          omega
      rw [h1, h2]
      simp
    · unfold addOther
      have e : spread { img with c := some (img.c.getD 1) } (tiled (img.c.getD 1) (clipped img.dt m)) = none := by
        have hcc : (clipped img.dt m).c = some c' := by simp only [clipped, withAxis, hc', Option.getD_some]
        refine hs _ _ rfl rfl (by simp [hc]) ?_ ?_ ?_
        · unfold tiled; split <;> rfl
        · unfold tiled; split <;> rfl
        · unfold tiled
          rw [hcc, hc]
          by_cases e : c' = 1
          · right
            refine ⟨e, ?_⟩
            rw [if_pos (by rw [e])]
            rfl
          · left
            rw [if_neg (by simpa using e)]
            exact hcc
      simp only [e, Option.map_none, ite_self]

example : addElem (demo ⟨.u, 1⟩ (some 3) (fun n => n)) (demo ⟨.i, 4⟩ (some 2) (fun n => n)) = none :=
  sizes_must_fit _ _ 3 2 rfl rfl (Or.inr (Or.inr ⟨by decide, by decide⟩))

/-- C140: images without a channel axis that are uint8 are added values without a channel axis of the same height and width, as those with one channel. -/
theorem flat_image_uint8 (img m : Im) (hc : img.c = none) (hd : img.dt = ⟨.u, 1⟩) (hv : Valid img) (hmc : m.c = none) (h1 : m.h = img.h) (h2 : m.w = img.w)
    (hmv : Valid m) : ∃ r, addElem img m = some r ∧ r.dt = img.dt ∧ r.shape = img.shape ∧ ∀ y x k, In img y x k →
      |r.px y x k - clamp ⟨.u, 1⟩ (img.px y x k + m.px y x k)| ≤ 1 / 2 ∧
      ((∃ n : Int, m.px y x k = n) → r.px y x k = clamp ⟨.u, 1⟩ (img.px y x k + m.px y x k)) := by
  obtain ⟨f, hf, hfv⟩ := MulElem.spread_two img m hc hmc h1 h2
  have hg : ¬ (img.dt ∉ gated) := by rw [hd]; decide
  have key : ∃ g, (if useCv2 img m then cv2Values img m else spread img m) = some g ∧ ∀ y x k, In img y x k → g y x k = m.px y x k := by
    split
    · unfold cv2Values
      rw [if_neg (by simp [hmc])]
      simp only [if_pos hc, hmc]
      split
      · exact ⟨f, hf, hfv⟩
      · rw [if_pos (by simp [Im.shape, hc, hmc, h1, h2])]
        exact ⟨m.px, rfl, fun _ _ _ _ => rfl⟩
    · exact ⟨f, hf, hfv⟩
  obtain ⟨g, hg2, hgv⟩ := key
  refine ⟨⟨img.dt, img.h, img.w, img.c, fun y x k => addElemUint8 (decide (img.c = none)) (img.c.getD 1) m.dt (img.px y x k) (g y x k)⟩,
    by rw [addElem, if_neg hg, if_pos hd, addUint8, hg2, Option.map_some], rfl, rfl, ?_⟩
  intro y x k hin
  simp only
  rw [hgv y x k hin]
  exact AddMul.add_elementwise_uint8 _ _ _ _ _ (hd ▸ hv y x k) (hmv y x k)

example : (addElem (demo ⟨.u, 1⟩ none (fun n => 30 * n)) (demo ⟨.i, 4⟩ none (fun n => n))).map list = some [0, 62, 124, 186] := by decide +kernel

/-- C140: images without a channel axis of the other dtypes are treated as those with one channel, and the result has no channel axis again. -/
theorem flat_image_other (img m : Im) (hc : img.c = none) (hu : img.dt ≠ ⟨.u, 1⟩) :
    addElem img m = (addElem ⟨img.dt, img.h, img.w, some 1, img.px⟩ m).map (fun r => ⟨r.dt, r.h, r.w, none, r.px⟩) := by
  unfold addElem
  by_cases hg : img.dt ∉ gated
  · simp only [if_pos hg, Option.map_none]
  · simp only [if_neg hg, if_neg hu]
    unfold addOther
    simp only [hc, Option.getD_none, Option.getD_some]
    split
    · rfl
    · split
      · rfl
      · split
        · rfl
        · rw [Option.map_map]
          rfl

example : (addElem (demo ⟨.i, 2⟩ none (fun n => 30 * n)) (demo ⟨.i, 4⟩ none (fun n => n))).map list = some [0, 62, 124, 186] := by decide +kernel

/-- C140: dtypes that are not supported are rejected. -/
theorem gate_first (img m : Im) (h : img.dt ∉ gated) : addElem img m = none := by rw [addElem, if_pos h]

example : (⟨.f, 8⟩ : DType) ∉ gated := by decide

/-- C140: the noise augmenters draw one value per pixel, which is added to all channels, unless the sample of `per_channel` is above 0.5; then they draw one
value per component. For uint8 images, every component becomes its sum with its value, within one half, limited to 0 and 255. -/
theorem noise_uint8 (draw : Nat → Nat → Nat → Im) (hdr : Draws draw) (pc : ℚ) (img : Im) (c : Nat) (hc : img.c = some c) (hd : img.dt = ⟨.u, 1⟩)
    (hv : Valid img) : ∃ r, augImage draw pc img = some r ∧ r.dt = img.dt ∧ r.shape = img.shape ∧ ∀ y x k, In img y x k →
      (pc ≤ 1 / 2 → |r.px y x k - clamp ⟨.u, 1⟩ (img.px y x k + (draw img.h img.w 1).px y x 0)| ≤ 1 / 2) ∧
      (1 / 2 < pc → |r.px y x k - clamp ⟨.u, 1⟩ (img.px y x k + (draw img.h img.w c).px y x k)| ≤ 1 / 2) := by
  obtain ⟨d1, d2, d3, d4, d5⟩ := hdr img.h img.w (if pc > 1 / 2 then c else 1)
  obtain ⟨r, hr, h1, h2, h3⟩ := sum_uint8 img (draw img.h img.w (if pc > 1 / 2 then c else 1)) c hc hd hv
    ⟨d1, d2, by rw [d3, hc]; split_ifs <;> simp⟩ d5
  refine ⟨r, by simp only [augImage, hc]; exact hr, h1, h2, fun y x k hin => ?_⟩
  have h4 := (h3 y x k hin).1
  refine ⟨fun hp => ?_, fun hp => ?_⟩
  · rw [if_neg (not_lt.mpr hp)] at h4 d3
    rwa [factor, if_pos d3] at h4
  · rw [if_pos hp] at h4 d3
    unfold factor at h4
    split_ifs at h4 with hc1
    · have : k = 0 := by
        have := hin.2.2
        rw [d3] at hc1
        rw [hc] at this
        simp at hc1 this
        omega
      rw [this] at h4 ⊢
      exact h4
    · exact h4

/-- C140: every image of a batch is augmented on its own: with its own samples, whatever the other images are. -/
theorem images_apart (images : List Im) (pcs : List ℚ) (draws : List (Nat → Nat → Nat → Im)) (h1 : pcs.length = images.length)
    (h2 : draws.length = images.length) (rs : List Im) (h : augBatch images pcs draws = some rs) :
    rs.length = images.length ∧ ∀ i (hi : i < images.length), augImage (draws[i]'(by omega)) (pcs[i]'(by omega)) images[i] = rs[i]? := by
  unfold augBatch at h
  have key : ∀ (l : List (Im × ℚ × (Nat → Nat → Nat → Im))) (rs : List Im), l.mapM (fun p => augImage p.2.2 p.2.1 p.1) = some rs →
      rs.length = l.length ∧ ∀ i (hi : i < l.length), augImage l[i].2.2 l[i].2.1 l[i].1 = rs[i]? := by
    intro l
    induction l with
    | nil => intro rs h; simp at h; subst h; simp
    | cons a l ih =>
      intro rs h
      rw [List.mapM_cons, Option.bind_eq_bind, Option.bind_eq_some_iff] at h
      obtain ⟨r, hr, h⟩ := h
      rw [Option.bind_eq_bind, Option.bind_eq_some_iff] at h
      obtain ⟨t, ht, h⟩ := h
      simp only [Option.pure_def, Option.some.injEq] at h
      subst h
      obtain ⟨e1, e2⟩ := ih t ht
      refine ⟨by simp [e1], fun i hi => ?_⟩
      cases i with
      | zero => simpa using hr
      | succ i => simpa using e2 i (by simpa using hi)
  obtain ⟨e1, e2⟩ := key _ _ h
  refine ⟨by rw [e1]; simp; omega, fun i hi => ?_⟩
  have := e2 i (by simp; omega)
  simpa using this

/-- C140: a batch of images is rejected only if one of its images is. -/
theorem batch_fails (images : List Im) (pcs : List ℚ) (draws : List (Nat → Nat → Nat → Im)) (h1 : pcs.length = images.length)
    (h2 : draws.length = images.length) (h : augBatch images pcs draws = none) :
    ∃ i, ∃ hi : i < images.length, augImage (draws[i]'(by omega)) (pcs[i]'(by omega)) images[i] = none := by
  by_contra hc
  push Not at hc
  have : (augBatch images pcs draws).isSome = true := by
    unfold augBatch
    rw [AddMul.mapM_isSome]
    intro a ha
    obtain ⟨i, hi, e⟩ := List.getElem_of_mem ha
    simp only [List.length_zip] at hi
    have := hc i (by omega)
    rw [← e]
    simp only [List.getElem_zip]
    exact Option.isSome_iff_ne_none.mpr this
  rw [h] at this
  simp at this

example : ((augBatch [demo ⟨.u, 1⟩ (some 2) (fun n => 30 * n), demo ⟨.u, 1⟩ (some 2) (fun n => n)] [0, 1]
    [fun h w c => ⟨⟨.i, 4⟩, h, w, some c, fun y x _ => y + x⟩, fun h w c => ⟨⟨.i, 4⟩, h, w, some c, fun _ _ k => 10 * k⟩]).map (List.map list))
    = some [[0, 30, 61, 91, 121, 151, 182, 212], [0, 11, 2, 13, 4, 15, 6, 17]] := by decide +kernel

end Imgaug.AddElem
