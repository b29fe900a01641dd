import Verif.Proofs.MulElem
/-! C77: `multiply_elementwise`. -/
namespace Imgaug.MulElem
open Imgaug Imgaug.Dtypes Imgaug.Resize
open Imgaug.AddMul (promote gated saturate fitted)

/-- For the examples: a 2×2 image with 2 channels. -/
def demo (d : DType) (c : Option Nat) (f : Nat → ℚ) : Im := ⟨d, 2, 2, c, fun y x k => f (4 * y + 2 * x + k)⟩

/-- The components of an image with 2×2 pixels and at most 2 channels, for the examples. -/
def list (a : Im) : List ℚ := (List.range 4).flatMap (fun i => (List.range (a.c.getD 1)).map (fun k => a.px (i / 2) (i % 2) k))

/-- C77 (partial): for uint8 images, every component becomes the exact product with its multiplier, rounded and limited to 0 and 255; the multipliers may
be floats, signed integers of up to 32 bits or unsigned integers up to 255. Missing: larger unsigned integers (`unsigned_wrap`). -/
theorem product_uint8_partial (img m : Im) (c : Nat) (hc : img.c = some c) (hd : img.dt = ⟨.u, 1⟩) (hne : 0 < img.h ∧ 0 < img.w ∧ 0 < c)
    (hm : Matches img m) (hmv : Valid m)
    (hs : ∀ y x k, m.dt.kind = .f ∨ (m.dt.kind = .i ∧ -2147483648 ≤ m.px y x k ∧ m.px y x k ≤ 2147483647) ∨
      (m.dt.kind = .u ∧ m.px y x k ≤ 255)) :
    ∃ r, mulElem img m = some r ∧ r.dt = img.dt ∧ r.shape = img.shape ∧
      ∀ y x k, In img y x k → r.px y x k = fitted img.dt (img.px y x k * factor m y x k) := by
  obtain ⟨p1, p2, p3⟩ := hne
  have hb : m.dt.kind ≠ .b := by
    rcases hs 0 0 0 with h | ⟨h, _⟩ | ⟨h, _⟩ <;> rw [h] <;> decide
  have hmc : m.c ≠ none := by
    rcases hm.2.2 with h | h
    · rw [h]; simp
    · rw [h, hc]; simp
  obtain ⟨f, hf, hv⟩ := spread_some img (prepared img m) c hc (prepared_matches img m hm)
  have he : ¬ (img.h = 0 ∨ img.w = 0 ∨ img.c = some 0) := by
    rw [hc]; simp only [Option.some.injEq]; omega
  have hg : ¬ (img.dt ∉ gated) := by rw [hd]; decide
  refine ⟨{ img with px := fun y x k => saturate (img.px y x k * f y x k) }, ?_, rfl, rfl, ?_⟩
  · simp only [mulElem, if_neg hg, if_neg he, if_neg hb, if_pos hd, mulUint8, hf, Option.map_some]
  · intro y x k hin
    simp only
    rw [hv y x k hin, prepared_factor img m hmc, AddMul.saturate_eq, hd]
    have hid : ∀ a b e, converted m.dt (m.px a b e) = m.px a b e := by
      intro a b e
      refine converted_id _ _ (hmv a b e) ?_
      rcases hs a b e with h | h | h
      · exact Or.inl h
      · exact Or.inr (Or.inr (Or.inl h))
      · exact Or.inr (Or.inr (Or.inr h))
    rw [show converted m.dt (factor m y x k) = factor m y x k by unfold factor; split_ifs <;> exact hid _ _ _]

example : (mulElem (demo ⟨.u, 1⟩ (some 2) (fun n => 50 * n)) (demo ⟨.f, 4⟩ (some 1) (fun n => n / 4))).map list
    = some [0, 0, 50, 75, 200, 250, 255, 255] := by decide +kernel

/-- C77 is false of unsigned multipliers above 255 for uint8 images: they are taken modulo 256, so that 256 makes everything black. -/
theorem unsigned_wrap :
    (mulElem (demo ⟨.u, 1⟩ (some 1) (fun _ => 100)) (demo ⟨.u, 2⟩ (some 1) (fun _ => 256))).map list = some [0, 0, 0, 0] ∧
    (mulElem (demo ⟨.u, 1⟩ (some 1) (fun _ => 100)) (demo ⟨.i, 4⟩ (some 1) (fun _ => 256))).map list = some [255, 255, 255, 255] := by
  decide +kernel

/-- C77 (partial): for the other dtypes that are supported, every component becomes the exact product with its multiplier, rounded (except for
float images) and limited to the range of the image's dtype. Missing: products that are out of the image's range when image and multipliers are
both signed or both unsigned integers (`integers_wrap`) or the image is a float image, and products beyond ±65504 with float multipliers. -/
theorem product_other_partial (img m : Im) (c : Nat) (hc : img.c = some c) (hd : img.dt ∈ gated) (hu : img.dt ≠ ⟨.u, 1⟩)
    (hne : 0 < img.h ∧ 0 < img.w ∧ 0 < c) (hm : Matches img m) (hv : Valid img) (hmd : m.dt ∈ Dtypes.all) (hmv : Valid m)
    (hb : m.dt.kind ≠ .b) (h64 : m.dt ≠ ⟨.i, 8⟩ ∧ m.dt ≠ ⟨.u, 8⟩)
    (hr : ∀ y x k, In m y x k → (lo (target img.dt m.dt) : ℚ) ≤ m.px y x k ∧ m.px y x k ≤ hi (target img.dt m.dt))
    (hp : ∀ y x k, In img y x k →
      (img.dt.kind ≠ m.dt.kind ∧ img.dt.kind ≠ .f ∧ m.dt.kind ≠ .f) ∨
      ((lo img.dt : ℚ) ≤ img.px y x k * factor m y x k ∧ img.px y x k * factor m y x k ≤ hi img.dt) ∨
      (m.dt.kind = .f ∧ |img.px y x k * factor m y x k| ≤ 65504)) :
    ∃ r, mulElem img m = some r ∧ r.dt = img.dt ∧ r.shape = img.shape ∧
      ∀ y x k, In img y x k → r.px y x k = fitted img.dt (img.px y x k * factor m y x k) := by
  obtain ⟨p1, p2, p3⟩ := hne
  obtain ⟨c', hc'⟩ : ∃ c', m.c = some c' := by
    rcases hm.2.2 with h | h
    · exact ⟨1, h⟩
    · exact ⟨c, by rw [h, hc]⟩
  have hcl : clippable m.dt = true := by
    obtain ⟨a, b⟩ := h64
    revert a b hmd; generalize m.dt = vd; revert vd; decide +kernel
  obtain ⟨f, hf, hfv⟩ := spread_some img (tiled c m) c hc (tiled_matches img m c hc hm)
  have he : ¬ (img.h = 0 ∨ img.w = 0 ∨ img.c = some 0) := by
    rw [hc]; simp only [Option.some.injEq]; omega
  have hg : ¬ (img.dt ∉ gated) := by simpa using hd
  have hacc : accepted (target img.dt m.dt) m = true := by
    simp only [accepted, hcl, Bool.true_and, decide_eq_true_eq]
    intro y hy x hx k hk
    exact hr y x k ⟨hy, hx, hk⟩
  refine ⟨{ img with px := fun y x k => component img.dt (target img.dt m.dt) (img.px y x k) (f y x k) }, ?_, rfl, rfl, ?_⟩
  · simp only [mulElem, if_neg hg, if_neg he, if_neg hb, if_neg hu]
    simp only [mulOther, hc, hc', hacc, if_true, hf, Option.map_some]
  · intro y x k hin
    simp only
    rw [hfv y x k hin, tiled_factor]
    obtain ⟨i1, i2, i3⟩ := hin
    have hx : Holds m.dt (factor m y x k) := by unfold factor; split_ifs <;> exact hmv _ _ _
    have hxr : (lo (target img.dt m.dt) : ℚ) ≤ factor m y x k ∧ factor m y x k ≤ hi (target img.dt m.dt) := by
      unfold factor
      split_ifs with h1
      · exact hr y x 0 ⟨by rw [hm.1]; exact i1, by rw [hm.2.1]; exact i2, by rw [h1]; exact Nat.one_pos⟩
      · exact hr y x k ⟨by rw [hm.1]; exact i1, by rw [hm.2.1]; exact i2, by rw [hm.2.2.resolve_left h1]; exact i3⟩
    have hvd := hv y x k
    obtain ⟨w1, w2, w3⟩ := wide img.dt m.dt hd hmd hu hb
    have key : (lo (promote img.dt (target img.dt m.dt)) : ℚ) ≤ img.px y x k * factor m y x k ∧
        img.px y x k * factor m y x k ≤ hi (promote img.dt (target img.dt m.dt)) := by
      rcases hp y x k ⟨i1, i2, i3⟩ with ⟨k1, k2, k3⟩ | ⟨k1, k2⟩ | ⟨k1, k2⟩
      · obtain ⟨r1, r2, r3, r4, r5, r6, r7, r8⟩ := room img.dt m.dt hd hmd hu hb k1 k2 k3
        exact mul_bounds _ _ _ _ _ _ hvd.1 hvd.2.1 hxr.1 hxr.2 _ _ (by exact_mod_cast r1) (by exact_mod_cast r2) (by exact_mod_cast r3)
          (by exact_mod_cast r4) (by exact_mod_cast r5) (by exact_mod_cast r6) (by exact_mod_cast r7) (by exact_mod_cast r8)
      · exact ⟨le_trans (by exact_mod_cast w1) k1, le_trans k2 (by exact_mod_cast w2)⟩
      · obtain ⟨w4, w5⟩ := w3 k1
        obtain ⟨a1, a2⟩ := abs_le.mp k2
        exact ⟨le_trans (by exact_mod_cast w4) a1, le_trans a2 (by exact_mod_cast w5)⟩
    exact component_eq img.dt m.dt hd hmd hu hb hcl _ _ hvd hx hxr.1 hxr.2 key.1 key.2

example : (mulElem (demo ⟨.u, 2⟩ (some 2) (fun n => 10000 * n)) (demo ⟨.i, 4⟩ (some 1) (fun n => (n : ℚ) - 2))).map list
    = some [0, 0, 0, 0, 65535, 65535, 65535, 65535] := by decide +kernel
example : (mulElem (demo ⟨.i, 1⟩ (some 2) (fun n => n)) (demo ⟨.f, 4⟩ (some 2) (fun _ => 5 / 2))).map list
    = some [0, 2, 5, 8, 10, 12, 15, 18] := by decide +kernel

/-- C77 is false of integers of the same kind: the product is computed in the image's own dtype and wraps around. -/
theorem integers_wrap :
    (mulElem (demo ⟨.i, 2⟩ (some 1) (fun _ => 30000)) (demo ⟨.i, 4⟩ (some 1) (fun _ => 2))).map list = some [-5536, -5536, -5536, -5536] ∧
    (mulElem (demo ⟨.u, 2⟩ (some 1) (fun _ => 40000)) (demo ⟨.u, 4⟩ (some 1) (fun _ => 2))).map list = some [14464, 14464, 14464, 14464] ∧
    (mulElem (demo ⟨.i, 1⟩ (some 1) (fun _ => 100)) (demo ⟨.i, 4⟩ (some 1) (fun _ => 2))).map list = some [-56, -56, -56, -56] := by
  decide +kernel

/-- C77: a boolean mask keeps the components where it is true and sets all others to zero, for all dtypes that are supported. -/
theorem mask_product (img m : Im) (c : Nat) (hc : img.c = some c) (hd : img.dt ∈ gated) (hm : Matches img m)
    (hb : m.dt.kind = .b) (hmv : ∀ y x k, m.px y x k = 0 ∨ m.px y x k = 1) :
    ∃ r, mulElem img m = some r ∧ r.dt = img.dt ∧ r.shape = img.shape ∧
      ∀ y x k, In img y x k → r.px y x k = if factor m y x k = 1 then img.px y x k else 0 := by
  have hg : ¬ (img.dt ∉ gated) := by simpa using hd
  by_cases he : img.h = 0 ∨ img.w = 0 ∨ img.c = some 0
  · refine ⟨img, by simp only [mulElem, if_neg hg, if_pos he], rfl, rfl, ?_⟩
    rintro y x k ⟨i1, i2, i3⟩
    exfalso
    rcases he with h | h | h
    · omega
    · omega
    · rw [h] at i3; simp at i3
  obtain ⟨f, hf, hfv⟩ := spread_some img m c hc hm
  refine ⟨{ img with px := fun y x k => img.px y x k * f y x k }, ?_, rfl, rfl, ?_⟩
  · simp only [mulElem, if_neg hg, if_neg he, if_pos hb, hf, Option.map_some]
  · intro y x k hin
    simp only
    rw [hfv y x k hin]
    have : factor m y x k = 0 ∨ factor m y x k = 1 := by unfold factor; split_ifs <;> exact hmv _ _ _
    rcases this with h | h <;> rw [h] <;> simp

example : (mulElem (demo ⟨.f, 4⟩ (some 2) (fun n => n / 2)) (demo ⟨.b, 1⟩ (some 1) (fun n => if n = 2 then 0 else 1))).map list
    = some [0, 1 / 2, 0, 0, 2, 5 / 2, 3, 7 / 2] := by decide +kernel

/-- C77: which calls are accepted, for an image that is not empty, has a channel axis and a supported dtype, and multipliers of the documented
shapes: all of them for uint8 images and for boolean masks; otherwise the multipliers must not be 64 bit integers and must be in the range of the
dtype of their kind that has the size of the image's dtype (at least float16). -/
theorem accepts (img m : Im) (c : Nat) (hc : img.c = some c) (hd : img.dt ∈ gated) (hne : 0 < img.h ∧ 0 < img.w ∧ 0 < c)
    (hm : Matches img m) (hmd : m.dt ∈ Dtypes.all) :
    (mulElem img m).isSome ↔ m.dt.kind = .b ∨ img.dt = ⟨.u, 1⟩ ∨ (m.dt ≠ ⟨.i, 8⟩ ∧ m.dt ≠ ⟨.u, 8⟩ ∧
      ∀ y x k, In m y x k → (lo (target img.dt m.dt) : ℚ) ≤ m.px y x k ∧ m.px y x k ≤ hi (target img.dt m.dt)) := by
  obtain ⟨p1, p2, p3⟩ := hne
  have hg : ¬ (img.dt ∉ gated) := by simpa using hd
  have he : ¬ (img.h = 0 ∨ img.w = 0 ∨ img.c = some 0) := by
    rw [hc]; simp only [Option.some.injEq]; omega
  have hcl : clippable m.dt = true ↔ m.dt ≠ ⟨.i, 8⟩ ∧ m.dt ≠ ⟨.u, 8⟩ := by
    revert hmd; generalize m.dt = vd; revert vd; decide +kernel
  obtain ⟨c', hc'⟩ : ∃ c', m.c = some c' := by
    rcases hm.2.2 with h | h
    · exact ⟨1, h⟩
    · exact ⟨c, by rw [h, hc]⟩
  by_cases hb : m.dt.kind = .b
  · obtain ⟨f, hf, _⟩ := spread_some img m c hc hm
    simp only [mulElem, if_neg hg, if_neg he, if_pos hb, hf, Option.map_some, Option.isSome_some, true_iff]
    exact Or.inl hb
  by_cases hu : img.dt = ⟨.u, 1⟩
  · obtain ⟨f, hf, _⟩ := spread_some img (prepared img m) c hc (prepared_matches img m hm)
    simp only [mulElem, if_neg hg, if_neg he, if_neg hb, if_pos hu, mulUint8, hf, Option.map_some, Option.isSome_some, true_iff]
    exact Or.inr (Or.inl hu)
  obtain ⟨f, hf, _⟩ := spread_some img (tiled c m) c hc (tiled_matches img m c hc hm)
  simp only [mulElem, if_neg hg, if_neg he, if_neg hb, if_neg hu]
  simp only [mulOther, hc, hc', hf, Option.map_some]
  have : accepted (target img.dt m.dt) m = true ↔ (m.dt ≠ ⟨.i, 8⟩ ∧ m.dt ≠ ⟨.u, 8⟩) ∧
      ∀ y x k, In m y x k → (lo (target img.dt m.dt) : ℚ) ≤ m.px y x k ∧ m.px y x k ≤ hi (target img.dt m.dt) := by
    rw [accepted, Bool.and_eq_true, hcl, decide_eq_true_eq]
    refine and_congr_right (fun _ => ⟨?_, ?_⟩)
    · rintro h y x k ⟨a, b, e⟩; exact h y a x b k e
    · intro h y a x b k e; exact h y x k ⟨a, b, e⟩
  rw [← and_assoc, ← this]
  by_cases ha : accepted (target img.dt m.dt) m = true
  · simp [ha, hb, hu]
  · simp [ha, hb, hu]

example : (mulElem (demo ⟨.i, 1⟩ (some 2) (fun n => n)) (demo ⟨.i, 4⟩ (some 1) (fun _ => 128))).isSome = false := by decide +kernel
example : (mulElem (demo ⟨.i, 1⟩ (some 2) (fun n => n)) (demo ⟨.i, 4⟩ (some 1) (fun _ => 127))).isSome = true := by decide +kernel

/-- C77: dtypes that are not supported are rejected, also for empty images; other empty images are returned as they are. -/
theorem gate_first (img m : Im) :
    (img.dt ∉ gated → mulElem img m = none) ∧
    (img.dt ∈ gated → img.h = 0 ∨ img.w = 0 ∨ img.c = some 0 → mulElem img m = some img) := by
  constructor
  · intro h
    simp only [mulElem, if_pos h]
  · intro h he
    have hg : ¬ (img.dt ∉ gated) := by simpa using h
    simp only [mulElem, if_neg hg, if_pos he]

example : (⟨.u, 4⟩ : DType) ∉ gated := by decide

/-- C77: for uint8 images, multipliers of shape `(H,W)` do the same as multipliers of shape `(H,W,1)`. -/
theorem flat_multipliers_uint8 (img : Im) (c : Nat) (hc : img.c = some c) (hd : img.dt = ⟨.u, 1⟩) (d : DType) (hb : d.kind ≠ .b) (h w : Nat)
    (f : Nat → Nat → ℚ) : mulElem img ⟨d, h, w, none, fun y x _ => f y x⟩ = mulElem img ⟨d, h, w, some 1, fun y x _ => f y x⟩ := by
  have e : prepared img ⟨d, h, w, none, fun y x _ => f y x⟩ = prepared img ⟨d, h, w, some 1, fun y x _ => f y x⟩ := by
    simp [prepared, hc]
  simp only [mulElem, if_neg hb, if_pos hd, mulUint8, e]

example : (mulElem (demo ⟨.u, 1⟩ (some 2) (fun n => n)) (demo ⟨.i, 4⟩ none (fun n => n))).isSome = true := by decide +kernel

/-- C77 is false of multipliers of shape `(H,W)`, which the documentation allows, for the other dtypes and for boolean masks: they raise. A
mask of a square image with as many channels as rows is even applied along the wrong axes. -/
theorem flat_multipliers_rejected :
    (∀ img m : Im, img.dt ∈ gated → img.dt ≠ ⟨.u, 1⟩ → m.dt.kind ≠ .b → 0 < img.h → 0 < img.w → img.c ≠ some 0 → m.c = none →
      mulElem img m = none) ∧
    (∀ (img m : Im) (c : Nat), img.dt ∈ gated → m.dt.kind = .b → 0 < img.h → 0 < img.w → img.c = some c → 1 < c → m.c = none →
      m.h = img.h → m.w = img.w → 1 < m.w → m.w ≠ c → mulElem img m = none) ∧
    (mulElem (demo ⟨.u, 1⟩ (some 2) (fun _ => 9)) (demo ⟨.b, 1⟩ none (fun n => if n = 2 then 0 else 1))).map list
      = some [9, 0, 9, 9, 9, 0, 9, 9] := by
  refine ⟨?_, ?_, by decide +kernel⟩
  · intro img m hd hu hb h1 h2 h3 hm
    have hg : ¬ (img.dt ∉ gated) := by simpa using hd
    have he : ¬ (img.h = 0 ∨ img.w = 0 ∨ img.c = some 0) := by
      rintro (h | h | h)
      · omega
      · omega
      · exact h3 h
    simp only [mulElem, if_neg hg, if_neg he, if_neg hb, if_neg hu]
    cases hc : img.c with
    | none => simp only [mulOther, hc]
    | some c => simp only [mulOther, hc, hm]
  · intro img m c hd hb h1 h2 hc hc1 hm e1 e2 h4 h5
    have hg : ¬ (img.dt ∉ gated) := by simpa using hd
    have he : ¬ (img.h = 0 ∨ img.w = 0 ∨ img.c = some 0) := by
      rw [hc]; simp only [Option.some.injEq]; omega
    simp only [mulElem, if_neg hg, if_neg he, if_pos hb]
    have : fits c m.w = false := by
      simp only [fits, Bool.or_eq_false_iff, beq_eq_false_iff_ne]
      omega
    simp only [spread, hc, hm, this, Bool.and_false]
    rfl

/-- C77: images of shape `(H,W)` are accepted for uint8 and for boolean masks, and rejected for all other dtypes. -/
theorem flat_images (img m : Im) (hc : img.c = none) (hd : img.dt ∈ gated) (h1 : 0 < img.h) (h2 : 0 < img.w) (hm : m.c = none) (e1 : m.h = img.h)
    (e2 : m.w = img.w) : (mulElem img m).isSome ↔ img.dt = ⟨.u, 1⟩ ∨ m.dt.kind = .b := by
  have hg : ¬ (img.dt ∉ gated) := by simpa using hd
  have he : ¬ (img.h = 0 ∨ img.w = 0 ∨ img.c = some 0) := by
    rw [hc]
    rintro (h | h | h)
    · omega
    · omega
    · simp at h
  by_cases hb : m.dt.kind = .b
  · obtain ⟨f, hf, _⟩ := spread_two img m hc hm e1 e2
    simp [mulElem, if_neg hg, if_neg he, hf, hb]
  by_cases hu : img.dt = ⟨.u, 1⟩
  · obtain ⟨f, hf, _⟩ := spread_two img (prepared img m) hc (by simp [prepared, hm, hc]) e1 e2
    simp only [mulElem, if_neg hg, if_neg he, if_neg hb, if_pos hu, mulUint8, hf, Option.map_some, Option.isSome_some, true_iff]
    exact Or.inl hu
  · simp only [mulElem, if_neg hg, if_neg he, if_neg hb, if_neg hu]
    simp [mulOther, hc, hb, hu]

example : (mulElem (demo ⟨.u, 1⟩ none (fun n => n)) (demo ⟨.i, 4⟩ none (fun n => n))).isSome = true := by decide +kernel

/-- C77: multipliers with a number of channels that is neither one nor that of the image are rejected. -/
theorem channels_must_fit (img m : Im) (c c' : Nat) (hc : img.c = some c) (hc' : m.c = some c') (hne : 0 < img.h ∧ 0 < img.w ∧ 0 < c)
    (h1 : c' ≠ 1) (h2 : c' ≠ c) : mulElem img m = none := by
  have hs : ∀ m' : Im, m'.c = some c' → spread img m' = none := by
    intro m' hm'
    have : fits c c' = false := by simp [fits, h1, h2]
    simp only [spread, hc, hm', this, Bool.and_false, Bool.false_eq_true, if_false]
  have he : ¬ (img.h = 0 ∨ img.w = 0 ∨ img.c = some 0) := by
    rw [hc]; simp only [Option.some.injEq]; omega
  by_cases hg : img.dt ∉ gated
  · simp only [mulElem, if_pos hg]
  · rw [mulElem, if_neg hg, if_neg he]
    split
    · rw [hs m hc']; rfl
    · split
      · unfold mulUint8
        rw [hs _ (by simp [prepared, hc'])]; rfl
      · simp only [mulOther, hc, hc']
        split
        · rw [hs _ (by simp only [tiled, hc', Option.some.injEq, h1, if_false])]; rfl
        · rfl

example : mulElem (demo ⟨.u, 1⟩ (some 3) (fun n => n)) (demo ⟨.u, 1⟩ (some 2) (fun _ => 1)) = none :=
  channels_must_fit _ _ 3 2 rfl rfl ⟨by decide, by decide, by decide⟩ (by decide) (by decide)

end Imgaug.MulElem
