import Verif.Proofs.Cutout
/-! Cutting rectangles out of images. -/
namespace Imgaug.Cutout
open Imgaug Imgaug.Dtypes

/-- C68: cutting out keeps the shape and changes no pixel outside of the rectangle, whatever its corners are. -/
theorem cutout_outside (img r : Img) (x1 y1 x2 y2 : ℚ) (fill : Fill) (pc : Bool) (h : cutout img x1 y1 x2 y2 fill pc = some r) :
    SameShape r img ∧ ∀ y x k, y < img.h → x < img.w → ¬ Inside x1 y1 x2 y2 y x → r.px y x k = img.px y x k :=
  ⟨cutout_shape _ _ _ _ _ _ _ _ h, fun y x k hy hx hn => cutout_out _ _ _ _ _ _ _ _ h y x k hy hx hn⟩

/-- C68: every pixel inside of the rectangle gets the number, converted to the dtype of the image. -/
theorem cutout_number (img : Img) (x1 y1 x2 y2 v : ℚ) (pc : Bool) :
    ∃ r, cutout img x1 y1 x2 y2 (.number v) pc = some r ∧
      ∀ y x k, y < img.h → x < img.w → Inside x1 y1 x2 y2 y x → r.px y x k = astype img.dt v := by
  by_cases hn : ∃ y x, y < img.h ∧ x < img.w ∧ Inside x1 y1 x2 y2 y x
  · refine ⟨_, by simp only [cutout]; rw [if_pos ((inside_nonempty img x1 y1 x2 y2).mpr hn)]; rfl, ?_⟩
    intro y x k hy hx hi
    simp only [assign]
    rw [if_pos ((inside_iff img x1 y1 x2 y2 y x hy hx).mpr hi)]
  · refine ⟨img, by simp only [cutout]; rw [if_neg ((inside_nonempty img x1 y1 x2 y2).not.mpr hn)], ?_⟩
    intro y x k hy hx hi
    exact absurd ⟨y, x, hy, hx, hi⟩ hn

/-- C68: with a list of numbers, channel `k` gets number `k` (the list is repeated if it is shorter than the number of channels), or all
channels get the first number if the filling is not per channel or the array has no channels. -/
theorem cutout_list (img : Img) (x1 y1 x2 y2 : ℚ) (l : List ℚ) (hl : l ≠ []) (pc : Bool) :
    ∃ r, cutout img x1 y1 x2 y2 (.list l) pc = some r ∧
      ∀ y x k, y < img.h → x < img.w → k < img.c → Inside x1 y1 x2 y2 y x →
        r.px y x k = astype img.dt (if pc = true ∧ img.flat = false then l.getD (k % l.length) 0 else l.getD 0 0) := by
  obtain ⟨f, hf, hk⟩ := cvalAt_spec img.flat img.c l pc hl
  by_cases hn : ∃ y x, y < img.h ∧ x < img.w ∧ Inside x1 y1 x2 y2 y x
  · refine ⟨_, by simp only [cutout]; rw [if_pos ((inside_nonempty img x1 y1 x2 y2).mpr hn), hf]; rfl, ?_⟩
    intro y x k hy hx hc hi
    simp only [assign]
    rw [if_pos ((inside_iff img x1 y1 x2 y2 y x hy hx).mpr hi), hk k hc]
  · refine ⟨img, by simp only [cutout]; rw [if_neg ((inside_nonempty img x1 y1 x2 y2).not.mpr hn)], ?_⟩
    intro y x k hy hx _ hi
    exact absurd ⟨y, x, hy, hx, hi⟩ hn

/-- C68: cutting out fails only for an empty list of numbers with a rectangle that contains a pixel. -/
theorem cutout_fails (img : Img) (x1 y1 x2 y2 : ℚ) (fill : Fill) (pc : Bool) :
    cutout img x1 y1 x2 y2 fill pc = none ↔ (∃ l, fill = .list l ∧ l = []) ∧ ∃ y x, y < img.h ∧ x < img.w ∧ Inside x1 y1 x2 y2 y x := by
  rw [← inside_nonempty]
  simp only [cutout]
  split
  · rename_i h
    simp only [h, and_true]
    cases fill with
    | number v => simp [fillConstant]
    | list l =>
      by_cases hl : l = []
      · simp [fillConstant, hl, cvalAt]
      · obtain ⟨f, hf, _⟩ := cvalAt_spec img.flat img.c l pc hl
        simp [fillConstant, hf, hl]
    | gaussian draw => simp
  · rename_i h
    simp [h]

/-- C68: filling with noise gives values of the dtype (between 0 and 1 for floats), and the same value in all channels unless it is done per
channel. -/
theorem cutout_noise (img : Img) (hd : img.dt ∈ all) (x1 y1 x2 y2 : ℚ) (draw : Nat → Nat → Nat → ℚ) (pc : Bool) :
    ∃ r, cutout img x1 y1 x2 y2 (.gaussian draw) pc = some r ∧
      ∀ y x k, y < img.h → x < img.w → Inside x1 y1 x2 y2 y x →
        Holds img.dt (r.px y x k) ∧ (img.dt.kind = .f → 0 ≤ r.px y x k ∧ r.px y x k ≤ 1) ∧ (pc = false → ∀ j, r.px y x j = r.px y x k) := by
  by_cases hn : ∃ y x, y < img.h ∧ x < img.w ∧ Inside x1 y1 x2 y2 y x
  · refine ⟨_, by simp only [cutout]; rw [if_pos ((inside_nonempty img x1 y1 x2 y2).mpr hn)], ?_⟩
    intro y x k hy hx hin
    simp only [fillGaussian, assign]
    simp only [if_pos ((inside_iff img x1 y1 x2 y2 y x hy hx).mpr hin)]
    refine ⟨?_, ?_, ?_⟩
    · generalize draw (y - clampInt y1 img.h) (x - clampInt x1 img.w) (if pc = true then k else 0) = v
      have hint : img.dt.kind ≠ .f → img.dt.kind ≠ .b → Holds img.dt (astype img.dt (min (max v (lo img.dt)) (hi img.dt))) := by
        intro h1 h2
        set u := min (max v (lo img.dt : ℚ)) (hi img.dt) with hu
        have hlh : (lo img.dt : ℚ) ≤ hi img.dt := by exact_mod_cast lo_le_hi img.dt hd
        have u1 : (lo img.dt : ℚ) ≤ u := le_min (le_max_right _ _) hlh
        have u2 : u ≤ hi img.dt := min_le_right _ _
        have hp : lo img.dt ≤ pyInt u ∧ pyInt u ≤ hi img.dt := by
          rw [pyInt]
          split
          · rename_i hneg
            have hlo : ⌊-u⌋ ≤ -lo img.dt := by
              have : ⌊-u⌋ ≤ ⌊((-lo img.dt : Int) : ℚ)⌋ := Int.floor_le_floor (by push_cast; linarith)
              rwa [Int.floor_intCast] at this
            have h0 : 0 ≤ ⌊-u⌋ := Int.floor_nonneg.mpr (by linarith)
            have h3 : 0 ≤ hi img.dt := by
              have : ∀ d ∈ all, 0 ≤ hi d := by decide +kernel
              exact this _ hd
            omega
          · exact ⟨Int.le_floor.mpr u1, by
              have : ⌊u⌋ ≤ ⌊((hi img.dt : Int) : ℚ)⌋ := Int.floor_le_floor u2
              rwa [Int.floor_intCast] at this⟩
        have e : astype img.dt u = ((pyInt u : Int) : ℚ) := by
          simp only [astype]
          cases hk : img.dt.kind with
          | i => simp only; rw [wrap_id _ _ hp.1 hp.2]
          | u => simp only; rw [wrap_id _ _ hp.1 hp.2]
          | b => exact absurd hk h2
          | f => exact absurd hk h1
        rw [e]
        exact ⟨by exact_mod_cast hp.1, by exact_mod_cast hp.2, fun _ => ⟨_, rfl⟩⟩
      cases hk : img.dt.kind with
      | i => simp only; exact hint (by simp [hk]) (by simp [hk])
      | u => simp only; exact hint (by simp [hk]) (by simp [hk])
      | b =>
        obtain ⟨b1, b2⟩ := bool_range img.dt hk
        simp only
        split
        · exact ⟨by rw [b1]; norm_num, by rw [b2]; norm_num, fun _ => ⟨1, by norm_num⟩⟩
        · exact ⟨by rw [b1]; norm_num, by rw [b2]; norm_num, fun _ => ⟨0, by norm_num⟩⟩
      | f =>
        have key : ∀ d ∈ all, d.kind = .f → lo d ≤ 0 ∧ 1 ≤ hi d := by decide +kernel
        obtain ⟨k1, k2⟩ := key _ hd hk
        have k1' : (lo img.dt : ℚ) ≤ 0 := by exact_mod_cast k1
        have k2' : (1 : ℚ) ≤ hi img.dt := by exact_mod_cast k2
        simp only [astype, hk]
        refine ⟨le_trans k1' (le_min (le_max_right _ _) (by norm_num)), le_trans (min_le_right _ _) k2', fun h => absurd hk h⟩
    · intro hk
      simp only [astype, hk]
      exact ⟨le_min (le_max_right _ _) (by norm_num), min_le_right _ _⟩
    · intro hp j
      simp [hp]
  · refine ⟨img, by simp only [cutout]; rw [if_neg ((inside_nonempty img x1 y1 x2 y2).not.mpr hn)], ?_⟩
    intro y x k hy hx hin
    exact absurd ⟨y, x, hy, hx, hin⟩ hn

/-- C68: the noise of pixel `(y, x)` is the draw for its place in the rectangle (the rectangle starts at `x1` and `y1`, truncated and clipped to
the image): for bool images `True` iff the draw is above one half, for float images the draw clipped to `[0, 1]`. -/
theorem cutout_noise_values (img : Img) (x1 y1 x2 y2 : ℚ) (draw : Nat → Nat → Nat → ℚ) (pc : Bool) :
    ∃ r, cutout img x1 y1 x2 y2 (.gaussian draw) pc = some r ∧
      ∀ y x k, y < img.h → x < img.w → Inside x1 y1 x2 y2 y x →
        let v := draw (y - (min (max (pyInt y1) 0) img.h).toNat) (x - (min (max (pyInt x1) 0) img.w).toNat) (if pc then k else 0)
        (img.dt.kind = .b → (r.px y x k = 1 ↔ 1 / 2 < v) ∧ (r.px y x k = 0 ↔ v ≤ 1 / 2)) ∧
        (img.dt.kind = .f → r.px y x k = min (max v 0) 1) := by
  by_cases hn : ∃ y x, y < img.h ∧ x < img.w ∧ Inside x1 y1 x2 y2 y x
  · refine ⟨_, by simp only [cutout]; rw [if_pos ((inside_nonempty img x1 y1 x2 y2).mpr hn)], ?_⟩
    intro y x k hy hx hin
    simp only [fillGaussian, assign]
    simp only [if_pos ((inside_iff img x1 y1 x2 y2 y x hy hx).mpr hin)]
    constructor
    · intro hk
      simp only [hk, clampInt]
      exact bit_iff _
    · intro hk
      simp only [hk, clampInt, astype]
  · refine ⟨img, by simp only [cutout]; rw [if_neg ((inside_nonempty img x1 y1 x2 y2).not.mpr hn)], ?_⟩
    intro y x k hy hx hin
    exact absurd ⟨y, x, hy, hx, hin⟩ hn

/-- C68: an image augmented with any number of rectangles keeps its shape and all pixels that are in none of the rectangles. -/
theorem cutout_many_outside (img r : Img) (l : List Sample) (h : augmentImage img l = some r) :
    SameShape r img ∧ ∀ y x k, y < img.h → x < img.w → (∀ s ∈ l, ¬ Hit s img.h img.w y x) → r.px y x k = img.px y x k :=
  ⟨augmentImage_shape l img r h, augmentImage_out l img r h⟩

/-- C68: of several rectangles that contain a pixel, the last one decides its value. -/
theorem cutout_many_last (img r : Img) (before after : List Sample) (s : Sample) (v : ℚ) (hs : s.fill = .number v)
    (h : augmentImage img (before ++ s :: after) = some r) (y x k : Nat) (hy : y < img.h) (hx : x < img.w)
    (hi : Hit s img.h img.w y x) (hn : ∀ t ∈ after, ¬ Hit t img.h img.w y x) : r.px y x k = astype img.dt v := by
  rw [augmentImage_append, Option.bind_eq_some_iff] at h
  obtain ⟨m, h1, h2⟩ := h
  obtain ⟨a1, a2, a3, a4, a5⟩ := augmentImage_shape _ _ _ h1
  simp only [augmentImage, Option.bind_eq_some_iff] at h2
  obtain ⟨n, h3, h4⟩ := h2
  obtain ⟨b1, b2, b3, b4, b5⟩ := cutout_shape _ _ _ _ _ _ _ _ h3
  rw [augmentImage_out after n r h4 y x k (by omega) (by omega) (by rw [b2, b3, a2, a3]; exact hn)]
  rw [hs] at h3
  obtain ⟨n', h5, h6⟩ := cutout_number m (corners s m.h m.w).1 (corners s m.h m.w).2.1 (corners s m.h m.w).2.2.1 (corners s m.h m.w).2.2.2 v
    (decide (s.perChannel ≥ 1 / 2))
  rw [h5, Option.some.injEq] at h3
  subst h3
  rw [← a1]
  exact h6 y x k (by omega) (by omega) (by rw [a2, a3]; exact hi)

/-- C68: in a batch every image is augmented with as many rectangles as were sampled for it; the samples of the images follow each other, none
is used twice and none is left out. -/
theorem cutout_batch (samples : List Sample) (images : List (Img × Nat)) (hn : samples.length = (images.map Prod.snd).sum) :
    ∃ parts : List (List Sample), parts.flatten = samples ∧ parts.map List.length = images.map Prod.snd ∧
      augmentBatch samples images = ((images.map Prod.fst).zip parts).mapM (fun p => augmentImage p.1 p.2) := by
  suffices h : ∀ (images : List (Img × Nat)) (sum : Nat), samples.length = sum + (images.map Prod.snd).sum →
      ∃ parts : List (List Sample), parts.flatten = samples.drop sum ∧ parts.map List.length = images.map Prod.snd ∧
        augmentFrom samples sum images = ((images.map Prod.fst).zip parts).mapM (fun p => augmentImage p.1 p.2) by
    obtain ⟨parts, h1, h2, h3⟩ := h images 0 (by omega)
    exact ⟨parts, by simpa using h1, h2, h3⟩
  intro images
  induction images with
  | nil =>
    intro sum h
    simp only [List.map_nil, List.sum_nil, Nat.add_zero] at h
    exact ⟨[], by simp [← h], rfl, rfl⟩
  | cons p l ih =>
    intro sum h
    obtain ⟨img, n⟩ := p
    simp only [List.map_cons, List.sum_cons] at h
    obtain ⟨parts, h1, h2, h3⟩ := ih (sum + n) (by omega)
    refine ⟨(samples.drop sum).take n :: parts, ?_, ?_, ?_⟩
    · rw [List.flatten_cons, h1, ← List.drop_drop, List.take_append_drop]
    · simp only [List.map_cons, List.length_take, List.length_drop, h2, List.cons.injEq, and_true]
      omega
    · simp only [augmentFrom, List.map_cons, List.zip_cons_cons, List.mapM_cons, h3]
      cases augmentImage img ((samples.drop sum).take n) with
      | none => rfl
      | some r =>
        simp only [Option.bind_some, Option.bind_eq_bind]
        cases ((l.map Prod.fst).zip parts).mapM (fun p => augmentImage p.1 p.2) <;> rfl

/-- C68: a squared rectangle has the height and the center that were sampled and is as wide as it is high, in pixels; otherwise the sizes are
the sampled fractions of the image's. -/
theorem cutout_squared (s : Sample) (h w : Nat) :
    let q := corners s h w
    (q.1 + q.2.2.1) / 2 = s.posX * w ∧ (q.2.1 + q.2.2.2) / 2 = s.posY * h ∧ q.2.2.2 - q.2.1 = s.sizeH * h ∧
      q.2.2.1 - q.1 = if s.squared ≥ 1 / 2 then s.sizeH * h else s.sizeW * w := by
  simp only [corners]
  split
  · refine ⟨?_, ?_, ?_, ?_⟩ <;> ring
  · refine ⟨?_, ?_, ?_, ?_⟩ <;> ring

/-- C68: elementwise replacement keeps every component at which the mask (one value per component or per pixel) is at most 0.5; the others get
the replacements in order, rounded and limited to the range of the dtype of the image. Missing: the pairs of dtypes for which the limits are
not represented exactly (C53). -/
theorem replace_elementwise_partial (d rd : DType) (hd : d ∈ all) (hc : clippable rd = true) (hb : BoundFits rd d) (c k : Nat)
    (vals mask reps r : List ℚ) (hk : k = 1 ∨ k = c) (hm : mask.length * k = vals.length) (hr : ∀ x ∈ reps, Holds rd x)
    (hcount : reps.length = setBefore mask k vals.length) (h : replaceElementwise d c vals mask rd reps = some r) :
    r.length = vals.length ∧ ∀ (i : Nat) (v : ℚ), vals[i]? = some v →
      (maskAt mask k i = false → r[i]? = some v) ∧
      (maskAt mask k i = true → ∃ x, reps[setBefore mask k i]? = some x ∧
        r[i]? = some (if rd = d then x else clamp d (if rd.kind = .f ∧ d.kind ≠ .f then (npRound x : ℚ) else x))) := by
  simp only [replaceElementwise] at h
  split at h
  swap
  · simp at h
  rw [full_eq c k vals.length mask hk hm, if_pos (by simp), Option.bind_eq_some_iff] at h
  obtain ⟨rs, h1, h2⟩ := h
  have hlen := mapM_len _ _ _ h1
  rw [if_pos (by rw [count_range, hlen, hcount]), Option.some.injEq] at h2
  subst h2
  refine ⟨scatter_length _ _ _, ?_⟩
  intro i v hv
  have hi : i < vals.length := by rw [List.getElem?_eq_some_iff] at hv; exact hv.1
  have hg := scatter_get vals ((List.range vals.length).map (maskAt mask k)) rs (by simp) (by rw [count_range, hlen, hcount]) i v hv
  have hget : ((List.range vals.length).map (maskAt mask k)).getD i false = maskAt mask k i := by
    rw [List.getD_eq_getElem?_getD, List.getElem?_map, List.getElem?_range hi]; rfl
  have hrank : rank ((List.range vals.length).map (maskAt mask k)) i = setBefore mask k i := by
    rw [rank, ← List.map_take, List.take_range, min_eq_left (le_of_lt hi), count_range]
  rw [hget, hrank] at hg
  constructor
  · intro hf
    rw [hg, if_neg (by simp [hf])]
  · intro ht
    rw [if_pos ht] at hg
    have hlt : setBefore mask k i < reps.length := by
      rw [hcount]
      exact setBefore_lt mask k i vals.length hi ht
    refine ⟨reps[setBefore mask k i], List.getElem?_eq_getElem hlt, ?_⟩
    obtain ⟨b, hb1, hb2⟩ := mapM_nth _ _ _ h1 _ _ (List.getElem?_eq_getElem hlt)
    rw [hg, hb1]
    have hx := hr _ (List.getElem_mem hlt)
    by_cases he : rd = d
    · rw [if_pos he]
      rw [changeDtype, if_pos he] at hb2
      exact hb2.symm
    · rw [if_neg he]
      obtain ⟨w, w1, _, w2⟩ := changeDtype_eq rd d hd he hc hb _ hx
      rw [w1, Option.some.injEq] at hb2
      rw [← hb2, w2]

/- The hypotheses are met. -/
example : Inside (-3 / 2) (1 / 2) (5 / 2) (7 / 2) 2 1 ∧ ¬ Inside (-3 / 2) (1 / 2) (5 / 2) (7 / 2) 2 2 := by
  constructor
  · unfold Inside; decide +kernel
  · unfold Inside; decide +kernel
example : ((cutout ⟨⟨.u, 1⟩, 4, 4, false, 3, fun _ _ _ => 9⟩ (-3 / 2) (1 / 2) (5 / 2) (7 / 2) (.list [1, 7 / 2]) true).map
    (fun r => [r.px 2 1 0, r.px 2 1 1, r.px 2 1 2, r.px 2 2 0])) = some [1, 3, 1, 9] := by decide +kernel
example : replaceElementwise ⟨.u, 1⟩ 1 [1, 2, 3, 4] [0, 1, 1 / 2, 3 / 4] ⟨.f, 4⟩ [300, 7 / 2] = some [1, 255, 3, 4] := by decide +kernel
example : replaceElementwise ⟨.u, 1⟩ 2 [1, 2, 3, 4] [0, 1] ⟨.f, 4⟩ [300, 7 / 2] = some [1, 2, 255, 4] := by decide +kernel

end Imgaug.Cutout
