import Verif.Proofs.Canny
/-! C113: what `Canny` makes of images. -/
namespace Imgaug.Canny.Props
open Imgaug Imgaug.Dtypes Imgaug.Params Imgaug.AffineArgs Imgaug.Canny
open Imgaug.Blend (Img)
variable {σ : Type}

/-- C113: for arguments that are accepted and stand for values in the documented ranges, every batch of uint8 images with 1, 3 or 4 channels is
augmented. There are, for each image, an alpha, two thresholds, a kernel size and two colors among those that the arguments allow. If alpha is
positive, the kernel size (one less, if it is even) is at least three and the image has pixels, the result is the edge image in the two colors,
blended with the image: the edges are searched in the first three channels, with the smaller threshold first and an aperture of 3, 5 or 7. The
shape, the dtype and the alpha channel are kept. Otherwise the image is unchanged. -/
theorem canny_images (P : Values ℚ) (S : Sampler σ Handled ℚ) (hS : Ok (Supports P) S) (a : Args) (hF : a.Filled) (hR : a.InRange P) (c : Conf)
    (hc : init a = some c) (cv : Lib) (hcv : cv.Ok) (gray : ℚ → ℚ → ℚ → ℚ) (hg : GrayOk gray) (eps : ℚ) (l : List Img)
    (hl : ∀ im ∈ l, Picture im) (g : σ) :
    ∃ out, augment cv gray eps S c (some l) g = some (some out) ∧ out.length = l.length ∧
      ∀ (i : Nat) im, l[i]? = some im → ∃ o, out[i]? = some o ∧
        ∃ al t u k m ct cf, Allows P a.alpha al ∧ a.thresholds.Allows P t u ∧ Allows P a.sobel k ∧ Aperture k m ∧
          (ct.length = 3 ∧ ∀ v ∈ ct, Allows P a.colorTrue v) ∧ (cf.length = 3 ∧ ∀ v ∈ cf, Allows P a.colorFalse v) ∧
          (if 0 < al ∧ 3 ≤ m ∧ im.h ≠ 0 ∧ im.w ≠ 0 then (m = 3 ∨ m = 5 ∨ m = 7) ∧ Edged cv eps im al (min t u) (max t u) m ct cf o else o = im) := by
  obtain ⟨c1, c2, c3, c4, c5⟩ := init_some a c hc
  set n := l.length with hn
  have hal : ∀ i < n, Allows P a.alpha ((S c.alpha n g).1.getD i 0) :=
    fun i hi => continuous_supports P _ _ _ _ c1 hF.alpha (sample_ok hS _ _ _ i hi 0)
  have hso : ∀ (g : σ), ∀ k ∈ (S c.sobel n g).1, Allows P a.sobel k :=
    fun g k hk => discrete_supports' P _ _ _ _ c3 hF.sobel hF.sobelInts (hS.values _ _ _ k hk)
  have hct : ∀ (g : σ), ∀ v ∈ (S c.colorTrue 3 g).1, Allows P a.colorTrue v :=
    fun g v hv => discrete_supports' P _ _ _ _ c4 hF.colorTrue hF.trueInts (hS.values _ _ _ v hv)
  have hcf : ∀ (g : σ), ∀ v ∈ (S c.colorFalse 3 g).1, Allows P a.colorFalse v :=
    fun g v hv => discrete_supports' P _ _ _ _ c5 hF.colorFalse hF.falseInts (hS.values _ _ _ v hv)
  have ht : ∀ g, IsColor (S c.colorTrue 3 g).1 := fun g => ⟨hS.length _ _ _, fun v hv => hR.colorTrue v (hct g v hv)⟩
  have hf : ∀ g, IsColor (S c.colorFalse 3 g).1 := fun g => ⟨hS.length _ _ _, fun v hv => hR.colorFalse v (hcf g v hv)⟩
  obtain ⟨s, g', hs, hslen, hsget⟩ : ∃ s g', drawSamples S c n g = some (s, g') ∧ s.length = n ∧
      ∀ (i : Nat) x, s[i]? = some x → Allows P a.alpha x.alpha ∧
        ∃ t u k, a.thresholds.Allows P t u ∧ x.lower = min t u ∧ x.upper = max t u ∧ Allows P a.sobel k ∧ x.sobel = oddSize k := by
    have hb : ∀ g, ∀ k ∈ (S c.sobel n g).1, 0 ≤ k ∧ k ≤ 7 := by
      intro g k hk
      obtain ⟨z, rfl, h0, h1⟩ := hR.sobel k (hso _ k hk)
      exact ⟨by exact_mod_cast h0, by exact_mod_cast h1⟩
    refine ⟨(List.range n).map (fun i =>
      let t := ordered ((drawThresholds S c.thresholds n (S c.alpha n g).2).1.getD i (0, 0))
      ⟨(S c.alpha n g).1.getD i 0, t.1, t.2, oddSize ((S c.sobel n (drawThresholds S c.thresholds n (S c.alpha n g).2).2).1.getD i 0)⟩),
      (S c.sobel n (drawThresholds S c.thresholds n (S c.alpha n g).2).2).2, ?_, ?_, ?_⟩
    · unfold drawSamples
      extract_lets al th so
      rw [if_neg, if_neg]
      · simp only [List.any_eq_true, decide_eq_true_eq, not_exists, not_and, not_lt]
        exact fun k hk => (hb _ k hk).2
      · simp only [List.any_eq_true, decide_eq_true_eq, not_exists, not_and, not_lt]
        exact fun k hk => (hb _ k hk).1
    · simp
    · intro i x hx
      rw [List.getElem?_map] at hx
      have hi : i < n := by
        by_contra hc
        rw [List.getElem?_eq_none (by simp; omega)] at hx
        cases hx
      rw [List.getElem?_range hi] at hx
      simp only [Option.map_some, Option.some.injEq] at hx
      subst hx
      refine ⟨hal i hi, ?_⟩
      obtain ⟨t, u, htu, hA⟩ := thresholds_allowed P S hS a.thresholds c.thresholds c2 hF.one hF.pair n (S c.alpha n g).2 i hi
      refine ⟨t, u, (S c.sobel n (drawThresholds S c.thresholds n (S c.alpha n g).2).2).1.getD i 0, hA, ?_, ?_,
        hso _ _ (getD_mem (hS.length _ _ _) hi 0), rfl⟩
      · simp only [htu, ordered]
        split
        · rename_i h; rw [min_eq_right (le_of_lt h)]
        · rename_i h; rw [min_eq_left (not_lt.1 h)]
      · simp only [htu, ordered]
        split
        · rename_i h; rw [max_eq_left (le_of_lt h)]
        · rename_i h; rw [max_eq_right (not_lt.1 h)]
  obtain ⟨out, ho, hlen, hget⟩ := loop_get cv gray eps S c (fun p o => ∃ al t u k m ct cf, Allows P a.alpha al ∧ a.thresholds.Allows P t u ∧
      Allows P a.sobel k ∧ Aperture k m ∧
      (ct.length = 3 ∧ ∀ v ∈ ct, Allows P a.colorTrue v) ∧ (cf.length = 3 ∧ ∀ v ∈ cf, Allows P a.colorFalse v) ∧
      (if 0 < al ∧ 3 ≤ m ∧ p.1.h ≠ 0 ∧ p.1.w ≠ 0 then (m = 3 ∨ m = 5 ∨ m = 7) ∧ Edged cv eps p.1 al (min t u) (max t u) m ct cf o else o = p.1))
    (l.zip s) g' (by
      intro p hp g2
      obtain ⟨j, hj⟩ := List.mem_iff_getElem?.1 hp
      obtain ⟨hj1, hj2⟩ := List.getElem?_zip_eq_some.1 hj
      have hpic := hl p.1 (List.mem_of_getElem? hj1)
      obtain ⟨ha, t, u, k, htu, e1, e2, hk, e3⟩ := hsget j p.2 hj2
      obtain ⟨k1, k2, k3⟩ := oddSize_aperture k (hR.sobel k hk)
      have har := hR.alpha _ ha
      by_cases hcond : 0 < p.2.alpha ∧ 3 ≤ oddSize k ∧ p.1.h ≠ 0 ∧ p.1.w ≠ 0
      · obtain ⟨o, hstep, hE⟩ := step_edged cv hcv gray hg eps S c p.1 hpic p.2 har (by rw [e1, e2]; exact min_le_max)
          (by rw [e3]; exact k2 hcond.2.1) hcond.1 hcond.2.2.1 hcond.2.2.2 g2 (ht _) (hf _)
        refine ⟨o, _, hstep, p.2.alpha, t, u, k, oddSize k, _, _, ha, htu, hk, k1, ⟨hS.length _ _ _, hct g2⟩,
          ⟨hS.length _ _ _, hcf (S c.colorTrue 3 g2).2⟩, ?_⟩
        rw [if_pos hcond]
        rw [e1, e2, e3] at hE
        exact ⟨k2 hcond.2.1, hE⟩
      · refine ⟨p.1, g2, ?_, p.2.alpha, t, u, k, oddSize k, _, _, ha, htu, hk, k1, ⟨hS.length _ _ _, hct g2⟩, ⟨hS.length _ _ _, hcf g2⟩, ?_⟩
        · unfold step
          rw [if_neg (by have := hpic.2.2.2; tauto), if_neg]
          rw [e3, k3]
          tauto
        · rw [if_neg hcond])
  have hzip : (l.zip s).length = n := by simp [hslen, ← hn]
  refine ⟨out, ?_, by rw [hlen, hzip], ?_⟩
  · simp only [augment]
    rw [if_neg]
    · simp only [← hn, hs, Option.bind_eq_bind, Option.bind_some, ho, Option.pure_def]
    · simp only [not_not, List.all_eq_true, decide_eq_true_eq]
      exact fun im him => (hl im him).2.2.1
  · intro i im him
    have hi : i < n := (List.getElem?_eq_some_iff.1 him).1
    obtain ⟨o, ho1, ho2⟩ := hget i (im, s[i]'(by omega)) (List.getElem?_zip_eq_some.2 ⟨him, List.getElem?_eq_getElem (by omega)⟩)
    exact ⟨o, ho1, ho2⟩

/-- C113: an edge image is between its colors and the image: each component lies between the one of a color and the one of the image. If alpha is
at least `1 - eps`, pixels with the same edge status have the same color. -/
theorem edge_images_mix (cv : Lib) (eps : ℚ) (im : Img) (a t u k : ℚ) (ha : 0 ≤ a ∧ a ≤ 1) (him : Picture im) (ct cf : List ℚ)
    (h1 : ct.length = 3 ∧ ∀ v ∈ ct, Whole 0 255 v) (h2 : cf.length = 3 ∧ ∀ v ∈ cf, Whole 0 255 v) (out : Img)
    (h : Edged cv eps im a t u k ct cf out) :
    (∀ p < im.h * im.w, ∀ ch < min im.c 3, ∃ x y b r, InColor im.c ct ch x ∧ InColor im.c cf ch y ∧ im.vals[p * im.c + ch]? = some b ∧
      out.vals[p * im.c + ch]? = some r ∧ min b (min x y) ≤ r ∧ r ≤ max b (max x y)) ∧
    (1 - eps ≤ a → ∃ edges : List Bool, edges.length = im.h * im.w ∧ ∀ p q e, edges[p]? = some e → edges[q]? = some e → ∀ ch < min im.c 3,
      out.vals[p * im.c + ch]? = out.vals[q * im.c + ch]?) := by
  obtain ⟨-, -, -, -, -, -, rgb, edges, -, -, hel, x, y, hxy, hpix⟩ := h
  constructor
  · intro p hp ch hch
    obtain ⟨e, he⟩ : ∃ e, edges[p]? = some e := ⟨_, List.getElem?_eq_getElem (by omega)⟩
    obtain ⟨b, hb, hr⟩ := hpix p e he ch (by omega)
    rw [if_neg (by omega)] at hr
    refine ⟨x ch, y ch, b, _, (hxy ch hch).1, (hxy ch hch).2, hb, hr, ?_⟩
    have hbw : Whole 0 255 b := by
      have := him.1.2.2.2 b (List.mem_of_getElem? hb)
      rw [him.2.2.1] at this
      exact holds_whole this
    have hw : ∀ (l : List ℚ), (l.length = 3 ∧ ∀ v ∈ l, Whole 0 255 v) → ∀ v, InColor im.c l ch v → Whole 0 255 v := by
      intro l hl v hv
      unfold InColor at hv
      split at hv
      · exact hv.1
      · exact hl.2 v (List.mem_of_getElem? hv)
    have key : ∀ f : ℚ, Whole 0 255 f → min b f ≤ mixed eps a f b ∧ mixed eps a f b ≤ max b f := by
      intro f hf
      obtain ⟨zb, rfl, -⟩ := hbw
      obtain ⟨zf, rfl, -⟩ := hf
      unfold mixed
      split
      · exact ⟨min_le_right _ _, le_max_right _ _⟩
      · split
        · exact ⟨min_le_left _ _, le_max_left _ _⟩
        · have hm := Blend.mix_bounds a zf zb ha.1 ha.2
          unfold Blend.mix at hm
          have e1 : (((min zb zf : Int)) : ℚ) ≤ a * zf + (1 - a) * zb := by push_cast; rw [min_comm]; exact hm.1
          have e2 : a * zf + (1 - a) * zb ≤ (((max zb zf : Int)) : ℚ) := by push_cast; rw [max_comm]; exact hm.2
          constructor
          · have := Imgaug.Props.le_npRound e1
            exact_mod_cast this
          · have := Imgaug.Props.npRound_le e2
            exact_mod_cast this
    have kx := key (x ch) (hw ct h1 _ (hxy ch hch).1)
    have ky := key (y ch) (hw cf h2 _ (hxy ch hch).2)
    cases e
    · simp only [Bool.false_eq_true, if_false]
      exact ⟨le_trans (min_le_min_left _ (min_le_right _ _)) ky.1, le_trans ky.2 (max_le_max_left _ (le_max_right _ _))⟩
    · simp only [if_true]
      exact ⟨le_trans (min_le_min_left _ (min_le_left _ _)) kx.1, le_trans kx.2 (max_le_max_left _ (le_max_left _ _))⟩
  · intro he
    refine ⟨edges, hel, ?_⟩
    intro p q e hp hq ch hch
    obtain ⟨b, -, hr⟩ := hpix p e hp ch (by omega)
    obtain ⟨b', -, hr'⟩ := hpix q e hq ch (by omega)
    rw [if_neg (by omega)] at hr hr'
    rw [hr, hr']
    simp only [mixed, if_pos he]

/-- C113: values out of the documented ranges are rejected when the augmenter is created: arguments without stochastic parameters that are accepted
stand for alphas in `[0, 1]`, for kernel sizes of at most 7 and for colors of at most 255. -/
theorem ranges_checked (P : Values ℚ) (a : Args) (hF : a.Filled) (c : Conf) (hc : init a = some c)
    (hp : ∀ i, a.alpha ≠ .atom (.par i) ∧ a.sobel ≠ .atom (.par i) ∧ a.colorTrue ≠ .atom (.par i) ∧ a.colorFalse ≠ .atom (.par i)) :
    (∀ v, Allows P a.alpha v → 0 ≤ v ∧ v ≤ 1) ∧ (∀ v, Allows P a.sobel v → 0 ≤ v ∧ v ≤ 7) ∧
    (∀ v, Allows P a.colorTrue v → 0 ≤ v ∧ v ≤ 255) ∧ (∀ v, Allows P a.colorFalse v → 0 ≤ v ∧ v ≤ 255) := by
  obtain ⟨c1, c2, c3, c4, c5⟩ := init_some a c hc
  have key : ∀ (x : Val) (h : ℚ), AllAllowed (.interval (some 0) (some h)) x → (∀ i, x ≠ .atom (.par i)) → ∀ v, Allows P x v → 0 ≤ v ∧ v ≤ h := by
    intro x h hA hpar v hv
    have hin : ∀ n : Num, .num n ∈ numbers x → 0 ≤ n.q ∧ n.q ≤ h := by
      intro n hn
      have := hA n hn
      simpa [VR.allowed] using this
    rcases x with at' | as | as
    · cases at' with
      | num n => have := hin n (by simp [numbers]); rw [show v = n.q from hv]; exact this
      | par i => exact absurd rfl (hpar i)
      | bool b => exact hv.elim
      | other => exact hv.elim
    · obtain ⟨p, q, rfl, h1, h2⟩ := hv
      have hp := hin p (by simp [numbers])
      have hq := hin q (by simp [numbers])
      exact ⟨le_trans (le_min hp.1 hq.1) h1, le_trans h2 (max_le hp.2 hq.2)⟩
    · obtain ⟨n, hn, rfl⟩ := hv
      exact hin n (by simpa [numbers] using hn)
  have disc : ∀ (x : Val) (h : ℚ) (d : Handled), handleDiscrete x (.interval (some 0) (some h)) true true false = some d →
      (∀ i, x ≠ .atom (.par i)) → AllAllowed (.interval (some 0) (some h)) x := by
    intro x h d hd hpar
    rcases (discrete_accepts x (.interval (some 0) (some h)) true true false).1 (by rw [hd]; rfl) with ⟨i, hi⟩ | h'
    · exact absurd hi (hpar i)
    · exact h'.2
  refine ⟨key _ _ ?_ (fun i => (hp i).1), key _ _ (disc _ _ _ c3 (fun i => (hp i).2.1)) (fun i => (hp i).2.1),
    key _ _ (disc _ _ _ c4 (fun i => (hp i).2.2.1)) (fun i => (hp i).2.2.1), key _ _ (disc _ _ _ c5 (fun i => (hp i).2.2.2)) (fun i => (hp i).2.2.2)⟩
  rcases (continuous_accepts a.alpha (.interval (some 0) (some 1)) true true).1 (by rw [c1]; rfl) with ⟨i, hi⟩ | h'
  · exact absurd hi (hp i).1
  · exact h'.2

/-- C113: batches with an image of another dtype or with another number of channels are rejected, even if no image would be changed. Batches without
images are unchanged. -/
theorem rejected_images (S : Sampler σ Handled ℚ) (c : Conf) (cv : Lib) (gray : ℚ → ℚ → ℚ → ℚ) (eps : ℚ)
    (l : List Img) (g : σ) :
    ((∃ im ∈ l, im.dt ≠ ⟨.u, 1⟩ ∨ (im.c ≠ 1 ∧ im.c ≠ 3 ∧ im.c ≠ 4)) → augment cv gray eps S c (some l) g = none) ∧
    augment cv gray eps S c none g = some none := by
  refine ⟨?_, rfl⟩
  rintro ⟨im, him, h⟩
  simp only [augment]
  by_cases hd : ¬ (l.all (fun im => decide (im.dt = ⟨.u, 1⟩)) = true)
  · rw [if_pos hd]
  · rw [if_neg hd]
    rw [not_not, List.all_eq_true] at hd
    have hdt : im.dt = ⟨.u, 1⟩ := by simpa using hd im him
    have hch : im.c ≠ 1 ∧ im.c ≠ 3 ∧ im.c ≠ 4 := by
      rcases h with h | h
      · exact absurd hdt h
      · exact h
    cases hs : drawSamples S c l.length g with
    | none => rfl
    | some r =>
      have hrl : r.1.length = l.length := by
        unfold drawSamples at hs
        extract_lets al th so at hs
        split_ifs at hs
        cases hs
        simp
      obtain ⟨j, hj⟩ := List.mem_iff_getElem?.1 him
      have hjl : j < l.length := (List.getElem?_eq_some_iff.1 hj).1
      have hz : (l.zip r.1)[j]? = some (im, r.1[j]'(by omega)) := List.getElem?_zip_eq_some.2 ⟨hj, List.getElem?_eq_getElem (by omega)⟩
      have := loop_fails cv gray eps S c (l.zip r.1) r.2 ⟨_, List.mem_of_getElem? hz, fun g => by unfold step; rw [if_pos (by tauto)]⟩
      simp [this]

/-- The hypotheses of the theorems above are met: the default arguments, an image with an alpha channel, and a detector for which every pixel is at an
edge. -/
example : Args.Filled ⟨.tuple [.num ⟨false, 0⟩, .num ⟨false, 1⟩], .pair (.tuple [.num ⟨true, 60⟩, .num ⟨true, 140⟩]) (.tuple [.num ⟨true, 160⟩, .num ⟨true, 240⟩]),
      .tuple [.num ⟨true, 3⟩, .num ⟨true, 7⟩], .tuple [.num ⟨true, 0⟩, .num ⟨true, 255⟩], .tuple [.num ⟨true, 0⟩, .num ⟨true, 255⟩]⟩ ∧
    init ⟨.tuple [.num ⟨false, 0⟩, .num ⟨false, 1⟩], .pair (.tuple [.num ⟨true, 60⟩, .num ⟨true, 140⟩]) (.tuple [.num ⟨true, 160⟩, .num ⟨true, 240⟩]),
      .tuple [.num ⟨true, 3⟩, .num ⟨true, 7⟩], .tuple [.num ⟨true, 0⟩, .num ⟨true, 255⟩], .tuple [.num ⟨true, 0⟩, .num ⟨true, 255⟩]⟩ =
      some ⟨.uniform ⟨false, 0⟩ ⟨false, 1⟩, .two (.discreteUniform 60 140) (.discreteUniform 160 240), .discreteUniform 3 7, .discreteUniform 0 255,
        .discreteUniform 0 255⟩ := by
  have hi : ∀ (x y : ℚ), (∃ z : Int, x = z) → (∃ z : Int, y = z) → IntNums (.tuple [.num ⟨true, x⟩, .num ⟨true, y⟩]) := by
    intro x y hx hy n hn _
    simp only [numbers, List.mem_cons, Atom.num.injEq, List.not_mem_nil, or_false] at hn
    rcases hn with rfl | rfl
    · exact hx
    · exact hy
  refine ⟨⟨by simp [Val.Filled], by simp, ?_, by simp [Val.Filled], by simp [Val.Filled], by simp [Val.Filled], hi _ _ ⟨3, by norm_num⟩ ⟨7, by norm_num⟩,
    hi _ _ ⟨0, by norm_num⟩ ⟨255, by norm_num⟩, hi _ _ ⟨0, by norm_num⟩ ⟨255, by norm_num⟩⟩, by decide +kernel⟩
  intro v w h
  cases h
  simp [Val.Filled]

/-- Arguments in the documented ranges: numbers. -/
example (P : Values ℚ) : Args.InRange P ⟨.atom (.num ⟨false, 1 / 2⟩), .one (.atom (.num ⟨true, 100⟩)), .atom (.num ⟨true, 4⟩), .atom (.num ⟨true, 255⟩),
    .atom (.num ⟨true, 0⟩)⟩ := by
  refine ⟨?_, ?_, ?_, ?_⟩
  · rintro v rfl; norm_num
  · rintro v rfl; exact ⟨4, by norm_num, by norm_num, by norm_num⟩
  · rintro v rfl; exact ⟨255, by norm_num, by norm_num, by norm_num⟩
  · rintro v rfl; exact ⟨0, by norm_num, by norm_num, by norm_num⟩

/-- A library and a weighted sum that meet the assumptions, and an image. -/
example : Lib.Ok (fun im _ _ _ => some (List.replicate (im.h * im.w) true)) ∧
    GrayOk (fun r g b => 299 / 1000 * r + 587 / 1000 * g + 114 / 1000 * b - 1 / 1000) ∧
    Picture ⟨⟨.u, 1⟩, false, 1, 1, 4, [10, 20, 30, 77]⟩ := by
  refine ⟨?_, ?_, ⟨by decide, rfl, by simp, ?_⟩, rfl, rfl, by simp⟩
  · intro im t u k _ _ _ _ _ _ _
    exact ⟨_, rfl, by simp⟩
  · intro r g b _ _ _ _ _ _
    rw [abs_le]
    constructor <;> linarith
  · intro v hv
    simp only [List.mem_cons, List.not_mem_nil, or_false] at hv
    rcases hv with rfl | rfl | rfl | rfl
    · exact whole_holds ⟨10, by norm_num, by norm_num, by norm_num⟩
    · exact whole_holds ⟨20, by norm_num, by norm_num, by norm_num⟩
    · exact whole_holds ⟨30, by norm_num, by norm_num, by norm_num⟩
    · exact whole_holds ⟨77, by norm_num, by norm_num, by norm_num⟩

/-- For them, white edges, half of alpha and a kernel size of 4: the color is mixed, the alpha channel is kept. -/
example : (augment (fun im _ _ k => if k = 3 then some (List.replicate (im.h * im.w) true) else none) (fun r g b => (r + g + b) / 3) (1 / 100)
      (fun (d : Handled) n (g : Unit) => (match d with | .det x => List.replicate n x.q | _ => [], g))
      ⟨.det ⟨false, 1 / 2⟩, .one (.det ⟨true, 100⟩), .det ⟨true, 4⟩, .det ⟨true, 255⟩, .det ⟨true, 0⟩⟩
      (some [⟨⟨.u, 1⟩, false, 1, 1, 4, [10, 20, 30, 77]⟩]) ()).map (Option.map (List.map (fun o => o.vals))) =
    some (some [[132, 138, 142, 77]]) := by decide +kernel

/-- C113: a pair of thresholds of which only one is a number is rejected. -/
theorem mixed_thresholds (a : Args) (x y : Val) (h : a.thresholds = .pair x y) (hx : isNumber x ≠ isNumber y) : init a = none := by
  have key : ∀ v, isNumber v = false → asNumOrInt true (asAtom v) = none := by
    intro v hv
    cases v with
    | atom p => cases p <;> first | rfl | cases hv
    | _ => rfl
  have hn : initThresholds a.thresholds = none := by
    rw [h]
    simp only [initThresholds]
    rw [if_neg (by cases hx' : isNumber x <;> cases hy' : isNumber y <;> simp_all)]
    unfold threshold handleDiscrete
    cases hx' : isNumber x
    · simp [key x hx']
    · have hy' : isNumber y = false := by
        cases hy' : isNumber y
        · rfl
        · rw [hx', hy'] at hx; exact absurd rfl hx
      simp only [if_true, List.mapM_cons, List.mapM_nil, key y hy']
      cases asNumOrInt true (asAtom x) <;> rfl
  unfold init
  rw [hn]
  cases handleContinuous a.alpha (.interval (some 0) (some 1)) true true <;> rfl

example : isNumber (.atom (.num ⟨true, 100⟩)) ≠ isNumber (.tuple [.num ⟨true, 100⟩, .num ⟨true, 200⟩]) := by decide

end Imgaug.Canny.Props
