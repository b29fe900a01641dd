import Verif.Proofs.PoolAug
import Verif.Props.Resize
import Verif.Props.Pooling
/-! C97: pooling augmenters. -/
namespace Imgaug.Props.PoolAug
open Imgaug Imgaug.PoolAug Imgaug.Lambda Imgaug.Spec.PoolAug

/-- A pooling function for examples: takes the first pixel of every block. -/
def demoPool (kh kw : Nat) (im : Resize.Im) : Option Resize.Im :=
  if im.h = 0 ∨ im.w = 0 then some im
  else some ⟨im.dt, (im.h + kh - 1) / kh, (im.w + kw - 1) / kw, im.c, fun y x c => im.px (y * kh) (x * kw) c⟩

example : Pools demoPool := by
  intro kh kw im p h1 h2 hp
  unfold demoPool at hp
  by_cases hz : im.h = 0 ∨ im.w = 0
  · rw [if_pos hz, Option.some.injEq] at hp
    subst hp
    refine ⟨?_, rfl, rfl⟩
    unfold Pooled; rw [if_pos hz]
  · rw [if_neg hz, Option.some.injEq] at hp
    subst hp
    have key : ∀ n k : Nat, 1 ≤ k → Blocks n k ((n + k - 1) / k) := by
      intro n k hk
      have hd := Nat.div_add_mod (n + k - 1) k
      have hm := Nat.mod_lt (n + k - 1) hk
      have : k * ((n + k - 1) / k) = (n + k - 1) / k * k := Nat.mul_comm _ _
      unfold Blocks; omega
    refine ⟨?_, rfl, rfl⟩
    unfold Pooled; rw [if_neg hz]
    exact ⟨key _ _ h1, key _ _ h2⟩

/-- C97: `imgaug.pool` gives images of the size assumed here, and pixel `(y, x)` of the image is in the block at the rounded down places of its
content. -/
theorem pixel_block {α : Type} (border : Nat → Nat → α) (f : Multiset α → α) (a : Img α) (kh kw : Nat) (hh : 1 ≤ a.h) (hw : 1 ≤ a.w)
    (h1 : 1 ≤ kh) (w1 : 1 ≤ kw) :
    ∃ r, Pooling.pool border f a kh kw = some r ∧ Pooled ⟨a.h, a.w⟩ kh kw ⟨r.h, r.w⟩ ∧
      ∀ y x : Nat, y < a.h → x < a.w → ∃ Y X : Nat, (Y : ℚ) ≤ content a.h kh y ∧ content a.h kh y < Y + 1 ∧ (X : ℚ) ≤ content a.w kw x ∧
        content a.w kw x < X + 1 ∧ Y < r.h ∧ X < r.w ∧ ∃ s, r.px Y X = f s ∧ a.px y x ∈ s := by
  obtain ⟨r, t, l, hr, _, _, b1, b2, ht, b3, b4, hl, hb⟩ := Pooling.pool_blocks border f a kh kw hh hw h1 w1
  have hmh : r.h = axisAfter a.h kh := blocks_unique ⟨b1, b2⟩ (axisAfter_blocks _ _ h1)
  have hmw : r.w = axisAfter a.w kw := blocks_unique ⟨b3, b4⟩ (axisAfter_blocks _ _ w1)
  have ht' : t = padBefore a.h kh := by rw [ht, hmh, padBefore_eq _ _ h1]
  have hl' : l = padBefore a.w kw := by rw [hl, hmw, padBefore_eq _ _ w1]
  refine ⟨r, hr, ?_, ?_⟩
  · unfold Pooled; rw [if_neg (by simp; omega)]; exact ⟨⟨b1, b2⟩, ⟨b3, b4⟩⟩
  · intro y x hy hx
    have key : ∀ n k u m : Nat, 1 ≤ k → n ≤ m * k → padBefore n k = (m * k - n) / 2 → u < n →
        (((u + padBefore n k) / k : Nat) : ℚ) ≤ content n k u ∧ content n k u < ((u + padBefore n k) / k : Nat) + 1 ∧
          (u + padBefore n k) / k < m := by
      intro n k u m hk hn hp hu
      have hk' : (0 : ℚ) < k := by exact_mod_cast hk
      have hd := Nat.div_add_mod (u + padBefore n k) k
      have hm := Nat.mod_lt (u + padBefore n k) hk
      have hc : k * ((u + padBefore n k) / k) = (u + padBefore n k) / k * k := Nat.mul_comm _ _
      unfold content
      refine ⟨?_, ?_, ?_⟩
      · rw [le_div_iff₀ hk']
        have : (u + padBefore n k) / k * k ≤ u + padBefore n k := by omega
        exact_mod_cast this
      · rw [div_lt_iff₀ hk']
        have : u + padBefore n k < ((u + padBefore n k) / k + 1) * k := by rw [Nat.add_mul, Nat.one_mul]; omega
        exact_mod_cast this
      · rw [Nat.div_lt_iff_lt_mul hk]; omega
    obtain ⟨c1, c2, c3⟩ := key a.h kh y r.h h1 b1 (by rw [← ht', ht]) hy
    obtain ⟨d1, d2, d3⟩ := key a.w kw x r.w w1 b3 (by rw [← hl', hl]) hx
    rw [← ht'] at c1 c2 c3
    rw [← hl'] at d1 d2 d3
    refine ⟨(y + t) / kh, (x + l) / kw, c1, c2, d1, d2, c3, d3, _, hb _ _ c3 d3, ?_⟩
    have hdy := Nat.div_add_mod (y + t) kh
    have hdx := Nat.div_add_mod (x + l) kw
    have e1 : (y + t) / kh * kh + (y + t) % kh = y + t := by rw [Nat.mul_comm]; exact hdy
    have e2 : (x + l) / kw * kw + (x + l) % kw = x + l := by rw [Nat.mul_comm]; exact hdx
    rw [Multiset.mem_sum]
    refine ⟨(y + t) % kh, Finset.mem_range.2 (Nat.mod_lt _ h1), ?_⟩
    rw [Multiset.mem_sum]
    refine ⟨(x + l) % kw, Finset.mem_range.2 (Nat.mod_lt _ w1), ?_⟩
    rw [e1, e2, if_pos (by omega), Multiset.mem_singleton]
    congr 1 <;> omega

/-- C97: every image of the batch gets its own kernel, at least one pixel high and wide whatever is drawn, and as wide as high if only one kernel size
is given. -/
theorem kernel_sizes (hs : List Int) (ws : Option (List Int)) (hl : ∀ l, ws = some l → l.length = hs.length) :
    (kernels hs ws).length = hs.length ∧
    ∀ i (h : i < hs.length), ∃ k, (kernels hs ws)[i]? = some k ∧ (k.1 : Int) = max hs[i] 1 ∧
      (ws = none → k.2 = k.1) ∧ (∀ l w, ws = some l → l[i]? = some w → (k.2 : Int) = max w 1) := by
  have hlen : (ws.getD hs).length = hs.length := by
    cases ws with
    | none => rfl
    | some l => exact hl l rfl
  constructor
  · simp [kernels, hlen]
  · intro i h
    have hi2 : i < (ws.getD hs).length := by omega
    refine ⟨(clipped hs[i], clipped (ws.getD hs)[i]), ?_, ?_, ?_, ?_⟩
    · simp [kernels, List.getElem?_zip_eq_some, h, hi2]
    · simp only [clipped]; omega
    · rintro rfl; rfl
    · rintro l w rfl hw
      have : w = l[i] := by
        have h' : i < l.length := hi2
        rw [List.getElem?_eq_getElem h', Option.some.injEq] at hw; exact hw.symm
      subst this
      simp only [clipped, Option.getD_some]; omega

example : kernels [3, -2, 0] none = [(3, 3), (1, 1), (1, 1)] ∧ kernels [3, 2] (some [1, -5]) = [(3, 1), (2, 1)] := by decide

/-- C97: without `keep_size`, an image and everything annotated on it get the same new size, that of the blocks that cover the image. -/
theorem sizes_agree (pool : Nat → Nat → Resize.Im → Option Resize.Im) (hpool : Pools pool) (cv : Resize.Cv) (k : Nat × Nat) (hk1 : 1 ≤ k.1)
    (hk2 : 1 ≤ k.2) (im out : Resize.Im) (hi' : imageOne pool cv false k im = some out) :
    Pooled ⟨im.h, im.w⟩ k.1 k.2 ⟨out.h, out.w⟩ ∧ out.dt = im.dt ∧ out.c = im.c ∧
    (∀ m : Map, m.shape = ⟨im.h, im.w⟩ → (mapOne true false k m).shape = ⟨out.h, out.w⟩) ∧
    (∀ x x' : KPsOnImage, x.shape = ⟨im.h, im.w⟩ → kpsOne false k x = some x' → x'.shape = ⟨out.h, out.w⟩) ∧
    (∀ x x' : RingsOnImage, x.shape = ⟨im.h, im.w⟩ → ringsOne false k x = some x' → x'.shape = ⟨out.h, out.w⟩) ∧
    (∀ x x' : BBsOnImage, x.shape = ⟨im.h, im.w⟩ → boxesOne false k x = some x' → x'.shape = ⟨out.h, out.w⟩) := by
  have hone : ¬ active k = true → k.1 = 1 ∧ k.2 = 1 := by
    intro h; simp [active] at h; omega
  have himg : Pooled ⟨im.h, im.w⟩ k.1 k.2 ⟨out.h, out.w⟩ ∧ out.dt = im.dt ∧ out.c = im.c := by
    unfold imageOne at hi'
    by_cases ha : active k
    · rw [if_pos ha] at hi'
      cases hp : pool k.1 k.2 im with
      | none => rw [hp] at hi'; simp at hi'
      | some p =>
        rw [hp] at hi'
        simp only [Option.bind_some, Bool.false_eq_true, if_false, Option.some.injEq] at hi'
        subst hi'
        exact hpool _ _ _ _ hk1 hk2 hp
    · rw [if_neg ha, Option.some.injEq] at hi'
      subst hi'
      refine ⟨?_, rfl, rfl⟩
      obtain ⟨e1, e2⟩ := hone ha
      rw [e1, e2]
      unfold Pooled Blocks
      split_ifs
      · rfl
      · simp
  obtain ⟨hp, hd, hc⟩ := himg
  have hshape : ∀ s : Shape, s = ⟨im.h, im.w⟩ → (if active k then shapeAfter s k.1 k.2 else s) = ⟨out.h, out.w⟩ := by
    rintro s rfl
    by_cases ha : active k
    · rw [if_pos ha]; exact pooled_unique (shapeAfter_pooled _ _ _ hk1 hk2) hp
    · rw [if_neg ha]
      obtain ⟨e1, e2⟩ := hone ha
      refine pooled_unique ?_ hp
      rw [e1, e2]; unfold Pooled Blocks
      split_ifs
      · rfl
      · simp
  have hkps : ∀ x x' : KPsOnImage, x.shape = ⟨im.h, im.w⟩ → kpsOne false k x = some x' → x'.shape = ⟨out.h, out.w⟩ := by
    intro x x' hx hx'
    have := hshape x.shape hx
    unfold kpsOne at hx'
    simp only [Bool.false_eq_true, if_false] at hx'
    by_cases ha : active k
    · rw [if_pos ha] at hx' this
      rw [← this]
      unfold KPsOnImage.on at hx'
      by_cases e : shapeAfter x.shape k.1 k.2 = x.shape
      · rw [if_pos e, Option.some.injEq] at hx'
        rw [← hx', e]
      · rw [if_neg e, Option.map_eq_some_iff] at hx'
        obtain ⟨l, _, rfl⟩ := hx'
        rfl
    · rw [if_neg ha] at hx' this
      rw [Option.some.injEq] at hx'
      rw [← hx', this]
  refine ⟨hp, hd, hc, ?_, hkps, ?_, ?_⟩
  · intro m hm
    have := hshape m.shape hm
    unfold mapOne
    simp only [Bool.false_eq_true, if_false]
    by_cases ha : active k
    · rw [if_pos ha] at this ⊢; exact this
    · rw [if_neg ha] at this ⊢; exact this
  · intro x x' hx hx'
    unfold ringsOne at hx'
    obtain ⟨k', h1, h2⟩ := Option.bind_eq_some_iff.1 hx'
    unfold ringsFromKps at h2
    split_ifs at h2
    rw [Option.some.injEq] at h2
    rw [← h2]
    exact hkps (ringsToKps x) k' hx h1
  · intro x x' hx hx'
    unfold boxesOne at hx'
    obtain ⟨k', h1, h2⟩ := Option.bind_eq_some_iff.1 hx'
    unfold boxesFromKps BBsOnImage.invertToKeypointsOnImage at h2
    split_ifs at h2
    rw [Option.some.injEq] at h2
    rw [← h2]
    exact hkps (boxesToKps x) k' hx h1

example : (imageOne demoPool Resize.demoCv false (3, 2) ⟨⟨.u, 1⟩, 10, 7, some 3, fun _ _ _ => 0⟩).map (fun r => (r.h, r.w)) = some (4, 4) ∧
    mapOne true false (3, 2) ⟨⟨5, 7⟩, ⟨10, 7⟩⟩ = ⟨⟨2, 4⟩, ⟨4, 4⟩⟩ := by decide

/-- C97: without `keep_size`, keypoints, corners of polygons and line strings, and bounding boxes keep their relative places. -/
theorem annotations_scaled (k : Nat × Nat) (hk1 : 1 ≤ k.1) (hk2 : 1 ≤ k.2) (s : Shape) (hh : 0 < s.h) (hw : 0 < s.w) :
    ∃ s', Pooled s k.1 k.2 s' ∧
      (∀ kps, kpsOne false k ⟨kps, s⟩ = some ⟨kps.map (scaled s s'), s'⟩) ∧
      (∀ rings, ringsOne false k ⟨rings, s⟩ = some ⟨rings.map (fun p => { p with exterior := p.exterior.map (scaled s s') }), s'⟩) ∧
      (∀ boxes, (∀ b ∈ boxes, Imgaug.Spec.WF b) → boxesOne false k ⟨boxes, s⟩ = some ⟨boxes.map (fun b =>
        { b with x1 := b.x1 / s.w * s'.w, y1 := b.y1 / s.h * s'.h, x2 := b.x2 / s.w * s'.w, y2 := b.y2 / s.h * s'.h }), s'⟩) := by
  have hp := shapeAfter_pooled s k.1 k.2 hk1 hk2
  have hkp : ∀ kps, kpsOne false k ⟨kps, s⟩ = some ⟨kps.map (scaled s (shapeAfter s k.1 k.2)), shapeAfter s k.1 k.2⟩ := by
    intro kps
    obtain ⟨s', h1, h2⟩ := kpsOne_scaled k hk1 hk2 ⟨kps, s⟩ hh hw
    have : s' = shapeAfter s k.1 k.2 := pooled_unique h1 hp
    subst this
    exact h2
  refine ⟨shapeAfter s k.1 k.2, hp, hkp, ?_, ?_⟩
  · intro rings
    unfold ringsOne
    have : ringsToKps ⟨rings, s⟩ = ⟨(ringsToKps ⟨rings, s⟩).kps, s⟩ := rfl
    rw [this, hkp, Option.bind_some, ringsFromKps_map]
  · intro boxes hb
    unfold boxesOne
    have : boxesToKps ⟨boxes, s⟩ = ⟨(boxesToKps ⟨boxes, s⟩).kps, s⟩ := rfl
    rw [this, hkp, Option.bind_some, boxesFromKps_map]
    congr 2
    apply List.map_congr_left
    rintro ⟨x1, y1, x2, y2, l⟩ hm
    obtain ⟨h1, h2⟩ := hb _ hm
    simp only at h1 h2
    have hW : (0 : ℚ) < s.w := by exact_mod_cast hw
    have hH : (0 : ℚ) < s.h := by exact_mod_cast hh
    have a1 : x1 / s.w * (shapeAfter s k.1 k.2).w ≤ x2 / s.w * (shapeAfter s k.1 k.2).w :=
      mul_le_mul_of_nonneg_right (div_le_div_of_nonneg_right h1 hW.le) (Nat.cast_nonneg _)
    have a2 : y1 / s.h * (shapeAfter s k.1 k.2).h ≤ y2 / s.h * (shapeAfter s k.1 k.2).h :=
      mul_le_mul_of_nonneg_right (div_le_div_of_nonneg_right h2 hH.le) (Nat.cast_nonneg _)
    simp only [movedBox, scaled, BB.minOf, BB.maxOf, List.foldl, BB.mk.injEq, and_true]
    generalize x1 / s.w * (shapeAfter s k.1 k.2).w = u1 at *
    generalize x2 / s.w * (shapeAfter s k.1 k.2).w = u2 at *
    generalize y1 / s.h * (shapeAfter s k.1 k.2).h = v1 at *
    generalize y2 / s.h * (shapeAfter s k.1 k.2).h = v2 at *
    clear hkp hp hb hm h1 h2 hW hH this
    refine ⟨?_, ?_, ?_, ?_⟩ <;> grind

example : boxesOne false (2, 4) ⟨[⟨1, 2, 3, 4, none⟩], ⟨10, 8⟩⟩ = some ⟨[⟨1/4, 1, 3/4, 2, none⟩], ⟨5, 2⟩⟩ := by decide +kernel

/-- C97: points on the image stay on it. -/
theorem stay_on_image (k : Nat × Nat) (s s' : Shape) (h : Pooled s k.1 k.2 s') (p : Pt) (hp : On p s) :
    On (scaled s s' p) s' := by
  obtain ⟨a, b, c, d⟩ := hp
  have hW : (0 : ℚ) < s.w := lt_of_le_of_lt a b
  have hH : (0 : ℚ) < s.h := lt_of_le_of_lt c d
  have hw : 0 < s.w := by exact_mod_cast hW
  have hh : 0 < s.h := by exact_mod_cast hH
  unfold Pooled at h
  rw [if_neg (by omega)] at h
  have h1 : (0 : ℚ) < s'.h := by exact_mod_cast blocks_pos h.1 hh
  have h2 : (0 : ℚ) < s'.w := by exact_mod_cast blocks_pos h.2 hw
  refine ⟨by unfold scaled; positivity, ?_, by unfold scaled; positivity, ?_⟩
  · have : p.x / s.w < 1 := (div_lt_one hW).2 b
    show p.x / s.w * s'.w < s'.w
    nlinarith
  · have : p.y / s.h < 1 := (div_lt_one hH).2 d
    show p.y / s.h * s'.h < s'.h
    nlinarith

example : On ⟨3, 4⟩ ⟨10, 8⟩ ∧ Pooled ⟨10, 8⟩ 3 4 ⟨4, 2⟩ := by
  constructor
  · unfold On; norm_num
  · unfold Pooled Blocks; simp

/-- C97 (partial): without `keep_size`, an annotated coordinate is at most half a pixel of the pooled image away from where the content of the image
went, and exactly there if the size of the image is a multiple of that of the kernel. -/
theorem content_near_partial (n k m : Nat) (hn : 0 < n) (hk : 1 ≤ k) (h : Blocks n k m) (y : ℚ) :
    (0 ≤ y → y ≤ n → |y / n * m - content n k y| ≤ 1 / 2) ∧ (k ∣ n → y / n * m = content n k y) := by
  refine ⟨content_distance n k m hn hk h y, ?_⟩
  rintro ⟨q, rfl⟩
  have hq : m = q := by
    refine blocks_unique h ?_
    unfold Blocks; rw [Nat.mul_comm]; omega
  subst hq
  have hm : (0 : ℚ) < m := by
    have : 0 < m := by
      rcases Nat.eq_zero_or_pos m with e | e
      · subst e; omega
      · exact e
    exact_mod_cast this
  have hk' : (0 : ℚ) < k := by exact_mod_cast hk
  have hp : padBefore (k * m) k = 0 := by simp [padBefore]
  unfold content
  rw [hp]
  push_cast
  field_simp
  ring

example : Blocks 10 4 3 ∧ content 10 4 6 = 7 / 4 := by
  constructor
  · unfold Blocks; omega
  · norm_num [content, padBefore]

/-- C97 is false for sizes that are no multiples of the kernel: on an image of 5 pixels pooled with a kernel of 4, the third pixel goes into the
first block, a keypoint on this pixel to the second. -/
theorem keypoint_in_other_block :
    padBefore 5 4 = 1 ∧ (2 + padBefore 5 4) / 4 = 0 ∧
    (kpsOne false (4, 4) ⟨[⟨5 / 2, 26 / 10⟩], ⟨5, 4⟩⟩) = some ⟨[⟨5 / 8, 104 / 100⟩], ⟨2, 1⟩⟩ := by
  decide +kernel

/-- C97: with `keep_size`, images keep their size, data type and channels, and all annotations stay as they are. -/
theorem keep_size (pool : Nat → Nat → Resize.Im → Option Resize.Im) (hpool : Pools pool) (cv : Resize.Cv) (k : Nat × Nat) (hk1 : 1 ≤ k.1)
    (hk2 : 1 ≤ k.2) :
    (∀ im out, imageOne pool cv true k im = some out → out.h = im.h ∧ out.w = im.w ∧ out.dt = im.dt ∧ out.c = im.c) ∧
    (∀ m, mapOne true true k m = m) ∧ (∀ x, kpsOne true k x = some x) ∧ (∀ x, ringsOne true k x = some x) ∧
    (∀ x : BBsOnImage, (∀ b ∈ x.boxes, Imgaug.Spec.WF b) → boxesOne true k x = some x) := by
  refine ⟨?_, fun _ => rfl, fun _ => rfl, ?_, ?_⟩
  · intro im out h
    unfold imageOne at h
    by_cases ha : active k
    · rw [if_pos ha] at h
      obtain ⟨p, hp, h2⟩ := Option.bind_eq_some_iff.1 h
      simp only [if_true] at h2
      obtain ⟨_, hd, hc⟩ := hpool _ _ _ _ hk1 hk2 hp
      obtain ⟨r1, r2, r3, r4⟩ := Resize.resized_shape cv none _ _ p out h2
      simp only [Resize.AsksFor] at r3 r4
      refine ⟨?_, ?_, r1.trans hd, r2.trans hc⟩
      · exact_mod_cast r3
      · exact_mod_cast r4
    · rw [if_neg ha, Option.some.injEq] at h
      subst h
      exact ⟨rfl, rfl, rfl, rfl⟩
  · intro x
    have := ringsFromKps_map x id x.shape
    simpa [ringsOne, kpsOne, ringsToKps] using this
  · intro x hx
    have := boxesFromKps_map x id x.shape
    have h2 : x.boxes.map (movedBox id) = x.boxes := by
      conv_rhs => rw [← List.map_id x.boxes]
      apply List.map_congr_left
      intro b hb
      exact movedBox_id b (hx b hb)
    rw [h2] at this
    simpa [boxesOne, kpsOne, boxesToKps, BBsOnImage.toKeypointsOnImage] using this

/-- C97 (partial): with `keep_size`, the content of the image is at most half a kernel away from the annotations, that are not changed. -/
theorem kept_content_near_partial (n k m : Nat) (hn : 0 < n) (hk : 1 ≤ k) (h : Blocks n k m) (y : ℚ) (h0 : 0 ≤ y) (h1 : y ≤ n) :
    |y - content n k y / m * n| ≤ k / 2 := by
  have hd := content_distance n k m hn hk h y h0 h1
  have hm : (0 : ℚ) < m := by exact_mod_cast blocks_pos h hn
  have hn' : (0 : ℚ) < n := by exact_mod_cast hn
  have e : y - content n k y / m * n = (y / n * m - content n k y) * (n / m) := by field_simp
  have hnm : (n : ℚ) / m ≤ k := by
    rw [div_le_iff₀ hm]
    have : n ≤ k * m := by rw [Nat.mul_comm]; exact h.1
    exact_mod_cast this
  have hnm0 : (0 : ℚ) ≤ n / m := by positivity
  rw [e, abs_mul, abs_of_nonneg hnm0]
  have hk' : (0 : ℚ) < k := by exact_mod_cast hk
  nlinarith [abs_nonneg (y / n * m - content n k y)]

/-- C97: a kernel of one pixel changes nothing, whatever `keep_size`. -/
theorem kernel_of_one (pool : Nat → Nat → Resize.Im → Option Resize.Im) (cv : Resize.Cv) (keep : Bool) (im : Resize.Im) (m : Map) (x : KPsOnImage) :
    imageOne pool cv keep (1, 1) im = some im ∧ mapOne true keep (1, 1) m = m ∧ kpsOne keep (1, 1) x = some x := by
  refine ⟨rfl, ?_, ?_⟩
  · cases keep <;> rfl
  · cases keep <;> rfl

/-- C97: the images of a batch are pooled one by one, each with its own kernel. -/
theorem image_by_image (pool : Nat → Nat → Resize.Im → Option Resize.Im) (cv : Resize.Cv) (keep : Bool) (ks : List (Nat × Nat))
    (l out : List Resize.Im) (hl : ks.length = l.length) (h : PoolAug.images pool cv keep ks l = some out) :
    out.length = l.length ∧ ∀ (i : Nat) im k, l[i]? = some im → ks[i]? = some k → ∃ o, out[i]? = some o ∧ imageOne pool cv keep k im = some o := by
  unfold PoolAug.images at h
  have h1 := Dtypes.mapM_len _ _ _ h
  refine ⟨by rw [h1]; simp [hl], ?_⟩
  intro i im k him hk
  have hz : (l.zip ks)[i]? = some (im, k) := by rw [List.getElem?_zip_eq_some]; exact ⟨him, hk⟩
  obtain ⟨hi1, e⟩ := List.getElem?_eq_some_iff.1 hz
  have h2 := Dtypes.mapM_nth _ _ _ h i (im, k) hz
  exact h2

/-- C97 is false for the data types: `uint32`, `int32` and `float128` images can be pooled, but not resized to their old size, as `keep_size` (the
default) demands. -/
theorem int32_raises (cv : Resize.Cv) (px : Nat → Nat → Nat → ℚ) :
    ∀ d ∈ [(⟨.u, 4⟩ : Dtypes.DType), ⟨.i, 4⟩, ⟨.f, 16⟩],
      (imageOne demoPool cv false (2, 2) ⟨d, 4, 4, some 1, px⟩).isSome = true ∧ imageOne demoPool cv true (2, 2) ⟨d, 4, 4, some 1, px⟩ = none := by
  intro d hd
  refine ⟨rfl, ?_⟩
  have hn : d ∉ Resize.allowed .area := by
    simp only [List.mem_cons, List.not_mem_nil, or_false] at hd
    rcases hd with rfl | rfl | rfl <;> decide
  simp [imageOne, active, demoPool, Resize.single, Resize.pair, Resize.Size.val, Resize.core, Resize.target, Resize.chosen, hn]

/-- C97 is false for the arrays of heatmaps and segmentation maps: they are documented to stay unchanged, but are resized too. -/
theorem arrays_resized : mapOne true false (2, 2) ⟨⟨8, 8⟩, ⟨8, 8⟩⟩ = ⟨⟨4, 4⟩, ⟨4, 4⟩⟩ := by decide

end Imgaug.Props.PoolAug
