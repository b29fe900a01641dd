import Verif.Proofs.Size
import Verif.Proofs.Num
/-! C46, C47: cropping and padding. -/
namespace Imgaug.Size
open Imgaug
variable {α : Type}

/-- C46: the prevention of empty images: for every axis of size at least 1 and all non-negative amounts, the corrected amounts are
non-negative and not larger than the requested ones, and the number of pixels left is the requested one, or one pixel. -/
theorem prevent_zero_size (size s e : Int) (hsize : 1 ≤ size) (hs : 0 ≤ s) (he : 0 ≤ e) :
    ∃ s' e', preventZero size s e = (s', e') ∧ 0 ≤ s' ∧ s' ≤ s ∧ 0 ≤ e' ∧ e' ≤ e ∧
      size - s' - e' = max 1 (size - s - e) := by
  refine ⟨_, _, rfl, ?_⟩
  simp only [abs]
  split_ifs <;> omega

/-- C46: amounts that leave a pixel are not changed. -/
theorem prevent_zero_size_unchanged (size s e : Int) (hs : 0 ≤ s) (he : 0 ≤ e) (h : s + e < size) :
    preventZero size s e = (s, e) := by
  simp only [preventZero, abs, Prod.mk.injEq]
  split_ifs <;> omega

/-- C46: the missing pixels are given back evenly, as far as possible: if both amounts are large enough, they are reduced by the
same number, or by one more at the start. -/
theorem prevent_zero_size_even (size s e : Int) (hsize : 1 ≤ size) (h : size ≤ s + e) (n : Int)
    (hn : n = s + e - size + 1) (hs : (n + 1) / 2 ≤ s) (he : n / 2 ≤ e) :
    preventZero size s e = (s - (n + 1) / 2, e - n / 2) := by
  subst hn
  simp only [preventZero, abs, Prod.mk.injEq]
  split_ifs <;> omega

/-- C46: axes of size 0 are not cropped. -/
theorem prevent_zero_size_empty (s e : Int) (hs : 0 ≤ s) (he : 0 ≤ e) : preventZero 0 s e = (0, 0) := by
  simp only [preventZero, abs, Prod.mk.injEq]
  split_ifs <;> omega

example : preventZero 10 7 8 = (4, 5) ∧ preventZero 10 2 20 = (0, 9) ∧ preventZero 10 20 2 = (9, 0) ∧
    preventZero 10 4 5 = (4, 5) := by decide

/-- C46: a non-empty image is never cropped to an empty one, whatever the (non-negative) amounts, and no pixel is invented: the
result is a rectangle of the input of the requested size, at least 1 along each axis. -/
theorem crop_not_empty (a : Img α) (c : Trbl) (hc : NonNeg c) (hh : 1 ≤ a.h) (hw : 1 ≤ a.w) :
    ((cropArr a c).h : Int) = max 1 (a.h - c.top - c.bottom) ∧ ((cropArr a c).w : Int) = max 1 (a.w - c.left - c.right) ∧
    ∃ y0 x0 : Nat, (y0 : Int) ≤ c.top ∧ (x0 : Int) ≤ c.left ∧ y0 + (cropArr a c).h ≤ a.h ∧ x0 + (cropArr a c).w ≤ a.w ∧
      (c.top + c.bottom < a.h → (y0 : Int) = c.top) ∧ (c.left + c.right < a.w → (x0 : Int) = c.left) ∧
      ∀ y x, (cropArr a c).px y x = a.px (y0 + y) (x0 + x) := by
  obtain ⟨h1, h2, h3, h4⟩ := hc
  obtain ⟨t, b, e1, p1, p2, p3, p4, p5⟩ := prevent_zero_size a.h c.top c.bottom (by omega) h1 h3
  obtain ⟨l, r, e2, q1, q2, q3, q4, q5⟩ := prevent_zero_size a.w c.left c.right (by omega) h4 h2
  have hcr : cropArr a c = ⟨(max (a.h - b) t - t).toNat, (max (a.w - r) l - l).toNat,
      fun y x => a.px (t.toNat + y) (l.toNat + x)⟩ := by
    simp only [cropArr, cropXyxy, e1, e2]
  have u1 := prevent_zero_size_unchanged a.h c.top c.bottom h1 h3
  have u2 := prevent_zero_size_unchanged a.w c.left c.right h4 h2
  rw [e1, Prod.mk.injEq] at u1
  rw [e2, Prod.mk.injEq] at u2
  rw [hcr]
  refine ⟨by simp only; omega, by simp only; omega, t.toNat, l.toNat, by omega, by omega, by simp only; omega,
    by simp only; omega, ?_, ?_, fun _ _ => rfl⟩
  · intro h; have := (u1 h).1; omega
  · intro h; have := (u2 h).1; omega

/-- C47: the size of the image after cropping and padding, and that all the annotations report the same size. -/
theorem crop_pad_shapes (border : Nat → Nat → α) (a : Img α) (s : Shape) (hs : s = ⟨a.h, a.w⟩) (k : KPsOnImage) (hk : k.shape = s)
    (c p : Trbl) (hc : NonNeg c) (hp : NonNeg p) (hh : 1 ≤ s.h) (hw : 1 ≤ s.w) :
    ∃ (b : Img α) (r : KPsOnImage), cropPadArr border none a c p = some b ∧ cropPadKps false k c p = some r ∧
      r.shape = ⟨b.h, b.w⟩ ∧ shapeAfter s c p = ⟨b.h, b.w⟩ ∧
      (b.h : Int) = max 1 (a.h - c.top - c.bottom) + p.top + p.bottom ∧
      (b.w : Int) = max 1 (a.w - c.left - c.right) + p.left + p.right := by
  subst hs
  obtain ⟨n1, n2, -⟩ := crop_not_empty a c hc hh hw
  have hp' := hp
  obtain ⟨p1, p2, p3, p4⟩ := hp
  have hsh : shapeAfter ⟨a.h, a.w⟩ c p =
      ⟨(cropArr a c).h + p.top.toNat + p.bottom.toNat, (cropArr a c).w + p.left.toNat + p.right.toNat⟩ := by
    have z1 : (cropXyxy ⟨a.h, a.w⟩ c).y1 ≤ (cropXyxy ⟨a.h, a.w⟩ c).y2 := by simp only [cropXyxy]; exact le_max_right _ _
    have z2 : (cropXyxy ⟨a.h, a.w⟩ c).x1 ≤ (cropXyxy ⟨a.h, a.w⟩ c).x2 := by simp only [cropXyxy]; exact le_max_right _ _
    simp only [shapeAfter, cropArr, Shape.mk.injEq]
    omega
  refine ⟨⟨_, _, _⟩, _, cropPadArr_eq border a c p hp', rfl, ?_, hsh, ?_, ?_⟩
  · simp only [hk]; exact hsh
  · simp only; push_cast; omega
  · simp only; push_cast; omega

/-- C47: a keypoint keeps its pixel, also if the croppings had to be reduced to leave a pixel. If it lies in a pixel that is not cropped away, it lies afterwards in the pixel of the result
that has the same content, in every image of this size. -/
theorem crop_pad_aligned_general (border : Nat → Nat → α) (k r : KPsOnImage) (c p : Trbl) (hp : NonNeg p) (hr : cropPadKps false k c p = some r)
    (i : Nat) (q : Pt) (hq : k.kps[i]? = some q) (y x : Nat) (hin : InPixel q y x)
    (y0 x0 : Nat) (hy0 : (y0 : Int) = (cropXyxy k.shape c).y1) (hx0 : (x0 : Int) = (cropXyxy k.shape c).x1)
    (hy1 : y0 ≤ y) (hy2 : (y : Int) < (cropXyxy k.shape c).y2) (hx1 : x0 ≤ x) (hx2 : (x : Int) < (cropXyxy k.shape c).x2) :
    ∃ q' y' x', r.kps[i]? = some q' ∧ InPixel q' y' x' ∧ y' < r.shape.h ∧ x' < r.shape.w ∧
      ∀ a b : Img α, a.h = k.shape.h → a.w = k.shape.w → cropPadArr border none a c p = some b → b.px y' x' = a.px y x := by
  have hp' := hp
  obtain ⟨p1, p2, p3, p4⟩ := hp
  simp only [cropPadKps] at hr
  injection hr with hr
  subst hr
  have hx0' : (((cropXyxy k.shape c).x1 : Int) : ℚ) = (x0 : ℚ) := by rw [← hx0]; simp
  have hy0' : (((cropXyxy k.shape c).y1 : Int) : ℚ) = (y0 : ℚ) := by rw [← hy0]; simp
  have hl : ((p.left.toNat : Nat) : ℚ) = (p.left : ℚ) := by exact_mod_cast Int.toNat_of_nonneg p4
  have ht : ((p.top.toNat : Nat) : ℚ) = (p.top : ℚ) := by exact_mod_cast Int.toNat_of_nonneg p1
  obtain ⟨i1, i2, i3, i4⟩ := hin
  refine ⟨q.shift ((-(cropXyxy k.shape c).x1 + p.left : Int) : ℚ) ((-(cropXyxy k.shape c).y1 + p.top : Int) : ℚ), y - y0 + p.top.toNat, x - x0 + p.left.toNat, ?_, ?_, ?_, ?_, ?_⟩
  · simp only [KPsOnImage.shift, List.getElem?_map, hq]; rfl
  · simp only [Pt.shift]
    refine ⟨?_, ?_, ?_, ?_⟩ <;> push_cast [Nat.cast_sub hx1, Nat.cast_sub hy1] <;> linarith
  · simp only [shapeAfter]; omega
  · simp only [shapeAfter]; omega
  · intro a b ha1 ha2 hb
    have hsh : (⟨a.h, a.w⟩ : Shape) = k.shape := by rw [ha1, ha2]
    rw [cropPadArr_eq _ _ _ _ hp'] at hb
    simp only [Option.some.injEq] at hb
    subst hb
    simp only [cropArr, hsh]
    rw [if_pos (by omega)]
    congr 1 <;> omega

/-- C47: which pixels survive: with amounts that leave a pixel, exactly those at least `top` rows from the top and so on. -/
theorem crop_bounds (s : Shape) (c : Trbl) (hc : NonNeg c) (h1 : c.top + c.bottom < s.h) (h2 : c.left + c.right < s.w) :
    cropXyxy s c = ⟨c.left, c.top, s.w - c.right, s.h - c.bottom⟩ := by
  obtain ⟨a1, a2, a3, a4⟩ := hc
  simp only [cropXyxy, prevent_zero_size_unchanged s.h c.top c.bottom a1 a3 h1,
    prevent_zero_size_unchanged s.w c.left c.right a4 a2 h2]
  rw [max_eq_left (by omega), max_eq_left (by omega)]

/-- C47: a keypoint keeps its pixel. If it lies in a pixel that is at least `top` rows from the top and so on, then it lies
afterwards in a pixel of the result that has the same content, in every image of this size. -/
theorem crop_pad_aligned (border : Nat → Nat → α) (k r : KPsOnImage) (c p : Trbl) (hc : NonNeg c) (hp : NonNeg p)
    (h1 : c.top + c.bottom < k.shape.h) (h2 : c.left + c.right < k.shape.w) (hr : cropPadKps false k c p = some r)
    (i : Nat) (q : Pt) (hq : k.kps[i]? = some q) (y x : Nat) (hin : InPixel q y x)
    (hy1 : c.top ≤ y) (hy2 : (y : Int) < k.shape.h - c.bottom) (hx1 : c.left ≤ x) (hx2 : (x : Int) < k.shape.w - c.right) :
    ∃ q' y' x', r.kps[i]? = some q' ∧ InPixel q' y' x' ∧ y' < r.shape.h ∧ x' < r.shape.w ∧
      ∀ a b : Img α, a.h = k.shape.h → a.w = k.shape.w → cropPadArr border none a c p = some b → b.px y' x' = a.px y x := by
  have hb := crop_bounds k.shape c hc h1 h2
  obtain ⟨a1, a2, a3, a4⟩ := hc
  apply crop_pad_aligned_general border k r c p hp hr i q hq y x hin c.top.toNat c.left.toNat <;> (try rw [hb]) <;> (try simp only) <;> omega

example : (cropPadArr (fun _ _ => 9) none (⟨2, 3, fun y x => 3 * y + x⟩ : Img Nat) ⟨1, 0, 0, 1⟩ ⟨0, 1, 1, 0⟩).map Img.toList =
    some [[4, 5, 9], [9, 9, 9]] ∧
    cropPadKps false ⟨[⟨3 / 2, 1⟩], ⟨2, 3⟩⟩ ⟨1, 0, 0, 1⟩ ⟨0, 1, 1, 0⟩ = some ⟨[⟨1 / 2, 0⟩], ⟨2, 3⟩⟩ := by decide +kernel

/-- C47: cropping by the amounts that were padded restores the image and the keypoints. -/
theorem pad_then_crop (border border' : Nat → Nat → α) (a b c : Img α) (k k1 k2 : KPsOnImage) (hk : k.shape = ⟨a.h, a.w⟩)
    (p : Trbl) (hh : 1 ≤ a.h) (hw : 1 ≤ a.w)
    (hb : cropPadArr border none a ⟨0, 0, 0, 0⟩ p = some b) (hc : cropPadArr border' none b p ⟨0, 0, 0, 0⟩ = some c)
    (hk1 : cropPadKps false k ⟨0, 0, 0, 0⟩ p = some k1) (hk2 : cropPadKps false k1 p ⟨0, 0, 0, 0⟩ = some k2) :
    c.Same a ∧ k2 = k := by
  have hp : NonNeg p := cropPadArr_nonneg _ _ _ _ _ hb
  have hp' := hp
  obtain ⟨p1, p2, p3, p4⟩ := hp
  have hz : NonNeg ⟨0, 0, 0, 0⟩ := ⟨le_refl _, le_refl _, le_refl _, le_refl _⟩
  have b0 := crop_bounds ⟨a.h, a.w⟩ ⟨0, 0, 0, 0⟩ hz (by simp only; omega) (by simp only; omega)
  simp only [sub_zero] at b0
  rw [cropPadArr_eq _ _ _ _ hp'] at hb
  simp only [Option.some.injEq, cropArr, b0] at hb
  simp only [cropPadKps, hk, b0, shapeAfter, Option.some.injEq, Bool.false_eq_true, if_false] at hk1
  have bh : b.h = a.h + p.top.toNat + p.bottom.toNat := by rw [← hb]; simp
  have bw : b.w = a.w + p.left.toNat + p.right.toNat := by rw [← hb]; simp
  have b1 := crop_bounds ⟨b.h, b.w⟩ p hp' (by simp only; omega) (by simp only; omega)
  have hs1 : k1.shape = ⟨b.h, b.w⟩ := by
    rw [← hk1, Shape.mk.injEq]
    omega
  rw [cropPadArr_eq _ _ _ _ hz] at hc
  simp only [Option.some.injEq, cropArr, b1] at hc
  simp only [cropPadKps, hs1, b1, shapeAfter, Option.some.injEq, Bool.false_eq_true, if_false] at hk2
  refine ⟨?_, ?_⟩
  · rw [← hc]
    refine ⟨by simp only; omega, by simp only; omega, ?_⟩
    intro y x hy hx
    simp only at hy hx ⊢
    rw [if_pos (by omega), ← hb]
    simp only
    rw [if_pos (by omega)]
    congr 1 <;> simp
  · rw [← hk2]
    have : k = ⟨k.kps, k.shape⟩ := rfl
    rw [this, KPsOnImage.mk.injEq]
    refine ⟨?_, ?_⟩
    · rw [← hk1]
      simp only [KPsOnImage.shift, List.map_map]
      conv_rhs => rw [← List.map_id k.kps]
      apply List.map_congr_left
      intro q _
      simp [Pt.shift]
    · rw [hk, Shape.mk.injEq]
      omega

/-- C47: the user's amounts (`px`, positive for padding and negative for cropping, all integers): they are always accepted, and
the size of the result is as requested, except that cropping leaves at least one pixel. -/
theorem crop_and_pad_px (border : Nat → Nat → α) (a : Img α) (t : Trbl) (hh : 1 ≤ a.h) (hw : 1 ≤ a.w) :
    NonNeg (croppings ⟨a.h, a.w⟩ t) ∧ NonNeg (paddings t) ∧
    ∃ b, cropPadArr border none a (croppings ⟨a.h, a.w⟩ t) (paddings t) = some b ∧
      (b.h : Int) = max 1 (a.h - max (-t.top) 0 - max (-t.bottom) 0) + max t.top 0 + max t.bottom 0 ∧
      (b.w : Int) = max 1 (a.w - max (-t.left) 0 - max (-t.right) 0) + max t.left 0 + max t.right 0 := by
  obtain ⟨t', b', e1, p1, p2, p3, p4, p5⟩ := prevent_zero_size a.h (max (-1 * t.top) 0) (max (-1 * t.bottom) 0) (by omega)
    (le_max_right _ _) (le_max_right _ _)
  obtain ⟨l', r', e2, q1, q2, q3, q4, q5⟩ := prevent_zero_size a.w (max (-1 * t.left) 0) (max (-1 * t.right) 0) (by omega)
    (le_max_right _ _) (le_max_right _ _)
  have hcr : croppings ⟨a.h, a.w⟩ t = ⟨t', r', b', l'⟩ := by simp only [croppings, preventZeroTrbl, e1, e2]
  have hc : NonNeg (croppings ⟨a.h, a.w⟩ t) := by rw [hcr]; exact ⟨p1, q3, p3, q1⟩
  have hp : NonNeg (paddings t) := ⟨le_max_right _ _, le_max_right _ _, le_max_right _ _, le_max_right _ _⟩
  refine ⟨hc, hp, ?_⟩
  obtain ⟨b, r, h1, -, -, -, h2, h3⟩ := crop_pad_shapes border a ⟨a.h, a.w⟩ rfl ⟨[], ⟨a.h, a.w⟩⟩ rfl _ _ hc hp hh hw
  refine ⟨b, h1, ?_, ?_⟩
  · rw [h2, hcr]; simp only [paddings]; rw [p5, ← max_assoc, max_self, neg_one_mul, neg_one_mul]
  · rw [h3, hcr]; simp only [paddings]; rw [q5, ← max_assoc, max_self, neg_one_mul, neg_one_mul]

/-- C47: with `keep_size` the keypoints keep the shape of their image, and their relative positions are those they have
without `keep_size`. -/
theorem crop_pad_keep_size (k : KPsOnImage) (c p : Trbl) (hc : NonNeg c) (hp : NonNeg p) (hh : 1 ≤ k.shape.h) (hw : 1 ≤ k.shape.w) :
    ∃ r q, cropPadKps true k c p = some r ∧ cropPadKps false k c p = some q ∧ r.shape = k.shape ∧
      r.kps.length = k.kps.length ∧ ∀ (i : Nat) (u v : Pt), r.kps[i]? = some u → q.kps[i]? = some v →
        u.x / k.shape.w = v.x / q.shape.w ∧ u.y / k.shape.h = v.y / q.shape.h := by
  obtain ⟨b, q, h1, h2, h3, h4, h5, h6⟩ := crop_pad_shapes (fun _ _ => (0 : Nat)) ⟨k.shape.h, k.shape.w, fun _ _ => 0⟩ k.shape rfl
    k rfl c p hc hp hh hw
  obtain ⟨p1, p2, p3, p4⟩ := hp
  have hq : 0 < q.shape.h ∧ 0 < q.shape.w := by rw [h3]; simp only at h5 h6 ⊢; omega
  obtain ⟨r, hr, s1, s2, s3⟩ := on_relative q k.shape hq.1 hq.2 (by omega) (by omega)
  refine ⟨r, q, ?_, h2, s1, ?_, s3⟩
  · have : cropPadKps true k c p = (cropPadKps false k c p).bind (fun q => q.on k.shape) := rfl
    rw [this, h2]; exact hr
  · rw [s2]
    simp only [cropPadKps] at h2
    injection h2 with h2
    rw [← h2]
    simp [KPsOnImage.shift]

/-- C47: maps. The shape of the image that a map belongs to becomes that of the cropped and padded image. A map that has the size
of the image is cropped and padded exactly as the image is. -/
theorem crop_pad_maps (border : Nat → Nat → α) (m : Map α) (c p : Trbl) (hc : NonNeg c) (hp : NonNeg p) (hh : 1 ≤ m.shape.h)
    (hw : 1 ≤ m.shape.w) (r : Map α) (hr : cropPadMap border none m c p = some r) :
    r.shape = shapeAfter m.shape c p ∧
    (m.shape = ⟨m.arr.h, m.arr.w⟩ → cropPadArr border none m.arr c p = some r.arr ∧ r.shape = ⟨r.arr.h, r.arr.w⟩) := by
  have h1 : r.shape = shapeAfter m.shape c p := by
    simp only [cropPadMap] at hr
    split at hr
    · simp only [Option.map_eq_some_iff] at hr
      obtain ⟨b, _, hb⟩ := hr
      rw [← hb]
    · cases hr
  refine ⟨h1, ?_⟩
  intro hs
  have hpr : ∀ t, projectSizeChanges t m.shape ⟨m.arr.h, m.arr.w⟩ = some t := by
    intro t; rw [projectSizeChanges, if_pos hs]
  have hcr : cropArr m.arr (preventZeroTrbl m.arr.h m.arr.w c) = cropArr m.arr c := by
    have hs' : m.arr.h = m.shape.h ∧ m.arr.w = m.shape.w := by rw [hs]; exact ⟨rfl, rfl⟩
    rw [cropArr, cropArr, cropXyxy_idem _ _ hc (by simp only; omega) (by simp only; omega)]
  have hr' : cropPadMap border none m c p =
      (pad border (cropArr m.arr c) p).map (fun b => ⟨b, shapeAfter m.shape c p⟩) := by
    simp only [cropPadMap, hpr, hcr]
  rw [hr'] at hr
  simp only [Option.map_eq_some_iff] at hr
  obtain ⟨b, hb1, hb2⟩ := hr
  have hb : cropPadArr border none m.arr c p = some r.arr := by
    rw [cropPadArr, hb1, ← hb2]; rfl
  refine ⟨hb, ?_⟩
  have hm : m.shape.h = m.arr.h ∧ m.shape.w = m.arr.w := by rw [hs]; exact ⟨rfl, rfl⟩
  obtain ⟨b', _, h3, _, _, h4, _⟩ := crop_pad_shapes border m.arr m.shape hs ⟨[], m.shape⟩ rfl c p hc hp hh hw
  rw [hb] at h3
  injection h3 with h3
  rw [h1, h4, h3]

/-- C47, C46: cropping and padding a non-empty map of a non-empty image always succeeds, and never gives an empty map. -/
theorem crop_pad_maps_not_empty (border : Nat → Nat → α) (m : Map α) (c p : Trbl) (hc : NonNeg c) (hp : NonNeg p)
    (hh : 1 ≤ m.shape.h) (hw : 1 ≤ m.shape.w) (ha : 1 ≤ m.arr.h) (hb : 1 ≤ m.arr.w) :
    ∃ r, cropPadMap border none m c p = some r ∧ 1 ≤ r.arr.h ∧ 1 ≤ r.arr.w := by
  have hproj : ∀ t : Trbl, NonNeg t → ∃ t', projectSizeChanges t m.shape ⟨m.arr.h, m.arr.w⟩ = some t' ∧ NonNeg t' :=
    fun t ht => projectSizeChanges_nonneg t m.shape _ ht hh hw
  obtain ⟨c', e1, n1⟩ := hproj c hc
  obtain ⟨p', e2, n2⟩ := hproj p hp
  have n3 : NonNeg (preventZeroTrbl m.arr.h m.arr.w c') := by
    obtain ⟨a1, a2, a3, a4⟩ := n1
    obtain ⟨_, _, q1, b1, _, b2, _⟩ := prevent_zero_size m.arr.h c'.top c'.bottom (by omega) a1 a3
    obtain ⟨_, _, q2, b3, _, b4, _⟩ := prevent_zero_size m.arr.w c'.left c'.right (by omega) a4 a2
    simp only [preventZeroTrbl, q1, q2]
    exact ⟨b1, b4, b2, b3⟩
  obtain ⟨k1, k2, -⟩ := crop_not_empty m.arr _ n3 ha hb
  have hpad := cropPadArr_eq border m.arr (preventZeroTrbl m.arr.h m.arr.w c') p' n2
  rw [cropPadArr, Option.map_eq_some_iff] at hpad
  obtain ⟨b, hb1, hb2⟩ := hpad
  refine ⟨⟨b, shapeAfter m.shape c p⟩, ?_, ?_, ?_⟩
  · simp only [cropPadMap, e1, e2, hb1]; rfl
  · simp only at hb2 ⊢; rw [hb2]; simp only; omega
  · simp only at hb2 ⊢; rw [hb2]; simp only; omega

example : (cropPadMap (fun _ _ => 0) none ⟨⟨4, 4, fun y x => 4 * y + x⟩, ⟨8, 8⟩⟩ ⟨3, 0, 3, 0⟩ ⟨0, 0, 0, 2⟩).map
    (fun r => (r.arr.toList, r.shape)) = some ([[0, 4, 5, 6, 7]], (⟨2, 10⟩ : Shape)) := by decide +kernel

/-- C47: with `keep_size` images keep their size, for every resizing that yields the size it is asked for, and maps keep theirs and their image's; the
content is that of the result without `keep_size`, resized. -/
theorem crop_pad_keep_size_arrays (border : Nat → Nat → α) (f : Img α → Nat → Nat → Img α) (hf : ∀ b h w, (f b h w).h = h ∧ (f b h w).w = w)
    (a : Img α) (m : Map α) (c p : Trbl) :
    (∀ r, cropPadArr border (some f) a c p = some r →
      r.h = a.h ∧ r.w = a.w ∧ ∃ b, cropPadArr border none a c p = some b ∧ r = f b a.h a.w) ∧
    (∀ r, cropPadMap border (some f) m c p = some r →
      r.shape = m.shape ∧ r.arr.h = m.arr.h ∧ r.arr.w = m.arr.w ∧
      ∃ b, cropPadMap border none m c p = some b ∧ r.arr = f b.arr m.arr.h m.arr.w) := by
  constructor
  · intro r hr
    simp only [cropPadArr, Option.map_eq_some_iff] at hr ⊢
    obtain ⟨b, hb, rfl⟩ := hr
    exact ⟨(hf _ _ _).1, (hf _ _ _).2, b, ⟨b, hb, rfl⟩, rfl⟩
  · intro r hr
    simp only [cropPadMap] at hr ⊢
    split at hr
    · rw [Option.map_eq_some_iff] at hr
      obtain ⟨b, hb, rfl⟩ := hr
      exact ⟨rfl, (hf _ _ _).1, (hf _ _ _).2, _, by rw [hb]; rfl, rfl⟩
    · cases hr

/-- C47: `percent`: the amounts are the fractions of the height (top and bottom) and of the width (left and right), up to half a pixel. -/
theorem crop_and_pad_percent (s : Shape) (top right bottom left : ℚ) :
    |((percentToPx s top right bottom left).top : ℚ) - s.h * top| ≤ 1 / 2 ∧ |((percentToPx s top right bottom left).right : ℚ) - s.w * right| ≤ 1 / 2 ∧
    |((percentToPx s top right bottom left).bottom : ℚ) - s.h * bottom| ≤ 1 / 2 ∧ |((percentToPx s top right bottom left).left : ℚ) - s.w * left| ≤ 1 / 2 :=
  ⟨Imgaug.Props.npRound_dist _, Imgaug.Props.npRound_dist _, Imgaug.Props.npRound_dist _, Imgaug.Props.npRound_dist _⟩

example : percentToPx ⟨10, 20⟩ (1 / 10) (-1 / 10) 0 (1 / 4) = ⟨1, -2, 0, 5⟩ := by decide +kernel

end Imgaug.Size
