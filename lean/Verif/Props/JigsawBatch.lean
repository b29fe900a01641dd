import Verif.Proofs.JigsawBatch
/-! C107: the augmenter `Jigsaw` on batches. -/
namespace Imgaug.JigsawBatch
open Imgaug Imgaug.Jigsaw Imgaug.Size Imgaug.Params
open Imgaug.AffineArgs (Sampler)
variable {α β γ σ : Type}

/-- C107: with padding allowed, every consistent row is accepted. There is one size, the smallest one that has multiples of the numbers of rows
and columns as height and width, and one position of the old image in its middle, and one shuffling of the cells, such that: the image, and the maps
after their resizing to the size of the image, are put at this position into zeros, and then cut into cells that are shuffled; the maps are then
given their old array size and the new image size. -/
theorem padded_then_shuffled (zα : α) (zβ : β) (zγ : γ) (rsβ : Img β → Nat → Nat → Img β) (rsγ : Img γ → Nat → Nat → Img γ) (hβ : Resizes rsβ)
    (hγ : Resizes rsγ) (s : Sample) (hr : 1 ≤ s.rows) (hc : 1 ≤ s.cols) (r : Row α β γ) (hcon : Consistent r) :
    ∃ (r' : Row α β γ) (H W top left : Nat) (dest : List Nat), rowStep zα zβ zγ rsβ rsγ true s r = some r' ∧
      Fits s.rows r.shape.h H ∧ Fits s.cols r.shape.w W ∧ Centred r.shape.h H top ∧ Centred r.shape.w W left ∧
      IsShuffle (s.rows * s.cols) dest ∧
      (r'.image.isSome = r.image.isSome ∧ ∀ a, r.image = some a → ∃ b c, Framed zα a b top left H W ∧ CellsMoved s.rows s.cols dest b c ∧
        r'.image = some c) ∧
      (r'.heatmap.isSome = r.heatmap.isSome ∧ ∀ m, r.heatmap = some m → ∃ b c, Framed zβ (rsβ m.arr r.shape.h r.shape.w) b top left H W ∧
        CellsMoved s.rows s.cols dest b c ∧ r'.heatmap = some ⟨rsβ c m.arr.h m.arr.w, ⟨H, W⟩⟩) ∧
      (r'.segmap.isSome = r.segmap.isSome ∧ ∀ m, r.segmap = some m → ∃ b c, Framed zγ (rsγ m.arr r.shape.h r.shape.w) b top left H W ∧
        CellsMoved s.rows s.cols dest b c ∧ r'.segmap = some ⟨rsγ c m.arr.h m.arr.w, ⟨H, W⟩⟩) ∧
      (r'.kps.isSome = r.kps.isSome ∧ ∀ k, r.kps = some k → ∃ k', r'.kps = some k' ∧ k'.shape = ⟨H, W⟩ ∧ k'.kps.length = k.kps.length) := by
  obtain ⟨hw, t, rr, b, l, e0, e1, f1, f2, f3, f4⟩ := pads r.shape s.rows s.cols hr hc
  have m1 := fits_mod f1
  have m2 := fits_mod f2
  have im : ∀ a, r.image = some a → ∃ c, imageStep zα (some hw) s a = some c ∧
      CellsMoved s.rows s.cols s.dest (frame zα a t rr b l) c := by
    intro a ha
    have hs := hcon.image a ha
    have h1 := hcon.height
    have h2 := hcon.width
    rw [hs] at e1 m1 m2 h1 h2
    obtain ⟨c, c1, -, c2⟩ := image_ok zα s hr hc a h1 h2 hw t rr b l e1 m1 m2
    exact ⟨c, c1, c2⟩
  have hm := fun m (h : r.heatmap = some m) => map_ok zβ rsβ hβ s hr hc r.shape hcon.height hcon.width m (hcon.heatmap m h) hw t rr b l e1 m1 m2
  have sm := fun m (h : r.segmap = some m) => map_ok zγ rsγ hγ s hr hc r.shape hcon.height hcon.width m (hcon.segmap m h) hw t rr b l e1 m1 m2
  have kp : ∀ k, r.kps = some k → ∃ k', kpsStep (some hw) s k = some k' ∧ k'.shape = ⟨r.shape.h + t + b, r.shape.w + l + rr⟩ ∧
      k'.kps.length = k.kps.length := by
    intro k hk
    have hs := hcon.kps k hk
    have h1 := hcon.height
    have h2 := hcon.width
    rw [← hs] at e1 m1 m2 h1 h2
    obtain ⟨k', c1, c2, c3⟩ := kps_ok s hr hc k h1 h2 hw t rr b l e1 m1 m2
    exact ⟨k', c1, by rw [c2, hs], c3.length_eq.symm⟩
  obtain ⟨o1, p1⟩ := opt_some (imageStep zα (some hw) s) r.image (fun x hx => by obtain ⟨c, h, -⟩ := im x hx; exact ⟨c, h⟩)
  obtain ⟨o2, p2⟩ := opt_some (mapStep zβ rsβ r.shape (some hw) s) r.heatmap (fun x hx => by obtain ⟨c, h, -⟩ := hm x hx; exact ⟨_, h⟩)
  obtain ⟨o3, p3⟩ := opt_some (mapStep zγ rsγ r.shape (some hw) s) r.segmap (fun x hx => by obtain ⟨c, h, -⟩ := sm x hx; exact ⟨_, h⟩)
  obtain ⟨o4, p4⟩ := opt_some (kpsStep (some hw) s) r.kps (fun x hx => by obtain ⟨c, h, -⟩ := kp x hx; exact ⟨c, h⟩)
  refine ⟨{ r with image := o1, heatmap := o2, segmap := o3, kps := o4 }, r.shape.h + t + b, r.shape.w + l + rr, t, l, s.dest, ?_, f1, f2,
    ⟨b, by omega, f3⟩, ⟨rr, by omega, f4⟩, dest_shuffle s, ⟨opt_isSome _ _ _ p1, ?_⟩, ⟨opt_isSome _ _ _ p2, ?_⟩, ⟨opt_isSome _ _ _ p3, ?_⟩,
    opt_isSome _ _ _ p4, ?_⟩
  · simp only [rowStep, if_true, e0, Option.map_some, Option.bind_some, p1, p2, p3, p4, hcon.others, Bool.false_eq_true, if_false]
  · intro a ha
    obtain ⟨c, c1, c2⟩ := im a ha
    have hs := hcon.image a ha
    rw [ha] at p1
    refine ⟨_, c, ?_, c2, opt_get _ _ _ _ p1 c1⟩
    rw [hs]
    exact framed zα a t rr b l
  · intro m ha
    obtain ⟨c, c1, c2⟩ := hm m ha
    obtain ⟨z1, z2⟩ := hβ m.arr r.shape.h r.shape.w
    rw [ha] at p2
    refine ⟨_, c, ?_, c2, opt_get _ _ _ _ p2 c1⟩
    have := framed zβ (rsβ m.arr r.shape.h r.shape.w) t rr b l
    rwa [z1, z2] at this
  · intro m ha
    obtain ⟨c, c1, c2⟩ := sm m ha
    obtain ⟨z1, z2⟩ := hγ m.arr r.shape.h r.shape.w
    rw [ha] at p3
    refine ⟨_, c, ?_, c2, opt_get _ _ _ _ p3 c1⟩
    have := framed zγ (rsγ m.arr r.shape.h r.shape.w) t rr b l
    rwa [z1, z2] at this
  · intro k ha
    obtain ⟨k', c1, c2, c3⟩ := kp k ha
    rw [ha] at p4
    exact ⟨k', opt_get _ _ _ _ p4 c1, c2, c3⟩

/-- A grid of one row and two columns whose cells change places. -/
def swapLR : Sample := ⟨1, 2, 1, fun _ _ => 1, fun _ _ _ => 1⟩

/-- A row with an image of size 1x3, a map of the same size and two keypoints. -/
def rowDemo : Row Nat Nat Nat :=
  ⟨⟨1, 3⟩, some ⟨1, 3, fun _ x => x + 1⟩, some ⟨⟨1, 3, fun _ x => x + 5⟩, ⟨1, 3⟩⟩, none, some ⟨[⟨3 / 2, 1 / 2⟩, ⟨-1, 0⟩], ⟨1, 3⟩⟩, false⟩

/-- A resizing that cuts off or adds pixels. -/
def cut (b : Img Nat) (h w : Nat) : Img Nat := ⟨h, w, fun y x => if y < b.h ∧ x < b.w then b.px y x else 0⟩

example : Resizes cut := fun _ _ _ => ⟨rfl, rfl⟩

example : Consistent rowDemo := by
  refine ⟨?_, ?_, ?_, ?_, by decide, by decide, rfl⟩ <;> intro x hx <;> simp only [rowDemo, Option.some.injEq, reduceCtorEq] at hx <;> subst hx <;> rfl

example : (rowStep 0 0 0 cut cut true swapLR rowDemo).map (fun r => r.image.map Img.toList) = some (some [[3, 0, 1, 2]]) ∧
    (rowStep 0 0 0 cut cut true swapLR rowDemo).map (fun r => r.heatmap.map (fun m => (m.arr.toList, m.shape))) = some (some ([[7, 0, 5]], ⟨1, 4⟩)) ∧
    (rowStep 0 0 0 cut cut true swapLR rowDemo).map (fun r => r.kps) = some (some ⟨[⟨7 / 2, 1 / 2⟩, ⟨-1, 0⟩], ⟨1, 4⟩⟩) := by
  refine ⟨?_, ?_, ?_⟩ <;> decide +kernel

/-- C107: a keypoint in the image stays on its image content: at offset `(fx, fy)` in a pixel before, it is at the same offset afterwards in a
pixel with the same content. -/
theorem keypoints_follow (zα : α) (zβ : β) (zγ : γ) (rsβ : Img β → Nat → Nat → Img β) (rsγ : Img γ → Nat → Nat → Img γ)
    (s : Sample) (hr : 1 ≤ s.rows) (hc : 1 ≤ s.cols) (r r' : Row α β γ) (hcon : Consistent r) (h : rowStep zα zβ zγ rsβ rsγ true s r = some r')
    (a : Img α) (ha : r.image = some a) (k : KPsOnImage) (hk : r.kps = some k) (i : Nat) (p : Pt) (hp : k.kps[i]? = some p)
    (hin : Inside p a.h a.w) :
    ∃ (c : Img α) (k' : KPsOnImage) (y x y' x' : Nat) (fx fy : ℚ), r'.image = some c ∧ r'.kps = some k' ∧ 0 ≤ fx ∧ fx < 1 ∧ 0 ≤ fy ∧ fy < 1 ∧
      p = ⟨x + fx, y + fy⟩ ∧ k'.kps[i]? = some ⟨x' + fx, y' + fy⟩ ∧ y' < c.h ∧ x' < c.w ∧ c.px y' x' = a.px y x := by
  obtain ⟨hw, t, rr, b, l, e0, e1, f1, f2, f3, f4⟩ := pads r.shape s.rows s.cols hr hc
  have m1 := fits_mod f1
  have m2 := fits_mod f2
  obtain ⟨hw', q0, q1, -, -, q4, -, -⟩ := rowStep_parts zα zβ zγ rsβ rsγ true s r r' h
  simp only [if_true, e0, Option.map_some, Option.some.injEq] at q0
  subst q0
  have hsa := hcon.image a ha
  have hsk := hcon.kps k hk
  have h1 := hcon.height
  have h2 := hcon.width
  rw [hsa] at e1 m1 m2 h1 h2 hsk
  simp only at m1 m2 h1 h2
  obtain ⟨c, c1, c2, c3⟩ := image_ok zα s hr hc a h1 h2 hw t rr b l e1 m1 m2
  obtain ⟨k', d1, d2, d3⟩ := kps_ok s hr hc k (by rw [hsk]; exact h1) (by rw [hsk]; exact h2) hw t rr b l (by rw [hsk]; exact e1)
    (by rw [hsk]; exact m1) (by rw [hsk]; exact m2)
  rw [ha] at q1
  rw [hk] at q4
  have q1 := opt_get _ _ _ _ q1 c1
  have q4 := opt_get _ _ _ _ q4 d1
  obtain ⟨g1, g2, g3, g4⟩ := hin
  rw [hsk] at d3
  simp only at d3
  have hq : ∃ q, k'.kps[i]? = some q ∧ applyPt s.rows s.cols s.dest ⟨a.h + t + b, a.w + l + rr⟩ ⟨p.x + l, p.y + t⟩ = some q := by
    obtain ⟨hi, rfl⟩ := List.getElem?_eq_some_iff.1 hp
    have hi' : i < k'.kps.length := d3.length_eq ▸ hi
    exact ⟨k'.kps[i], List.getElem?_eq_getElem hi', List.forall₂_iff_get.1 d3 |>.2 i hi hi'⟩
  obtain ⟨q, hq1, hq2⟩ := hq
  have t0 : (0 : ℚ) ≤ t := Nat.cast_nonneg t
  have l0 : (0 : ℚ) ≤ l := Nat.cast_nonneg l
  have b0 : (0 : ℚ) ≤ b := Nat.cast_nonneg b
  have r0 : (0 : ℚ) ≤ rr := Nat.cast_nonneg rr
  obtain ⟨y, x, y', x', fx, fy, u1, u2, u3, u4, u5, u6, u7, u8, u9⟩ := jigsaw_aligned zα s.rows s.cols s.dest (dest_shuffle s)
    ⟨a.h + t + b, a.w + l + rr⟩ ⟨p.x + l, p.y + t⟩ (by omega) (by omega) m1 m2 (by simp only; linarith)
    (by simp only; push_cast; linarith) (by simp only; linarith) (by simp only; push_cast; linarith)
  simp only [Pt.mk.injEq] at u5
  obtain ⟨v1, v2⟩ := u5
  rw [u8] at hq2
  simp only [Option.some.injEq] at hq2
  subst hq2
  have xl : l ≤ x := by
    have : (l : ℚ) < (x + 1 : Nat) := by push_cast; linarith
    have := Nat.cast_lt.1 this
    omega
  have yt : t ≤ y := by
    have : (t : ℚ) < (y + 1 : Nat) := by push_cast; linarith
    have := Nat.cast_lt.1 this
    omega
  have xu : x < l + a.w := by
    have : (x : ℚ) < (l + a.w : Nat) := by push_cast; linarith
    exact Nat.cast_lt.1 this
  have yu : y < t + a.h := by
    have : (y : ℚ) < (t + a.h : Nat) := by push_cast; linarith
    exact Nat.cast_lt.1 this
  refine ⟨c, k', y - t, x - l, y', x', fx, fy, q1, q4, u1, u2, u3, u4, ?_, hq1, ?_, ?_, ?_⟩
  · cases p
    simp only [Pt.mk.injEq] at v1 v2 ⊢
    constructor
    · rw [Nat.cast_sub xl]; linarith
    · rw [Nat.cast_sub yt]; linarith
  · rw [c3.1]; exact u6
  · rw [c3.2.1]; exact u7
  · rw [u9 (frame zα a t rr b l) c rfl rfl c2]
    simp only [frame]
    rw [if_pos ⟨yt, yu, xl, xu⟩]

/-- C107: a keypoint outside of the padded image is shifted like the image is shifted by the padding, but not shuffled. -/
theorem keypoints_outside (zα : α) (zβ : β) (zγ : γ) (rsβ : Img β → Nat → Nat → Img β) (rsγ : Img γ → Nat → Nat → Img γ)
    (s : Sample) (hr : 1 ≤ s.rows) (hc : 1 ≤ s.cols) (r r' : Row α β γ) (hcon : Consistent r) (h : rowStep zα zβ zγ rsβ rsγ true s r = some r')
    (H W top left : Nat) (fh : Fits s.rows r.shape.h H) (fw : Fits s.cols r.shape.w W) (ch : Centred r.shape.h H top)
    (cw : Centred r.shape.w W left) (k : KPsOnImage) (hk : r.kps = some k) (i : Nat) (p : Pt) (hp : k.kps[i]? = some p)
    (hout : ¬ Inside ⟨p.x + left, p.y + top⟩ H W) :
    ∃ k', r'.kps = some k' ∧ k'.kps[i]? = some ⟨p.x + left, p.y + top⟩ := by
  obtain ⟨hw, t, rr, b, l, e0, e1, f1, f2, f3, f4⟩ := pads r.shape s.rows s.cols hr hc
  have m1 := fits_mod f1
  have m2 := fits_mod f2
  obtain ⟨hw', q0, -, -, -, q4, -, -⟩ := rowStep_parts zα zβ zγ rsβ rsγ true s r r' h
  simp only [if_true, e0, Option.map_some, Option.some.injEq] at q0
  subst q0
  have hsk := hcon.kps k hk
  have h1 := hcon.height
  have h2 := hcon.width
  have hH : H = r.shape.h + t + b := fh.unique f1
  have hW : W = r.shape.w + l + rr := fw.unique f2
  obtain ⟨b', ch1, ch2⟩ := ch
  obtain ⟨r', cw1, cw2⟩ := cw
  have ht : top = t := by omega
  have hl : left = l := by omega
  subst ht hl hH hW
  obtain ⟨k', d1, d2, d3⟩ := kps_ok s hr hc k (by rw [hsk]; exact h1) (by rw [hsk]; exact h2) hw top rr b left (by rw [hsk]; exact e1)
    (by rw [hsk]; exact m1) (by rw [hsk]; exact m2)
  rw [hk] at q4
  have q4 := opt_get _ _ _ _ q4 d1
  rw [hsk] at d3
  refine ⟨k', q4, ?_⟩
  obtain ⟨hi, rfl⟩ := List.getElem?_eq_some_iff.1 hp
  have hi' : i < k'.kps.length := d3.length_eq ▸ hi
  have h3 := (List.forall₂_iff_get.1 d3).2 i hi hi'
  rw [jigsaw_outside] at h3
  · simp only [Option.some.injEq, List.get_eq_getElem] at h3
    rw [List.getElem?_eq_getElem hi', h3]
  · by_contra hn
    push Not at hn
    exact hout ⟨hn.1, hn.2.1, hn.2.2.1, hn.2.2.2⟩

/-- C107: sizes that are already divisible are kept, and nothing is added. -/
theorem divisible_not_padded (m n N before : Nat) (hn : 1 ≤ n) (hd : m ∣ n) (h : Fits m n N) (hc : Centred n N before) : N = n ∧ before = 0 := by
  have h1 : N ≤ n := h.2 ⟨by omega, hd, le_rfl⟩
  obtain ⟨after, e, -⟩ := hc
  omega

/-- C107: with padding not allowed, an image is accepted exactly if its height and width are multiples of the numbers of rows and columns; then
its cells are shuffled. -/
theorem without_padding (zα : α) (zβ : β) (zγ : γ) (rsβ : Img β → Nat → Nat → Img β) (rsγ : Img γ → Nat → Nat → Img γ)
    (s : Sample) (hr : 1 ≤ s.rows) (hc : 1 ≤ s.cols) (sh : Shape) (a : Img α) :
    (∀ r', rowStep zα zβ zγ rsβ rsγ false s ⟨sh, some a, none, none, none, false⟩ = some r' →
      s.rows ∣ a.h ∧ s.cols ∣ a.w ∧ ∃ c dest, r'.image = some c ∧ IsShuffle (s.rows * s.cols) dest ∧ CellsMoved s.rows s.cols dest a c) ∧
    (s.rows ∣ a.h → s.cols ∣ a.w → ∃ r', rowStep zα zβ zγ rsβ rsγ false s ⟨sh, some a, none, none, none, false⟩ = some r') := by
  constructor
  · intro r' h
    obtain ⟨hw, q0, q1, -⟩ := rowStep_parts zα zβ zγ rsβ rsγ false s _ r' h
    simp only [Bool.false_eq_true, if_false, Option.some.injEq] at q0
    subst q0
    simp only [opt, imageStep, Option.bind_some, Option.map_eq_some_iff] at q1
    obtain ⟨c, c1, c2⟩ := q1
    by_cases hd : a.h % s.rows ≠ 0 ∨ a.w % s.cols ≠ 0
    · rw [jigsaw_rejects zα s.rows s.cols s.dest a hd] at c1
      cases c1
    · push Not at hd
      obtain ⟨c', e1, e2⟩ := jigsaw_moves_cells zα s.rows s.cols s.dest (dest_shuffle s) a (by omega) (by omega) hd.1 hd.2
      rw [c1] at e1
      injection e1 with e1
      subst e1
      exact ⟨Nat.dvd_of_mod_eq_zero hd.1, Nat.dvd_of_mod_eq_zero hd.2, c, s.dest, c2.symm, dest_shuffle s, e2⟩
  · intro d1 d2
    obtain ⟨c', e1, -⟩ := jigsaw_moves_cells zα s.rows s.cols s.dest (dest_shuffle s) a (by omega) (by omega) (Nat.mod_eq_zero_of_dvd d1)
      (Nat.mod_eq_zero_of_dvd d2)
    exact ⟨_, by simp only [rowStep, Bool.false_eq_true, if_false, Option.bind_some, opt, imageStep, e1, Option.map_some]; rfl⟩

example : (rowStep 0 0 0 cut cut false swapLR ⟨⟨1, 4⟩, some ⟨1, 4, fun _ x => x⟩, none, none, none, false⟩).map (fun r => r.image.map Img.toList) =
    some (some [[2, 3, 0, 1]]) ∧ (rowStep 0 0 0 cut cut false swapLR rowDemo).isNone = true := by decide +kernel

/-- C107: bounding boxes, polygons and line strings are rejected, whatever the rest of the row is. -/
theorem other_augmentables_rejected (zα : α) (zβ : β) (zγ : γ) (rsβ : Img β → Nat → Nat → Img β) (rsγ : Img γ → Nat → Nat → Img γ)
    (allowPad : Bool) (s : Sample) (r : Row α β γ) (h : r.others = true) : rowStep zα zβ zγ rsβ rsγ allowPad s r = none := by
  cases hr : rowStep zα zβ zγ rsβ rsγ allowPad s r with
  | none => rfl
  | some r' =>
    obtain ⟨-, -, -, -, -, -, h1, -⟩ := rowStep_parts zα zβ zγ rsβ rsγ allowPad s r r' hr
    rw [h] at h1
    cases h1

/-- C107: a batch is accepted exactly if every row is, and then every row is what its own samples lead to. -/
theorem rows_apart (zα : α) (zβ : β) (zγ : γ) (rsβ : Img β → Nat → Nat → Img β) (rsγ : Img γ → Nat → Nat → Img γ) (allowPad : Bool)
    (samples : List Sample) (rows : List (Row α β γ)) (hl : samples.length = rows.length) :
    (∀ rs, augment zα zβ zγ rsβ rsγ allowPad samples rows = some rs → rs.length = rows.length ∧
      ∀ (i : Nat) (s : Sample) (r : Row α β γ), samples[i]? = some s → rows[i]? = some r →
        ∃ r', rs[i]? = some r' ∧ rowStep zα zβ zγ rsβ rsγ allowPad s r = some r') ∧
    ((∀ (i : Nat) (s : Sample) (r : Row α β γ), samples[i]? = some s → rows[i]? = some r →
      ∃ r', rowStep zα zβ zγ rsβ rsγ allowPad s r = some r') → ∃ rs, augment zα zβ zγ rsβ rsγ allowPad samples rows = some rs) := by
  constructor
  · intro rs h
    refine ⟨?_, ?_⟩
    · rw [Dtypes.mapM_len _ _ _ h, List.length_zip, hl, min_self]
    · intro i s r hs hr
      exact Dtypes.mapM_nth _ _ _ h i (s, r) (List.getElem?_zip_eq_some.2 ⟨hs, hr⟩)
  · intro h
    apply mapM_exists
    rintro ⟨s, r⟩ hm
    obtain ⟨i, hi⟩ := List.mem_iff_getElem?.1 hm
    obtain ⟨h1, h2⟩ := List.getElem?_zip_eq_some.1 hi
    exact h i s r h1 h2

/-- C107: the numbers of rows and columns must be at least 1 and the number of steps at least 0; then every row of the batch gets numbers for which
the arguments stand, and a grid that has at least one cell. -/
theorem grids_drawn (S : Sampler σ Handled ℚ) (P : AffineArgs.Values ℚ) (hS : AffineArgs.Ok (AffineArgs.Supports P) S) (D : DrawDirs σ)
    (rows cols steps : Val) (hf : ∀ v ∈ [rows, cols, steps], AffineArgs.Val.Filled v ∧ AffineArgs.IntNums v ∧ ∀ i, v ≠ .atom (.par i)) :
    ((init rows cols steps).isSome = true ↔
      (∀ v ∈ [rows, cols, steps], NumericArg true true false v) ∧ (∀ v ∈ [rows, cols], ∀ n : Num, .num n ∈ numbers v → 1 ≤ n.q) ∧
      ∀ n : Num, .num n ∈ numbers steps → 0 ≤ n.q) ∧
    ∀ c, init rows cols steps = some c → ∀ (n : Nat) (g : σ), (drawSamples S D c n g).length = n ∧
      ∀ s ∈ drawSamples S D c n g, 1 ≤ s.rows ∧ 1 ≤ s.cols ∧ AffineArgs.Allows P rows s.rows ∧ AffineArgs.Allows P cols s.cols ∧
        AffineArgs.Allows P steps s.maxSteps := by
  obtain ⟨f1, i1, p1⟩ := hf rows (by simp)
  obtain ⟨f2, i2, p2⟩ := hf cols (by simp)
  obtain ⟨f3, i3, p3⟩ := hf steps (by simp)
  have acc : ∀ (v : Val) (lo : ℚ), (∀ i, v ≠ .atom (.par i)) → ((handleDiscrete v (.interval (some lo) none) true true false).isSome = true ↔
      NumericArg true true false v ∧ ∀ n : Num, .num n ∈ numbers v → lo ≤ n.q) := by
    intro v lo hv
    rw [discrete_accepts]
    constructor
    · rintro (⟨i, h⟩ | ⟨h1, h2⟩)
      · exact absurd h (hv i)
      · exact ⟨h1, fun n hn => by simpa [VR.allowed] using h2 n hn⟩
    · rintro ⟨h1, h2⟩
      exact Or.inr ⟨h1, fun n hn => by simpa [VR.allowed] using h2 n hn⟩
  constructor
  · have a1 := acc rows 1 p1
    have a2 := acc cols 1 p2
    have a3 := acc steps 0 p3
    have e : (init rows cols steps).isSome = true ↔ (handleDiscrete rows (.interval (some 1) none) true true false).isSome = true ∧
        (handleDiscrete cols (.interval (some 1) none) true true false).isSome = true ∧
        (handleDiscrete steps (.interval (some 0) none) true true false).isSome = true := by
      unfold init
      cases handleDiscrete rows (.interval (some 1) none) true true false <;>
        cases handleDiscrete cols (.interval (some 1) none) true true false <;>
        cases handleDiscrete steps (.interval (some 0) none) true true false <;> simp
    rw [e, a1, a2, a3]
    simp only [List.mem_cons, List.not_mem_nil, or_false, forall_eq_or_imp, forall_eq]
    tauto
  · intro c hc n g
    unfold init at hc
    simp only [Option.bind_eq_bind, Option.bind_eq_some_iff, Option.pure_def, Option.some.injEq] at hc
    obtain ⟨r, h1, c', h2, s, h3, rfl⟩ := hc
    unfold drawSamples
    obtain ⟨l1, l2⟩ := drawDests_get D ((List.range n).map (fun (i : Nat) =>
      ((pyInt ((S r n g).1.getD i 0)).toNat, (pyInt ((S c' n (S r n g).2).1.getD i 0)).toNat,
        (pyInt ((S s n (S c' n (S r n g).2).2).1.getD i 0)).toNat))) (S s n (S c' n (S r n g).2).2).2
    refine ⟨by simpa using l1, ?_⟩
    intro x hx
    obtain ⟨i, hi⟩ := List.mem_iff_getElem?.1 hx
    have hin : i < n := by
      have := (List.getElem?_eq_some_iff.1 hi).1
      rw [l1] at this
      simpa using this
    obtain ⟨y, y1, y2, y3, y4⟩ := l2 i _ _ _ (by rw [List.getElem?_map, List.getElem?_range hin, Option.map_some])
    simp only at hi
    rw [y1] at hi
    simp only [Option.some.injEq] at hi
    subst hi
    have d1 := drawn_nat P S hS rows 1 r (by exact_mod_cast h1) f1 i1 p1 n g i hin
    have d2 := drawn_nat P S hS cols 1 c' (by exact_mod_cast h2) f2 i2 p2 n (S r n g).2 i hin
    have d3 := drawn_nat P S hS steps 0 s (by exact_mod_cast h3) f3 i3 p3 n (S c' n (S r n g).2).2 i hin
    rw [y2, y3, y4]
    exact ⟨d1.1, d2.1, d1.2, d2.2, d3.2⟩

example : (init (.tuple [.num ⟨true, 3⟩, .num ⟨true, 5⟩]) (.atom (.num ⟨true, 2⟩)) (.iter [.num ⟨true, 0⟩])).isSome = true ∧
    (init (.atom (.num ⟨true, 0⟩)) (.atom (.num ⟨true, 2⟩)) (.atom (.num ⟨true, 1⟩))).isNone = true := by decide +kernel

/-- C107: the whole augmenter. With padding allowed and accepted arguments, every batch of consistent rows is augmented. -/
theorem batches_accepted (zα : α) (zβ : β) (zγ : γ) (rsβ : Img β → Nat → Nat → Img β) (rsγ : Img γ → Nat → Nat → Img γ) (hβ : Resizes rsβ)
    (hγ : Resizes rsγ) (S : Sampler σ Handled ℚ) (P : AffineArgs.Values ℚ) (hS : AffineArgs.Ok (AffineArgs.Supports P) S) (D : DrawDirs σ)
    (rows cols steps : Val) (hf : ∀ v ∈ [rows, cols, steps], AffineArgs.Val.Filled v ∧ AffineArgs.IntNums v ∧ ∀ i, v ≠ .atom (.par i))
    (c : Handled × Handled × Handled) (hc : init rows cols steps = some c) (batch : List (Row α β γ)) (hb : ∀ r ∈ batch, Consistent r) (g : σ) :
    ∃ rs, augment zα zβ zγ rsβ rsγ true (drawSamples S D c batch.length g) batch = some rs ∧ rs.length = batch.length := by
  obtain ⟨l1, l2⟩ := (grids_drawn S P hS D rows cols steps hf).2 c hc batch.length g
  obtain ⟨h1, h2⟩ := rows_apart zα zβ zγ rsβ rsγ true (drawSamples S D c batch.length g) batch l1
  obtain ⟨rs, hrs⟩ := h2 (fun i s r hs hr => by
    obtain ⟨s1, s2, -⟩ := l2 s (List.mem_of_getElem? hs)
    obtain ⟨r', -, -, -, -, -, e, -⟩ := padded_then_shuffled zα zβ zγ rsβ rsγ hβ hγ s s1 s2 r (hb r (List.mem_of_getElem? hr))
    exact ⟨r', e⟩)
  exact ⟨rs, hrs, (h1 rs hrs).1⟩

end Imgaug.JigsawBatch
