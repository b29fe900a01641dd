import Verif.Proofs.Rot90
import Verif.Proofs.Flip
import Verif.Spec.Rot90
import Mathlib.Tactic.Push
/-! C44: rotations by multiples of 90 degrees. -/
namespace Imgaug.Rot
open Imgaug Imgaug.Flip
variable {α : Type}

/-- C44: rotating an image by `k` and then by `l` is the same as rotating it by `k + l`, for all integers. -/
theorem rot90_image_add (k l : Int) (a : Img α) : (rot90 l (rot90 k a)).Same (rot90 (k + l) a) := by
  have hk : k % 4 = 0 ∨ k % 4 = 1 ∨ k % 4 = 2 ∨ k % 4 = 3 := by omega
  have hl : l % 4 = 0 ∨ l % 4 = 1 ∨ l % 4 = 2 ∨ l % 4 = 3 := by omega
  have e := Int.add_emod k l 4
  rcases hk with hk | hk | hk | hk <;> rcases hl with hl | hl | hl | hl <;>
    (rw [hk, hl] at e
     norm_num at e
     simp only [rot90, hk, hl, e]
     norm_num
     refine ⟨rfl, rfl, ?_⟩
     intro y x hy hx
     simp only [transpose, flipud, fliplr] at hy hx ⊢
     try (congr 1 <;> omega))

/-- C44: a rotation by 0 does nothing, one by 4 (or any multiple) neither. -/
theorem rot90_image_four (n : Int) (a : Img α) : rot90 (4 * n) a = a := by
  simp [rot90]

/-- C44: a single rotation is clockwise: the top row becomes the right column; height and width are swapped. -/
theorem rot90_image_one (a : Img α) : (rot90 1 a).h = a.w ∧ (rot90 1 a).w = a.h ∧
    ∀ y x, y < a.h → x < a.w → (rot90 1 a).px x (a.h - 1 - y) = a.px y x := by
  refine ⟨rfl, rfl, ?_⟩
  intro y x hy hx
  simp only [rot90, transpose, flipud]
  norm_num
  congr 1
  omega

example : (rot90 1 (⟨2, 3, fun y x => 10 * y + x⟩ : Img Nat)).toList = [[10, 0], [11, 1], [12, 2]] := by decide

/-- C44: the same for keypoints, exactly: rotating by `k` and then by `l` gives the same coordinates and the same shape as
rotating by `k + l`. -/
theorem rot90_keypoints_add (k l : Int) (s : KPsOnImage) :
    (augmentKps false k s).bind (augmentKps false l) = augmentKps false (k + l) s := by
  have hk : k % 4 = 0 ∨ k % 4 = 1 ∨ k % 4 = 2 ∨ k % 4 = 3 := by omega
  have hl : l % 4 = 0 ∨ l % 4 = 1 ∨ l % 4 = 2 ∨ l % 4 = 3 := by omega
  have e := Int.add_emod k l 4
  obtain ⟨a0, a1, a2, a3⟩ := augmentKps_cases k s
  have b := augmentKps_cases l
  obtain ⟨c0, c1, c2, c3⟩ := augmentKps_cases (k + l) s
  rcases hk with hk | hk | hk | hk <;> rcases hl with hl | hl | hl | hl <;>
    (rw [hk, hl] at e
     norm_num at e
     first | rw [a0 hk] | rw [a1 hk] | rw [a2 hk] | rw [a3 hk]
     first | rw [c0 e] | rw [c1 e] | rw [c2 e] | rw [c3 e]
     rw [Option.bind_some]
     first | rw [(b _).1 hl] | rw [(b _).2.1 hl] | rw [(b _).2.2.1 hl] | rw [(b _).2.2.2 hl]
     try simp [List.map_map, Function.comp_def])

/-- C44: the shape reported for keypoints is the shape of the rotated image. -/
theorem rot90_shapes_agree (k : Int) (a : Img α) (s : KPsOnImage) (hs : s.shape = ⟨a.h, a.w⟩) :
    ∃ r, augmentKps false k s = some r ∧ r.shape = ⟨(rot90 k a).h, (rot90 k a).w⟩ ∧ r.kps.length = s.kps.length := by
  have hk : k % 4 = 0 ∨ k % 4 = 1 ∨ k % 4 = 2 ∨ k % 4 = 3 := by omega
  obtain ⟨a0, a1, a2, a3⟩ := augmentKps_cases k s
  rcases hk with hk | hk | hk | hk
  · exact ⟨s, a0 hk, by simp [rot90, hk, hs], rfl⟩
  · exact ⟨_, a1 hk, by simp [rot90, hk, hs, transpose, flipud], by simp⟩
  · exact ⟨_, a2 hk, by simp [rot90, hk, hs, flipud, fliplr], by simp⟩
  · exact ⟨_, a3 hk, by simp [rot90, hk, hs, transpose, flipud], by simp⟩

/-- C44: a keypoint in a pixel of the image is, after the rotation, in the pixel of the rotated image with the same content. -/
theorem rot90_aligned (k : Int) (a : Img α) (s r : KPsOnImage) (hs : s.shape = ⟨a.h, a.w⟩) (hr : augmentKps false k s = some r)
    (i : Nat) (p : Pt) (hp : s.kps[i]? = some p) (y x : Nat) (hy : y < a.h) (hx : x < a.w) (hin : InPixel p y x) :
    ∃ q y' x', r.kps[i]? = some q ∧ y' < (rot90 k a).h ∧ x' < (rot90 k a).w ∧ InPixel q y' x' ∧
      ∀ b : Img α, b.h = a.h → b.w = a.w → (rot90 k b).px y' x' = b.px y x := by
  have hk : k % 4 = 0 ∨ k % 4 = 1 ∨ k % 4 = 2 ∨ k % 4 = 3 := by omega
  obtain ⟨a0, a1, a2, a3⟩ := augmentKps_cases k s
  obtain ⟨h1, h2, h3, h4⟩ := hin
  have ex : ((a.w - 1 - x : Nat) : ℚ) = (a.w : ℚ) - 1 - x := by
    rw [Nat.cast_sub (by omega), Nat.cast_sub (by omega)]; simp
  have ey : ((a.h - 1 - y : Nat) : ℚ) = (a.h : ℚ) - 1 - y := by
    rw [Nat.cast_sub (by omega), Nat.cast_sub (by omega)]; simp
  have dx : a.w - 1 - (a.w - 1 - x) = x := by omega
  have dy : a.h - 1 - (a.h - 1 - y) = y := by omega
  rcases hk with hk | hk | hk | hk
  · rw [a0 hk] at hr
    injection hr with hr
    subst hr
    exact ⟨p, y, x, hp, by simpa [rot90, hk], by simpa [rot90, hk], ⟨h1, h2, h3, h4⟩, by simp [rot90, hk]⟩
  · rw [a1 hk] at hr
    injection hr with hr
    subst hr
    refine ⟨_, x, a.h - 1 - y, by rw [List.getElem?_map, hp]; rfl, by simp [rot90, hk, transpose, flipud, hx],
      by simp [rot90, hk, transpose, flipud]; omega, ?_, ?_⟩
    · refine ⟨?_, ?_, h1, h2⟩ <;> simp only [hs, ey] <;> linarith
    · intro b hb1 hb2
      simp [rot90, hk, transpose, flipud, hb1, dy]
  · rw [a2 hk] at hr
    injection hr with hr
    subst hr
    refine ⟨_, a.h - 1 - y, a.w - 1 - x, by rw [List.getElem?_map, hp]; rfl, by simp [rot90, hk, fliplr, flipud]; omega,
      by simp [rot90, hk, fliplr, flipud]; omega, ?_, ?_⟩
    · refine ⟨?_, ?_, ?_, ?_⟩ <;> simp only [hs, ey, ex] <;> linarith
    · intro b hb1 hb2
      simp [rot90, hk, fliplr, flipud, hb1, hb2, dx, dy]
  · rw [a3 hk] at hr
    injection hr with hr
    subst hr
    refine ⟨_, a.w - 1 - x, y, by rw [List.getElem?_map, hp]; rfl, by simp [rot90, hk, transpose, flipud]; omega,
      by simp [rot90, hk, transpose, flipud, hy], ?_, ?_⟩
    · refine ⟨h3, h4, ?_, ?_⟩ <;> simp only [hs, ex] <;> linarith
    · intro b hb1 hb2
      simp [rot90, hk, transpose, flipud, hb2, dx]

example : augmentKps false (-3) ⟨[⟨1 / 2, 3 / 2⟩], ⟨2, 3⟩⟩ = some ⟨[⟨1 / 2, 1 / 2⟩], ⟨3, 2⟩⟩ ∧ InPixel ⟨1 / 2, 3 / 2⟩ 1 0 := by
  refine ⟨by decide +kernel, ?_⟩
  simp only [InPixel]; norm_num

/-- C44: with `keep_size` the shape of the keypoints never changes, and each keypoint is the rotated one projected from the
rotated shape to the original one, that is, at the same relative position. Images of non-zero size. -/
theorem rot90_keep_size (k : Int) (s : KPsOnImage) (hh : 0 < s.shape.h) (hw : 0 < s.shape.w) :
    ∃ r q, augmentKps true k s = some r ∧ augmentKps false k s = some q ∧ r.shape = s.shape ∧
      r.kps.length = q.kps.length ∧ ∀ (i : Nat) (p' p : Pt), r.kps[i]? = some p' → q.kps[i]? = some p →
        p'.x / s.shape.w = p.x / q.shape.w ∧ p'.y / s.shape.h = p.y / q.shape.h := by
  have hh' : (s.shape.h : ℚ) ≠ 0 := by exact_mod_cast hh.ne'
  have hw' : (s.shape.w : ℚ) ≠ 0 := by exact_mod_cast hw.ne'
  have hk : k % 4 = 0 ∨ k % 4 = 1 ∨ k % 4 = 2 ∨ k % 4 = 3 := by omega
  have hproj : ∀ q : KPsOnImage, q.shape.h = s.shape.w → q.shape.w = s.shape.h →
      ∃ r, (if (⟨s.shape.h, s.shape.w⟩ : Shape) ≠ q.shape then
          (q.on s.shape).map (fun r => { r with shape := s.shape }) else some q) = some r ∧ r.shape = s.shape ∧
        r.kps.length = q.kps.length ∧ ∀ (i : Nat) (p' p : Pt), r.kps[i]? = some p' → q.kps[i]? = some p →
          p'.x / s.shape.w = p.x / q.shape.w ∧ p'.y / s.shape.h = p.y / q.shape.h := by
    intro q e1 e2
    by_cases hc : (⟨s.shape.h, s.shape.w⟩ : Shape) ≠ q.shape
    · rw [if_pos hc]
      have hne : s.shape ≠ q.shape := hc
      have hm : ∀ l : List Pt, l.mapM (fun p => projectPt p q.shape s.shape) =
          some (l.map (fun p => (⟨p.x / q.shape.w * s.shape.w, p.y / q.shape.h * s.shape.h⟩ : Pt))) := by
        intro l
        induction l with
        | nil => rfl
        | cons p l ih =>
          rw [List.mapM_cons, ih]
          simp only [projectPt, if_neg (Ne.symm hne)]
          rw [if_pos ⟨by omega, by omega, hh, hw⟩]
          rfl
      refine ⟨⟨q.kps.map (fun p => ⟨p.x / q.shape.w * s.shape.w, p.y / q.shape.h * s.shape.h⟩), s.shape⟩, ?_, rfl, by simp, ?_⟩
      · simp only [KPsOnImage.on, if_neg hne, hm]; rfl
      · intro i p' p hp' hp
        rw [List.getElem?_map, hp] at hp'
        simp only [Option.map_some, Option.some.injEq] at hp'
        subst hp'
        constructor <;> field_simp
    · rw [if_neg hc]
      push Not at hc
      refine ⟨q, rfl, hc.symm, rfl, ?_⟩
      intro i p' p hp' hp
      rw [hp'] at hp
      injection hp with hp
      subst hp
      rw [← hc]
      exact ⟨rfl, rfl⟩
  have hsame : ∀ q : KPsOnImage, q.shape = s.shape → ∀ (i : Nat) (p' p : Pt), q.kps[i]? = some p' → q.kps[i]? = some p →
        p'.x / s.shape.w = p.x / q.shape.w ∧ p'.y / s.shape.h = p.y / q.shape.h := by
    intro q hq i p' p hp' hp
    rw [hp'] at hp
    injection hp with hp
    subst hp
    rw [hq]
    exact ⟨rfl, rfl⟩
  rcases hk with hk | hk | hk | hk
  · exact ⟨s, s, by simp [augmentKps, hk], by simp [augmentKps, hk], rfl, rfl, hsame s rfl⟩
  · obtain ⟨r, h1, h2, h3, h4⟩ := hproj ⟨s.kps.map (rotSteps 1 s.shape.w s.shape.h), ⟨s.shape.w, s.shape.h⟩⟩ rfl rfl
    exact ⟨r, _, by simpa [augmentKps, hk] using h1, by simp [augmentKps, hk], h2, h3, h4⟩
  · exact ⟨⟨s.kps.map (rotSteps 2 s.shape.w s.shape.h), s.shape⟩, _, by simp [augmentKps, hk], by simp [augmentKps, hk],
      rfl, rfl, hsame ⟨s.kps.map (rotSteps 2 s.shape.w s.shape.h), s.shape⟩ rfl⟩
  · obtain ⟨r, h1, h2, h3, h4⟩ := hproj ⟨s.kps.map (rotSteps 3 s.shape.w s.shape.h), ⟨s.shape.w, s.shape.h⟩⟩ rfl rfl
    exact ⟨r, _, by simpa [augmentKps, hk] using h1, by simp [augmentKps, hk], h2, h3, h4⟩

example : augmentKps true 1 ⟨[⟨1, 2⟩], ⟨2, 4⟩⟩ = some ⟨[⟨0, 1 / 2⟩], ⟨2, 4⟩⟩ := by decide +kernel

/-- C44: where the keypoints are. -/
theorem rot90_keypoints_turned (k : Int) (s : KPsOnImage) :
    augmentKps false k s = some ⟨s.kps.map (turned k s.shape), turnedShape k s.shape⟩ := by
  have hk : k % 4 = 0 ∨ k % 4 = 1 ∨ k % 4 = 2 ∨ k % 4 = 3 := by omega
  obtain ⟨a0, a1, a2, a3⟩ := augmentKps_cases k s
  have e : k % 2 = k % 4 % 2 := by omega
  rcases hk with hk | hk | hk | hk
  · have h : turned k s.shape = id := by funext p; simp [turned, hk]
    rw [a0 hk, h]; simp [turnedShape, e, hk]
  · rw [a1 hk]; simp [turnedShape, e, hk]; simp [turned, hk]
  · rw [a2 hk]; simp [turnedShape, e, hk]; simp [turned, hk]
  · rw [a3 hk]; simp [turnedShape, e, hk]; simp [turned, hk]

theorem cornerBox_turned (k : Int) (s : Shape) (b : BB) : BoxTurned k s b (cornerBox (turned k s) b) := by
  have hk : k % 4 = 0 ∨ k % 4 = 1 ∨ k % 4 = 2 ∨ k % 4 = 3 := by omega
  have e : k % 2 = k % 4 % 2 := by omega
  refine ⟨rfl, ?_, ?_, ?_⟩
  · simp only [cornerBox, BB.minOf, BB.maxOf, List.foldl]; grind
  · simp only [cornerBox, BB.minOf, BB.maxOf, List.foldl]; grind
  · intro hx hy
    refine ⟨?_, ?_⟩
    · intro p
      rw [Bool.eq_iff_iff]
      simp only [BB.contains, Bool.and_eq_true, decide_eq_true_eq]
      rcases hk with hk | hk | hk | hk <;>
        (simp only [cornerBox, turned, hk, BB.minOf, BB.maxOf, List.foldl]; norm_num; grind)
    · rcases hk with hk | hk | hk | hk <;>
        (simp only [BB.width, BB.height, cornerBox, turned, e, hk, BB.minOf, BB.maxOf, List.foldl]; norm_num; grind)

/-- C44: bounding boxes are turned with the image and stay well formed. -/
theorem rot90_bounding_boxes (k : Int) (b : BBsOnImage) :
    ∃ r, augmentBBs false k b = some r ∧ r.shape = turnedShape k b.shape ∧
      List.Forall₂ (BoxTurned k b.shape) b.boxes r.boxes := by
  refine ⟨⟨b.boxes.map (cornerBox (turned k b.shape)), turnedShape k b.shape⟩, ?_, rfl,
    forall2_map _ _ _ (fun c => cornerBox_turned k b.shape c)⟩
  simp only [augmentBBs, rot90_keypoints_turned, Option.bind_some, BBsOnImage.invertToKeypointsOnImage,
    BBsOnImage.toKeypointsOnImage]
  rw [if_pos (by rw [List.length_map, length_corners]), refill_map]

example : augmentBBs false 3 ⟨[⟨1, 0, 3, 1, none⟩], ⟨2, 4⟩⟩ = some ⟨[⟨0, 1, 1, 3, none⟩], ⟨4, 2⟩⟩ := by decide +kernel

/-- C44: heatmaps and segmentation maps: without `keep_size` the array is rotated as the image is, and the shape of the image it
belongs to becomes that of the rotated image. -/
theorem rot90_maps (resize : Img α → Nat → Nat → Img α) (k : Int) (m : Map α) :
    (augmentMap false resize k m).arr = rot90 k m.arr ∧ (augmentMap false resize k m).shape = turnedShape k m.shape := by
  have h2 : k % 2 = 0 ∨ k % 2 = 1 := by omega
  rcases h2 with h2 | h2 <;> simp [augmentMap, augmentArr, turnedShape, h2]

/-- C44: with `keep_size` images and maps keep their size, provided the resizing function returns what it is asked for. A
rotation that does not change the size does not resize the image. -/
theorem rot90_keep_size_arrays (resize : Img α → Nat → Nat → Img α) (hr : ∀ a h w, (resize a h w).h = h ∧ (resize a h w).w = w)
    (k : Int) (a : Img α) (m : Map α) :
    (augmentArr true (some resize) k a).h = a.h ∧ (augmentArr true (some resize) k a).w = a.w ∧
    (k % 2 = 0 ∨ a.h = a.w → augmentArr true (some resize) k a = rot90 k a) ∧
    (augmentMap true resize k m).shape = m.shape ∧ (augmentMap true resize k m).arr.h = m.arr.h ∧
    (augmentMap true resize k m).arr.w = m.arr.w := by
  have hm : (augmentMap true resize k m).shape = m.shape ∧ (augmentMap true resize k m).arr.h = m.arr.h ∧
      (augmentMap true resize k m).arr.w = m.arr.w := ⟨rfl, (hr _ _ _).1, (hr _ _ _).2⟩
  refine ⟨?_, ?_, ?_, hm⟩
  · simp only [augmentArr]
    split
    · exact (hr _ _ _).1
    · rename_i h; simp at h; exact h.1
  · simp only [augmentArr]
    split
    · exact (hr _ _ _).2
    · rename_i h; simp at h; exact h.2
  · intro h
    simp only [augmentArr]
    rw [if_neg]
    rintro ⟨_, h'⟩
    apply h'
    have hk : k % 4 = 0 ∨ k % 4 = 1 ∨ k % 4 = 2 ∨ k % 4 = 3 := by omega
    rcases hk with hk | hk | hk | hk
    · simp [rot90, hk]
    · simp [rot90, hk, transpose, flipud]; omega
    · simp [rot90, hk, fliplr, flipud]
    · simp [rot90, hk, transpose, flipud]; omega

example : ∃ resize : Img Nat → Nat → Nat → Img Nat, ∀ a h w, (resize a h w).h = h ∧ (resize a h w).w = w :=
  ⟨fun a h w => ⟨h, w, a.px⟩, fun _ _ _ => ⟨rfl, rfl⟩⟩

end Imgaug.Rot
