import Verif.Proofs.KpImage
import Verif.Model.KpImage
import Verif.Proofs.Num
/-! Property C21: keypoint images. -/
namespace Imgaug.Props
open Imgaug

/-- C21: a keypoint whose rounded coordinates lie in the image is recovered as the centre of the pixel at the rounded
coordinates, for every odd size and every threshold up to 255. -/
theorem keypoint_image_exact (s : Shape) (sizeh t : Nat) (p : Pt) (hx0 : 0 ≤ npRound p.x) (hx1 : npRound p.x < s.w)
    (hy0 : 0 ≤ npRound p.y) (hy1 : npRound p.y < s.h) (ht : t ≤ 255) :
    fromChannel s.h s.w t (drawKeypoint s sizeh p) = some (some ⟨npRound p.x + 1 / 2, npRound p.y + 1 / 2⟩) := by
  obtain ⟨X, hX⟩ := Int.eq_ofNat_of_zero_le hx0
  obtain ⟨Y, hY⟩ := Int.eq_ofNat_of_zero_le hy0
  have hpix : drawKeypoint s sizeh p Y X = 255 := by
    unfold drawKeypoint Pt.xInt Pt.yInt
    simp only
    rw [if_pos ⟨hy0, hy1, hx0, hx1, hY, hX⟩]
  have hother : ∀ v u, (v ≠ Y ∨ u ≠ X) → drawKeypoint s sizeh p v u < 255 := by
    intro v u hne
    unfold drawKeypoint Pt.xInt Pt.yInt
    simp only
    rw [if_neg (by rintro ⟨-, -, -, -, h1, h2⟩; omega)]
    split <;> omega
  have := fromChannel_eq t (drawKeypoint s sizeh p) Y X (h := s.h) (w := s.w) (by omega) (by omega)
    (by
      intro v _ u _
      rw [hpix]
      by_cases h : v ≠ Y ∨ u ≠ X
      · exact (hother v u h).le
      · push Not at h; rw [h.1, h.2, hpix])
    (by
      intro v _ u _ h
      rw [hpix]
      exact hother v u (by omega))
    (by rw [hpix]; exact ht)
  rw [this, hX, hY]
  simp

/-- C21: the general form. The keypoint is at most `1` left of or above the image (before drawing). Then a keypoint is
found, and it is the centre of the pixel at the rounded coordinates if that pixel exists, otherwise the first pixel of the
drawn square. -/
theorem keypoint_image_found (s : Shape) (sizeh t : Nat) (p : Pt) (hw : 0 < s.w) (hh : 0 < s.h)
    (hx0 : 0 ≤ npRound p.x) (hy0 : 0 ≤ npRound p.y)
    (hout : (s.w : Int) ≤ npRound p.x ∨ (s.h : Int) ≤ npRound p.y) (ht : t ≤ 128) :
    fromChannel s.h s.w t (drawKeypoint s sizeh p) =
      some (some ⟨clipI (npRound p.x - sizeh) 0 (s.w - 1) + 1 / 2, clipI (npRound p.y - sizeh) 0 (s.h - 1) + 1 / 2⟩) := by
  have hX0 : 0 ≤ clipI (npRound p.x - sizeh) 0 (s.w - 1) := by unfold clipI; omega
  have hY0 : 0 ≤ clipI (npRound p.y - sizeh) 0 (s.h - 1) := by unfold clipI; omega
  obtain ⟨X, hX⟩ := Int.eq_ofNat_of_zero_le hX0
  obtain ⟨Y, hY⟩ := Int.eq_ofNat_of_zero_le hY0
  have hXw : X < s.w := by unfold clipI at hX; omega
  have hYh : Y < s.h := by unfold clipI at hY; omega
  have hx2 : clipI (npRound p.x - sizeh) 0 (s.w - 1) < clipI (npRound p.x + sizeh + 1) 0 s.w := by unfold clipI; omega
  have hy2 : clipI (npRound p.y - sizeh) 0 (s.h - 1) < clipI (npRound p.y + sizeh + 1) 0 s.h := by unfold clipI; omega
  have hdraw : ∀ v u : Nat, drawKeypoint s sizeh p v u =
      if Y ≤ v ∧ (v : Int) < clipI (npRound p.y + sizeh + 1) 0 s.h ∧ X ≤ u ∧ (u : Int) < clipI (npRound p.x + sizeh + 1) 0 s.w
      then 128 else 0 := by
    intro v u
    unfold drawKeypoint Pt.xInt Pt.yInt
    simp only
    rw [if_neg (by rintro ⟨-, h1, -, h2, -⟩; omega), hX, hY]
    rw [hX] at hx2
    rw [hY] at hy2
    congr 1
    simp only [eq_iff_iff]
    constructor
    · rintro ⟨-, -, h1, h2, h3, h4⟩; exact ⟨by exact_mod_cast h1, h2, by exact_mod_cast h3, h4⟩
    · rintro ⟨h1, h2, h3, h4⟩; exact ⟨hx2, hy2, by exact_mod_cast h1, h2, by exact_mod_cast h3, h4⟩
  have hpix : drawKeypoint s sizeh p Y X = 128 := by
    rw [hdraw, if_pos]
    exact ⟨le_refl _, by rw [hY] at hy2; exact hy2, le_refl _, by rw [hX] at hx2; exact hx2⟩
  have := fromChannel_eq t (drawKeypoint s sizeh p) Y X hYh hXw
    (by intro v _ u _; rw [hpix, hdraw]; split <;> omega)
    (by
      intro v _ u _ h
      rw [hpix, hdraw, if_neg (by rintro ⟨h1, -, h2, -⟩; omega)]
      omega)
    (by rw [hpix]; exact ht)
  rw [this, hX, hY]
  simp

/-- C21: every keypoint inside the image is recovered, for every odd `size` and every threshold up to 128, and the recovered
position is within `sizeh + 1` of the original in both axes, where `sizeh = (size - 1) / 2`; for `size = 1` that is at most
one pixel. -/
theorem keypoint_image_recovers (s : Shape) (sizeh t : Nat) (p : Pt) (hx0 : 0 ≤ p.x) (hx1 : p.x < s.w)
    (hy0 : 0 ≤ p.y) (hy1 : p.y < s.h) (ht : t ≤ 128) :
    ∃ q, fromChannel s.h s.w t (drawKeypoint s sizeh p) = some (some q) ∧
      |q.x - p.x| ≤ sizeh + 1 ∧ |q.y - p.y| ≤ sizeh + 1 ∧ 0 ≤ q.x ∧ q.x < s.w ∧ 0 ≤ q.y ∧ q.y < s.h := by
  have rx0 := npRound_nonneg hx0
  have ry0 := npRound_nonneg hy0
  have hw : 0 < s.w := by
    have : (0 : ℚ) < s.w := by linarith
    exact_mod_cast this
  have hh : 0 < s.h := by
    have : (0 : ℚ) < s.h := by linarith
    exact_mod_cast this
  have rx1 : npRound p.x ≤ s.w := npRound_le (by push_cast; exact hx1.le)
  have ry1 : npRound p.y ≤ s.h := npRound_le (by push_cast; exact hy1.le)
  have dx := npRound_dist p.x
  have dy := npRound_dist p.y
  rw [abs_le] at dx dy
  have hs : (0 : ℚ) ≤ sizeh := by positivity
  by_cases hout : (s.w : Int) ≤ npRound p.x ∨ (s.h : Int) ≤ npRound p.y
  · refine ⟨_, keypoint_image_found s sizeh t p hw hh rx0 ry0 hout ht, ?_⟩
    have key : ∀ (v : ℚ) (r : Int) (n : Nat), 0 ≤ r → r ≤ n → 0 < n → -(1/2) ≤ (r : ℚ) - v → (r : ℚ) - v ≤ 1/2 →
        |((clipI (r - sizeh) 0 (n - 1) : Int) : ℚ) + 1 / 2 - v| ≤ sizeh + 1 ∧
        (0 : ℚ) ≤ ((clipI (r - sizeh) 0 (n - 1) : Int) : ℚ) + 1 / 2 ∧
        ((clipI (r - sizeh) 0 (n - 1) : Int) : ℚ) + 1 / 2 < n := by
      intro v r n h1 h2 h3 h4 h5
      have a : r - sizeh - 1 ≤ clipI (r - sizeh) 0 (n - 1) := by unfold clipI; omega
      have b : clipI (r - sizeh) 0 (n - 1) ≤ r := by unfold clipI; omega
      have c : 0 ≤ clipI (r - sizeh) 0 (n - 1) := by unfold clipI; omega
      have d : clipI (r - sizeh) 0 (n - 1) + 1 ≤ n := by unfold clipI; omega
      generalize clipI (r - sizeh) 0 (n - 1) = z at a b c d
      have a' : (r : ℚ) - sizeh - 1 ≤ z := by exact_mod_cast a
      have b' : (z : ℚ) ≤ r := by exact_mod_cast b
      have c' : (0 : ℚ) ≤ z := by exact_mod_cast c
      have d' : (z : ℚ) + 1 ≤ n := by exact_mod_cast d
      refine ⟨?_, by linarith, by linarith⟩
      rw [abs_le]; constructor <;> linarith
    have kx := key p.x (npRound p.x) s.w rx0 rx1 hw dx.1 dx.2
    have ky := key p.y (npRound p.y) s.h ry0 ry1 hh dy.1 dy.2
    exact ⟨kx.1, ky.1, kx.2.1, kx.2.2, ky.2.1, ky.2.2⟩
  · push Not at hout
    refine ⟨_, keypoint_image_exact s sizeh t p rx0 hout.1 ry0 hout.2 (by omega), ?_⟩
    have a : (0 : ℚ) ≤ npRound p.x := by exact_mod_cast rx0
    have b : (0 : ℚ) ≤ npRound p.y := by exact_mod_cast ry0
    have c : ((npRound p.x : Int) : ℚ) + 1 ≤ s.w := by exact_mod_cast hout.1
    have d : ((npRound p.y : Int) : ℚ) + 1 ≤ s.h := by exact_mod_cast hout.2
    refine ⟨?_, ?_, by simp only; linarith, by simp only; linarith, by simp only; linarith, by simp only; linarith⟩
    · simp only; rw [abs_le]; constructor <;> linarith
    · simp only; rw [abs_le]; constructor <;> linarith

/-- C21 (partial): keypoints whose drawn square lies entirely left of or above the image are not found. Missing: keypoints
right of or below the image, for which this is false, see `keypoint_image_bogus`. -/
theorem keypoint_image_not_found_partial (s : Shape) (sizeh t : Nat) (p : Pt) (hw : 0 < s.w) (hh : 0 < s.h)
    (hout : npRound p.x + sizeh < 0 ∨ npRound p.y + sizeh < 0) (ht : 1 ≤ t) :
    fromChannel s.h s.w t (drawKeypoint s sizeh p) = some none := by
  have hz : ∀ v u, drawKeypoint s sizeh p v u = 0 := by
    intro v u
    unfold drawKeypoint Pt.xInt Pt.yInt
    simp only
    rw [if_neg (by rintro ⟨h1, -, h2, -⟩; omega), if_neg]
    rintro ⟨h1, h2, -⟩
    unfold clipI at h1 h2
    omega
  unfold fromChannel flatten
  rw [argmax_zero _ (Nat.mul_pos hh hw) _ (fun i _ => hz _ _)]
  simp [hz]; omega

/-- C21 is false for keypoints far right of or below the image: they are drawn at the border and "recovered" there. -/
theorem keypoint_image_bogus (s : Shape) (t : Nat) (y : Int) (d : Nat) (hw : 0 < s.w) (hy0 : 0 ≤ y) (hy1 : y < s.h)
    (ht : t ≤ 128) :
    fromChannel s.h s.w t (drawKeypoint s 0 ⟨s.w + d, y⟩) = some (some ⟨(s.w - 1 : ℚ) + 1 / 2, y + 1 / 2⟩) := by
  have e1 : npRound ((s.w : ℚ) + d) = ((s.w + d : Nat) : Int) := by
    have := npRound_int ((s.w + d : Nat) : Int)
    push_cast at this ⊢; exact this
  have e2 : npRound (y : ℚ) = y := npRound_int y
  have := keypoint_image_found s 0 t ⟨s.w + d, y⟩ hw (by omega) (by simp only; rw [e1]; omega) (by simp only; rw [e2]; exact hy0)
    (Or.inl (by simp only; rw [e1]; omega)) ht
  rw [this]
  simp only [e1, e2]
  have c1 : clipI (((s.w + d : Nat) : Int) - (0 : Nat)) 0 (s.w - 1) = s.w - 1 := by unfold clipI; omega
  have c2 : clipI (y - (0 : Nat)) 0 (s.h - 1) = y := by unfold clipI; omega
  rw [c1, c2]
  push_cast; rfl

/-- C21: the whole round trip for a list of keypoints that all lie inside the image: as many keypoints come back, in the
same order, each within `(size + 1) / 2` of the original. -/
theorem keypoint_image_roundtrip (k : KPsOnImage) (size : Int) (t : Nat) (nf : Option Pt) (hodd : size % 2 = 1) (hpos : 1 ≤ size)
    (hin : ∀ p ∈ k.kps, 0 ≤ p.x ∧ p.x < k.shape.w ∧ 0 ≤ p.y ∧ p.y < k.shape.h) (ht : t ≤ 128) :
    ∃ img r, toKeypointImage k size = some img ∧ fromKeypointImage k.shape.h k.shape.w img t nf = some r ∧
      r.shape = k.shape ∧
      List.Forall₂ (fun (q p : Pt) => |q.x - p.x| ≤ (size + 1) / 2 ∧ |q.y - p.y| ≤ (size + 1) / 2) r.kps k.kps := by
  unfold toKeypointImage
  rw [if_pos (by omega)]
  obtain ⟨kps, s⟩ := k
  simp only at hin
  have hsz : (((size - 1) / 2).toNat : ℚ) + 1 = ((size : ℚ) + 1) / 2 := by
    have : ((((size - 1) / 2).toNat : Int)) * 2 = size - 1 := by omega
    have h' : ((((size - 1) / 2).toNat : ℚ)) * 2 = size - 1 := by exact_mod_cast this
    linarith
  have key : ∀ (l : List Pt), (∀ p ∈ l, 0 ≤ p.x ∧ p.x < s.w ∧ 0 ≤ p.y ∧ p.y < s.h) →
      ∃ found : List (Option Pt), (l.map (drawKeypoint s ((size - 1) / 2).toNat)).mapM (fromChannel s.h s.w t) = some found ∧
        List.Forall₂ (fun (q p : Pt) => |q.x - p.x| ≤ (size + 1) / 2 ∧ |q.y - p.y| ≤ (size + 1) / 2)
          (found.flatMap (fun f => (f.orElse (fun _ => nf)).toList)) l := by
    intro l
    induction l with
    | nil => intro _; exact ⟨[], rfl, by simp⟩
    | cons p l ih =>
      intro h
      obtain ⟨found, hf, hall⟩ := ih (fun q hq => h q (by simp [hq]))
      obtain ⟨h1, h2, h3, h4⟩ := h p (by simp)
      obtain ⟨q, hq, d1, d2, -⟩ := keypoint_image_recovers s ((size - 1) / 2).toNat t p h1 h2 h3 h4 ht
      refine ⟨some q :: found, ?_, ?_⟩
      · rw [List.map_cons, List.mapM_cons, hq, hf]; rfl
      · rw [hsz] at d1 d2
        simp only [List.flatMap_cons, Option.orElse_some, Option.toList_some, List.cons_append, List.nil_append]
        exact List.Forall₂.cons ⟨d1, d2⟩ hall
  obtain ⟨found, hf, hall⟩ := key kps hin
  refine ⟨_, ⟨found.flatMap (fun f => (f.orElse (fun _ => nf)).toList), s⟩, rfl, ?_, rfl, hall⟩
  unfold fromKeypointImage; rw [hf]; rfl

example : ∀ p ∈ [(⟨0, 9 / 2⟩ : Pt), ⟨99 / 10, 2⟩], 0 ≤ p.x ∧ p.x < ((10 : Nat) : ℚ) ∧ 0 ≤ p.y ∧ p.y < ((5 : Nat) : ℚ) := by
  intro p hp; simp at hp; rcases hp with rfl | rfl <;> norm_num

/-- C21: an even size is rejected. -/
theorem keypoint_image_even_size (k : KPsOnImage) (size : Int) (h : size % 2 = 0) : toKeypointImage k size = none := by
  unfold toKeypointImage; rw [if_neg (by simp [h])]

/-! ### Distance maps -/

/-- C21: the keypoint read from a distance map is the pixel of the image that is nearest to the original keypoint (the
first one in reading order); it is reported unless its distance reaches the threshold. -/
theorem distance_map_nearest (h w : Nat) (hh : 0 < h) (hw : 0 < w) (p : Pt) (t : Option ℚ) :
    ∃ y x : Nat, y < h ∧ x < w ∧
      (∀ v < h, ∀ u < w, distanceSq p y x ≤ distanceSq p v u) ∧
      (∀ v < h, ∀ u < w, v < y ∨ (v = y ∧ u < x) → distanceSq p y x < distanceSq p v u) ∧
      ((∀ T, t = some T → distanceSq p y x < T) → fromDistanceMap h w t p = some (some ⟨x, y⟩)) ∧
      (∀ T, t = some T → T ≤ distanceSq p y x → fromDistanceMap h w t p = some none) := by
  obtain ⟨j, hj, he, hmin, hfirst⟩ := argmin_spec (h * w) (Nat.mul_pos hh hw) (fun i => distanceSq p (i / w) (i % w))
  refine ⟨j / w, j % w, Nat.div_lt_of_lt_mul (by rwa [Nat.mul_comm]), Nat.mod_lt _ hw, ?_, ?_, ?_, ?_⟩
  · intro v hv u hu
    obtain ⟨h1, h2, h3⟩ := flat_index hv hu
    have := hmin _ h1
    simpa only [h2, h3] using this
  · intro v hv u hu hlt
    obtain ⟨h1, h2, h3⟩ := flat_index hv hu
    have e := Nat.div_add_mod j w
    have := hfirst (v * w + u) (by
      rcases hlt with h | ⟨h, h'⟩
      · have : (v + 1) * w ≤ j / w * w := Nat.mul_le_mul_right _ h
        have e2 : j / w * w = w * (j / w) := Nat.mul_comm _ _
        have e3 : (v + 1) * w = v * w + w := by ring
        omega
      · rw [h, Nat.mul_comm]; omega)
    simpa only [h2, h3] using this
  · intro ht
    unfold fromDistanceMap
    rw [he]
    cases t with
    | none => simp
    | some T => simp [ht T rfl]
  · intro T hT hle
    subst hT
    unfold fromDistanceMap
    rw [he]
    simp [not_lt.2 hle]

/-- C21: keypoints at integer positions inside the image survive the distance map round trip exactly. -/
theorem distance_map_exact (h w y x : Nat) (hy : y < h) (hx : x < w) :
    fromDistanceMap h w none ⟨x, y⟩ = some (some ⟨x, y⟩) := by
  obtain ⟨y', x', -, -, hmin, -, hf, -⟩ := distance_map_nearest h w (by omega) (by omega) ⟨x, y⟩ none
  rw [hf (by simp)]
  have h0 := hmin y hy x hx
  have hz : distanceSq ⟨x, y⟩ y x = 0 := by simp [distanceSq]
  rw [hz] at h0
  unfold distanceSq at h0
  simp only at h0
  have a := sq_nonneg ((x' : ℚ) - x)
  have b := sq_nonneg ((y' : ℚ) - y)
  have a' : ((x' : ℚ) - x) = 0 := by rw [← sq_eq_zero_iff]; linarith
  have b' : ((y' : ℚ) - y) = 0 := by rw [← sq_eq_zero_iff]; linarith
  rw [sub_eq_zero] at a' b'
  rw [a', b']

end Imgaug.Props
