import Verif.Proofs.Perspective
import Verif.Proofs.Conv
import Verif.Proofs.Boxes
/-! C91: `PerspectiveTransform`. -/
namespace Imgaug.Perspective.Props
open Imgaug Imgaug.Dtypes Imgaug.Resize

/-- C91: the points that are cut out before they are moved apart are four points in the image (with repetitions): the one nearest to the origin (by
the sum of its coordinates), the one furthest from it, and the two outermost along the other diagonal. -/
theorem ordered_points (j : Quad) (h w : Nat) (q : Quad) (hq : q = order (corners j h w)) :
    (∀ p, q.Has p → (corners j h w).Has p ∧ Within h w p) ∧
      ∀ p, (corners j h w).Has p → q.tl.x + q.tl.y ≤ p.x + p.y ∧ p.x + p.y ≤ q.br.x + q.br.y ∧
        q.tr.y - q.tr.x ≤ p.y - p.x ∧ p.y - p.x ≤ q.bl.y - q.bl.x := by
  subst hq
  have hw : ∀ p, (corners j h w).Has p → Within h w p := by
    have hh : (0 : ℚ) ≤ h := by positivity
    have hw' : (0 : ℚ) ≤ w := by positivity
    have lo' : ∀ v (n : ℚ), 0 ≤ n → 0 ≤ frac v * n ∧ frac v * n ≤ n ∧ 0 ≤ (1 - frac v) * n ∧ (1 - frac v) * n ≤ n := by
      intro v n hn
      have h0 := frac_nonneg v
      have h1 := frac_lt v
      refine ⟨by positivity, by nlinarith, mul_nonneg (by linarith) hn, by nlinarith⟩
    rintro p (rfl | rfl | rfl | rfl) <;> simp only [corners, Within]
    · exact ⟨(lo' _ _ hw').1, (lo' _ _ hw').2.1, (lo' _ _ hh).1, (lo' _ _ hh).2.1⟩
    · exact ⟨(lo' _ _ hw').2.2.1, (lo' _ _ hw').2.2.2, (lo' _ _ hh).1, (lo' _ _ hh).2.1⟩
    · exact ⟨(lo' _ _ hw').2.2.1, (lo' _ _ hw').2.2.2, (lo' _ _ hh).2.2.1, (lo' _ _ hh).2.2.2⟩
    · exact ⟨(lo' _ _ hw').1, (lo' _ _ hw').2.1, (lo' _ _ hh).2.2.1, (lo' _ _ hh).2.2.2⟩
  constructor
  · intro p hp
    have : (corners j h w).Has p := by
      rcases hp with rfl | rfl | rfl | rfl
      · exact (pickMin_has (fun p => p.x + p.y) (corners j h w)).1
      · exact (pickMin_has (fun p => p.y - p.x) (corners j h w)).1
      · exact (pickMax_has (fun p => p.x + p.y) (corners j h w)).1
      · exact (pickMax_has (fun p => p.y - p.x) (corners j h w)).1
    exact ⟨this, hw p this⟩
  · intro p hp
    exact ⟨(pickMin_has (fun p => p.x + p.y) (corners j h w)).2 p hp, (pickMax_has (fun p => p.x + p.y) (corners j h w)).2 p hp,
      (pickMin_has (fun p => p.y - p.x) (corners j h w)).2 p hp, (pickMax_has (fun p => p.y - p.x) (corners j h w)).2 p hp⟩

/-- C91 (partial): if the jitter is small in comparison with both sides, every corner of the result shows the point that was drawn for it, at the
documented distance from the corner of the image. Missing: larger jitter and elongated images, `corner_used_twice`. -/
theorem corners_kept_partial (j : Quad) (h w : Nat) (hs : Small j h w) (q : Quad) (hq : q = order (corners j h w)) :
    q.tl = ⟨Int.fract |j.tl.x| * w, Int.fract |j.tl.y| * h⟩ ∧ q.tr = ⟨w - Int.fract |j.tr.x| * w, Int.fract |j.tr.y| * h⟩ ∧
    q.br = ⟨w - Int.fract |j.br.x| * w, h - Int.fract |j.br.y| * h⟩ ∧ q.bl = ⟨Int.fract |j.bl.x| * w, h - Int.fract |j.bl.y| * h⟩ := by
  rw [small_order j h w hs] at hq
  subst hq
  simp [corners, frac, sub_mul]

example : Small (evenly (1 / 4)) 10 12 := by
  refine ⟨1 / 4, ?_, by norm_num⟩
  rintro p (rfl | rfl | rfl | rfl) <;> simp [evenly] <;> norm_num

/-- C91 is false of images that are not square: in an image of 1000 rows and 50 columns a jitter of 6% of the height at one corner suffices to make
one point both the upper left and the upper right corner, so that the upper edge of the result is a single point. -/
theorem corner_used_twice : (order (corners ⟨⟨0, 6 / 100⟩, ⟨0, 0⟩, ⟨0, 0⟩, ⟨0, 0⟩⟩ 1000 50)).tl = ⟨50, 0⟩ ∧
    (order (corners ⟨⟨0, 6 / 100⟩, ⟨0, 0⟩, ⟨0, 0⟩, ⟨0, 0⟩⟩ 1000 50)).tr = ⟨50, 0⟩ := by
  decide +kernel

/-- C91: without `fit_output` the result always has at least two rows and two columns, and the points that become its corners are at least 2 apart
along each of its four edges. -/
theorem sizes_at_least_two (solve : Solve) (j : Quad) (h w : Nat) :
    2 ≤ (sample solve false j h w).h ∧ 2 ≤ (sample solve false j h w).w ∧
      2 ≤ dist (source j h w).tl (source j h w).tr ∧ 2 ≤ dist (source j h w).bl (source j h w).br ∧
      2 ≤ dist (source j h w).tl (source j h w).bl ∧ 2 ≤ dist (source j h w).tr (source j h w).br := by
  have dc : ∀ p q : Pt, dist p q = dist q p := by
    intro p q
    simp only [dist]
    congr 3
    ring
  have hw := widened_enough (order (corners j h w))
  have hh : 2 ≤ minHeight (source j h w) := heightened_enough _
  obtain ⟨e1, e2⟩ := heightenLoop_widths
    ⌈2 - min ((widened (order (corners j h w))).br.y - (widened (order (corners j h w))).tr.y)
      ((widened (order (corners j h w))).bl.y - (widened (order (corners j h w))).tl.y)⌉.toNat (widened (order (corners j h w)))
  have e1' : dist (source j h w).tr (source j h w).tl = dist (widened (order (corners j h w))).tr (widened (order (corners j h w))).tl := e1
  have e2' : dist (source j h w).br (source j h w).bl = dist (widened (order (corners j h w))).br (widened (order (corners j h w))).bl := e2
  unfold minWidth at hw
  unfold minHeight at hh
  have h3 : (sample solve false j h w).h = maxHeight (source j h w) := rfl
  have h4 : (sample solve false j h w).w = maxWidth (widened (order (corners j h w))) := rfl
  rw [h3, h4, maxHeight, maxWidth, dc (source j h w).tl (source j h w).tr, dc (source j h w).bl (source j h w).br, e1', e2']
  omega

/-- C91: without `fit_output` the four points become the four corners of the result, if there is exactly one such transformation. -/
theorem result_corners (solve : Solve) (hs : Solves solve) (j : Quad) (h w : Nat) (s : Sample) (hsm : s = sample solve false j h w)
    (hq : Solvable (source j h w) (rect s.h s.w)) (hd : ∀ p, (source j h w).Has p → s.m.den p ≠ 0) :
    s.m.apply (source j h w).tl = ⟨0, 0⟩ ∧ s.m.apply (source j h w).tr = ⟨s.w, 0⟩ ∧
    s.m.apply (source j h w).br = ⟨s.w, s.h⟩ ∧ s.m.apply (source j h w).bl = ⟨0, s.h⟩ := by
  subst hsm
  obtain ⟨m, hm, hu⟩ := hq
  have e : (sample solve false j h w).m = m := hs _ _ m hm hu
  rw [e] at hd ⊢
  exact ⟨sends_apply _ _ _ hm.2.1 (hd _ (by simp [Quad.Has])), sends_apply _ _ _ hm.2.2.1 (hd _ (by simp [Quad.Has])),
    sends_apply _ _ _ hm.2.2.2.1 (hd _ (by simp [Quad.Has])), sends_apply _ _ _ hm.2.2.2.2 (hd _ (by simp [Quad.Has]))⟩

example (solve : Solve) (hs : Solves solve) : ∃ s, s = sample solve false turning 7 7 ∧ Solvable (source turning 7 7) (rect s.h s.w) ∧
    ∀ p, (source turning 7 7).Has p → s.m.den p ≠ 0 := by
  refine ⟨_, rfl, ?_, ?_⟩
  · rw [turning_sample solve hs]; exact ⟨_, turning_solvable⟩
  · rw [turning_sample solve hs]; intro p _; simp [M3.den]

/-- C91: without jitter nothing is changed, with and without `fit_output`, if the image has at least two rows and columns. -/
theorem no_jitter (solve : Solve) (hs : Solves solve) (fit : Bool) (h w : Nat) (h0 : 2 ≤ h) (w0 : 2 ≤ w) :
    sample solve fit still h w = ⟨⟨1, 0, 0, 0, 1, 0, 0, 0, 1⟩, h, w⟩ := by
  obtain ⟨d1, d2, d3, d4⟩ := rect_dist h w
  have ho := small_order still h w (still_small h w (by omega) (by omega))
  have hr : Roomy (corners still h w) := by
    rw [corners_still, Roomy, minWidth, minHeight, d1, d2, d3, d4]
    simp [h0, w0]
  obtain ⟨e1, e2, e3⟩ := source_roomy still h w ho hr
  rw [corners_still] at e1 e2 e3
  have e2' : widthOf still h w = w := by rw [e2, maxWidth, d1, d2, max_self]
  have e3' : heightOf still h w = h := by rw [e3, maxHeight, d3, d4, max_self]
  have em : matrixOf solve still h w = ⟨1, 0, 0, 0, 1, 0, 0, 0, 1⟩ := by
    rw [matrixOf, e1, e2', e3']
    exact rect_solution h w (by omega) (by omega) solve hs
  cases fit with
  | false =>
    show (⟨matrixOf solve still h w, heightOf still h w, widthOf still h w⟩ : Sample) = _
    rw [em, e2', e3']
  | true =>
    show expandTransform solve (matrixOf solve still h w) h w = _
    rw [em, expandTransform, expanded_one, rect_solution h w (by omega) (by omega) solve hs, (rect_low h w).2]
    have a1 : pyInt (h : ℚ) = h := by exact_mod_cast pyInt_intCast (h : Int)
    have a2 : pyInt (w : ℚ) = w := by exact_mod_cast pyInt_intCast (w : Int)
    simp [a1, a2]

/-- C91 is false of images of one column: without any jitter they are moved by half a pixel and made two columns wide (and hence, with `keep_size`,
squeezed). -/
theorem one_column_changed (solve : Solve) (hs : Solves solve) (h : Nat) (h0 : 2 ≤ h) :
    sample solve false still h 1 = ⟨⟨1, 0, 1 / 2, 0, 1, 0, 0, 0, 1⟩, h, 2⟩ := by
  obtain ⟨d1, d2, d3, d4⟩ := rect_dist h 1
  have ho : order (corners still h 1) = rect h 1 := by
    rw [small_order still h 1 (still_small h 1 (by omega) (by omega)), corners_still]
  let q : Quad := ⟨⟨-1 / 2, 0⟩, ⟨3 / 2, 0⟩, ⟨3 / 2, h⟩, ⟨-1 / 2, h⟩⟩
  have g1 : dist q.tr q.tl = 2 := dist_exact _ _ _ (by norm_num [q])
  have g2 : dist q.br q.bl = 2 := dist_exact _ _ _ (by norm_num [q])
  have g3 : dist q.tr q.br = h := dist_exact _ _ _ (by simp [q])
  have g4 : dist q.tl q.bl = h := dist_exact _ _ _ (by simp [q])
  have hwid : widened (rect h 1) = q := by
    have hn : ⌈(2 : ℚ) - min ((rect h 1).tr.x - (rect h 1).tl.x) ((rect h 1).br.x - (rect h 1).bl.x)⌉.toNat = 1 := by
      simp only [rect]; norm_num
    rw [widened, hn, widenLoop, minWidth, d1, d2, if_pos (by norm_num), widenLoop]
    simp [grownX, rect, q]
    norm_num
  have hsrc : source still h 1 = q := by
    rw [source, ho, hwid]
    exact heightenLoop_roomy _ _ (by rw [minHeight, g3, g4]; simpa using h0)
  have hW : widthOf still h 1 = 2 := by rw [widthOf, ho, hwid, maxWidth, g1, g2]; rfl
  have hH : heightOf still h 1 = h := by rw [heightOf, hsrc, maxHeight, g3, g4, max_self]
  have hm : matrixOf solve still h 1 = ⟨1, 0, 1 / 2, 0, 1, 0, 0, 0, 1⟩ := by
    have hh : (h : ℚ) ≠ 0 := by exact_mod_cast (by omega : h ≠ 0)
    have := upright solve hs (-1 / 2) 0 2 h (by norm_num) hh h 2 (by omega) (by norm_num)
    rw [matrixOf, hsrc, hW, hH]
    have e : q = ⟨⟨-1 / 2, 0⟩, ⟨-1 / 2 + 2, 0⟩, ⟨-1 / 2 + 2, 0 + h⟩, ⟨-1 / 2, 0 + h⟩⟩ := by
      simp only [q]; norm_num
    rw [e, this]
    simp [hh]
    norm_num
  show (⟨matrixOf solve still h 1, heightOf still h 1, widthOf still h 1⟩ : Sample) = _
  rw [hm, hW, hH]

example : ∃ solve, Solves solve := exists_solver

/-- C91: with `fit_output` no part of the image leaves the result, if there is exactly one transformation to the enlarged plane and the corners of the
image stay in front of the viewer. -/
theorem fit_output_shows_all (solve : Solve) (hs : Solves solve) (j : Quad) (h w : Nat) (s : Sample) (hsm : s = sample solve true j h w)
    (hq : Solvable (rect h w) (expanded (sample solve false j h w).m h w)) (hd : ∀ c, (rect h w).Has c → 0 < s.m.den c) (p : Pt)
    (hp : Within h w p) : Within s.h s.w (s.m.apply p) := by
  subst hsm
  obtain ⟨m, hm, hu⟩ := hq
  have hm' : Fits m (rect h w) (expanded (matrixOf solve j h w) h w) := hm
  have e : (sample solve true j h w).m = m := hs _ _ m hm hu
  rw [e] at hd ⊢
  exact inside m h w _ hm' hd _ _ (fun c hc => expanded_within solve _ h w c hc) p hp

example (solve : Solve) (hs : Solves solve) : Solvable (rect 10 10) (expanded (sample solve false (evenly (1 / 10)) 10 10).m 10 10) ∧
    ∀ c, (rect 10 10).Has c → 0 < (sample solve true (evenly (1 / 10)) 10 10).m.den c := by
  have he : (sample solve false (evenly (1 / 10)) 10 10).m = ⟨1, 0, -1, 0, 1, -1, 0, 0, 1⟩ := by rw [even_sample solve hs]
  have hx : expanded ⟨1, 0, -1, 0, 1, -1, 0, 0, 1⟩ 10 10 = rect 10 10 := by decide +kernel
  have ht : (sample solve true (evenly (1 / 10)) 10 10).m = solve (rect 10 10) (expanded (sample solve false (evenly (1 / 10)) 10 10).m 10 10) := rfl
  rw [ht, he, hx, rect_solution 10 10 (by norm_num) (by norm_num) solve hs]
  constructor
  · refine ⟨⟨1, 0, 0, 0, 1, 0, 0, 0, 1⟩, ?_, ?_⟩
    · simp [Fits, M3.Sends, rect]
    · intro m hm
      exact rect_unique 10 10 (by norm_num) (by norm_num) 0 0 m ⟨0, 0⟩ ⟨10, 0⟩ ⟨10, 10⟩ ⟨0, 10⟩ (by simp) (by simp) (by simp) (by simp)
        (by simpa [rect] using hm)
  · intro c _; simp [M3.den]

/-- C91: the keypoints of a non-empty image are moved by the matrix, and with `keep_size` scaled from the size of the result back to the size of the
image; empty images keep their keypoints. -/
theorem keypoints_moved (keep : Bool) (s : Sample) (hs : 0 < s.h ∧ 0 < s.w) (c : Option Nat) (k : KPsOnImage) :
    keypoints keep s c k =
      if k.shape.h = 0 ∨ k.shape.w = 0 ∨ c = some 0 then some k
      else if keep then some ⟨k.kps.map (fun p => ⟨(s.m.apply p).x / s.w * k.shape.w, (s.m.apply p).y / s.h * k.shape.h⟩), k.shape⟩
      else some ⟨k.kps.map s.m.apply, ⟨s.h, s.w⟩⟩ := by
  obtain ⟨kps, ⟨h, w⟩⟩ := k
  unfold keypoints
  by_cases hz : h = 0 ∨ w = 0 ∨ c = some 0
  · rw [if_pos hz, if_pos hz]
  · rw [if_neg hz, if_neg hz]
    cases keep with
    | false => rfl
    | true =>
      rw [if_pos rfl, if_pos rfl, KPsOnImage.on]
      have hh : (s.h : ℚ) ≠ 0 := by exact_mod_cast hs.1.ne'
      have hw : (s.w : ℚ) ≠ 0 := by exact_mod_cast hs.2.ne'
      by_cases he : (⟨h, w⟩ : Shape) = ⟨s.h, s.w⟩
      · rw [if_pos he]
        simp only [Shape.mk.injEq] at he
        obtain ⟨rfl, rfl⟩ := he
        have : (fun p : Pt => (⟨(s.m.apply p).x / s.w * s.w, (s.m.apply p).y / s.h * s.h⟩ : Pt)) = s.m.apply := by
          funext p
          rw [div_mul_cancel₀ _ hw, div_mul_cancel₀ _ hh]
        rw [this]
      · rw [if_neg he, Imgaug.Props.mapM_some_of_forall _ (fun p => (⟨p.x / s.w * w, p.y / s.h * h⟩ : Pt))]
        · simp [List.map_map, Function.comp_def]
        · intro p _
          have he' : ¬ (⟨s.h, s.w⟩ : Shape) = ⟨h, w⟩ := fun e => he e.symm
          have hpos : s.h > 0 ∧ s.w > 0 ∧ h > 0 ∧ w > 0 := by omega
          rw [projectPt, if_neg he', if_pos hpos]

/-- C91 (partial): a position in the image and the same position in a heatmap or segmentation map of another size, both as fractions of the sides, end
at the same position, if the jitter is small in comparison with both sizes and the points are at least 2 apart in both. Missing: small maps,
`small_maps_misaligned`. -/
theorem maps_aligned_partial (solve : Solve) (hs : Solves solve) (j : Quad) (h w h' w' : Nat) (h0 : 0 < h ∧ 0 < w) (h1 : 0 < h' ∧ 0 < w')
    (hj : Small j h w) (hj' : Small j h' w') (hr : Roomy (corners j h w)) (hr' : Roomy (corners j h' w'))
    (hq : Solvable (corners j h w) (rect (sample solve false j h w).h (sample solve false j h w).w)) (u : Pt) :
    share (sample solve false j h w) h w u = share (sample solve false j h' w') h' w' u := by
  have z := sizes_at_least_two solve j h w
  have z' := sizes_at_least_two solve j h' w'
  obtain ⟨e1, -, -⟩ := source_roomy j h w (small_order j h w hj) hr
  obtain ⟨e1', -, -⟩ := source_roomy j h' w' (small_order j h' w' hj') hr'
  have hm : (sample solve false j h w).m = solve (corners j h w) (rect (sample solve false j h w).h (sample solve false j h w).w) := by
    rw [← e1]; rfl
  have hm' : (sample solve false j h' w').m = solve (corners j h' w') (rect (sample solve false j h' w').h (sample solve false j h' w').w) := by
    rw [← e1']; rfl
  generalize hS : sample solve false j h w = S at *
  generalize hT : sample solve false j h' w' = T at *
  have q1 : (w : ℚ) ≠ 0 := by exact_mod_cast h0.2.ne'
  have q2 : (h : ℚ) ≠ 0 := by exact_mod_cast h0.1.ne'
  have q3 : (w' : ℚ) ≠ 0 := by exact_mod_cast h1.2.ne'
  have q4 : (h' : ℚ) ≠ 0 := by exact_mod_cast h1.1.ne'
  have q5 : (S.w : ℚ) ≠ 0 := by exact_mod_cast (by omega : S.w ≠ 0)
  have q6 : (S.h : ℚ) ≠ 0 := by exact_mod_cast (by omega : S.h ≠ 0)
  have q7 : (T.w : ℚ) ≠ 0 := by exact_mod_cast (by omega : T.w ≠ 0)
  have q8 : (T.h : ℚ) ≠ 0 := by exact_mod_cast (by omega : T.h ≠ 0)
  have r1 := rescale_solves solve hs _ _ hq ((w' : ℚ) / w) ((h' : ℚ) / h) ((T.w : ℚ) / S.w) ((T.h : ℚ) / S.h) (div_ne_zero q3 q1)
    (div_ne_zero q4 q2) (div_ne_zero q7 q5) (div_ne_zero q8 q6)
  rw [← corners_scaled j h w h' w' h0.1 h0.2, ← rect_scaled S.h S.w T.h T.w (by omega) (by omega), ← hm, ← hm'] at r1
  have r2 := rescale_apply S.m ((w' : ℚ) / w) ((h' : ℚ) / h) ((T.w : ℚ) / S.w) ((T.h : ℚ) / S.h) (div_ne_zero q3 q1) (div_ne_zero q4 q2)
    ⟨u.x * w, u.y * h⟩
  rw [← r1] at r2
  have e : scaled ((w' : ℚ) / w) ((h' : ℚ) / h) ⟨u.x * w, u.y * h⟩ = ⟨u.x * w', u.y * h'⟩ := by
    simp only [scaled, Pt.mk.injEq]
    constructor <;> field_simp
  rw [e] at r2
  unfold share
  rw [r2]
  simp only [scaled, Pt.mk.injEq]
  constructor <;> field_simp

example (solve : Solve) (hs : Solves solve) : Small (evenly (1 / 10)) 10 10 ∧ Small (evenly (1 / 10)) 20 30 ∧
    Roomy (corners (evenly (1 / 10)) 10 10) ∧ Roomy (corners (evenly (1 / 10)) 20 30) ∧
    Solvable (corners (evenly (1 / 10)) 10 10)
      (rect (sample solve false (evenly (1 / 10)) 10 10).h (sample solve false (evenly (1 / 10)) 10 10).w) := by
  have hA : AtMost (1 / 10) (evenly (1 / 10)) := by
    rintro p (rfl | rfl | rfl | rfl) <;> simp [evenly] <;> norm_num
  refine ⟨⟨1 / 10, hA, by norm_num⟩, ⟨1 / 10, hA, by norm_num⟩, ?_, ?_, ?_⟩
  · unfold Roomy; decide +kernel
  · unfold Roomy; decide +kernel
  · rw [even_sample solve hs]
    have e3 : corners (evenly (1 / 10)) 10 10 = ⟨⟨1, 1⟩, ⟨1 + 8, 1⟩, ⟨1 + 8, 1 + 8⟩, ⟨1, 1 + 8⟩⟩ := by decide +kernel
    rw [e3]
    refine ⟨⟨1, 0, -1, 0, 1, -1, 0, 0, 1⟩, ?_, ?_⟩
    · simp [Fits, M3.Sends, rect]
    · intro m hm
      exact rect_unique 8 8 (by norm_num) (by norm_num) (-1) (-1) m ⟨1, 1⟩ ⟨9, 1⟩ ⟨9, 9⟩ ⟨1, 9⟩ (by norm_num) (by norm_num) (by norm_num)
        (by norm_num) (by norm_num [rect] at hm ⊢; exact hm)

/-- C91 is false of small heatmaps: of an image of 10 x 10 pixels the middle 80% are cut out, of its 2 x 2 heatmap more than the whole. -/
theorem small_maps_misaligned (solve : Solve) (hs : Solves solve) :
    share (sample solve false (evenly (1 / 10)) 10 10) 10 10 ⟨1 / 10, 1 / 10⟩ = ⟨0, 0⟩ ∧
    share (sample solve false (evenly (1 / 10)) 2 2) 2 2 ⟨1 / 10, 1 / 10⟩ = ⟨5 / 26, 5 / 26⟩ := by
  constructor
  · rw [even_sample solve hs, share]
    norm_num [M3.apply, M3.den]
  · have e1 : heightOf (evenly (1 / 10)) 2 2 = 2 := by decide +kernel
    have e2 : widthOf (evenly (1 / 10)) 2 2 = 2 := by decide +kernel
    have e3 : source (evenly (1 / 10)) 2 2 = ⟨⟨-3 / 10, -3 / 10⟩, ⟨-3 / 10 + 26 / 10, -3 / 10⟩, ⟨-3 / 10 + 26 / 10, -3 / 10 + 26 / 10⟩,
        ⟨-3 / 10, -3 / 10 + 26 / 10⟩⟩ := by decide +kernel
    have e : sample solve false (evenly (1 / 10)) 2 2 = ⟨⟨20 / 26, 0, 6 / 26, 0, 20 / 26, 6 / 26, 0, 0, 1⟩, 2, 2⟩ := by
      show (⟨matrixOf _ _ _ _, heightOf _ _ _, widthOf _ _ _⟩ : Sample) = _
      rw [matrixOf, e1, e2, e3,
        upright solve hs (-3 / 10) (-3 / 10) (26 / 10) (26 / 10) (by norm_num) (by norm_num) 2 2 (by norm_num) (by norm_num)]
      norm_num
    rw [e, share]
    norm_num [M3.apply, M3.den]

/-- C91 (partial): if the transformation is a translation, the keypoint at the middle of a pixel ends at the middle of the place where
`cv2.warpPerspective` puts that pixel. Missing: all other transformations, `keypoints_beside_pixels`. -/
theorem keypoints_on_pixels_partial (m : M3) (a b : ℚ) (hm : m = ⟨1, 0, a, 0, 1, b, 0, 0, 1⟩) (p : Pt) :
    m.apply (middle p) = middle (m.apply p) := by
  subst hm
  simp only [M3.apply, M3.den, middle]
  norm_num
  constructor <;> ring

/-- C91 is false of other transformations: the matrix is meant for pixel indices, of which the middle of a pixel is an integer; for keypoints the
middle of a pixel is at 1/2. When an image is turned, keypoints end up to half a pixel beside their pixel. -/
theorem keypoints_beside_pixels (solve : Solve) (hs : Solves solve) (p : Pt) :
    let m := (sample solve false turning 7 7).m
    (m.apply (middle p)).x = (middle (m.apply p)).x + 1 / 5 ∧ (m.apply (middle p)).y = (middle (m.apply p)).y - 2 / 5 := by
  intro m
  have e : m = ⟨4 / 5, 3 / 5, -12 / 5, -3 / 5, 4 / 5, 9 / 5, 0, 0, 1⟩ := by
    show (sample solve false turning 7 7).m = _
    rw [turning_sample solve hs]
  rw [e]
  simp only [M3.apply, M3.den, middle]
  norm_num
  constructor <;> ring

/-- C91: an image of a supported dtype always yields an image of the same dtype and number of channels; with `keep_size` of the same size, otherwise of
the size that was computed. Unsupported dtypes raise an exception. -/
theorem image_shape (warp : Warp) (cv : Cv) (keep : Bool) (s : Sample) (hs : 0 < s.h ∧ 0 < s.w) (cval : List ℚ) (replicate : Bool) (im : Im) (n : Nat)
    (hc : im.c = some n) (h0 : 0 < im.h ∧ 0 < im.w ∧ 0 < n) :
    (im.dt ∈ Conv.supported → ∃ r, image warp cv keep s cval replicate im = some r ∧ r.dt = im.dt ∧ r.c = im.c ∧
      r.h = (if keep then im.h else s.h) ∧ r.w = (if keep then im.w else s.w)) ∧
    (im.dt ∈ [⟨.u, 4⟩, ⟨.u, 8⟩, ⟨.i, 4⟩, ⟨.i, 8⟩, ⟨.f, 16⟩] → image warp cv keep s cval replicate im = none) := by
  constructor
  · intro hd
    have hrej : ¬ (Conv.rejected im.dt = true) := by
      simp only [Conv.supported, List.mem_cons, List.not_mem_nil, or_false] at hd
      rcases hd with e | e | e | e | e | e | e | e <;> rw [e] <;> decide
    have hin : Conv.inner im.dt ∈ Resize.documented ((none : Option Inter) == some .nearest) := by
      simp only [Conv.supported, List.mem_cons, List.not_mem_nil, or_false] at hd
      rcases hd with e | e | e | e | e | e | e | e <;> rw [e] <;> decide
    have hz : ¬ (im.h = 0 ∨ im.w = 0 ∨ n = 0) := by omega
    have e0 : image warp cv keep s cval replicate im = (if keep then single cv none (.tuple [.int im.h, .int im.w]) (warped warp s cval replicate im n)
        else some (warped warp s cval replicate im n)).map (restoredIm im.dt) := by
      unfold image
      rw [if_neg hrej, hc]
      exact if_neg hz
    rw [e0]
    cases keep with
    | false => exact ⟨_, rfl, rfl, hc.symm, rfl, rfl⟩
    | true =>
      rw [if_pos rfl]
      have hS := (Resize.resize_succeeds cv none (warped warp s cval replicate im n) im.h im.w).2
        (Or.inr (Or.inr (Or.inr (Or.inr ⟨hs.1, hs.2, hin⟩))))
      obtain ⟨r, hr⟩ := Option.isSome_iff_exists.1 hS
      obtain ⟨_, g2, g3, g4⟩ := Resize.resized_shape cv none _ _ _ r hr
      refine ⟨restoredIm im.dt r, by rw [hr]; rfl, rfl, ?_, ?_, ?_⟩
      · show r.c = im.c
        rw [g2, hc]; rfl
      · show r.h = im.h
        simpa [AsksFor] using g3
      · show r.w = im.w
        simpa [AsksFor] using g4
  · intro hd
    unfold image
    rw [if_pos]
    simp only [List.mem_cons, List.not_mem_nil, or_false] at hd
    rcases hd with e | e | e | e | e <;> rw [e] <;> decide

example : ∃ im : Im, im.c = some 3 ∧ 0 < im.h ∧ 0 < im.w ∧ im.dt ∈ Conv.supported := ⟨⟨⟨.u, 1⟩, 4, 5, some 3, fun _ _ _ => 0⟩, rfl, by decide, by decide, by decide⟩

/-- C91: without jitter the images are unchanged, for both values of `keep_size` and `fit_output`. -/
theorem no_jitter_images (solve : Solve) (hsv : Solves solve) (warp : Warp) (hw : KeepsStill warp) (cv : Cv) (keep fit : Bool) (cval : List ℚ)
    (replicate : Bool) (im : Im) (n : Nat) (hc : im.c = some n) (h0 : 2 ≤ im.h ∧ 2 ≤ im.w) (hd : im.dt ∈ Conv.supported) (hv : Valid im) :
    ∃ r, image warp cv keep (sample solve fit still im.h im.w) cval replicate im = some r ∧ r.dt = im.dt ∧ r.h = im.h ∧ r.w = im.w ∧ r.c = im.c ∧
      ∀ y < im.h, ∀ x < im.w, ∀ k, r.px y x k = im.px y x k := by
  have hrej : ¬ (Conv.rejected im.dt = true) := by
    simp only [Conv.supported, List.mem_cons, List.not_mem_nil, or_false] at hd
    rcases hd with e | e | e | e | e | e | e | e <;> rw [e] <;> decide
  rw [no_jitter solve hsv fit im.h im.w h0.1 h0.2]
  unfold image
  rw [if_neg hrej, hc]
  by_cases hz : im.h = 0 ∨ im.w = 0 ∨ n = 0
  · simp only [if_pos hz]
    exact ⟨im, rfl, rfl, rfl, rfl, hc, fun _ _ _ _ _ => rfl⟩
  · simp only [if_neg hz]
    have hk : (if keep then single cv none (.tuple [.int im.h, .int im.w])
          (warped warp ⟨⟨1, 0, 0, 0, 1, 0, 0, 0, 1⟩, im.h, im.w⟩ cval replicate im n)
        else some (warped warp ⟨⟨1, 0, 0, 0, 1, 0, 0, 0, 1⟩, im.h, im.w⟩ cval replicate im n)) =
        some (warped warp ⟨⟨1, 0, 0, 0, 1, 0, 0, 0, 1⟩, im.h, im.w⟩ cval replicate im n) := by
      cases keep with
      | false => rfl
      | true => exact Resize.same_size_kept cv none (warped warp ⟨⟨1, 0, 0, 0, 1, 0, 0, 0, 1⟩, im.h, im.w⟩ cval replicate im n)
    rw [hk]
    refine ⟨_, rfl, rfl, rfl, rfl, rfl, ?_⟩
    intro y hy x hx k
    show Conv.restored im.dt (warp _ _ _ _ _ _ _ _ _ y x) = _
    rw [hw _ _ _ _ _ _ y hy x hx]
    exact Conv.restored_holds im.dt hd _ (hv y x k)

example : ∃ warp, KeepsStill warp := ⟨fun _ _ _ _ _ _ _ _ f => f, fun _ _ _ _ _ _ _ _ _ _ => rfl⟩

/-- C91: every channel is transformed on its own, with the number of `cval` that belongs to it: a component of the result depends on this channel
of the image only. -/
theorem image_channels (warp : Warp) (cv : Cv) (s : Sample) (cval : List ℚ) (replicate : Bool) (im r : Im) (n : Nat) (hc : im.c = some n)
    (h0 : 0 < im.h ∧ 0 < im.w ∧ 0 < n) (hr : image warp cv false s cval replicate im = some r) (y x k : Nat) :
    r.px y x k = Conv.restored im.dt
      (warp (Conv.inner im.dt) s.m (if n ≤ 4 then cval.getD k 0 else cval.getD (min k (cval.length - 1)) 0) replicate im.h im.w s.h s.w
        (fun y x => im.px y x k) y x) := by
  unfold image at hr
  split at hr
  · cases hr
  · rw [hc] at hr
    have hz : ¬ (im.h = 0 ∨ im.w = 0 ∨ n = 0) := by omega
    simp only [if_neg hz, Option.map_some, Option.some.injEq, Bool.false_eq_true, if_false] at hr
    subst hr
    rfl

/-- C91 (partial): images of up to three channels are filled with the numbers that were drawn for their channels, and those of five and more channels
with the first two and in all further channels with the third. Missing: four channels, `fourth_channel_black`. -/
theorem border_partial (n k : Nat) (a b c : ℚ) (hn : n ≠ 4) (hk : k < n) :
    borderOf n [a, b, c] k = if k = 0 then a else if k = 1 then b else c := by
  unfold borderOf
  rcases k with _ | _ | _ | k
  · split <;> simp
  · split <;> simp
  · split <;> simp
  · rw [if_neg (by omega)]
    have : min (k + 1 + 1 + 1) ([a, b, c].length - 1) = 2 := by simp
    rw [this]
    simp

/-- C91 is false of images of four channels: new pixels get 0 in the fourth channel whatever `cval` is. -/
theorem fourth_channel_black (a b c : ℚ) : borderOf 4 [a, b, c] 3 = 0 := by
  simp [borderOf]

/-- C91 is false of `scale`: documented is one value per image, but the first value is used for all images; if it is 0, no image is changed. -/
theorem one_scale_for_all (scale : Nat → ℚ) (z : Nat → Quad) (i : Nat) (h0 : scale 0 = 0) : jitter scale z i = still := by
  simp [jitter, Quad.map, still, h0]

/-- C91: the jitter of an image is its own normally distributed numbers times the scale, so a scale of `t` for all images works as documented. -/
theorem constant_scale (t : ℚ) (z : Nat → Quad) (i : Nat) :
    jitter (fun _ => t) z i = ⟨⟨t * (z i).tl.x, t * (z i).tl.y⟩, ⟨t * (z i).tr.x, t * (z i).tr.y⟩, ⟨t * (z i).br.x, t * (z i).br.y⟩,
      ⟨t * (z i).bl.x, t * (z i).bl.y⟩⟩ := rfl

/-- C91: image, keypoints and maps agree on the size of the image afterwards. -/
theorem sizes_agree (warp : Warp) (cv : Cv) (keep : Bool) (s t : Sample) (hs : 0 < s.h ∧ 0 < s.w) (cval : List ℚ) (replicate : Bool) (im r : Im)
    (hd : im.dt ∈ Conv.supported) (hr : image warp cv keep s cval replicate im = some r) (k k' : KPsOnImage) (hk : k.shape = ⟨im.h, im.w⟩)
    (hk' : keypoints keep s im.c k = some k') (arr : Shape) :
    k'.shape = ⟨r.h, r.w⟩ ∧ (mapSizes keep t s im.c arr k.shape).2 = ⟨r.h, r.w⟩ := by
  cases hc : im.c with
  | none =>
    unfold image at hr
    rw [hc] at hr
    split at hr <;> cases hr
  | some n =>
    rw [keypoints_moved keep s hs, hc, hk] at hk'
    by_cases hz : im.h = 0 ∨ im.w = 0 ∨ some n = some 0
    · have hz' : im.h = 0 ∨ im.w = 0 ∨ n = 0 := by simpa using hz
      rw [if_pos hz, Option.some.injEq] at hk'
      subst hk'
      unfold image at hr
      rw [hc] at hr
      split at hr
      · cases hr
      · simp only [if_pos hz', Option.some.injEq] at hr
        subst hr
        refine ⟨hk, ?_⟩
        rw [hk]
        unfold mapSizes
        rw [if_pos hz]
    · have hz' : 0 < im.h ∧ 0 < im.w ∧ 0 < n := by
        simp only [Option.some.injEq] at hz
        omega
      rw [if_neg hz] at hk'
      obtain ⟨r', hr', _, _, g3, g4⟩ := (image_shape warp cv keep s hs cval replicate im n hc hz').1 hd
      rw [hr, Option.some.injEq] at hr'
      subst hr'
      rw [hk]
      unfold mapSizes
      rw [if_neg hz]
      cases keep with
      | false =>
        simp only [Bool.false_eq_true, if_false, Option.some.injEq] at hk' g3 g4 ⊢
        subst hk'
        rw [g3, g4]
        exact ⟨rfl, rfl⟩
      | true =>
        simp only [if_true, Option.some.injEq] at hk' g3 g4 ⊢
        subst hk'
        rw [g3, g4]
        exact ⟨rfl, rfl⟩

/-- C91: the accepted modes: `imgaug.ALL`, every parameter, and the two borders "replicate" and "constant" by name or number, alone or in lists. -/
theorem modes_accepted (m : Mode) : modeOk m = true ↔ m = .all ∨ m = .param ∨ (∃ s, m = .text s ∧ (s = "replicate" ∨ s = "constant")) ∨
    (∃ n, m = .int n ∧ (n = 0 ∨ n = 1)) ∨
    ∃ l, m = .list l ∧ ∀ v ∈ l, v = .inl "replicate" ∨ v = .inl "constant" ∨ v = .inr 0 ∨ v = .inr 1 := by
  cases m with
  | text s => simp [modeOk]
  | int n => simp [modeOk, or_comm]
  | list l =>
    simp only [modeOk, List.all_eq_true]
    constructor
    · intro h
      refine Or.inr (Or.inr (Or.inr (Or.inr ⟨l, rfl, fun v hv => ?_⟩)))
      have := h v hv
      cases v with
      | inl s => simpa using this
      | inr n => simpa [or_comm] using this
    · rintro (h | h | ⟨s, h, _⟩ | ⟨n, h, _⟩ | ⟨l', h, hl⟩) v hv
      · cases h
      · cases h
      · cases h
      · cases h
      · cases h
        rcases hl v hv with rfl | rfl | rfl | rfl <;> decide
  | all => simp [modeOk]
  | param => simp [modeOk]
  | other => simp [modeOk]

/-- C91 is false of `mode`: three of the five documented names raise an exception. -/
theorem documented_modes_rejected : modeOk (.text "reflect") = false ∧ modeOk (.text "reflect_101") = false ∧ modeOk (.text "wrap") = false := by
  decide

end Imgaug.Perspective.Props
