import Verif.Proofs.Polar
import Verif.Proofs.Dtypes
/-! C109: warping to polar coordinates and back. -/
namespace Imgaug.Polar
open Imgaug Imgaug.Dtypes

/-- The exact angle of a point, between 0 and a full turn. -/
noncomputable def trueAngle (x y : ℝ) : ℝ := if Complex.arg ⟨x, y⟩ < 0 then Complex.arg ⟨x, y⟩ + 2 * Real.pi else Complex.arg ⟨x, y⟩

/- Exact angles exist, hence also ones with an error. -/
example : Angles trueAngle 0 := by
  intro x y
  have h1 := Complex.arg_le_pi ⟨x, y⟩
  have h2 := Complex.neg_pi_lt_arg ⟨x, y⟩
  have hpi := Real.pi_pos
  have n : ‖(⟨x, y⟩ : ℂ)‖ = Real.sqrt (x ^ 2 + y ^ 2) := by
    rw [Complex.norm_def, Complex.normSq_mk]; congr 1; ring
  have c1 : x = Real.sqrt (x ^ 2 + y ^ 2) * Real.cos (Complex.arg ⟨x, y⟩) := by rw [← n, Complex.norm_mul_cos_arg]
  have c2 : y = Real.sqrt (x ^ 2 + y ^ 2) * Real.sin (Complex.arg ⟨x, y⟩) := by rw [← n, Complex.norm_mul_sin_arg]
  refine ⟨?_, ?_, trueAngle x y, ?_, ?_, by simp⟩
  · unfold trueAngle; split <;> linarith
  · unfold trueAngle; split <;> linarith
  · unfold trueAngle
    split
    · rw [Real.cos_add_two_pi]; exact c1
    · exact c1
  · unfold trueAngle
    split
    · rw [Real.sin_add_two_pi]; exact c2
    · exact c2

/-- C109: if the children do nothing, annotations come back: the same rows, image shapes, items, labels and numbers of points, and every point is
moved by at most the error of the computed angle (in radians) times its distance from the centre of the image; with exact angles not at all. -/
theorem annotations_come_back (cv : Cv) (f16 : ℚ → ℚ) (angle : ℝ → ℝ → ℝ) (ε : ℝ) (hA : Angles angle ε) (b r : Batch)
    (h : augment cv f16 angle some b = some r) :
    Rows (Moved ε) b.kps r.kps ∧ Rows (Moved ε) b.lines r.lines ∧ (b.boxes = none → Rows (Moved ε) b.polys r.polys) := by
  obtain ⟨-, w, c, ps, -, hc, h0, -, -, -, w4, w5, w6, -, -, -, -, u4, u6, polys, u5, hb⟩ := augment_parts cv f16 angle some b r h
  rw [Option.some.injEq] at hc
  subst hc
  have key : ∀ a b c, warpItems angle a = some b → unwarpItems angle b a.shape = some c → Moved ε a c := fun a b c h1 h2 => moved_row angle ε hA a b c h1 h2
  refine ⟨col_rows _ _ _ key _ _ _ w4 u4, col_rows _ _ _ key _ _ _ w6 u6, ?_⟩
  intro hn
  rcases hb with ⟨-, -, rfl⟩ | ⟨bs, l, s, e, -⟩
  · have : ps = b.polys := by
      unfold polysWithBoxes at h0
      rw [hn] at h0
      simpa using h0.symm
    subst this
    exact col_rows _ _ _ key _ _ _ w5 u5
  · rw [hn] at e; cases e

/-- C109: also bounding boxes, which are handled as polygons in between, come back: the same rows, image shapes and labels, in the same order, with
coordinates that differ by at most the error of the angle times the greatest distance of a point of the box from the centre of the image. Polygons
beside them come back as well, provided that no polygon bears a label with the internal mark. -/
theorem boxes_come_back (cv : Cv) (f16 : ℚ → ℚ) (angle : ℝ → ℝ → ℝ) (ε : ℝ) (hA : Angles angle ε) (b r : Batch)
    (h : augment cv f16 angle some b = some r) (bs : List Boxes) (hbs : b.boxes = some bs) (ho : ∀ x ∈ bs, ∀ q ∈ x.boxes, q.Ordered)
    (hp : ∀ ps, b.polys = some ps → ps.length = bs.length ∧ ∀ a ∈ ps, Unmarked a) :
    ∃ bs', r.boxes = some bs' ∧
      List.Forall₂ (fun (x x' : Boxes) => x'.shape = x.shape ∧ List.Forall₂ (fun q q' => ∀ D, Within x.shape D q → BoxNear (ε * D) q q') x.boxes x'.boxes) bs bs' ∧
      Rows (Moved ε) b.polys r.polys := by
  obtain ⟨-, w, c, ps, -, hc, h0, -, -, -, -, w5, -, -, -, -, -, -, -, polys, u5, hb⟩ := augment_parts cv f16 angle some b r h
  rw [Option.some.injEq] at hc
  subst hc
  have key : ∀ a b c, warpItems angle a = some b → unwarpItems angle b a.shape = some c → Moved ε a c := fun a b c h1 h2 => moved_row angle ε hA a b c h1 h2
  have hrows := col_rows _ _ _ key _ _ _ w5 u5
  have h00 := eps_nonneg angle ε hA
  rcases hb with ⟨e, -⟩ | ⟨bs0, l, s, e, rfl, hs, hrb, hrp⟩
  · rw [hbs] at e; cases e
  cases hpl : b.polys with
  | none =>
    simp only [polysWithBoxes, hbs, hpl, Option.some.injEq] at h0
    subst h0
    simp only [Rows] at hrows
    rw [List.forall₂_map_left_iff] at hrows
    rw [mapM_forall] at hs
    have hgoal : List.Forall₂ (fun (x : Boxes) (q : OnImage × Boxes) => q.2.shape = x.shape ∧
        List.Forall₂ (fun q q' => ∀ D, Within x.shape D q → BoxNear (ε * D) q q') x.boxes q.2.boxes) bs s := by
      clear hrb hrp u5 w5 hbs h e hp
      induction hrows generalizing s with
      | nil => cases hs; exact .nil
      | @cons x a xs as h1 h2 ih =>
        cases hs with
        | cons t1 t2 =>
          obtain ⟨u', bx, z1, -, z3, z4⟩ := separate_moved ε h00 [] x a (ho x (by simp)) (by simp) (by simpa using h1)
          rw [z1, Option.some.injEq] at t1
          subst t1
          exact .cons ⟨z3, z4⟩ (ih (fun x hx => ho x (List.mem_cons_of_mem _ hx)) _ t2)
    refine ⟨_, hrb, List.forall₂_map_right_iff.2 hgoal, ?_⟩
    rw [hrp, hpl]
    trivial
  | some pl =>
    obtain ⟨hlen, hun⟩ := hp pl hpl
    simp only [polysWithBoxes, hbs, hpl, Option.map_eq_some_iff] at h0
    obtain ⟨ps', h0, rfl⟩ := h0
    simp only [Rows] at hrows
    rw [mapM_forall] at hs h0
    have hgoal : List.Forall₂ (fun (x : Boxes) (q : OnImage × Boxes) => q.2.shape = x.shape ∧
        List.Forall₂ (fun q q' => ∀ D, Within x.shape D q → BoxNear (ε * D) q q') x.boxes q.2.boxes) bs s ∧
        List.Forall₂ (fun (a : OnImage) (q : OnImage × Boxes) => Moved ε a q.1) pl s := by
      clear hrb hrp u5 w5 hbs h e hp hpl
      induction pl generalizing bs ps' l s with
      | nil =>
        have : bs = [] := by simpa using hlen.symm
        subst this
        cases h0; cases hrows; cases hs
        exact ⟨.nil, .nil⟩
      | cons a pl ih =>
        cases bs with
        | nil => simp at hlen
        | cons x bs =>
          rw [List.zip_cons_cons] at h0
          cases h0 with
          | cons k1 k2 =>
            cases hrows with
            | cons m1 m2 =>
              cases hs with
              | cons t1 t2 =>
                simp only at k1
                split at k1
                · rename_i hsh
                  rw [Option.some.injEq] at k1
                  subst k1
                  obtain ⟨u', bx, z1, z2, z3, z4⟩ := separate_moved ε h00 a.items x _ (ho x (by simp)) (hun a (by simp)) (hsh ▸ m1)
                  rw [z1, Option.some.injEq] at t1
                  subst t1
                  obtain ⟨g1, g2⟩ := ih _ (fun x hx => ho x (List.mem_cons_of_mem _ hx)) _ _ t2 (by simpa using hlen)
                    (fun a ha => hun a (List.mem_cons_of_mem _ ha)) _ k2 m2
                  refine ⟨.cons ⟨z3, z4⟩ g1, .cons ?_ g2⟩
                  rw [← hsh] at z2
                  exact hsh ▸ z2
                · cases k1
    refine ⟨_, hrb, List.forall₂_map_right_iff.2 hgoal.1, ?_⟩
    rw [hrp, hpl]
    simp only [Option.map_some, Rows]
    exact List.forall₂_map_right_iff.2 hgoal.2

/-- C109: children that move annotations downwards by `t` pixels in the polar image (of height `H`) rotate them around the centre of the image, by
`t / H` full turns. -/
theorem moving_down_rotates (angle : ℝ → ℝ → ℝ) (ε : ℝ) (hA : Angles angle ε) (a : OnImage) (hne : ¬ a.shape.empty) (t : ℝ) :
    ∃ w r, warpItems angle a = some w ∧ unwarpItems angle (w.mapPts (fun q => (q.1, q.2 + t))) a.shape = some r ∧ r.shape = a.shape ∧
      Items (fun p q => dist2 (rotated (middle a.shape) (t / w.shape.h * (2 * Real.pi)) p) q ≤ ε * dist2 p (middle a.shape)) a.items r.items := by
  obtain ⟨p1, p2⟩ := warpShape_pos a.shape hne
  obtain ⟨w, r, e1, e2, e3, e4, e5⟩ := forth_back angle a hne (fun q => (q.1, q.2 + t)) (warpShape a.shape).w (warpShape a.shape).h p1 p2
  refine ⟨w, r, e1, ?_, e4, ?_⟩
  · rw [← e3, ← warpShape_rest a.shape, ← e2]; rfl
  rw [e5, e2]
  refine items_map _ _ a (fun p => ?_)
  have hh : a.shape.h ≠ 0 ∧ a.shape.w ≠ 0 := by unfold Shp.empty at hne; tauto
  have hr := maxRadius_big a.shape.h a.shape.w hh.1 hh.2
  have hWp : (0 : ℝ) < (warpShape a.shape).w := by exact_mod_cast p1
  have hHp : (0 : ℝ) < (warpShape a.shape).h := by exact_mod_cast p2
  have hpi := Real.pi_pos
  obtain ⟨θ, d1, d2⟩ := direction angle ε hA (middle a.shape) p
  simp only
  have c1 : ((warpShape a.shape).w : ℝ) / maxRadius a.shape.h a.shape.w * dist2 p (middle a.shape) / (((warpShape a.shape).w : ℝ) / maxRadius a.shape.h a.shape.w) =
      dist2 p (middle a.shape) := by
    field_simp
  have c2 : (((warpShape a.shape).h : ℝ) / (2 * Real.pi) * angle (p.1 - (middle a.shape).1) (p.2 - (middle a.shape).2) + t) / (((warpShape a.shape).h : ℝ) / (2 * Real.pi)) =
      angle (p.1 - (middle a.shape).1) (p.2 - (middle a.shape).2) + t / (warpShape a.shape).h * (2 * Real.pi) := by
    field_simp
  rw [c1, c2]
  have hrot : rotated (middle a.shape) (t / (warpShape a.shape).h * (2 * Real.pi)) p =
      at' (middle a.shape) (dist2 p (middle a.shape)) (θ + t / (warpShape a.shape).h * (2 * Real.pi)) := by
    conv_lhs => rw [d1]
    rw [rotated_at]
  rw [hrot]
  refine le_trans (at_close _ _ _ _) ?_
  rw [abs_of_nonneg (dist2_nonneg _ _), mul_comm]
  refine mul_le_mul_of_nonneg_right ?_ (dist2_nonneg _ _)
  rw [show θ + t / (warpShape a.shape).h * (2 * Real.pi) - (angle (p.1 - (middle a.shape).1) (p.2 - (middle a.shape).2) + t / (warpShape a.shape).h * (2 * Real.pi)) =
    -(angle (p.1 - (middle a.shape).1) (p.2 - (middle a.shape).2) - θ) by ring, abs_neg]
  exact d2

/-- C109: children that move annotations to the right by `t` pixels in the polar image (of width `W`) move them away from the centre of the image,
by `t / W` halves of its diagonal. -/
theorem moving_right_spreads (angle : ℝ → ℝ → ℝ) (ε : ℝ) (hA : Angles angle ε) (a : OnImage) (hne : ¬ a.shape.empty) (t : ℝ) :
    ∃ w r, warpItems angle a = some w ∧ unwarpItems angle (w.mapPts (fun q => (q.1 + t, q.2))) a.shape = some r ∧ r.shape = a.shape ∧
      Items (fun p q => p ≠ middle a.shape →
        dist2 ((middle a.shape).1 + (p.1 - (middle a.shape).1) * (1 + t / w.shape.w * halfDiagonal a.shape / dist2 p (middle a.shape)),
          (middle a.shape).2 + (p.2 - (middle a.shape).2) * (1 + t / w.shape.w * halfDiagonal a.shape / dist2 p (middle a.shape))) q ≤
          ε * |dist2 p (middle a.shape) + t / w.shape.w * halfDiagonal a.shape|) a.items r.items := by
  obtain ⟨p1, p2⟩ := warpShape_pos a.shape hne
  obtain ⟨w, r, e1, e2, e3, e4, e5⟩ := forth_back angle a hne (fun q => (q.1 + t, q.2)) (warpShape a.shape).w (warpShape a.shape).h p1 p2
  refine ⟨w, r, e1, ?_, e4, ?_⟩
  · rw [← e3, ← warpShape_rest a.shape, ← e2]; rfl
  rw [e5, e2]
  refine items_map _ _ a (fun p hpne => ?_)
  have hh : a.shape.h ≠ 0 ∧ a.shape.w ≠ 0 := by unfold Shp.empty at hne; tauto
  have hr := maxRadius_big a.shape.h a.shape.w hh.1 hh.2
  have hWp : (0 : ℝ) < (warpShape a.shape).w := by exact_mod_cast p1
  have hHp : (0 : ℝ) < (warpShape a.shape).h := by exact_mod_cast p2
  have hpi := Real.pi_pos
  have hdiag : halfDiagonal a.shape = maxRadius a.shape.h a.shape.w := by
    rw [halfDiagonal, maxRadius, show ((a.shape.h : ℝ) / 2) ^ 2 + ((a.shape.w : ℝ) / 2) ^ 2 = ((a.shape.h : ℝ) ^ 2 + (a.shape.w : ℝ) ^ 2) / 2 ^ 2 by ring,
      Real.sqrt_div' _ (by norm_num), Real.sqrt_sq (by norm_num)]
  obtain ⟨θ, d1, d2⟩ := direction angle ε hA (middle a.shape) p
  have hm0 : 0 < dist2 p (middle a.shape) := by
    refine lt_of_le_of_ne (dist2_nonneg _ _) (fun hz => hpne ?_)
    rw [d1, ← hz]
    simp [at']
  simp only
  rw [hdiag]
  have c1 : (((warpShape a.shape).w : ℝ) / maxRadius a.shape.h a.shape.w * dist2 p (middle a.shape) + t) / (((warpShape a.shape).w : ℝ) / maxRadius a.shape.h a.shape.w) =
      dist2 p (middle a.shape) + t / (warpShape a.shape).w * maxRadius a.shape.h a.shape.w := by
    field_simp
  have c2 : ((warpShape a.shape).h : ℝ) / (2 * Real.pi) * angle (p.1 - (middle a.shape).1) (p.2 - (middle a.shape).2) / (((warpShape a.shape).h : ℝ) / (2 * Real.pi)) =
      angle (p.1 - (middle a.shape).1) (p.2 - (middle a.shape).2) := by
    field_simp
  rw [c1, c2]
  generalize hk : t / (warpShape a.shape).w * maxRadius a.shape.h a.shape.w = k
  have hx : p.1 - (middle a.shape).1 = dist2 p (middle a.shape) * Real.cos θ := by
    have := congrArg Prod.fst d1; simp only [at'] at this; linarith
  have hy : p.2 - (middle a.shape).2 = dist2 p (middle a.shape) * Real.sin θ := by
    have := congrArg Prod.snd d1; simp only [at'] at this; linarith
  have hpt : ((middle a.shape).1 + (p.1 - (middle a.shape).1) * (1 + k / dist2 p (middle a.shape)),
      (middle a.shape).2 + (p.2 - (middle a.shape).2) * (1 + k / dist2 p (middle a.shape))) = at' (middle a.shape) (dist2 p (middle a.shape) + k) θ := by
    have hm1 := hm0.ne'
    refine Prod.ext ?_ ?_
    · simp only [at']
      rw [hx]
      generalize dist2 p (middle a.shape) = m at hm1
      field_simp
    · simp only [at']
      rw [hy]
      generalize dist2 p (middle a.shape) = m at hm1
      field_simp
  rw [hpt]
  refine le_trans (at_close _ _ _ _) ?_
  rw [mul_comm]
  refine mul_le_mul_of_nonneg_right ?_ (abs_nonneg _)
  rw [abs_sub_comm]
  exact d2

/-- C109: children that resize the polar image to any other size, with its annotations, have no influence on where the annotations come back. -/
theorem resizing_does_not_matter (angle : ℝ → ℝ → ℝ) (ε : ℝ) (hA : Angles angle ε) (a : OnImage) (hne : ¬ a.shape.empty) (W H : Nat) (hW : 0 < W) (hH : 0 < H) :
    ∃ w r, warpItems angle a = some w ∧
      unwarpItems angle { w.mapPts (fun q => (q.1 * W / w.shape.w, q.2 * H / w.shape.h)) with shape := ⟨H, W, a.shape.rest⟩ } a.shape = some r ∧ Moved ε a r := by
  obtain ⟨p1, p2⟩ := warpShape_pos a.shape hne
  obtain ⟨w, r, e1, e2, e3, e4, e5⟩ := forth_back angle a hne (fun q => (q.1 * W / (warpShape a.shape).w, q.2 * H / (warpShape a.shape).h)) W H hW hH
  refine ⟨w, r, e1, by rw [e2]; exact e3, e4.symm, ?_⟩
  rw [e5]
  refine items_map _ _ a (fun p => ?_)
  have hh : a.shape.h ≠ 0 ∧ a.shape.w ≠ 0 := by unfold Shp.empty at hne; tauto
  have hr := maxRadius_big a.shape.h a.shape.w hh.1 hh.2
  have hWp : (0 : ℝ) < (warpShape a.shape).w := by exact_mod_cast p1
  have hHp : (0 : ℝ) < (warpShape a.shape).h := by exact_mod_cast p2
  have hW' : (0 : ℝ) < W := by exact_mod_cast hW
  have hH' : (0 : ℝ) < H := by exact_mod_cast hH
  have hpi := Real.pi_pos
  obtain ⟨θ, d1, d2⟩ := direction angle ε hA (middle a.shape) p
  simp only
  have c1 : ((warpShape a.shape).w : ℝ) / maxRadius a.shape.h a.shape.w * dist2 p (middle a.shape) * W / (warpShape a.shape).w / ((W : ℝ) / maxRadius a.shape.h a.shape.w) =
      dist2 p (middle a.shape) := by
    field_simp
  have c2 : ((warpShape a.shape).h : ℝ) / (2 * Real.pi) * angle (p.1 - (middle a.shape).1) (p.2 - (middle a.shape).2) * H / (warpShape a.shape).h / ((H : ℝ) / (2 * Real.pi)) =
      angle (p.1 - (middle a.shape).1) (p.2 - (middle a.shape).2) := by
    field_simp
  rw [c1, c2]
  have := at_close (middle a.shape) (dist2 p (middle a.shape)) θ (angle (p.1 - (middle a.shape).1) (p.2 - (middle a.shape).2))
  rw [← d1, abs_of_nonneg (dist2_nonneg _ _), abs_sub_comm] at this
  refine le_trans this ?_
  rw [mul_comm]
  exact mul_le_mul_of_nonneg_right d2 (dist2_nonneg _ _)

/-- C109: every point of the image is inside of the polar image, on its border at most; points are outside of it only if they are farther from the
centre than the corners of the image. -/
theorem points_stay_inside (angle : ℝ → ℝ → ℝ) (ε : ℝ) (hA : Angles angle ε) (a : OnImage) (hne : ¬ a.shape.empty) :
    ∃ w, warpItems angle a = some w ∧ w.shape = warpShape a.shape ∧
      Items (fun p q => 0 ≤ q.1 ∧ 0 ≤ q.2 ∧ q.2 ≤ w.shape.h ∧ (q.1 ≤ w.shape.w ↔ dist2 p (middle a.shape) ≤ halfDiagonal a.shape)) a.items w.items ∧
      ∀ x y : ℝ, 0 ≤ x → x ≤ a.shape.w → 0 ≤ y → y ≤ a.shape.h → dist2 (x, y) (middle a.shape) ≤ halfDiagonal a.shape := by
  obtain ⟨p1, p2⟩ := warpShape_pos a.shape hne
  have hh : a.shape.h ≠ 0 ∧ a.shape.w ≠ 0 := by unfold Shp.empty at hne; tauto
  have hr := maxRadius_big a.shape.h a.shape.w hh.1 hh.2
  have hWp : (0 : ℝ) < (warpShape a.shape).w := by exact_mod_cast p1
  have hHp : (0 : ℝ) < (warpShape a.shape).h := by exact_mod_cast p2
  have hpi := Real.pi_pos
  have hdiag : halfDiagonal a.shape = maxRadius a.shape.h a.shape.w := by
    rw [halfDiagonal, maxRadius, show ((a.shape.h : ℝ) / 2) ^ 2 + ((a.shape.w : ℝ) / 2) ^ 2 = ((a.shape.h : ℝ) ^ 2 + (a.shape.w : ℝ) ^ 2) / 2 ^ 2 by ring,
      Real.sqrt_div' _ (by norm_num), Real.sqrt_sq (by norm_num)]
  refine ⟨_, warpItems_some angle a hne, rfl, ?_, ?_⟩
  · refine items_map _ _ a (fun p => ?_)
    rw [forward_point, ← middle_eq, hdiag]
    obtain ⟨a1, a2, -⟩ := hA (p.1 - (middle a.shape).1) (p.2 - (middle a.shape).2)
    have hd := dist2_nonneg p (middle a.shape)
    have hr0 : 0 < maxRadius a.shape.h a.shape.w := by linarith
    refine ⟨by positivity, by positivity, ?_, ?_⟩
    · simp only
      rw [div_mul_eq_mul_div, div_le_iff₀ (by positivity)]
      exact mul_le_mul_of_nonneg_left a2 hHp.le
    · simp only
      rw [div_mul_eq_mul_div, div_le_iff₀ hr0]
      exact mul_le_mul_iff_right₀ hWp
  · intro x y h1 h2 h3 h4
    rw [hdiag, dist2, maxRadius]
    refine Real.sqrt_le_sqrt ?_
    simp only [middle]
    nlinarith [mul_nonneg h1 (sub_nonneg.mpr h2), mul_nonneg h3 (sub_nonneg.mpr h4)]

/- The hypothesis is met. -/
example : ¬ Shp.empty ⟨3, 4, [3]⟩ := by decide

/-- C109: the children get images, heatmaps and segmentation maps of the size that they are told to have by annotations on an image of the same
size: a polar image is as wide as half of the diagonal, rounded, and `π` times as high. Dtype and number of channels are those of the image. -/
theorem children_see_one_size (cv : Cv) (f16 : ℚ → ℚ) (angle : ℝ → ℝ → ℝ) (nearest : Bool) (a w : Arr) (x y : OnImage) (hne : ¬ a.empty)
    (hx : x.shape = ⟨a.h, a.w, [a.chans.length]⟩) (h1 : warpArr cv f16 nearest a = some w) (h2 : warpItems angle x = some y) :
    y.shape = ⟨w.h, w.w, [w.chans.length]⟩ ∧ w.dt = a.dt ∧ |(w.w : ℝ) - halfDiagonal x.shape| ≤ 1 / 2 ∧ |(w.h : ℝ) - Real.pi * halfDiagonal x.shape| ≤ 1 / 2 := by
  have hl : 0 ∉ [a.chans.length] := by
    have : a.chans ≠ [] := by unfold Arr.empty at hne; tauto
    simpa using (List.length_pos_iff.2 this).ne
  obtain ⟨d1, d2, d3, d4⟩ := warpArr_size cv f16 nearest a w h1 hne _ hl
  have h3 : ¬ x.shape.empty := by rw [hx]; unfold Shp.empty; unfold Arr.empty at hne; tauto
  rw [warpItems_some angle x h3, Option.some.injEq] at h2
  subst h2
  have hdiag : halfDiagonal x.shape = maxRadius a.h a.w := by
    rw [hx, halfDiagonal, maxRadius, show ((a.h : ℝ) / 2) ^ 2 + ((a.w : ℝ) / 2) ^ 2 = ((a.h : ℝ) ^ 2 + (a.w : ℝ) ^ 2) / 2 ^ 2 by ring,
      Real.sqrt_div' _ (by norm_num), Real.sqrt_sq (by norm_num)]
  have hh : a.h ≠ 0 ∧ a.w ≠ 0 := by unfold Arr.empty at hne; tauto
  have hr := maxRadius_big a.h a.w hh.1 hh.2
  have hpi := Real.two_le_pi
  have h4 : ¬ Shp.empty ⟨a.h, a.w, [a.chans.length]⟩ := by rw [← hx]; exact h3
  refine ⟨?_, d1, ?_, ?_⟩
  · simp only
    rw [hx, d2, d3, d4]
    simp only [warpShape, if_neg h4]
  · rw [d4, hdiag]
    simp only [warpShape, if_neg h4]
    have := roundR_pos (maxRadius a.h a.w) (by linarith)
    have e : (((roundR (maxRadius a.h a.w)).toNat : ℕ) : ℝ) = (roundR (maxRadius a.h a.w) : ℝ) := by exact_mod_cast Int.toNat_of_nonneg this.le
    rw [e]
    exact roundR_near _
  · rw [d3, hdiag, mul_comm Real.pi]
    simp only [warpShape, if_neg h4]
    have := roundR_pos (maxRadius a.h a.w * Real.pi) (by nlinarith)
    have e : (((roundR (maxRadius a.h a.w * Real.pi)).toNat : ℕ) : ℝ) = (roundR (maxRadius a.h a.w * Real.pi) : ℝ) := by exact_mod_cast Int.toNat_of_nonneg this.le
    rw [e]
    exact roundR_near _

/-- C109: whatever the children do, images and maps that have pixels come back with the height and width that they had, and annotations with their
image shape. -/
theorem sizes_come_back (cv : Cv) (f16 : ℚ → ℚ) (angle : ℝ → ℝ → ℝ) (children : Batch → Option Batch) (b r : Batch)
    (h : augment cv f16 angle children b = some r) :
    Each (fun (o a : Arr) => o.h ≠ 0 → ¬ a.empty → a.h = o.h ∧ a.w = o.w) b.images r.images ∧
    Each (fun (o m : Maps) => ¬ o.shape.empty → m.shape = o.shape ∧ (o.arr.h ≠ 0 → ¬ m.arr.empty → m.arr.h = o.arr.h ∧ m.arr.w = o.arr.w)) b.heatmaps r.heatmaps ∧
    Each (fun (o m : Maps) => ¬ o.shape.empty → m.shape = o.shape ∧ (o.arr.h ≠ 0 → ¬ m.arr.empty → m.arr.h = o.arr.h ∧ m.arr.w = o.arr.w)) b.segmaps r.segmaps ∧
    Each (fun (o a : OnImage) => a.shape = o.shape) b.kps r.kps ∧ Each (fun (o a : OnImage) => a.shape = o.shape) b.lines r.lines ∧
    (b.boxes = none → Each (fun (o a : OnImage) => a.shape = o.shape) b.polys r.polys) := by
  obtain ⟨-, w, c, ps, -, hc, h0, -, -, -, -, -, -, -, u1, u2, u3, u4, u6, polys, u5, hb⟩ := augment_parts cv f16 angle children b r h
  have km : ∀ (n : Bool) (o m m' : Maps), unwarpMap cv f16 n m o = some m' → (¬ o.shape.empty → m'.shape = o.shape ∧
      (o.arr.h ≠ 0 → ¬ m'.arr.empty → m'.arr.h = o.arr.h ∧ m'.arr.w = o.arr.w)) := by
    intro n o m m' hm hne
    rw [unwarpMap, if_neg hne, Option.map_eq_some_iff] at hm
    obtain ⟨a, ha, rfl⟩ := hm
    refine ⟨rfl, fun h1 h2 => ?_⟩
    obtain ⟨e1, e2, -⟩ := unwarpArr_size cv f16 n _ _ _ _ ha h1 h2
    exact ⟨e1, e2⟩
  have kp : ∀ (o a a' : OnImage), unwarpItems angle a o.shape = some a' → a'.shape = o.shape := by
    intro o a a' ha
    unfold unwarpItems at ha
    split at ha
    · rw [Option.some.injEq] at ha; subst ha; rfl
    · rw [Option.map_eq_some_iff] at ha
      obtain ⟨l, -, rfl⟩ := ha
      rfl
  refine ⟨each_of_col2 _ _ (fun o a a' ha h1 h2 => ?_) _ _ _ u1, each_of_col2 _ _ (km false) _ _ _ u2, each_of_col2 _ _ (km true) _ _ _ u3,
    each_of_col2 _ _ kp _ _ _ u4, each_of_col2 _ _ kp _ _ _ u6, fun hn => ?_⟩
  · obtain ⟨e1, e2, -⟩ := unwarpArr_size cv f16 false _ _ _ _ ha h1 h2
    exact ⟨e1, e2⟩
  · rcases hb with ⟨-, -, rfl⟩ | ⟨bs, l, s, e, -⟩
    · have : ps = b.polys := by
        unfold polysWithBoxes at h0
        rw [hn] at h0
        simpa using h0.symm
      subst this
      exact each_of_col2 _ _ kp _ _ _ u5
    · rw [hn] at e; cases e

/-- C109: if the children do nothing, no new values appear in images, heatmaps and segmentation maps: every component is zero, or a component of the
same channel before. That also holds for boolean and float16 arrays, which are handled as uint8 and float32 arrays in between. -/
theorem no_new_values (cv : Cv) (hcv : Nearest cv) (f16 : ℚ → ℚ) (h0 : f16 0 = 0) (angle : ℝ → ℝ → ℝ) (b r : Batch) (h : augment cv f16 angle some b = some r)
    (h1 : ∀ l, b.images = some l → ∀ a ∈ l, a.Ok f16) (h2 : ∀ l, b.heatmaps = some l → ∀ m ∈ l, m.arr.Ok f16) (h3 : ∀ l, b.segmaps = some l → ∀ m ∈ l, m.arr.Ok f16) :
    Rows (fun (a a' : Arr) => a'.dt = a.dt ∧ NoNew a a') b.images r.images ∧
    Rows (fun (m m' : Maps) => m'.arr.dt = m.arr.dt ∧ NoNew m.arr m'.arr) b.heatmaps r.heatmaps ∧
    Rows (fun (m m' : Maps) => m'.arr.dt = m.arr.dt ∧ NoNew m.arr m'.arr) b.segmaps r.segmaps := by
  obtain ⟨-, w, c, ps, -, hc, -, w1, w2, w3, -, -, -, -, u1, u2, u3, -⟩ := augment_parts cv f16 angle some b r h
  rw [Option.some.injEq] at hc
  subst hc
  have ka : ∀ (n : Bool) (a w r : Arr) (hh ww : Nat), warpArr cv f16 n a = some w → unwarpArr cv f16 n w hh ww = some r → a.Ok f16 → r.dt = a.dt ∧ NoNew a r := by
    intro n a w r hh ww e1 e2 hok
    obtain ⟨a1, a2, a3⟩ := arr_there cv f16 hcv h0 n a w e1 hok
    obtain ⟨b1, b2, b3⟩ := arr_back cv f16 hcv h0 n w r hh ww e2 a2
    exact ⟨b3.trans a3, noNew_trans _ _ _ a1 b1⟩
  have km : ∀ (n : Bool) (m w r : Maps), warpMap cv f16 n m = some w → unwarpMap cv f16 n w m = some r → m.arr.Ok f16 → r.arr.dt = m.arr.dt ∧ NoNew m.arr r.arr := by
    intro n m w r e1 e2 hok
    unfold warpMap at e1
    unfold unwarpMap at e2
    split at e1
    · rename_i he
      rw [if_pos he] at e2
      rw [Option.some.injEq] at e1 e2
      subst e1; subst e2
      exact ⟨rfl, noNew_refl _⟩
    · rename_i he
      rw [if_neg he] at e2
      rw [Option.map_eq_some_iff] at e1 e2
      obtain ⟨a, e1, rfl⟩ := e1
      obtain ⟨a', e2, rfl⟩ := e2
      exact ka n _ _ _ _ _ e1 e2 hok
  refine ⟨rows_strengthen _ _ _ _ (col_rows _ _ _ (fun a b c e1 e2 => ka false a b c _ _ e1 e2) _ _ _ w1 u1) h1,
    rows_strengthen _ _ _ _ (col_rows _ _ _ (fun a b c e1 e2 => km false a b c e1 e2) _ _ _ w2 u2) h2,
    rows_strengthen _ _ _ _ (col_rows _ _ _ (fun a b c e1 e2 => km true a b c e1 e2) _ _ _ w3 u3) h3⟩

/- Such a function exists, e.g. one that takes the corner. -/
example : Nearest (fun c h w ch y x => if 0 < h ∧ 0 < w ∧ c.flags % 8 = 0 then ch 0 0 else 0) := by
  intro c h w ch y x hf
  by_cases hp : 0 < h ∧ 0 < w
  · exact Or.inr ⟨0, 0, hp.1, hp.2, by simp [hp.1, hp.2, hf]⟩
  · exact Or.inl (if_neg (fun g => hp ⟨g.1, g.2.1⟩))

/-- C109: if the children do nothing and `cv2.warpPolar` loses nothing, images, heatmaps and segmentation maps come back as they were: the second
call is the inverse of the first one. (Boolean and float16 arrays, which are converted in between, are left out.) -/
theorem pixels_come_back (cv : Cv) (hcv : Undoes cv) (f16 : ℚ → ℚ) (angle : ℝ → ℝ → ℝ) (b r : Batch) (h : augment cv f16 angle some b = some r)
    (h1 : ∀ l, b.images = some l → ∀ a ∈ l, a.dt.kind ≠ .b ∧ a.dt ≠ ⟨.f, 2⟩)
    (h2 : ∀ l, b.heatmaps = some l → ∀ m ∈ l, m.arr.dt.kind ≠ .b ∧ m.arr.dt ≠ ⟨.f, 2⟩)
    (h3 : ∀ l, b.segmaps = some l → ∀ m ∈ l, m.arr.dt.kind ≠ .b ∧ m.arr.dt ≠ ⟨.f, 2⟩) :
    Rows Same b.images r.images ∧ Rows (fun (m m' : Maps) => Same m.arr m'.arr) b.heatmaps r.heatmaps ∧
    Rows (fun (m m' : Maps) => Same m.arr m'.arr) b.segmaps r.segmaps := by
  obtain ⟨-, w, c, ps, -, hc, -, w1, w2, w3, -, -, -, -, u1, u2, u3, -⟩ := augment_parts cv f16 angle some b r h
  rw [Option.some.injEq] at hc
  subst hc
  have same_refl : ∀ a : Arr, Same a a := fun a => ⟨rfl, rfl, rfl, List.forall₂_same.2 (fun _ _ _ _ _ _ => rfl)⟩
  have ka : ∀ (n : Bool) (a w r : Arr), warpArr cv f16 n a = some w → unwarpArr cv f16 n w a.h a.w = some r →
      a.dt.kind ≠ .b ∧ a.dt ≠ ⟨.f, 2⟩ → Same a r := by
    intro n a w r e1 e2 ⟨hb, hf⟩
    by_cases hne : a.empty
    · rw [warpArr, if_pos hne, Option.some.injEq] at e1
      subst e1
      rw [unwarpArr, if_pos hne, Option.some.injEq] at e2
      subst e2
      exact same_refl a
    · have hw : ¬ w.empty := by
        obtain ⟨-, l1, l2, l3⟩ := warpArr_size cv f16 n a w e1 hne [] (by simp)
        have hs : ¬ Shp.empty ⟨a.h, a.w, []⟩ := by unfold Shp.empty; unfold Arr.empty at hne; simp; tauto
        have hp := warpShape_pos _ hs
        unfold Arr.empty at hne ⊢
        rw [l2, l3]
        have : w.chans ≠ [] := by
          intro e
          rw [e] at l1
          exact hne (.inr (.inr (List.length_eq_zero_iff.1 l1.symm)))
        rintro (g | g | g)
        · omega
        · omega
        · exact this g
      rw [warpArr, if_neg hne] at e1
      rw [unwarpArr, if_neg hw] at e2
      by_cases hz : w.h ≤ 32767 ∧ w.w ≤ 32767
      · by_cases hy : a.h ≤ 32767 ∧ a.w ≤ 32767
        · rw [if_pos hz, Option.some.injEq] at e2
          rw [if_pos hy, Option.some.injEq] at e1
          subst e1
          subst e2
          have hd : ((a.w, a.h) : Nat × Nat) ≠ (0, 0) := by
            unfold Arr.empty at hne
            intro e
            exact hne (.inr (.inl (congrArg Prod.fst e)))
          refine ⟨by simp only [callCv, resultSize, if_neg hd], by simp only [callCv, resultSize, if_neg hd], rfl, ?_⟩
          simp only [callCv, if_neg hb, if_neg hf, List.map_map]
          rw [List.forall₂_map_right_iff, List.forall₂_same]
          intro ch _ y x hy hx
          have := hcv ⟨(0, 0), center a.h a.w, maxRadius a.h a.w, fillOutliers + polarLinear + (if n then interNearest else 0)⟩ a.h a.w ch y x rfl
            (by cases n <;> (simp only [fillOutliers, polarLinear, interNearest]; decide)) hy hx
          have e : fillOutliers + polarLinear + inverseMap + (if n then interNearest else 0) =
              fillOutliers + polarLinear + (if n then interNearest else 0) + 16 := by cases n <;> rfl
          simp only [Function.comp, e]
          exact this
        · rw [if_neg hy] at e1; cases e1
      · rw [if_neg hz] at e2; cases e2
  have km : ∀ (n : Bool) (m w r : Maps), warpMap cv f16 n m = some w → unwarpMap cv f16 n w m = some r →
      m.arr.dt.kind ≠ .b ∧ m.arr.dt ≠ ⟨.f, 2⟩ → Same m.arr r.arr := by
    intro n m w r e1 e2 hok
    unfold warpMap at e1
    unfold unwarpMap at e2
    split at e1
    · rename_i he
      rw [if_pos he] at e2
      rw [Option.some.injEq] at e1 e2
      subst e1; subst e2
      exact same_refl _
    · rename_i he
      rw [if_neg he] at e2
      rw [Option.map_eq_some_iff] at e1 e2
      obtain ⟨a, e1, rfl⟩ := e1
      obtain ⟨a', e2, rfl⟩ := e2
      exact ka n _ _ _ e1 e2 hok
  refine ⟨rows_strengthen _ _ _ _ (col_rows _ _ _ (fun a b c e1 e2 => ka false a b c e1 e2) _ _ _ w1 u1) h1,
    rows_strengthen _ _ _ _ (col_rows _ _ _ (fun a b c e1 e2 => km false a b c e1 e2) _ _ _ w2 u2) h2,
    rows_strengthen _ _ _ _ (col_rows _ _ _ (fun a b c e1 e2 => km true a b c e1 e2) _ _ _ w3 u3) h3⟩

/- Such a function exists, e.g. one that adds 5 to all components, and subtracts 5 if it is asked for the inverse. -/
example : Undoes (fun c _ _ ch y x => if c.flags < 16 then ch y x + 5 else ch y x - 5) := by
  intro c h w ch y x _ hf _ _
  simp [hf]

/-- C109: images of dtype uint32, uint64, int64 and float128 are rejected, in every batch. -/
theorem dtypes_rejected (cv : Cv) (f16 : ℚ → ℚ) (angle : ℝ → ℝ → ℝ) (children : Batch → Option Batch) (b : Batch) (l : List Arr) (hl : b.images = some l) (a : Arr)
    (ha : a ∈ l) (hd : a.dt = ⟨.u, 4⟩ ∨ a.dt = ⟨.u, 8⟩ ∨ a.dt = ⟨.i, 8⟩ ∨ a.dt = ⟨.f, 16⟩) : augment cv f16 angle children b = none := by
  have : ∃ l ∈ b.images, ∃ a ∈ l, a.dt ∈ rejectedDtypes := ⟨l, hl, a, ha, by simpa [rejectedDtypes] using hd⟩
  rw [augment, warpBatch, if_pos this]
  rfl

/-- C109: batches in which a row of bounding boxes and the row of polygons with the same number have different image shapes are rejected. -/
theorem shapes_rejected (cv : Cv) (f16 : ℚ → ℚ) (angle : ℝ → ℝ → ℝ) (children : Batch → Option Batch) (b : Batch) (bs : List Boxes) (ps : List OnImage)
    (h1 : b.boxes = some bs) (h2 : b.polys = some ps) (i : Nat) (x : Boxes) (y : OnImage) (hx : bs[i]? = some x) (hy : ps[i]? = some y) (hne : x.shape ≠ y.shape) :
    augment cv f16 angle children b = none := by
  have key : polysWithBoxes b = none := by
    unfold polysWithBoxes
    rw [h1, h2]
    simp only [Option.map_eq_none_iff]
    cases hm : (ps.zip bs).mapM (fun q => if q.1.shape = q.2.shape then some (⟨q.1.items ++ boxesToItems q.2, q.1.shape⟩ : OnImage) else none) with
    | none => rfl
    | some r =>
      exfalso
      obtain ⟨v, -, e⟩ := Imgaug.Dtypes.mapM_nth _ _ _ hm i (y, x) (by rw [List.getElem?_zip_eq_some]; exact ⟨hy, hx⟩)
      simp [Ne.symm hne] at e
  unfold augment warpBatch
  split
  · rfl
  · simp [key]

/-- C109: with children that do nothing, every other batch is accepted: if images and maps, and their polar versions, have no side of more than 32767
pixels, and if no polygon without points has a label with the internal mark of bounding boxes. -/
theorem accepted (cv : Cv) (f16 : ℚ → ℚ) (angle : ℝ → ℝ → ℝ) (b : Batch)
    (h1 : ∀ l, b.images = some l → ∀ a ∈ l, a.Fits ∧ a.dt ∉ [⟨.u, 4⟩, ⟨.u, 8⟩, ⟨.i, 8⟩, ⟨.f, 16⟩])
    (h2 : ∀ l, b.heatmaps = some l → ∀ m ∈ l, m.arr.Fits) (h3 : ∀ l, b.segmaps = some l → ∀ m ∈ l, m.arr.Fits) (h4 : SameShapes b)
    (h5 : ∀ l, b.polys = some l → ∀ a ∈ l, ∀ it ∈ a.items, unmarked it.label = none ∨ it.pts ≠ []) :
    ∃ r, augment cv f16 angle some b = some r := by
  have hg : ¬ ∃ l ∈ b.images, ∃ a ∈ l, a.dt ∈ rejectedDtypes := by
    rintro ⟨l, hl, a, ha, hd⟩
    exact (h1 l hl a ha).2 hd
  obtain ⟨im, im', a1, b1, -⟩ := col_round (warpArr cv f16 false) (fun (a : Arr) (o : Arr) => unwarpArr cv f16 false a o.h o.w) (fun _ _ => True) b.images (fun l hl a ha => by
    obtain ⟨w, r, e1, e2⟩ := arr_round cv f16 false a (h1 l hl a ha).1 a.h a.w
    exact ⟨w, r, e1, e2, trivial⟩)
  obtain ⟨hm, hm', a2, b2, -⟩ := col_round (warpMap cv f16 false) (unwarpMap cv f16 false) (fun _ _ => True) b.heatmaps (fun l hl a ha => by
    obtain ⟨w, r, e1, e2⟩ := map_round cv f16 false a (h2 l hl a ha)
    exact ⟨w, r, e1, e2, trivial⟩)
  obtain ⟨sm, sm', a3, b3, -⟩ := col_round (warpMap cv f16 true) (unwarpMap cv f16 true) (fun _ _ => True) b.segmaps (fun l hl a ha => by
    obtain ⟨w, r, e1, e2⟩ := map_round cv f16 true a (h3 l hl a ha)
    exact ⟨w, r, e1, e2, trivial⟩)
  have hi : ∀ x : Option (List OnImage), ∀ l, x = some l → ∀ a ∈ l, ∃ w r, warpItems angle a = some w ∧ unwarpItems angle w a.shape = some r ∧
      Items (fun _ _ => True) a.items r.items := by
    intro x l _ a _
    obtain ⟨w, r, e1, e2, -, e3⟩ := items_round angle a
    exact ⟨w, r, e1, e2, e3⟩
  obtain ⟨kp, kp', a4, b4, -⟩ := col_round (warpItems angle) (fun (a o : OnImage) => unwarpItems angle a o.shape) (fun a r => Items (fun _ _ => True) a.items r.items) b.kps (hi b.kps)
  obtain ⟨li, li', a6, b6, -⟩ := col_round (warpItems angle) (fun (a o : OnImage) => unwarpItems angle a o.shape) (fun a r => Items (fun _ _ => True) a.items r.items) b.lines (hi b.lines)
  have hbox : ∀ (x : Boxes), ∀ it ∈ boxesToItems x, it.pts ≠ [] := by
    intro x it hit
    obtain ⟨q, -, rfl⟩ := List.mem_map.1 hit
    obtain ⟨l, e, -⟩ := subdivided_corners q
    simp only [e]
    exact List.cons_ne_nil _ _
  have hps : ∃ ps, polysWithBoxes b = some ps ∧ (b.boxes ≠ none → ∃ l, ps = some l ∧ ∀ a ∈ l, ∀ it ∈ a.items, unmarked it.label = none ∨ it.pts ≠ []) := by
    unfold polysWithBoxes
    cases hb : b.boxes with
    | none => exact ⟨_, rfl, fun h => absurd rfl h⟩
    | some bs =>
      cases hp : b.polys with
      | none =>
        refine ⟨_, rfl, fun _ => ⟨_, rfl, ?_⟩⟩
        intro a ha it hit
        obtain ⟨x, -, rfl⟩ := List.mem_map.1 ha
        exact Or.inr (hbox x it hit)
      | some pl =>
        have hsame := h4 bs pl hb hp
        obtain ⟨r, e1, e2⟩ := mapM_exists (fun (q : OnImage × Boxes) => if q.1.shape = q.2.shape then some (⟨q.1.items ++ boxesToItems q.2, q.1.shape⟩ : OnImage) else none)
          (fun q a => q.1 ∈ pl ∧ a.items = q.1.items ++ boxesToItems q.2) (pl.zip bs) (by
            intro q hq
            obtain ⟨i, hi⟩ := List.mem_iff_getElem?.1 hq
            rw [List.getElem?_zip_eq_some] at hi
            have := (List.forall₂_iff_get.1 hsame).2 i (List.getElem?_eq_some_iff.1 hi.2).1 (List.getElem?_eq_some_iff.1 hi.1).1
            have hs : q.1.shape = q.2.shape := by
              obtain ⟨k1, k2⟩ := List.getElem?_eq_some_iff.1 hi.1
              obtain ⟨k3, k4⟩ := List.getElem?_eq_some_iff.1 hi.2
              simp only [List.get_eq_getElem, k2, k4] at this
              exact this.symm
            exact ⟨_, if_pos hs, List.mem_of_getElem? hi.1, rfl⟩)
        refine ⟨some r, by simp only [e1, Option.map_some], fun _ => ⟨r, rfl, ?_⟩⟩
        intro a ha it hit
        obtain ⟨q, hq, m1, m2⟩ := forall_mem_right _ _ _ e2 a ha
        rw [m2, List.mem_append] at hit
        rcases hit with hit | hit
        · exact h5 pl hp q.1 m1 it hit
        · exact Or.inr (hbox _ it hit)
  obtain ⟨ps, a0, hps⟩ := hps
  obtain ⟨po, po', a5, b5, c5⟩ := col_round (warpItems angle) (fun (a o : OnImage) => unwarpItems angle a o.shape) (fun a r => Items (fun _ _ => True) a.items r.items) ps (hi ps)
  have hw : warpBatch cv f16 angle b = some ⟨im, hm, sm, kp, none, po, li⟩ := by
    rw [warpBatch, if_neg hg]
    simp [a0, a1, a2, a3, a4, a5, a6]
  cases hb : b.boxes with
  | none =>
    refine ⟨⟨im', hm', sm', kp', none, po', li'⟩, ?_⟩
    simp [augment, hw, unwarpBatch, a0, b1, b2, b3, b4, b5, b6, hb]
  | some bs =>
    obtain ⟨l, rfl, hl⟩ := hps (by simp [hb])
    cases po' with
    | none => exact absurd c5 (by simp [Rows])
    | some l' =>
      simp only [Rows] at c5
      obtain ⟨s, hs, -⟩ := mapM_exists separate (fun _ _ => True) l' (by
        intro a ha
        obtain ⟨o, ho, hoa⟩ := forall_mem_right _ _ _ c5 a ha
        obtain ⟨s, hs⟩ := separate_isSome a (by
          intro it hit
          obtain ⟨it0, h0, e1, e2⟩ := forall_mem_right _ _ _ hoa it hit
          rcases hl o ho it0 h0 with e | e
          · left; rw [← e1]; exact e
          · right
            intro hn
            rw [hn] at e2
            cases hq : it0.pts with
            | nil => exact e hq
            | cons p t => rw [hq] at e2; cases e2)
        exact ⟨s, hs, trivial⟩)
      refine ⟨⟨im', hm', sm', kp', some (s.map (fun q => q.2)), b.polys.map (fun _ => s.map (fun q => q.1)), li'⟩, ?_⟩
      simp [augment, hw, unwarpBatch, a0, b1, b2, b3, b4, b5, b6, hb, hs]

/- Such images exist: e.g. of 1000 x 2000 pixels. -/
example : Arr.Fits ⟨⟨.u, 1⟩, 1000, 2000, [fun _ _ => 7]⟩ := by
  refine Or.inr ⟨by norm_num, by norm_num, ?_⟩
  have h1 : Real.sqrt (((1000 : ℕ) : ℝ) ^ 2 + ((2000 : ℕ) : ℝ) ^ 2) ≤ 3000 := by
    rw [Real.sqrt_le_left (by norm_num)]; norm_num
  have h2 := Real.pi_le_four
  exact le_trans (div_le_div_of_nonneg_right (mul_le_mul h2 h1 (Real.sqrt_nonneg _) (by norm_num)) (by norm_num)) (by norm_num)

/-- C109 is false for large images: sides up to 32767 pixels are accepted at first, but the polar image is 2.2 times as high as a square one, and then
its way back fails even if the children do nothing. -/
theorem large_images_rejected : ∃ a : Arr, a.dt = ⟨.u, 1⟩ ∧ a.h = 30000 ∧ a.w = 30000 ∧ ∀ (cv : Cv) (f16 : ℚ → ℚ) (angle : ℝ → ℝ → ℝ),
    (∃ w, warpBatch cv f16 angle ⟨some [a], none, none, none, none, none, none⟩ = some w) ∧
    augment cv f16 angle some ⟨some [a], none, none, none, none, none, none⟩ = none := by
  refine ⟨⟨⟨.u, 1⟩, 30000, 30000, [fun _ _ => 0]⟩, rfl, rfl, rfl, fun cv f16 angle => ?_⟩
  generalize ha : (⟨⟨.u, 1⟩, 30000, 30000, [fun _ _ => 0]⟩ : Arr) = a
  have e1 : a.h = 30000 := by rw [← ha]
  have e2 : a.w = 30000 := by rw [← ha]
  have e3 : a.dt = ⟨.u, 1⟩ := by rw [← ha]
  have hne : ¬ a.empty := by rw [← ha]; simp [Arr.empty]
  obtain ⟨w, hw⟩ := Option.isSome_iff_exists.1 ((warpArr_isSome cv f16 false a).2 (Or.inr ⟨by omega, by omega⟩))
  obtain ⟨-, d2, d3, d4⟩ := warpArr_size cv f16 false a w hw hne [] (by simp)
  have hg : ¬ ∃ l ∈ (some [a] : Option (List Arr)), ∃ a ∈ l, a.dt ∈ rejectedDtypes := by
    simp [e3, rejectedDtypes]
  have hwb : warpBatch cv f16 angle ⟨some [a], none, none, none, none, none, none⟩ = some ⟨some [w], none, none, none, none, none, none⟩ := by
    rw [warpBatch, if_neg hg]
    simp [polysWithBoxes, col, hw]
  refine ⟨⟨_, hwb⟩, ?_⟩
  have hne' : ¬ Shp.empty ⟨a.h, a.w, []⟩ := by simp [Shp.empty, e1, e2]
  simp only [warpShape, if_neg hne'] at d3
  have hr : (20000 : ℝ) ≤ maxRadius a.h a.w := by
    rw [e1, e2, maxRadius]
    refine Real.le_sqrt_of_sq_le ?_
    norm_num
  have hb : (39999 : ℝ) < roundR (maxRadius a.h a.w * Real.pi) := by
    have := abs_le.1 (roundR_near (maxRadius a.h a.w * Real.pi))
    have := Real.two_le_pi
    nlinarith
  have hb' : (39999 : Int) < roundR (maxRadius a.h a.w * Real.pi) := by exact_mod_cast hb
  have hwh : ¬ (w.h ≤ 32767) := by omega
  have hwe : ¬ w.empty := by
    have p2 := warpShape_pos _ hne'
    simp only [warpShape, if_neg hne'] at p2 d4
    have : w.chans ≠ [] := by
      intro hn
      rw [hn, ← ha] at d2
      simp at d2
    unfold Arr.empty
    rintro (h | h | h)
    · omega
    · omega
    · exact this h
  have hu : unwarpArr cv f16 false w a.h a.w = none := by
    cases h : unwarpArr cv f16 false w a.h a.w with
    | none => rfl
    | some r =>
      have := (unwarpArr_isSome cv f16 false w a.h a.w).1 (by rw [h]; rfl)
      rcases this with h | h
      · exact absurd h hwe
      · exact absurd h.1 hwh
  simp [augment, hwb, unwarpBatch, polysWithBoxes, col2, hu]

/-- C109: the children see each bounding box as a polygon, which is the polar image of points on the border of the box, its corners among them. Boxes
are at least a pixel high here. -/
theorem boxes_as_outlines (cv : Cv) (f16 : ℚ → ℚ) (angle : ℝ → ℝ → ℝ) (b w : Batch) (hp : b.polys = none) (bs : List Boxes) (hb : b.boxes = some bs)
    (ho : ∀ x ∈ bs, ∀ q ∈ x.boxes, q.x1 ≤ q.x2 ∧ q.y1 + 1 ≤ q.y2 ∧ |q.y2| ≤ 90000) (h : warpBatch cv f16 angle b = some w) :
    w.boxes = none ∧ ∃ l l', l.mapM (warpItems angle) = some l' ∧ w.polys = some l' ∧
      List.Forall₂ (fun (x : Boxes) (a : OnImage) => a.shape = x.shape ∧ List.Forall₂ (fun (q : Box) (it : Item) => Outline q it.pts) x.boxes a.items) bs l := by
  have key : ∀ q : Box, q.x1 ≤ q.x2 → q.y1 + 1 ≤ q.y2 → |q.y2| ≤ 90000 → Outline q (subdivided q.corners) := by
    intro q h1 h2 h3
    have hn : ¬ (close q.x1 q.x1 ∧ close q.y1 q.y2) := by
      rintro ⟨-, hc⟩
      unfold close at hc
      rw [abs_sub_comm, abs_of_nonneg (by linarith)] at hc
      norm_num at hc
      linarith
    rw [Box.corners, if_neg hn]
    refine ⟨?_, ?_, ?_, ?_, ?_, rfl, ?_⟩
    · intro p hp
      simp only [subdivided, List.take, List.cons_append, List.nil_append, edges, between, List.mem_cons, List.not_mem_nil, or_false] at hp
      rcases hp with rfl | rfl | rfl | rfl | rfl | rfl | rfl | rfl | rfl | rfl | rfl | rfl <;>
        refine ⟨⟨?_, ?_, ?_, ?_⟩, ?_⟩ <;> simp only [sub_self, zero_mul, add_zero, true_or, or_true] <;> linarith
    iterate 4 simp [subdivided, edges]
    rintro t ht x y rfl rfl
    have e : ∀ u v : ℝ, u + t * (v - u) = u + (v - u) * (1 / 3) ∧ u + t * (v - u) = v + (u - v) * (2 / 3) ∨
        u + t * (v - u) = u + (v - u) * (2 / 3) ∧ u + t * (v - u) = v + (u - v) * (1 / 3) := by
      intro u v
      rcases ht with rfl | rfl
      · exact .inl ⟨by ring, by ring⟩
      · exact .inr ⟨by ring, by ring⟩
    have m : ∀ p, p ∈ subdivided [(q.x1, q.y1), (q.x2, q.y1), (q.x2, q.y2), (q.x1, q.y2)] ↔ p ∈ [(q.x1, q.y1), (q.x1 + (q.x2 - q.x1) * (1 / 3), q.y1),
        (q.x1 + (q.x2 - q.x1) * (2 / 3), q.y1), (q.x2, q.y1), (q.x2, q.y1 + (q.y2 - q.y1) * (1 / 3)), (q.x2, q.y1 + (q.y2 - q.y1) * (2 / 3)),
        (q.x2, q.y2), (q.x2 + (q.x1 - q.x2) * (1 / 3), q.y2), (q.x2 + (q.x1 - q.x2) * (2 / 3), q.y2), (q.x1, q.y2),
        (q.x1, q.y2 + (q.y1 - q.y2) * (1 / 3)), (q.x1, q.y2 + (q.y1 - q.y2) * (2 / 3))] := by
      intro p
      simp only [subdivided, List.take, List.cons_append, List.nil_append, edges, between, sub_self, zero_mul, add_zero]
    have ex := e q.x1 q.x2
    have ey := e q.y1 q.y2
    simp only [m, List.mem_cons, Prod.mk.injEq]
    refine ⟨?_, ?_, ?_, ?_⟩
    · rcases ex with ⟨h, _⟩ | ⟨h, _⟩ <;> simp [h]
    · rcases ex with ⟨_, h⟩ | ⟨_, h⟩ <;> simp [h]
    · rcases ey with ⟨_, h⟩ | ⟨_, h⟩ <;> simp [h]
    · rcases ey with ⟨h, _⟩ | ⟨h, _⟩ <;> simp [h]
  unfold warpBatch at h
  split at h
  · cases h
  have e0 : polysWithBoxes b = some (some (bs.map (fun x => ⟨boxesToItems x, x.shape⟩))) := by rw [polysWithBoxes, hb, hp]
  simp only [e0, Option.bind_eq_bind, Option.bind_some, Option.bind_eq_some_iff, Option.pure_def, Option.some.injEq] at h
  obtain ⟨_, -, _, -, _, -, _, -, po, e1, _, -, rfl⟩ := h
  simp only [col, Option.map_eq_some_iff] at e1
  obtain ⟨l', e1, rfl⟩ := e1
  refine ⟨rfl, _, l', e1, rfl, ?_⟩
  rw [List.forall₂_map_right_iff, List.forall₂_same]
  intro x hx
  refine ⟨rfl, ?_⟩
  simp only [boxesToItems]
  rw [List.forall₂_map_right_iff, List.forall₂_same]
  intro q hq
  obtain ⟨h1, h2, h3⟩ := ho x hx q hq
  exact key q h1 h2 h3

/- The hypotheses are met. -/
example : ∀ (cv : Cv) (f16 : ℚ → ℚ) (angle : ℝ → ℝ → ℝ), ∃ w,
    warpBatch cv f16 angle ⟨none, none, none, none, some [⟨[⟨1, 2, 3, 4, none⟩], ⟨10, 10, [3]⟩⟩], none, none⟩ = some w := by
  intro cv f16 angle
  obtain ⟨w, c, h1, -⟩ := items_round angle ⟨boxesToItems ⟨[⟨1, 2, 3, 4, none⟩], ⟨10, 10, [3]⟩⟩, ⟨10, 10, [3]⟩⟩
  refine ⟨⟨none, none, none, none, none, some [w], none⟩, ?_⟩
  rw [warpBatch, if_neg (by simp)]
  simp [polysWithBoxes, col, h1]

/-- C109 is false for polygons whose label looks like the internal mark of bounding boxes: if the batch has bounding boxes, such a polygon comes back
as a bounding box. -/
theorem marked_polygons_lost : ∃ b : Batch, b.polys = some [⟨[⟨[(1, 1), (3, 1), (1, 3)], some "$$IMGAUG_BB_AS_POLYGON"⟩], ⟨10, 10, [3]⟩⟩] ∧
    ∀ (cv : Cv) (f16 : ℚ → ℚ) (angle : ℝ → ℝ → ℝ), ∃ r x, augment cv f16 angle some b = some r ∧ r.polys = some [⟨[], ⟨10, 10, [3]⟩⟩] ∧
      r.boxes = some [⟨[x], ⟨10, 10, [3]⟩⟩] := by
  refine ⟨⟨none, none, none, none, some [⟨[], ⟨10, 10, [3]⟩⟩], some [⟨[⟨[(1, 1), (3, 1), (1, 3)], some "$$IMGAUG_BB_AS_POLYGON"⟩], ⟨10, 10, [3]⟩⟩], none⟩, rfl,
    fun cv f16 angle => ?_⟩
  generalize ha : (⟨[⟨[(1, 1), (3, 1), (1, 3)], some "$$IMGAUG_BB_AS_POLYGON"⟩], ⟨10, 10, [3]⟩⟩ : OnImage) = a
  have hsh : a.shape = ⟨10, 10, [3]⟩ := by rw [← ha]
  obtain ⟨w, c, h1, h2, h3, h4⟩ := items_round angle a
  have hit : ∃ p q t, c.items = [⟨[p, q, t], some mark⟩] := by
    rw [← ha] at h4
    obtain ⟨its, sh⟩ := c
    simp only [Items] at h4
    cases h4 with
    | cons k1 k2 =>
      cases k2
      rename_i it
      obtain ⟨pts, lab⟩ := it
      obtain ⟨g1, g2⟩ := k1
      simp only at g1 g2
      cases g2 with
      | cons _ g3 => cases g3 with
        | cons _ g4 => cases g4 with
          | cons _ g5 => cases g5; exact ⟨_, _, _, by rw [← g1]; rfl⟩
  obtain ⟨p, q, t, hit⟩ := hit
  have hsep : separate c = some (⟨[], ⟨10, 10, [3]⟩⟩, ⟨[⟨min (min p.1 q.1) t.1, min (min p.2 q.2) t.2, max (max p.1 q.1) t.1, max (max p.2 q.2) t.2, none⟩], ⟨10, 10, [3]⟩⟩) := by
    simp [separate, hit, unmarked, boxOf, h3, hsh]
  refine ⟨⟨none, none, none, none, some [⟨[⟨min (min p.1 q.1) t.1, min (min p.2 q.2) t.2, max (max p.1 q.1) t.1, max (max p.2 q.2) t.2, none⟩], ⟨10, 10, [3]⟩⟩],
    some [⟨[], ⟨10, 10, [3]⟩⟩], none⟩, _, ?_, rfl, rfl⟩
  have hps : polysWithBoxes ⟨none, none, none, none, some [⟨[], ⟨10, 10, [3]⟩⟩], some [a], none⟩ = some (some [a]) := by
    simp only [polysWithBoxes, boxesToItems, List.zip_cons_cons, List.zip_nil_right, List.mapM_cons, hsh]
    simp [← hsh]
  have hwb : warpBatch cv f16 angle ⟨none, none, none, none, some [⟨[], ⟨10, 10, [3]⟩⟩], some [a], none⟩ = some ⟨none, none, none, none, none, some [w], none⟩ := by
    rw [warpBatch, if_neg (by simp)]
    simp [hps, col, h1]
  simp [augment, hwb, unwarpBatch, hps, col2, h2, hsep]

end Imgaug.Polar
