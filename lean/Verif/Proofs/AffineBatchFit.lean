import Verif.Proofs.AffineBatch
/-! Lemmas for C110 with `fit_output`. -/
namespace Imgaug.AffineBatch
open Imgaug Imgaug.Dtypes Imgaug.AffineArgs
open Imgaug.Affine hiding lo hi

theorem fitted_eq {p : Samples} {s : Shape} (hu : UsualFit p s) {k : ℝ} (hk : k = 0 ∨ k = 1 / 2) :
    Aff (toMatrix p s s true k).1 ∧ (∀ u, (toMatrix p s s true k).1.apply u = fittedMove p s u) ∧ (toMatrix p s s true k).2 = fittedShape p s := by
  have hz := hu.usual.notEmpty
  have h0 : ¬ (s.h = 0 ∨ s.w = 0) := fun h => hz (by unfold Shape.hasZero; tauto)
  obtain ⟨a, b, d, e, hl, -, he⟩ := plain_entries p
  have ha := (plain_spec p s s k hk).1
  obtain ⟨e1, e2, e3, e4⟩ := he s s k hk
  have hf : minc (plainMatrix p s s k) s ≠ -(1 / 10000) := by
    rcases hk with rfl | rfl
    · exact hu.fits
    · exact hu.fits'
  have hlin : ∀ v, linear p v = (a * v.1 + b * v.2, d * v.1 + e * v.2) := fun v => by rw [← ell_eq p s hu.usual.regular, hl]
  obtain ⟨f1, f2⟩ := fit_apply ha s h0 hf
  simp only [toMatrix, if_neg hz, if_true]
  refine ⟨f1, fun u => ?_, ?_⟩
  · rw [f2, e1, e2, e3, e4]
    unfold fittedMove least cornersOf Affine.lo min4
    simp [hlin, min_assoc]
  · rw [fit_shape ha s h0, e1, e2, e3, e4]
    unfold fittedShape least most cornersOf Affine.lo Affine.hi min4 max4
    simp [hlin, min_assoc, max_assoc]

theorem hardly {p : Samples} {s : Shape} (hu : UsualFit p s) {k : ℝ} (hk : k = 0 ∨ k = 1 / 2) (hid : (toMatrix p s s true k).1.isIdentity) :
    HardlyMoves (fittedMove p s) := by
  obtain ⟨h1, h2, -⟩ := fitted_eq hu hk
  intro u c hc hx hy
  have := near_identity h1 hid u c hc hx hy
  rw [h2] at this
  exact this

theorem fitted_injective {p : Samples} {s : Shape} (hu : UsualFit p s) : Function.Injective (fittedMove p s) := by
  obtain ⟨a, b, d, e, hl, hd, -⟩ := plain_entries p
  have hdet := hd.2 ⟨hu.usual.scaleX, hu.usual.scaleY⟩
  have hlin : ∀ v, linear p v = (a * v.1 + b * v.2, d * v.1 + e * v.2) := fun v => by rw [← ell_eq p s hu.usual.regular, hl]
  intro u v huv
  unfold fittedMove at huv
  rw [hlin u, hlin v] at huv
  simp only [Prod.mk.injEq, sub_left_inj] at huv
  obtain ⟨q1, q2⟩ := huv
  have k1 : (a * e - b * d) * (u.1 - v.1) = 0 := by linear_combination e * q1 - b * q2
  have k2 : (a * e - b * d) * (u.2 - v.2) = 0 := by linear_combination a * q2 - d * q1
  have z1 := (mul_eq_zero.1 k1).resolve_left hdet
  have z2 := (mul_eq_zero.1 k2).resolve_left hdet
  exact Prod.ext (by linarith) (by linarith)

theorem image_fitted {cv sk : Lib} (hl : LibsOk cv sk) (b : Backend) (percent : Bool) (img : Shape) (r : Row) (a a' : Arr) (hv : a.Valid)
    (hs : img.h = a.h ∧ img.w = a.w) (hu : UsualFit (toSamples percent r) img) (h : arrStep cv sk b true percent img r a = some a') :
    a.PixelsMovedBy (fittedMove (toSamples percent r) img) a' ∧
    (a'.shape = ⟨(fittedShape (toSamples percent r) img).h, (fittedShape (toSamples percent r) img).w, some a.chans.length⟩ ∨
      (a' = a ∧ (a.chans = [] ∨ HardlyMoves (fittedMove (toSamples percent r) img)))) := by
  obtain ⟨hw, hh, hz, hr, s1, s2⟩ := hu.usual
  obtain ⟨f1, f2, f3⟩ := fitted_eq hu (Or.inr rfl)
  have h0 : ¬ (img.h = 0 ∨ img.w = 0) := fun h => hz (by unfold Shape.hasZero; tauto)
  have hM : (toMatrix (toSamples percent r) a.shape img true (1 / 2)) =
      ((toMatrix (toSamples percent r) img img true (1 / 2)).1, ⟨(fittedShape (toSamples percent r) img).h, (fittedShape (toSamples percent r) img).w, some a.chans.length⟩) := by
    rw [← f3]
    obtain ⟨ih, iw, ic⟩ := img
    simp only at hs
    obtain ⟨rfl, rfl⟩ := hs
    unfold toMatrix
    rw [if_neg hz, if_neg hz]
    simp only [if_true]
    have hpl : plainMatrix (toSamples percent r) a.shape ⟨a.h, a.w, ic⟩ (1 / 2) = plainMatrix (toSamples percent r) ⟨a.h, a.w, ic⟩ ⟨a.h, a.w, ic⟩ (1 / 2) := rfl
    rw [hpl]
    generalize plainMatrix (toSamples percent r) ⟨a.h, a.w, ic⟩ ⟨a.h, a.w, ic⟩ (1 / 2) = m
    unfold fit
    rw [if_neg h0, if_neg (by exact h0)]
    rfl
  unfold arrStep at h
  simp only at h
  rw [hM] at h
  simp only at h
  have hcont : ∀ c x y v, a.at c x y = some v → x < 1000 ∧ y < 1000 := by
    intro c x y v hat
    have := (at_some a c x y v).mp hat
    omega
  split at h
  · rename_i hid
    simp only [Option.some.injEq] at h
    subst h
    refine ⟨?_, Or.inr ⟨rfl, Or.inr (hardly hu (Or.inr rfl) hid)⟩⟩
    intro c x y x' y' v hat hx' hy' hT
    obtain ⟨q1, q2⟩ := hcont c x y v hat
    obtain ⟨rfl, rfl⟩ := same_pixel f1 hid 0 le_rfl (by norm_num) x y x' y' q1 q2 (by rw [f2]; simpa using hT)
    exact hat
  · by_cases he : a.empty
    · have hc : a.chans = [] := by
        rcases he with he | he | he
        · exact absurd (Or.inl (by omega)) h0
        · exact absurd (Or.inr (by omega)) h0
        · exact he
      simp only [warp, if_pos he, Option.some.injEq] at h
      subst h
      refine ⟨?_, Or.inr ⟨rfl, Or.inl hc⟩⟩
      intro c x y x' y' v hat
      exfalso
      obtain ⟨-, -, ch, h3, -⟩ := (at_some a c x y v).mp hat
      simp [hc] at h3
    · obtain ⟨lib, outd, src, post, ord, fill, hlib, hdone⟩ := warp_done hl b a a' hv.1 he _ _ _ _ _ h
      refine ⟨?_, Or.inl ?_⟩
      · intro c x y x' y' v hat hx' hy' hT
        refine moved_of_done hlib hv hdone ?_ c x y x' y' v hat hx' hy' (by rw [f2]; exact hT)
        have : (toMatrix (toSamples percent r) img img true (1 / 2)).1.apply = fittedMove (toSamples percent r) img := funext f2
        rw [this]
        exact fitted_injective hu
      · unfold Arr.shape
        rw [hdone.h, hdone.w, hdone.chans]

theorem points_fitted (percent : Bool) (r : Row) (o : OnImage) (hu : UsualFit (toSamples percent r) o.shape) :
    (coordRow true percent r o).shape = fittedShape (toSamples percent r) o.shape ∧
    ((coordRow true percent r o).items = o.items.map (fun l => l.map (fittedMove (toSamples percent r) o.shape)) ∨
      ((coordRow true percent r o).items = o.items ∧ HardlyMoves (fittedMove (toSamples percent r) o.shape))) := by
  have hz := hu.usual.notEmpty
  have h0 : ¬ (o.shape.h = 0 ∨ o.shape.w = 0) := fun h => hz (by unfold Shape.hasZero; tauto)
  obtain ⟨f1, f2, f3⟩ := fitted_eq hu (Or.inl rfl)
  have he : (toMatrix (toSamples percent r) o.shape o.shape true 0).1.apply = fittedMove (toSamples percent r) o.shape := funext f2
  refine ⟨f3, ?_⟩
  by_cases hid : (toMatrix (toSamples percent r) o.shape o.shape true 0).1.isIdentity
  · right
    refine ⟨?_, hardly hu (Or.inl rfl) hid⟩
    simp [coordRow, coordsStep, hid]
  · left
    simp only [coordRow, coordsStep, if_pos (And.intro hid h0), he]

theorem box_aff {m : M3} (ha : Aff m) (x1 y1 x2 y2 : ℝ) (hx : x1 ≤ x2) (hy : y1 ≤ y2) :
    BoxMovedBy m.apply (x1, y1, x2, y2) (boxStep m x1 y1 x2 y2) := by
  unfold BoxMovedBy
  constructor
  · rintro u ⟨h1, h2, h3, h4⟩
    obtain ⟨a1, a2⟩ := affine_between m.a m.b m.c u.1 u.2 x1 y1 x2 y2 h1 h2 h3 h4
    obtain ⟨b1, b2⟩ := affine_between m.d m.e m.f u.1 u.2 x1 y1 x2 y2 h1 h2 h3 h4
    simp only [boxStep, InRect]
    simp only [apply_aff ha]
    exact ⟨a1, a2, b1, b2⟩
  · intro l t r o h
    obtain ⟨p1, p2, p3, p4⟩ := h (x1, y1) ⟨le_refl _, hx, le_refl _, hy⟩
    obtain ⟨q1, q2, q3, q4⟩ := h (x2, y1) ⟨hx, le_refl _, le_refl _, hy⟩
    obtain ⟨r1, r2, r3, r4⟩ := h (x2, y2) ⟨hx, le_refl _, hy, le_refl _⟩
    obtain ⟨s1, s2, s3, s4⟩ := h (x1, y2) ⟨le_refl _, hx, hy, le_refl _⟩
    simp only [boxStep, min4, max4, le_min_iff, max_le_iff]
    exact ⟨⟨⟨p1, q1⟩, ⟨r1, s1⟩⟩, ⟨⟨p3, q3⟩, ⟨r3, s3⟩⟩, ⟨⟨p2, q2⟩, ⟨r2, s2⟩⟩, ⟨⟨p4, q4⟩, ⟨r4, s4⟩⟩⟩

theorem boxes_fitted (percent : Bool) (r : Row) (o : Boxes) (hu : UsualFit (toSamples percent r) o.shape) :
    (boxRow true percent r o).shape = fittedShape (toSamples percent r) o.shape ∧ (boxRow true percent r o).boxes.length = o.boxes.length ∧
    ((∀ (i : Nat) (q q' : ℝ × ℝ × ℝ × ℝ), o.boxes[i]? = some q → (boxRow true percent r o).boxes[i]? = some q' → q.1 ≤ q.2.2.1 → q.2.1 ≤ q.2.2.2 →
        BoxMovedBy (fittedMove (toSamples percent r) o.shape) q q') ∨
      ((boxRow true percent r o).boxes = o.boxes ∧ HardlyMoves (fittedMove (toSamples percent r) o.shape))) := by
  have hz := hu.usual.notEmpty
  have h0 : ¬ (o.shape.h = 0 ∨ o.shape.w = 0) := fun h => hz (by unfold Shape.hasZero; tauto)
  obtain ⟨f1, f2, f3⟩ := fitted_eq hu (Or.inl rfl)
  have he : (toMatrix (toSamples percent r) o.shape o.shape true 0).1.apply = fittedMove (toSamples percent r) o.shape := funext f2
  refine ⟨f3, ?_, ?_⟩
  · unfold boxRow
    simp only
    split_ifs <;> simp
  by_cases hid : (toMatrix (toSamples percent r) o.shape o.shape true 0).1.isIdentity
  · right
    refine ⟨?_, hardly hu (Or.inl rfl) hid⟩
    simp [boxRow, hid]
  · left
    intro i q q' h1 h2 hx hy
    simp only [boxRow, if_pos (And.intro hid h0), List.getElem?_map, h1, Option.map_some, Option.some.injEq] at h2
    subst h2
    rw [← he]
    exact box_aff f1 _ _ _ _ hx hy

end Imgaug.AffineBatch
