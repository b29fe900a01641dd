import Verif.Props.AffineBatch
import Verif.Props.AffineFit
import Verif.Proofs.AffineBatchFit
/-! Property C110: `Affine` on batches with `fit_output`. -/
namespace Imgaug.AffineBatch
open Imgaug Imgaug.Dtypes Imgaug.AffineArgs
open Imgaug.Affine hiding lo hi

variable {σ : Type}

/-- C110 (partial): with `fit_output`, the images and annotations of a row of a batch are transformed with the same values. Their new size is that from
the first to the last row and column of the rotated, scaled and sheared image. Images and maps of their size show their content moved to the upper left corner,
and the coordinates of annotations are moved by the same function. Only if that changes hardly anything, something may be kept. Missing: images of more than 1000 pixels, samples that
are left out, and maps of other sizes than the image. (That content and annotations are moved apart by this is shown in `fit_coords_differ`.) -/
theorem batch_fitted_partial {cv sk : Lib} (hl : LibsOk cv sk) (P : Values ℚ) (Q : Values String) (args : Args) (hn : args.nothing = false)
    (hf : args.Filled) (c : Conf) (hi : init args = some c) (S : Sampler σ Params.Handled ℚ) (hS : Ok (Supports P) S)
    (M : Sampler σ ModeDist String) (hM : Ok (ModeDist.Supports Q) M) (n : Nat) (g : σ) (b r : Batch) (hb : b.Rows n)
    (h : augment cv sk S M args.backend true c n g b = some r) :
    ∃ rows : List Row, rows.length = n ∧ (∀ x ∈ rows, Requested P Q args x) ∧ (c.percent = true ↔ args.translatePercent ≠ .none) ∧
      Column (fun x a a' => a.Valid → UsualFit (toSamples c.percent x) a.shape →
        a.PixelsMovedBy (fittedMove (toSamples c.percent x) a.shape) a' ∧
        (a'.shape = fittedShape (toSamples c.percent x) a.shape ∨ (a' = a ∧ (a.chans = [] ∨ HardlyMoves (fittedMove (toSamples c.percent x) a.shape))))) rows b.images r.images ∧
      Column (fun x m m' => m.arr.Valid → UsualFit (toSamples c.percent x) m.shape → m'.shape = fittedShape (toSamples c.percent x) m.shape ∧
        (m.shape.h = m.arr.h ∧ m.shape.w = m.arr.w → m.arr.PixelsMovedBy (fittedMove (toSamples c.percent x) m.shape) m'.arr)) rows b.segmaps r.segmaps ∧
      Column (fun x m m' => m.arr.Valid → UsualFit (toSamples c.percent x) m.shape → m'.shape = fittedShape (toSamples c.percent x) m.shape ∧
        ((∀ c x y v, m.arr.at c x y = some v → 0 ≤ v ∧ v ≤ 1) → m.shape.h = m.arr.h ∧ m.shape.w = m.arr.w →
          m.arr.PixelsMovedBy (fittedMove (toSamples c.percent x) m.shape) m'.arr)) rows b.heatmaps r.heatmaps ∧
      (∀ old new, (old, new) ∈ [(b.kps, r.kps), (b.polys, r.polys), (b.lines, r.lines)] →
        Column (fun x o o' => UsualFit (toSamples c.percent x) o.shape → o'.shape = fittedShape (toSamples c.percent x) o.shape ∧
          (o'.items = o.items.map (fun l => l.map (fittedMove (toSamples c.percent x) o.shape)) ∨
            (o'.items = o.items ∧ HardlyMoves (fittedMove (toSamples c.percent x) o.shape)))) rows old new) ∧
      Column (fun x o o' => UsualFit (toSamples c.percent x) o.shape → o'.shape = fittedShape (toSamples c.percent x) o.shape ∧ o'.boxes.length = o.boxes.length ∧
          ((∀ (i : Nat) (q q' : ℝ × ℝ × ℝ × ℝ), o.boxes[i]? = some q → o'.boxes[i]? = some q' → q.1 ≤ q.2.2.1 → q.2.1 ≤ q.2.2.2 →
            BoxMovedBy (fittedMove (toSamples c.percent x) o.shape) q q') ∨
           (o'.boxes = o.boxes ∧ HardlyMoves (fittedMove (toSamples c.percent x) o.shape)))) rows b.boxes r.boxes := by
  obtain ⟨r1, r2, r3⟩ := affine_requested_partial P Q args hn hf c hi S hS M hM n g
  unfold augment at h
  simp only [Option.bind_eq_bind, Option.bind_eq_some_iff, Option.pure_def, Option.some.injEq] at h
  generalize drawSamples S M c n g = rows at *
  obtain ⟨images, h1, heatmaps, h2, segmaps, h3, rfl⟩ := h
  have hmap : ∀ (order : ℚ) (heat : Bool) (x : Row) (m m' : Maps), mapStep cv sk args.backend true c.percent order heat x m = some m' →
      m.arr.Valid → UsualFit (toSamples c.percent x) m.shape → m'.shape = fittedShape (toSamples c.percent x) m.shape ∧
        ((order ≥ 3 ∧ heat = true → ∀ c x y v, m.arr.at c x y = some v → 0 ≤ v ∧ v ≤ 1) → m.shape.h = m.arr.h ∧ m.shape.w = m.arr.w →
          m.arr.PixelsMovedBy (fittedMove (toSamples c.percent x) m.shape) m'.arr) := by
    intro order heat x m m' hm hv hu
    have hsh := (fit_shapes_agree (toSamples c.percent x) m.arr.shape m.shape hu.usual.notEmpty).2
    unfold mapShape at hsh
    rw [if_neg hu.usual.notEmpty, if_pos rfl, (fitted_eq hu (Or.inr rfl)).2.2] at hsh
    unfold mapStep at hm
    simp only [Option.map_eq_some_iff, if_neg hu.usual.notEmpty, if_true] at hm
    obtain ⟨a, ha, rfl⟩ := hm
    refine ⟨hsh, fun h01 hs => ?_⟩
    have hmv := image_fitted hl args.backend c.percent m.shape { x with order := order, mode := "constant", cval := [0] } m.arr a hv hs hu ha
    simp only
    split
    · rename_i hheat
      intro k x1 y1 x2 y2 v hat hx hy hT
      have := hmv.1 k x1 y1 x2 y2 v hat hx hy hT
      rw [at_some] at this ⊢
      obtain ⟨q1, q2, ch, q3, q4⟩ := this
      refine ⟨q1, q2, _, by simp only [List.getElem?_map, q3, Option.map_some]; rfl, ?_⟩
      obtain ⟨z1, z2⟩ := h01 hheat k x1 y1 v hat
      simp only [q4, min_eq_right z2, max_eq_right z1]
    · exact hmv.1
  refine ⟨rows, r1, r2, r3, ?_, ?_, ?_, ?_, ?_⟩
  · refine column_mono (col_spec _ _ _ _ h1 (fun l hl' => by rw [hb.images l hl', r1])) ?_
    intro x _ a a' ha hv hu
    exact image_fitted hl args.backend c.percent a.shape x a a' hv ⟨rfl, rfl⟩ hu ha
  · refine column_mono (col_spec _ _ _ _ h3 (fun l hl' => by rw [hb.segmaps l hl', r1])) ?_
    intro x _ m m' hm hv hu
    obtain ⟨k1, k2⟩ := hmap 0 false x m m' hm hv hu
    exact ⟨k1, k2 (by simp)⟩
  · refine column_mono (col_spec _ _ _ _ h2 (fun l hl' => by rw [hb.heatmaps l hl', r1])) ?_
    intro x _ m m' hm hv hu
    obtain ⟨k1, k2⟩ := hmap 3 true x m m' hm hv hu
    exact ⟨k1, fun h01 => k2 (fun _ => h01)⟩
  · have hc : ∀ old : Option (List OnImage), (∀ l, old = some l → l.length = n) →
        Column (fun x o o' => UsualFit (toSamples c.percent x) o.shape → o'.shape = fittedShape (toSamples c.percent x) o.shape ∧
          (o'.items = o.items.map (fun l => l.map (fittedMove (toSamples c.percent x) o.shape)) ∨
            (o'.items = o.items ∧ HardlyMoves (fittedMove (toSamples c.percent x) o.shape)))) rows old (col' (coordRow true c.percent) rows old) := by
      intro old ho
      refine column_mono (col'_spec _ _ _ (fun l hl' => by rw [ho l hl', r1])) ?_
      intro x _ o o' hx hu
      subst hx
      exact points_fitted c.percent x o hu
    intro old new hm
    simp only [List.mem_cons, Prod.mk.injEq, List.not_mem_nil, or_false] at hm
    rcases hm with ⟨rfl, rfl⟩ | ⟨rfl, rfl⟩ | ⟨rfl, rfl⟩
    · exact hc _ hb.kps
    · exact hc _ hb.polys
    · exact hc _ hb.lines
  · refine column_mono (col'_spec _ _ _ (fun l hl' => by rw [hb.boxes l hl', r1])) ?_
    intro x _ o o' hx hu
    subst hx
    exact boxes_fitted c.percent x o hu

/-- Rotation by no angle with scales 2 and 3: an image of 4 by 5 pixels gets the size 10 by 9, and the pixel (1, 1) is moved to (2, 3). -/
example : let p := toSamples false ⟨2, 3, 1, 2, 0, 0, 0, [0, 0, 0], "constant", 1⟩
    UsualFit p ⟨4, 5, some 3⟩ ∧ fittedShape p ⟨4, 5, some 3⟩ = ⟨10, 9, some 3⟩ ∧ fittedMove p ⟨4, 5, some 3⟩ (1, 1) = (2, 3) := by
  intro p
  have hp : p = ⟨2, 3, 1, 2, false, 0, 0, 0⟩ := by simp [p, toSamples]
  clear_value p
  subst hp
  have hlin : ∀ v, linear ⟨2, 3, 1, 2, false, 0, 0, 0⟩ v = (2 * v.1, 3 * v.2) := by
    intro v
    simp [linear, rotated, scaled, sheared]
  have hreg : (⟨2, 3, 1, 2, false, 0, 0, 0⟩ : Samples).Regular ⟨4, 5, some 3⟩ := by
    refine ⟨Or.inr (Or.inl ?_), ?_, ?_, ?_⟩ <;> norm_num [shift]
  have hfit : ∀ s : ℝ, s = 0 ∨ s = 1 / 2 → Fittable ⟨2, 3, 1, 2, false, 0, 0, 0⟩ ⟨4, 5, some 3⟩ s := by
    intro s hs
    apply fittable_of_lo _ _ _ hs
    obtain ⟨a, b, d, e, hl, -, he⟩ := plain_entries ⟨2, 3, 1, 2, false, 0, 0, 0⟩
    obtain ⟨e1, e2, -, -⟩ := he ⟨4, 5, some 3⟩ ⟨4, 5, some 3⟩ s hs
    obtain ⟨ha, hq⟩ := plain_spec ⟨2, 3, 1, 2, false, 0, 0, 0⟩ ⟨4, 5, some 3⟩ ⟨4, 5, some 3⟩ s hs
    have k1 := hl (1, 0)
    have k2 := hl (0, 1)
    rw [ell_eq _ _ hreg, hlin] at k1 k2
    simp at k1 k2
    have q := hq (0, 0)
    rw [apply_aff ha, ell_eq _ _ hreg, hlin] at q
    simp [tee, eT, Samples.txPx, Samples.tyPx] at q
    have q1 := q.1
    rw [e1, e2, ← k1.1, ← k2.1, q1]
    unfold Affine.lo min4
    rcases hs with rfl | rfl <;> norm_num
  have c0 : ∀ f s, cornersOf f s 0 = f (0, 0) := fun _ _ => rfl
  have c1 : ∀ f s, cornersOf f s 1 = f (0, (s.h : ℝ) - 1) := fun _ _ => rfl
  have c2 : ∀ f s, cornersOf f s 2 = f ((s.w : ℝ) - 1, (s.h : ℝ) - 1) := fun _ _ => rfl
  have c3 : ∀ f s, cornersOf f s 3 = f ((s.w : ℝ) - 1, 0) := fun _ _ => rfl
  refine ⟨⟨⟨by norm_num, by norm_num, by norm_num [Shape.hasZero], hreg, by norm_num, by norm_num⟩, hfit 0 (Or.inl rfl), hfit (1 / 2) (Or.inr rfl)⟩, ?_, ?_⟩
  · unfold fittedShape most least
    simp only [c0, c1, c2, c3, hlin]
    norm_num
    exact ⟨rfl, rfl⟩
  · unfold fittedMove least
    simp only [c0, c1, c2, c3, hlin]
    norm_num

end Imgaug.AffineBatch
