import Verif.Proofs.Piecewise
/-! Property C104: piecewise affine transformations. -/
namespace Imgaug.Piecewise
open Imgaug Imgaug.Params Imgaug.AffineArgs Imgaug.Dtypes
variable {σ : Type}

/-- C104: exactly the documented arguments are accepted. -/
theorem accepts (a : Args) (hi : ∀ v, a.order = .val v → IntNums v) : (init a).isSome = true ↔ a.Valid := by
  rw [init_isSome, order_isSome .skimage a.order hi, mode_isSome,
    show (handleContinuous a.scale (.interval (some 0) none) true true).isSome = true ↔ NumOk (.interval (some 0) none) true a.scale from
      continuous_accepts a.scale _ true true,
    show (handleDiscrete a.rows (.interval (some 2) none) true true false).isSome = true ↔ NumOk (.interval (some 2) none) false a.rows from
      discrete_accepts a.rows _ true true false,
    show (handleDiscrete a.cols (.interval (some 2) none) true true false).isSome = true ↔ NumOk (.interval (some 2) none) false a.cols from
      discrete_accepts a.cols _ true true false]
  have hc : (cvalArg a.cval).isSome = true ↔ ∀ v, a.cval = .val v → NumOk .none true v := by
    cases a.cval with
    | all => simp [cvalArg]
    | val v =>
      have : (continuous v).isSome = true ↔ NumOk .none true v := continuous_accepts v .none true true
      simp [cvalArg, this]
  rw [hc]
  constructor
  · rintro ⟨h1, h2, h3, h4, h5, h6⟩
    exact ⟨h1, h2, h3, h4, h5, h6⟩
  · intro h
    exact ⟨h.scale, h.rows, h.cols, h.order, h.cval, h.mode⟩

example : (init ⟨floats (1 / 100) (5 / 100), ints 2 4, int 8, .val (int 1), .all, .str "edge"⟩).isSome = true := by decide +kernel

/-- C104 (partial): each image gets a grid of at least two rows and columns, with as many of them as requested, and an own displacement for
each of its points; all displacements of a batch are the products of one requested scale and of normally distributed numbers, each of which
is used once. Missing: an own scale for each image, see `one_scale_per_batch`. -/
theorem drawn_partial (P : Values ℚ) (Q : Values String) (a : Args) (hf : a.Filled) (c : Conf) (h : init a = some c) (S : Sampler σ Handled ℚ)
    (hS : Ok (Supports P) S) (M : Sampler σ ModeDist String) (hM : Ok (ModeDist.Supports Q) M) (Z : Normals σ)
    (n : Nat) (g : σ) (hP : ∀ i v, P i v → ∃ z : Int, 2 ≤ z ∧ v = z) :
    (drawSamples S M Z c n g).length = n ∧
    (∀ r ∈ drawSamples S M Z c n g, 2 ≤ r.rows ∧ 2 ≤ r.cols ∧ Allows P a.rows r.rows ∧ Allows P a.cols r.cols ∧ r.jitter.length = r.rows * r.cols ∧
      OrderAllowed P .skimage a.order r.order ∧ CvalAllowed P a.cval r.cval ∧ ModeAllowed Q a.mode r.mode) ∧
    ∃ s g' m, Allows P a.scale s ∧ (drawSamples S M Z c n g).flatMap (fun r => r.jitter) =
      (List.range m).map (fun (i : Nat) => (s * (Z (m * 2) g').1.getD (2 * i) 0, s * (Z (m * 2) g').1.getD (2 * i + 1) 0)) := by
  obtain ⟨h1, h2, h3, h4, h5, h6⟩ := init_some a c h
  have hnat : ∀ v d (u : ℚ), handleDiscrete v (.interval (some 2) none) true true false = some d → Val.Filled v → IntNums v → Supports P d u →
      2 ≤ atLeastTwo u ∧ ((atLeastTwo u : Nat) : ℚ) = u ∧ Allows P v u := by
    intro v d u hd hfi hin hu
    have hallow := discrete_supports' P v _ d u hd hfi hin hu
    obtain ⟨z, hz2, rfl⟩ := discrete_two P v d u hP hd hfi hin hu
    refine ⟨le_max_left _ _, ?_, hallow⟩
    have : atLeastTwo (z : ℚ) = z.toNat := by
      unfold atLeastTwo
      rw [Dtypes.pyInt_intCast]
      omega
    rw [this]
    have : ((z.toNat : Nat) : Int) = z := Int.toNat_of_nonneg (by omega)
    exact_mod_cast this
  have cellsLen : ∀ l : List Nat, ∀ g', (drawJitter S Z c.scale l.sum g').length = l.sum := fun l g' => drawJitter_length S Z c.scale l.sum g'
  refine ⟨by simp [drawSamples], ?_, ?_⟩
  · intro r hr
    simp only [drawSamples, List.mem_map, List.mem_range] at hr
    obtain ⟨i, hi, rfl⟩ := hr
    have r1 := hnat a.rows c.rows _ h2 hf.rows hf.rowsInts (sample_ok hS c.rows n g i hi 0)
    have r2 := hnat a.cols c.cols _ h3 hf.cols hf.colsInts (sample_ok hS c.cols n (S c.rows n g).2 i hi 0)
    refine ⟨r1.1, r2.1, ?_, ?_, ?_, ?_, ?_, ?_⟩
    · simp only; rw [r1.2.1]; exact r1.2.2
    · simp only; rw [r2.2.1]; exact r2.2.2
    · dsimp only
      rw [splitJitter_get _ _ (cellsLen _ _) i (by simp [hi]), getD_range n i hi]
    · exact order_supports P .skimage a.order c.order (by simp) h4 hf.order hf.orderInts _ (sample_ok hS c.order n _ i hi 0)
    · exact cval_supports P a.cval c.cval h5 hf.cval _ (sample_ok hS c.cval n _ i hi 0)
    · exact mode_supports Q a.mode c.mode h6 hf.mode _ (sample_ok hM c.mode n _ i hi "")
  · simp only [drawSamples, List.flatMap_map]
    generalize hcells : (List.range n).map (fun (i : Nat) => atLeastTwo ((S c.rows n g).1.getD i 0) * atLeastTwo ((S c.cols n (S c.rows n g).2).1.getD i 0)) = cells
    have hlen : cells.length = n := by rw [← hcells]; simp
    generalize (M c.mode n (S c.cval n (S c.order n (S c.cols n (S c.rows n g).2).2).2).2).2 = gj
    refine ⟨(S c.scale 1 gj).1.getD 0 0, (S c.scale 1 gj).2, cells.sum,
      continuous_supports P a.scale _ c.scale _ h1 hf.scale (sample_ok hS c.scale 1 gj 0 (by omega) 0), ?_⟩
    have hj := splitJitter_flatten cells (drawJitter S Z c.scale cells.sum gj) (cellsLen _ _)
    have hm := map_getD (splitJitter cells (drawJitter S Z c.scale cells.sum gj)) n (by rw [splitJitter_length, hlen]) []
    rw [List.flatMap_def, hm, hj]
    rfl

/-- C104 is false for the scale: the documentation promises a random value per image for a list, but all images of a batch get the same. With
normal numbers that are all 1, every displacement is the scale, hence the scales would show. -/
theorem one_scale_per_batch (a : Args) (hf : Val.Filled a.scale) (c : Conf) (h : init a = some c) (P : Values ℚ) (S : Sampler σ Handled ℚ)
    (hS : Ok (Supports P) S) (M : Sampler σ ModeDist String) (n : Nat) (g : σ) :
    ∃ s, Allows P a.scale s ∧ ∀ r ∈ drawSamples S M (fun n g => (List.replicate n 1, g)) c n g, ∀ j ∈ r.jitter, j = (s, s) := by
  obtain ⟨h1, _, _, _, _, _⟩ := init_some a c h
  simp only [drawSamples]
  generalize hcells : (List.range n).map (fun (i : Nat) => atLeastTwo ((S c.rows n g).1.getD i 0) * atLeastTwo ((S c.cols n (S c.rows n g).2).1.getD i 0)) = cells
  have hlen : cells.length = n := by rw [← hcells]; simp
  generalize (M c.mode n (S c.cval n (S c.order n (S c.cols n (S c.rows n g).2).2).2).2).2 = gj
  refine ⟨(S c.scale 1 gj).1.getD 0 0,
    continuous_supports P a.scale _ c.scale _ h1 hf (sample_ok hS c.scale 1 gj 0 (by omega) 0), ?_⟩
  intro r hr j hj
  obtain ⟨i, hi, rfl⟩ := List.mem_map.1 hr
  rw [List.mem_range] at hi
  simp only at hj
  have hmem : j ∈ drawJitter S (fun n g => (List.replicate n 1, g)) c.scale cells.sum gj := by
    rw [← splitJitter_flatten cells _ (drawJitter_length S _ c.scale cells.sum gj)]
    exact List.mem_flatten.2 ⟨_, getD_mem (splitJitter_length _ _) (by omega) [], hj⟩
  simp only [drawJitter, List.mem_map, List.mem_range] at hmem
  obtain ⟨k, hk, rfl⟩ := hmem
  have e : ∀ m, m < cells.sum * 2 → (List.replicate (cells.sum * 2) (1 : ℚ)).getD m 0 = 1 := by
    intro m hm
    simp [List.getD, hm]
  rw [e _ (by omega), e _ (by omega), mul_one]

/-- C104 (partial): the points form a regular grid from the upper left to the lower right corner, and each is moved by its displacement (a
fraction of the size, or pixels of the image if the scale is absolute), but not out of the array. Nothing happens unless `Active`.
Missing: displacements of which none is positive, see `negative_jitter_ignored`, and the last row and column, see `border_moves`. -/
theorem points_partial (absolute : Bool) (arr img : Affine.Shape) (r : Row) (hr : 2 ≤ r.rows) (hc : 2 ≤ r.cols) (hl : r.jitter.length = r.rows * r.cols)
    (hi : 0 < img.h ∧ 0 < img.w) :
    (¬ Active arr img r → transformer absolute arr img r = none) ∧
    (Active arr img r → ∃ pts, transformer absolute arr img r = some pts ∧ pts.length = r.rows * r.cols ∧
      ∀ (i j : Nat) (d : Pos), i < r.rows → j < r.cols → r.jitter[i * r.cols + j]? = some d →
        let y : ℚ := arr.h * i / (r.rows - 1)
        let x : ℚ := arr.w * j / (r.cols - 1)
        let dy : ℚ := if absolute then d.1 * (arr.h / img.h) else d.1 * arr.h
        let dx : ℚ := if absolute then d.2 * (arr.w / img.w) else d.2 * arr.w
        pts[i * r.cols + j]? = some ((y, x), (min (max (y + dy) 0) (arr.h - 1), min (max (x + dx) 0) (arr.w - 1)))) := by
  refine ⟨transformer_none absolute arr img r, fun ha => ⟨_, transformer_some absolute arr img r ha, ?_, ?_⟩⟩
  · simp [gridPoints_length, hl]
  · intro i j d hi' hj hd
    have hy : ∀ (n m : Nat) (q : ℚ), 0 < m → scaledJitter absolute n m q = if absolute then q * ((n : ℚ) / m) else q * n := by
      intro n m q hm
      unfold scaledJitter
      cases absolute
      · simp
      · simp only [if_true, if_pos hm]
        ring
    have hz : ((gridPoints arr.h arr.w r.rows r.cols).zip r.jitter)[i * r.cols + j]? =
        some (((arr.h : ℚ) * i / ((r.rows : ℚ) - 1), (arr.w : ℚ) * j / ((r.cols : ℚ) - 1)), d) :=
      List.getElem?_zip_eq_some.2 ⟨gridPoints_get arr.h arr.w r.rows r.cols i j hi' hj, hd⟩
    simp only [List.getElem?_map, hz, Option.map_some, movedPoint, movedCoord, hy arr.h img.h _ hi.1, hy arr.w img.w _ hi.2]

example : Active ⟨10, 10, some 3⟩ ⟨10, 10, some 3⟩ demoRow ∧ transformer false ⟨10, 10, some 3⟩ ⟨10, 10, some 3⟩ demoRow = some demoPoints := by
  refine ⟨⟨⟨(1 / 10, 1 / 10), by simp [demoRow], by norm_num⟩, by norm_num, by norm_num, by simp, by simp⟩, by decide +kernel⟩

/-- C104 is false if no displacement is positive: then the points are not moved although they are meant to. -/
theorem negative_jitter_ignored (absolute : Bool) (arr img : Affine.Shape) (r : Row) (h : ∀ j ∈ r.jitter, j.1 ≤ 0 ∧ j.2 ≤ 0) :
    transformer absolute arr img r = none := by
  apply transformer_none
  rintro ⟨⟨j, hj, hp⟩, _⟩
  have := h j hj
  rcases hp with hp | hp <;> linarith [this.1, this.2]

example : ∀ j ∈ [((-1 / 2, -1 / 4) : Pos), (-1 / 3, 0)], j.1 ≤ 0 ∧ j.2 ≤ 0 := by
  intro j hj; simp at hj; rcases hj with rfl | rfl <;> norm_num

/-- C104 is false for the last row and the last column of points: whatever their displacement is, even if it is zero, they are moved by one
pixel or more, hence all of the image is. -/
theorem border_moves (absolute : Bool) (arr img : Affine.Shape) (r : Row) (hr : 2 ≤ r.rows) (hc : 2 ≤ r.cols) (pts : Points)
    (h : transformer absolute arr img r = some pts) (e : Pos × Pos) (he : e ∈ pts) :
    (e.1.1 = arr.h → e.2.1 ≤ e.1.1 - 1) ∧ (e.1.2 = arr.w → e.2.2 ≤ e.1.2 - 1) := by
  obtain ⟨_, j, _, hm⟩ := points_mem absolute arr img r hr hc pts h e he
  rw [hm]
  refine ⟨fun h1 => ?_, fun h1 => ?_⟩
  · rw [h1]; exact min_le_right _ _
  · rw [h1]; exact min_le_right _ _

example : ((10, 10), (9, 9)) ∈ demoPoints := by simp [demoPoints]

/-- C104: what is shown at a position comes from inside of the image, and from at most `m` times the size plus one pixel away, where `m` is the
largest displacement. (So the mode and the value for pixels outside of the image have no effect.) -/
theorem shown_nearby (absolute : Bool) (arr img : Affine.Shape) (r : Row) (hr : 2 ≤ r.rows) (hc : 2 ≤ r.cols) (pts : Points)
    (h : transformer absolute arr img r = some pts) (T : Pos → Pos) (hT : Follows T pts arr.h arr.w) (m : ℚ)
    (hm : ∀ j ∈ r.jitter, |scaledJitter absolute arr.h img.h j.1| ≤ m * arr.h ∧ |scaledJitter absolute arr.w img.w j.2| ≤ m * arr.w)
    (p : Pos) (h1 : 0 ≤ p.1) (h2 : p.1 ≤ arr.h) (h3 : 0 ≤ p.2) (h4 : p.2 ≤ arr.w) :
    0 ≤ (T p).1 ∧ (T p).1 ≤ (arr.h : ℚ) - 1 ∧ 0 ≤ (T p).2 ∧ (T p).2 ≤ (arr.w : ℚ) - 1 ∧
    |(T p).1 - p.1| ≤ m * arr.h + 1 ∧ |(T p).2 - p.2| ≤ m * arr.w + 1 := by
  obtain ⟨l, hl, hs, p1, p2, t1, t2⟩ := hT p h1 h2 h3 h4
  obtain ⟨_, ha, hb, _, _⟩ := transformer_active h
  have key : ∀ e ∈ l, 0 ≤ e.1 ∧ (0 ≤ e.2.2.1 ∧ e.2.2.1 ≤ (arr.h : ℚ) - 1 ∧ |e.2.2.1 - e.2.1.1| ≤ m * arr.h + 1) ∧
      (0 ≤ e.2.2.2 ∧ e.2.2.2 ≤ (arr.w : ℚ) - 1 ∧ |e.2.2.2 - e.2.1.2| ≤ m * arr.w + 1) := by
    intro e he
    obtain ⟨h0, hmem⟩ := hl e he
    obtain ⟨⟨b1, b2, b3, b4⟩, j, hj, hmv⟩ := points_mem absolute arr img r hr hc pts h e.2 hmem
    have hmj := hm j hj
    have c1 := movedCoord_bounds arr.h ha absolute img.h e.2.1.1 j.1 b1 b2
    have c2 := movedCoord_bounds arr.w hb absolute img.w e.2.1.2 j.2 b3 b4
    rw [hmv]
    exact ⟨h0, ⟨c1.1, c1.2.1, c1.2.2.trans (by linarith [hmj.1])⟩, ⟨c2.1, c2.2.1, c2.2.2.trans (by linarith [hmj.2])⟩⟩
  have bound : ∀ (f : ℚ × Pos × Pos → ℚ) (a b : ℚ), (∀ e ∈ l, 0 ≤ e.1 ∧ a ≤ f e ∧ f e ≤ b) →
      a ≤ (l.map (fun e => e.1 * f e)).sum ∧ (l.map (fun e => e.1 * f e)).sum ≤ b := by
    intro f a b hf
    have u := wsum_le l f (fun _ => b) (fun e he => ⟨(hf e he).1, (hf e he).2.2⟩)
    have v := wsum_le l (fun _ => a) f (fun e he => ⟨(hf e he).1, (hf e he).2.1⟩)
    rw [wsum_const l b hs] at u
    rw [wsum_const l a hs] at v
    exact ⟨v, u⟩
  have d1 : (l.map (fun e => e.1 * e.2.2.1)).sum = (l.map (fun e => e.1 * (e.2.2.1 - e.2.1.1))).sum + (l.map (fun e => e.1 * e.2.1.1)).sum := by
    rw [← wsum_add]
    congr 2
    funext e
    ring
  have d2 : (l.map (fun e => e.1 * e.2.2.2)).sum = (l.map (fun e => e.1 * (e.2.2.2 - e.2.1.2))).sum + (l.map (fun e => e.1 * e.2.1.2)).sum := by
    rw [← wsum_add]
    congr 2
    funext e
    ring
  have y1 := bound (fun e => e.2.2.1) 0 ((arr.h : ℚ) - 1) (fun e he => ⟨(key e he).1, (key e he).2.1.1, (key e he).2.1.2.1⟩)
  have x1 := bound (fun e => e.2.2.2) 0 ((arr.w : ℚ) - 1) (fun e he => ⟨(key e he).1, (key e he).2.2.1, (key e he).2.2.2.1⟩)
  have y2 := bound (fun e => e.2.2.1 - e.2.1.1) (-(m * arr.h + 1)) (m * arr.h + 1) (fun e he => ⟨(key e he).1, abs_le.1 (key e he).2.1.2.2⟩)
  have x2 := bound (fun e => e.2.2.2 - e.2.1.2) (-(m * arr.w + 1)) (m * arr.w + 1) (fun e he => ⟨(key e he).1, abs_le.1 (key e he).2.2.2.2⟩)
  refine ⟨by rw [t1]; exact y1.1, by rw [t1]; exact y1.2, by rw [t2]; exact x1.1, by rw [t2]; exact x1.2, ?_, ?_⟩
  · rw [t1, p1, d1, add_sub_cancel_right]; exact abs_le.2 y2
  · rw [t2, p2, d2, add_sub_cancel_right]; exact abs_le.2 x2

/-- There is a transformation that follows the points of `demoRow`. -/
example : Follows demoT demoPoints 10 10 := demo_follows

/-- C104 (partial): the points of a map that is `z` times as large as the image are `z` times those of the image, up to `z - 1` pixels of the
map. Missing: equality, which fails because points are kept one pixel away from the far border of map and image. -/
theorem map_points_partial (absolute : Bool) (arr img : Affine.Shape) (z : ℚ) (hz : 0 < z) (hh : (arr.h : ℚ) = z * img.h) (hw : (arr.w : ℚ) = z * img.w)
    (hi : 0 < img.h ∧ 0 < img.w) (p j : Pos) :
    let m := movedPoint absolute arr img (z * p.1, z * p.2) j
    let i := movedPoint absolute img img p j
    |m.1 - z * i.1| ≤ |z - 1| ∧ |m.2 - z * i.2| ≤ |z - 1| := by
  have key : ∀ (n k : Nat) (q d : ℚ), 0 < k → (n : ℚ) = z * k →
      |movedCoord absolute n k (z * q) d - z * movedCoord absolute k k q d| ≤ |z - 1| := by
    intro n k q d hk hn
    have hs : scaledJitter absolute n k d = z * scaledJitter absolute k k d := by
      unfold scaledJitter
      rw [hn]; ring
    unfold movedCoord
    rw [hs, hn, ← mul_add, mul_min_of_nonneg _ _ hz.le, mul_max_of_nonneg _ _ hz.le, mul_zero]
    generalize max (z * (q + scaledJitter absolute k k d)) 0 = t
    have e : z * ((k : ℚ) - 1) = z * k - z := by ring
    rw [e]
    refine (abs_min_sub_min_le_max _ _ _ _).trans ?_
    rw [sub_self, abs_zero, max_eq_right (abs_nonneg _)]
    apply le_of_eq
    congr 1
    ring
  exact ⟨key arr.h img.h p.1 j.1 hi.1 hh, key arr.w img.w p.2 j.2 hi.2 hw⟩

/-- C104: if a pixel of the output shows a pixel of the input, it has the same value, in all dtypes that are supported. -/
theorem image_value (T : Estimate) (I : Interp) (hI : Exact I) (absolute : Bool) (r : Row) (p : Plane) (pts : Points)
    (h : transformer absolute p.shape p.shape r = some pts)
    (hd : p.dt ∈ [⟨.b, 1⟩, ⟨.u, 1⟩, ⟨.u, 2⟩, ⟨.u, 4⟩, ⟨.i, 1⟩, ⟨.i, 2⟩, ⟨.i, 4⟩, ⟨.f, 2⟩, ⟨.f, 4⟩, ⟨.f, 8⟩])
    (y x v u : Nat) (hv : v < p.shape.h) (hu : u < p.shape.w) (hs : T pts (at' y x) = at' v u) (hp : Holds p.dt (p.px v u)) :
    imageStep T I absolute r p y x = some (p.px v u) := by
  unfold imageStep
  rw [h]
  simp only
  rw [hs, hI _ _ _ _ _ _ v u hv hu]
  apply restored_eq _ _ _ _ _ hp
  · revert hd
    generalize p.dt = d
    revert d
    decide
  · revert hd
    generalize p.dt = d
    revert d
    decide +kernel
  · revert hd
    generalize p.dt = d
    revert d
    decide +kernel

/-- C104: arrays to which nothing is done stay as they are, and so do keypoints. -/
theorem unchanged (T : Estimate) (I : Interp) (L : Linear) (absolute : Bool) (r : Row) :
    (∀ p : Plane, ¬ Active p.shape p.shape r → ∀ y x, imageStep T I absolute r p y x = some (p.px y x)) ∧
    (∀ p : MapPlane, ¬ Active p.shape p.img r → heatmapStep T I absolute r p = p.px ∧ segmapStep T I absolute r p = p.px) ∧
    (∀ s kps, ¬ Active s s r → kpsStep T L absolute r s kps = kps) := by
  refine ⟨fun p h y x => ?_, fun p h => ⟨?_, ?_⟩, fun s kps h => ?_⟩
  · unfold imageStep; rw [transformer_none absolute _ _ r h]
  · unfold heatmapStep; rw [transformer_none absolute _ _ r h]
  · unfold segmapStep; rw [transformer_none absolute _ _ r h]
  · unfold kpsStep; rw [transformer_none absolute _ _ r h]

/-- C104: images are interpolated with the drawn order and mode and with the drawn fill value, which is clipped to the values of the dtype,
except for bool images, which are interpolated as float64. (An interpolation that does the same for these settings gives the same image.) -/
theorem image_interpolation (T : Estimate) (I I' : Interp) (absolute : Bool) (r : Row) (p : Plane) (c : ℚ) (dt : DType)
    (hd : p.dt ∈ all) (hdt : dt = if p.dt.kind = .b then ⟨.f, 8⟩ else p.dt)
    (h1 : r.cval < lo dt → c = lo dt) (h2 : (hi dt : ℚ) < r.cval → c = hi dt) (h3 : lo dt ≤ r.cval → r.cval ≤ hi dt → c = r.cval)
    (hI : ∀ f q, I p.shape.h p.shape.w r.order r.mode c f q = I' p.shape.h p.shape.w r.order r.mode c f q) :
    imageStep T I absolute r p = imageStep T I' absolute r p := by
  have hc : clippedCval (warpDtype p.dt) r.cval = c := by
    rw [warpDtype, ← hdt, clippedCval]
    have hall : dt ∈ all := by
      rw [hdt]; split
      · decide
      · exact hd
    have hle : (lo dt : ℚ) ≤ hi dt := by exact_mod_cast lo_le_hi dt hall
    rcases lt_or_ge r.cval (lo dt : ℚ) with h | h
    · rw [h1 h, min_eq_left (by linarith), max_eq_right h.le]
    · rcases lt_or_ge (hi dt : ℚ) r.cval with h' | h'
      · rw [h2 h', min_eq_right h'.le, max_eq_left hle]
      · rw [h3 h h', min_eq_left h', max_eq_left h]
  unfold imageStep
  cases transformer absolute p.shape p.shape r with
  | none => rfl
  | some pts => simp only [hc, hI]

example : (-3 : ℚ) < lo ⟨.u, 1⟩ ∧ (hi ⟨.u, 1⟩ : ℚ) < 300 ∧ (⟨.u, 1⟩ : DType) ∈ all := by decide +kernel

/-- C104: heatmaps are interpolated with order 3 and segmentation maps with order 0, both with 0 outside of the array, whatever was drawn. -/
theorem map_interpolation (T : Estimate) (I I' : Interp) (absolute : Bool) (r : Row) (p : MapPlane) :
    ((∀ f q, I p.shape.h p.shape.w 3 "constant" 0 f q = I' p.shape.h p.shape.w 3 "constant" 0 f q) →
      heatmapStep T I absolute r p = heatmapStep T I' absolute r p) ∧
    ((∀ f q, I p.shape.h p.shape.w 0 "constant" 0 f q = I' p.shape.h p.shape.w 0 "constant" 0 f q) →
      segmapStep T I absolute r p = segmapStep T I' absolute r p) := by
  unfold heatmapStep segmapStep
  cases transformer absolute p.shape p.img r with
  | none => exact ⟨fun _ => rfl, fun _ => rfl⟩
  | some pts => exact ⟨fun h => by simp only [h], fun h => by simp only [h]⟩

/-- C104: heatmaps stay between 0 and 1, and segmentation maps contain only class ids that they contained before, or 0. -/
theorem map_values (T : Estimate) (I : Interp) (hI : Picks I) (absolute : Bool) (r : Row) (p : MapPlane) :
    ((∀ y x, 0 ≤ p.px y x ∧ p.px y x ≤ 1) → ∀ y x, 0 ≤ heatmapStep T I absolute r p y x ∧ heatmapStep T I absolute r p y x ≤ 1) ∧
    ∀ y x, y < p.shape.h → x < p.shape.w → segmapStep T I absolute r p y x = 0 ∨
      ∃ v u, v < p.shape.h ∧ u < p.shape.w ∧ segmapStep T I absolute r p y x = p.px v u := by
  refine ⟨fun hp y x => ?_, fun y x hy hx => ?_⟩
  · unfold heatmapStep
    cases transformer absolute p.shape p.img r with
    | none => exact hp y x
    | some pts => exact ⟨le_min (le_max_right _ _) (by norm_num), min_le_right _ _⟩
  · unfold segmapStep
    cases transformer absolute p.shape p.img r with
    | none => exact Or.inr ⟨y, x, hy, hx, rfl⟩
    | some pts => exact hI _ _ _ _ _ _

/-- C104: a keypoint on a pixel that the output shows is moved to a pixel of the output that shows it, namely to the first one. -/
theorem keypoint_follows (T : Estimate) (L : Linear) (hL : Averages L) (shape : Affine.Shape) (pts : Points) (v u y x : Nat)
    (hv : v < shape.h) (hu : u < shape.w) (hy : y < shape.h) (hx : x < shape.w) (hs : T pts (at' y x) = at' v u) :
    ∃ y' x' : Nat, kpStep T L shape pts ⟨u, v⟩ = ⟨x', y'⟩ ∧ y' < shape.h ∧ x' < shape.w ∧ T pts (at' y' x') = at' v u ∧
      ∀ y'' x'' : Nat, x'' < shape.w → Before (y'', x'') (y', x') → T pts (at' y'' x'') ≠ at' v u := by
  have hin : (0 : ℚ) ≤ u ∧ (u : ℚ) < shape.w ∧ (0 : ℚ) ≤ v ∧ (v : ℚ) < shape.h :=
    ⟨by positivity, by exact_mod_cast hu, by positivity, by exact_mod_cast hv⟩
  unfold kpStep
  rw [if_pos hin]
  obtain ⟨m1, m2, m3, m4⟩ := argmax_spec shape.h shape.w (by omega) (by omega) (fun y x => L shape.h shape.w (closeness ⟨u, v⟩) (T pts (at' y x)))
  generalize hm : argmax shape.h shape.w (fun y x => L shape.h shape.w (closeness ⟨u, v⟩) (T pts (at' y x))) = m at m1 m2 m3 m4
  have h1 := (linear_one hL shape.h shape.w v u hv hu (T pts (at' y x))).2.2 hs
  have hbest : L shape.h shape.w (closeness ⟨u, v⟩) (T pts (at' m.1 m.2)) = 1 := by
    have := m3 y hy x hx
    rw [h1] at this
    exact le_antisymm (linear_one hL shape.h shape.w v u hv hu _).1 this
  refine ⟨m.1, m.2, ?_, m1, m2, (linear_one hL shape.h shape.w v u hv hu _).2.1 hbest, ?_⟩
  · unfold found
    simp only [hm]
    rw [if_pos (by rw [hbest]; norm_num)]
  · intro y'' x'' hx'' hb hc
    have := m4 y'' x'' hx'' hb
    rw [(linear_one hL shape.h shape.w v u hv hu _).2.2 hc, hbest] at this
    exact lt_irrefl _ this

example : Averages demoLinear ∧ Exact demoInterp ∧ Picks demoInterp := ⟨demoLinear_averages, demoInterp_exact, demoInterp_picks⟩

/-- C104: keypoints outside of the image stay where they are, the others are placed on a pixel of the image or at (-1, -1); their number and
order do not change. -/
theorem keypoints_placed (T : Estimate) (L : Linear) (absolute : Bool) (r : Row) (shape : Affine.Shape) (kps : List Pt) :
    List.Forall₂ (fun (p q : Pt) => (¬ (0 ≤ p.x ∧ p.x < shape.w ∧ 0 ≤ p.y ∧ p.y < shape.h) → q = p) ∧
      (q = p ∨ q = ⟨-1, -1⟩ ∨ ∃ y x : Nat, y < shape.h ∧ x < shape.w ∧ q = ⟨x, y⟩)) kps (kpsStep T L absolute r shape kps) := by
  unfold kpsStep
  split
  · exact List.forall₂_same.2 (fun p _ => ⟨fun _ => rfl, Or.inl rfl⟩)
  · rename_i pts h
    obtain ⟨_, ha, hb, _, _⟩ := transformer_active h
    rw [List.forall₂_map_right_iff]
    refine List.forall₂_same.2 (fun p _ => ?_)
    unfold kpStep
    by_cases hin : 0 ≤ p.x ∧ p.x < shape.w ∧ 0 ≤ p.y ∧ p.y < shape.h
    · rw [if_pos hin]
      refine ⟨fun hn => absurd hin hn, Or.inr ?_⟩
      obtain ⟨m1, m2, _, _⟩ := argmax_spec shape.h shape.w (by omega) (by omega) (fun y x => L shape.h shape.w (closeness p) (T pts (at' y x)))
      unfold found
      simp only
      split_ifs
      · exact Or.inr ⟨_, _, m1, m2, rfl⟩
      · exact Or.inl rfl
    · rw [if_neg hin]
      exact ⟨fun _ => rfl, Or.inl rfl⟩

/-- C104 (partial): if the pixels of the output show the same pixels of the input (the content is not moved), then keypoints inside of the image
move by less than one pixel along each axis. Missing: that they do not move, see `subpixel_lost`. -/
theorem keypoint_kept_partial (T : Estimate) (L : Linear) (hL : Averages L) (shape : Affine.Shape) (pts : Points)
    (hT : ∀ y x : Nat, y < shape.h → x < shape.w → T pts (at' y x) = at' y x) (p : Pt) (hp : 0 ≤ p.x ∧ p.x < shape.w ∧ 0 ≤ p.y ∧ p.y < shape.h) :
    ∃ y x : Nat, kpStep T L shape pts p = ⟨x, y⟩ ∧ y < shape.h ∧ x < shape.w ∧ |(x : ℚ) - p.x| < 1 ∧ |(y : ℚ) - p.y| < 1 :=
  keypoint_kept T L hL shape pts hT p hp

/-- C104 is false for keypoints between pixels: even if the content is not moved, a keypoint in the middle of a pixel is moved to the corner. -/
theorem subpixel_lost (T : Estimate) (L : Linear) (hL : Averages L) (pts : Points) (hT : ∀ y x : Nat, T pts (at' y x) = at' y x) (h w : Nat) (hh : 1 < h)
    (hw : 1 < w) : kpStep T L ⟨h, w, some 3⟩ pts ⟨1 / 2, 1 / 2⟩ = ⟨0, 0⟩ := half_moves T L hL pts hT h w hh hw

/-- C104: in a batch, the image, the maps and the keypoints of a row are treated with the samples of that row: if a pixel of the output image
shows the pixel of a keypoint, then the keypoint is found on such a pixel, where the image has the value that it had under the keypoint. -/
theorem batch_aligned (T : Estimate) (I : Interp) (L : Linear) (hI : Exact I) (hL : Averages L) (absolute : Bool) (rows : List Row) (b : Batch)
    (i : Nat) (r : Row) (p : Plane) (kps : List Pt) (k v u y x : Nat) (hr : rows[i]? = some r) (hp : b.images[i]? = some p)
    (hk : b.kps[i]? = some (p.shape, kps)) (hkp : kps[k]? = some ⟨u, v⟩) (hv : v < p.shape.h) (hu : u < p.shape.w) (hy : y < p.shape.h)
    (hx : x < p.shape.w) (hd : p.dt ∈ [⟨.b, 1⟩, ⟨.u, 1⟩, ⟨.u, 2⟩, ⟨.u, 4⟩, ⟨.i, 1⟩, ⟨.i, 2⟩, ⟨.i, 4⟩, ⟨.f, 2⟩, ⟨.f, 4⟩, ⟨.f, 8⟩])
    (hh : Holds p.dt (p.px v u)) (hs : ∀ pts, transformer absolute p.shape p.shape r = some pts → T pts (at' y x) = at' v u) :
    ∃ (q : Nat → Nat → Option ℚ) (ks : List Pt) (y' x' : Nat), (augment T I L absolute rows b).images[i]? = some q ∧
      (augment T I L absolute rows b).kps[i]? = some ks ∧ ks[k]? = some ⟨x', y'⟩ ∧ q y' x' = some (p.px v u) := by
  have e1 : (augment T I L absolute rows b).images[i]? = some (imageStep T I absolute r p) := by
    simp [augment, List.getElem?_zipWith, hr, hp]
  have e2 : (augment T I L absolute rows b).kps[i]? = some (kpsStep T L absolute r p.shape kps) := by
    simp [augment, List.getElem?_zipWith, hr, hk]
  cases ht : transformer absolute p.shape p.shape r with
  | none =>
    refine ⟨_, _, v, u, e1, e2, ?_, ?_⟩
    · unfold kpsStep; rw [ht]; exact hkp
    · unfold imageStep; rw [ht]
  | some pts =>
    obtain ⟨y', x', hk', h1, h2, h3, _⟩ := keypoint_follows T L hL p.shape pts v u y x hv hu hy hx (hs pts ht)
    refine ⟨_, _, y', x', e1, e2, ?_, image_value T I hI absolute r p pts ht hd y' x' v u hv hu h3 hh⟩
    unfold kpsStep
    rw [ht]
    simp only [List.getElem?_map, hkp, Option.map_some, hk']

/-- The hypotheses of `image_value`, `keypoint_follows` and `batch_aligned` hold for a content that is moved to the left by one pixel. -/
example : ∃ T : Estimate, (∀ pts, transformer false ⟨10, 10, some 3⟩ ⟨10, 10, some 3⟩ demoRow = some pts → T pts (at' 3 4) = at' 3 5) ∧ Holds ⟨.u, 1⟩ 200 := by
  refine ⟨fun _ p => (p.1, p.2 + 1), fun _ _ => ?_, by decide +kernel, by decide +kernel, fun _ => ⟨200, by norm_num⟩⟩
  simp only [at']; norm_num

/-- C104: in a batch, maps get the samples of their row. -/
theorem batch_maps (T : Estimate) (I : Interp) (L : Linear) (absolute : Bool) (rows : List Row) (b : Batch) (i : Nat) (r : Row) (p : MapPlane)
    (hr : rows[i]? = some r) (pts : Points) (hI : Exact I) (ht : transformer absolute p.shape p.img r = some pts) (y x v u : Nat)
    (hv : v < p.shape.h) (hu : u < p.shape.w) (hs : T pts (at' y x) = at' v u) :
    (b.heatmaps[i]? = some p → 0 ≤ p.px v u → p.px v u ≤ 1 → ∃ q, (augment T I L absolute rows b).heatmaps[i]? = some q ∧ q y x = p.px v u) ∧
    (b.segmaps[i]? = some p → ∃ q, (augment T I L absolute rows b).segmaps[i]? = some q ∧ q y x = p.px v u) := by
  refine ⟨fun hp h0 h1 => ⟨heatmapStep T I absolute r p, by simp [augment, List.getElem?_zipWith, hr, hp], ?_⟩,
    fun hp => ⟨segmapStep T I absolute r p, by simp [augment, List.getElem?_zipWith, hr, hp], ?_⟩⟩
  · unfold heatmapStep
    rw [ht]
    simp only
    rw [hs, hI _ _ _ _ _ _ v u hv hu, max_eq_left h0, min_eq_left h1]
  · unfold segmapStep
    rw [ht]
    simp only
    rw [hs, hI _ _ _ _ _ _ v u hv hu]

end Imgaug.Piecewise
