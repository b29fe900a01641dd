import Verif.Spec.MaskGen
import Verif.Proofs.MaskGen
/-! C73: mask generators for alpha blending. -/
namespace Imgaug.Props.MaskGen
open Imgaug Imgaug.Dtypes Imgaug.MaskGen
variable {α : Type}

/-- C73: samples drawn at once are dealt out to the rows of a batch one after the other: every row gets as many as it asked for, no sample is given to two
rows, and none is skipped. -/
theorem split_rows (sizes : List Nat) : ∀ l : List α, sizes.sum ≤ l.length →
    (split l sizes).map List.length = sizes ∧ (split l sizes).flatten = l.take sizes.sum := by
  induction sizes with
  | nil => intro l _; exact ⟨rfl, by simp [split]⟩
  | cons n ns ih =>
    intro l h
    rw [List.sum_cons] at h
    obtain ⟨h1, h2⟩ := ih (l.drop n) (by rw [List.length_drop]; omega)
    refine ⟨?_, ?_⟩
    · rw [split, List.map_cons, h1, List.length_take, Nat.min_eq_left (by omega)]
    · rw [split, List.flatten_cons, h2, List.sum_cons, List.take_add]

example : split [1, 2, 3, 4, 5, 6, 7] [2, 0, 3] = [[1, 2], [], [3, 4, 5]] := by decide

/-- C73 (partial): a gradient that is not inverted. `lo` up to the start point, `hi` from the end point on, evenly spaced values from `lo` to `hi` between them
(only `lo` if there is just one place between them). -/
theorem gradient_values_partial (n : Nat) (lo hi start stop : ℚ) (hl : 0 ≤ lo ∧ lo ≤ 1) (hh : 0 ≤ hi ∧ hi ≤ 1)
    (hs : 0 ≤ start) (hse : start ≤ stop) (he : stop ≤ 1) (i : Nat) (h : i < n) :
    ∃ v, (gradient n lo hi start stop)[i]? = some v ∧
      (i < ⌊start * n⌋₊ → v = lo) ∧
      (⌊stop * n⌋₊ ≤ i → v = hi) ∧
      (⌊start * n⌋₊ ≤ i → i < ⌊stop * n⌋₊ → ⌊stop * n⌋₊ = ⌊start * n⌋₊ + 1 → v = lo) ∧
      (⌊start * n⌋₊ ≤ i → i < ⌊stop * n⌋₊ → ⌊stop * n⌋₊ ≠ ⌊start * n⌋₊ + 1 →
        (v - lo) * ((⌊stop * n⌋₊ : ℚ) - 1 - ⌊start * n⌋₊) = (hi - lo) * ((i : ℚ) - ⌊start * n⌋₊)) := by
  have hn : (0 : ℚ) ≤ n := by positivity
  have hle : ⌊start * n⌋₊ ≤ ⌊stop * n⌋₊ := Nat.floor_le_floor (mul_le_mul_of_nonneg_right hse hn)
  refine ⟨_, gradient_get n lo hi start stop i h, ?_⟩
  rw [atPx_floor hs (le_trans hse he), atPx_floor (le_trans hs hse) he, unit_id hl.1 hl.2, unit_id hh.1 hh.2, if_neg (by omega)]
  generalize ⌊start * n⌋₊ = s at *
  generalize ⌊stop * n⌋₊ = e at *
  unfold ramp
  refine ⟨fun h1 => by rw [if_pos h1], fun h1 => by rw [if_neg (by omega), if_pos h1],
    fun h1 h2 h3 => by rw [if_neg (by omega), if_neg (by omega), if_pos (by omega)], fun h1 h2 h3 => ?_⟩
  rw [if_neg (by omega), if_neg (by omega), if_neg (by omega), Nat.cast_sub h1, Nat.cast_sub hle]
  have h4 : ((s : ℚ) + 2) ≤ e := by exact_mod_cast (by omega : s + 2 ≤ e)
  have h5 : ((e : ℚ) - s - 1) ≠ 0 := by linarith
  have h6 : ((e : ℚ) - 1 - s) = (e : ℚ) - s - 1 := by ring
  rw [h6]
  field_simp
  ring

example : gradient 8 (1 / 4) (3 / 4) (1 / 4) (7 / 8) = [1 / 4, 1 / 4, 1 / 4, 3 / 8, 1 / 2, 5 / 8, 3 / 4, 3 / 4] := by decide +kernel

/-- C73: a gradient never falls (from `lo` to a larger `hi`) and stays between `lo` and `hi`. -/
theorem gradient_monotone (n : Nat) (lo hi start stop : ℚ) (hl : 0 ≤ lo) (hlh : lo ≤ hi) (hh : hi ≤ 1)
    (hs : 0 ≤ start) (hse : start ≤ stop) (he : stop ≤ 1) (i j : Nat) (hij : i ≤ j) (h : j < n) :
    ∃ a b, (gradient n lo hi start stop)[i]? = some a ∧ (gradient n lo hi start stop)[j]? = some b ∧ lo ≤ a ∧ a ≤ b ∧ b ≤ hi := by
  have hn : (0 : ℚ) ≤ n := by positivity
  have hle : ⌊start * n⌋₊ ≤ ⌊stop * n⌋₊ := Nat.floor_le_floor (mul_le_mul_of_nonneg_right hse hn)
  refine ⟨_, _, gradient_get n lo hi start stop i (by omega), gradient_get n lo hi start stop j h, ?_⟩
  rw [atPx_floor hs (le_trans hse he), atPx_floor (le_trans hs hse) he, unit_id hl (by linarith), unit_id (by linarith) hh,
    if_neg (by omega), if_neg (by omega)]
  obtain ⟨t, t0, t1, ht⟩ := ramp_mix lo hi ⌊start * n⌋₊ ⌊stop * n⌋₊ i
  obtain ⟨u, u0, u1, hu⟩ := ramp_mix lo hi ⌊start * n⌋₊ ⌊stop * n⌋₊ j
  refine ⟨by rw [ht]; nlinarith, ramp_mono lo hi hlh _ _ i j hij, by rw [hu]; nlinarith⟩

/-- C73: all values of a gradient are valid alphas, whatever the parameters. -/
theorem gradient_unit (n : Nat) (lo hi start stop : ℚ) :
    (gradient n lo hi start stop).length = n ∧ ∀ v ∈ gradient n lo hi start stop, 0 ≤ v ∧ v ≤ 1 := by
  refine ⟨gradient_length n lo hi start stop, fun v hv => ?_⟩
  obtain ⟨i, hv⟩ := List.mem_iff_getElem?.1 hv
  have hi' := (List.getElem?_eq_some_iff.1 hv).1
  rw [gradient_get n lo hi start stop i (by rwa [gradient_length] at hi')] at hv
  have hl := unit_mem lo
  have hh := unit_mem hi
  have key : ∀ s e, 0 ≤ ramp (unit lo) (unit hi) s e i ∧ ramp (unit lo) (unit hi) s e i ≤ 1 := by
    intro s e
    obtain ⟨t, t0, t1, ht⟩ := ramp_mix (unit lo) (unit hi) s e i
    rw [ht]
    constructor <;> nlinarith
  simp only [Option.some.injEq] at hv
  subst hv
  split
  · have := key (atPx stop n) (atPx start n)
    constructor <;> linarith
  · exact key _ _

/-- C73: if the end point is before the start point, the mask is one minus the mask with both points swapped. -/
theorem gradient_inverted (n : Nat) (lo hi start stop : ℚ) (hs : 0 ≤ stop) (he : start ≤ 1) (h : ⌊stop * n⌋₊ < ⌊start * n⌋₊) :
    gradient n lo hi start stop = (gradient n lo hi stop start).map (fun v => 1 - v) := by
  have hss : stop ≤ start := by
    by_contra hc
    have := Nat.floor_le_floor (mul_le_mul_of_nonneg_right (not_le.1 hc).le (by positivity : (0 : ℚ) ≤ n))
    omega
  have e1 := atPx_floor (le_trans hs hss) he n
  have e2 := atPx_floor hs (le_trans hss he) n
  apply List.ext_getElem?
  intro i
  by_cases hi' : i < n
  · rw [List.getElem?_map, gradient_get _ _ _ _ _ _ hi', gradient_get _ _ _ _ _ _ hi', e1, e2, if_pos h, if_neg (by omega)]
    rfl
  · rw [List.getElem?_eq_none (by rw [gradient_length]; omega), List.getElem?_eq_none (by rw [List.length_map, gradient_length]; omega)]

/-- C73 is false for inverted gradients: they leave the range from `lo` to `hi`: with a minimum of 0 and a maximum of 1/4, the documented "minimum value up to the start
point" and "maximum value from the end point" hold for no pixel. -/
theorem gradient_inverted_range :
    gradient 4 0 (1 / 4) 0 1 = [0, 1 / 12, 1 / 6, 1 / 4] ∧ gradient 4 0 (1 / 4) 1 0 = [1, 11 / 12, 5 / 6, 3 / 4] := by
  decide +kernel

/-- C73: a gradient mask has the size of the image and does not vary across the other axis. -/
theorem gradient_mask (h w : Nat) (lo hi start stop : ℚ) (y x : Nat) (hy : y < h) (hx : x < w) :
    (gradient h lo hi start stop)[y]? = some ((gradientMask true h w lo hi start stop).px y x) ∧
    (gradient w lo hi start stop)[x]? = some ((gradientMask false h w lo hi start stop).px y x) := by
  unfold gradientMask
  simp only [if_true, Bool.false_eq_true, if_false, gradient_get _ _ _ _ _ _ hy, gradient_get _ _ _ _ _ _ hx, List.getD_eq_getElem?_getD, Option.getD_some, and_self]

/-- C73: a regular grid. With a number of rows and columns that the image can hold, every pixel gets the alpha of one cell; the cells of `⌊h / rows⌋` times
`⌊w / cols⌋` pixels are all visible, in reading order, the first of them at most half a cell count away from the top left corner. -/
theorem grid_cells (h w rows cols : Nat) (alphas : List ℚ) (hr : 1 ≤ rows) (hrh : rows ≤ h) (hc : 1 ≤ cols) (hcw : cols ≤ w)
    (hl : rows * cols ≤ alphas.length) :
    ∃ (m : Mask) (top left : Nat), grid h w rows cols alphas = some m ∧ m.h = h ∧ m.w = w ∧
      top = h % rows / 2 ∧ left = w % cols / 2 ∧
      (∀ i j s t, i < rows → j < cols → s < h / rows → t < w / cols →
        top + i * (h / rows) + s < h ∧ left + j * (w / cols) + t < w ∧
        alphas[i * cols + j]? = some (m.px (top + i * (h / rows) + s) (left + j * (w / cols) + t))) ∧
      (∀ y x, y < h → x < w → m.px y x ∈ alphas.take (rows * cols)) := by
  have e1 : clipCells (rows : Int) h = rows := clipCells_id _ _ hr hrh
  have e2 : clipCells (cols : Int) w = cols := clipCells_id _ _ hc hcw
  have d1 : h - rows * (h / rows) = h % rows := by have := Nat.div_add_mod h rows; omega
  have d2 : w - cols * (w / cols) = w % cols := by have := Nat.div_add_mod w cols; omega
  have ht : (alphas.take (rows * cols)).length = rows * cols := by rw [List.length_take]; omega
  have idx : ∀ a b, a < rows → b < cols → a * cols + b < rows * cols := by
    intro a b ha hb
    calc a * cols + b < (a + 1) * cols := by rw [Nat.add_mul]; omega
      _ ≤ rows * cols := Nat.mul_le_mul_right _ ha
  refine ⟨⟨h, w, fun y x => (alphas.take (rows * cols)).getD (cellOf h rows y * cols + cellOf w cols x) 0⟩, _, _, ?_, ?_, ?_, rfl, rfl, ?_, ?_⟩
  · unfold grid
    rw [if_neg (by omega)]
    simp only [e1, e2, ht, if_true]
  · rfl
  · rfl
  · intro i j s t hi' hj hs ht'
    obtain ⟨a1, a2⟩ := cellOf_inner h rows i s hr hrh hi' hs
    obtain ⟨b1, b2⟩ := cellOf_inner w cols j t hc hcw hj ht'
    rw [d1] at a1 a2
    rw [d2] at b1 b2
    refine ⟨a1, b1, ?_⟩
    have := idx i j hi' hj
    simp only [a2, b2, List.getD_eq_getElem?_getD, List.getElem?_take, if_pos this]
    rw [List.getElem?_eq_getElem (by omega)]
    rfl
  · intro y x hy hx
    have := idx _ _ (cellOf_lt h rows y hr hrh hy) (cellOf_lt w cols x hc hcw hx)
    simp only [List.getD_eq_getElem?_getD]
    rw [List.getElem?_eq_getElem (by omega)]
    exact List.getElem_mem _

/-- C73: if rows and columns divide the image evenly, the grid is exactly the regular one. -/
theorem grid_exact (h w rows cols : Nat) (alphas : List ℚ) (hh : 0 < h) (hw : 0 < w) (hr : rows ∣ h) (hc : cols ∣ w)
    (hl : rows * cols ≤ alphas.length) :
    ∃ m, grid h w rows cols alphas = some m ∧ ∀ y x, y < h → x < w → alphas[y / (h / rows) * cols + x / (w / cols)]? = some (m.px y x) := by
  have hr1 : 1 ≤ rows := Nat.pos_of_dvd_of_pos hr hh
  have hc1 : 1 ≤ cols := Nat.pos_of_dvd_of_pos hc hw
  have hrh := Nat.le_of_dvd hh hr
  have hcw := Nat.le_of_dvd hw hc
  have e1 : clipCells (rows : Int) h = rows := clipCells_id _ _ hr1 hrh
  have e2 : clipCells (cols : Int) w = cols := clipCells_id _ _ hc1 hcw
  have ht : (alphas.take (rows * cols)).length = rows * cols := by rw [List.length_take]; omega
  refine ⟨⟨h, w, fun y x => (alphas.take (rows * cols)).getD (cellOf h rows y * cols + cellOf w cols x) 0⟩, ?_, ?_⟩
  · unfold grid
    rw [if_neg (by omega)]
    simp only [e1, e2, ht, if_true]
  · intro y x hy hx
    have c1 := cellOf_lt h rows y hr1 hrh hy
    have c2 := cellOf_lt w cols x hc1 hcw hx
    rw [cellOf_exact h rows y hr hy] at c1
    rw [cellOf_exact w cols x hc hx] at c2
    have : y / (h / rows) * cols + x / (w / cols) < rows * cols := by
      calc y / (h / rows) * cols + x / (w / cols) < (y / (h / rows) + 1) * cols := by rw [Nat.add_mul]; omega
        _ ≤ rows * cols := Nat.mul_le_mul_right _ c1
    simp only [cellOf_exact h rows y hr hy, cellOf_exact w cols x hc hx, List.getD_eq_getElem?_getD, List.getElem?_take, if_pos this]
    rw [List.getElem?_eq_getElem (by omega)]
    rfl

example : ∃ m, grid 4 6 2 2 [1, 2, 3, 4] = some m ∧ m.px 1 3 = 2 ∧ m.px 2 0 = 3 := ⟨_, rfl, by decide +kernel, by decide +kernel⟩

/-- C73: numbers of rows and columns are clipped to the size of the image, and only too few alphas are an error. -/
theorem grid_clips (h w : Nat) (rows cols : Int) (alphas : List ℚ) (hh : 0 < h) (hw : 0 < w) :
    ∃ r c : Nat, (r : Int) = min (max rows 1) h ∧ (c : Int) = min (max cols 1) w ∧ grid h w rows cols alphas = grid h w r c alphas ∧
      (grid h w rows cols alphas = none ↔ alphas.length < r * c) := by
  refine ⟨clipCells rows h, clipCells cols w, by unfold clipCells; omega, by unfold clipCells; omega, ?_, ?_⟩
  · obtain ⟨a, b⟩ := clipCells_range rows h hh
    obtain ⟨c, d⟩ := clipCells_range cols w hw
    unfold grid
    simp only [clipCells_id _ _ a b, clipCells_id _ _ c d]
  · unfold grid
    rw [if_neg (by omega)]
    simp only [List.length_take]
    split
    · simp; omega
    · simp; omega

/-- C73 is false for a size that is not a multiple: more cells than asked for are visible: five rows and three cells give rows of five different cells'
worth, because the missing rows repeat their neighbours mirrored. -/
theorem grid_more_cells :
    ∃ m, grid 5 1 3 1 [1 / 8, 1 / 4, 1 / 2] = some m ∧ (List.range 5).map (fun y => m.px y 0) = [1 / 4, 1 / 8, 1 / 4, 1 / 2, 1 / 4] :=
  ⟨_, rfl, by decide +kernel⟩

/-- C73 (partial): a checkerboard on a size that rows and columns divide: 1 in the top left cell, and the two values alternate in both directions. -/
theorem checkerboard_exact_partial (h w rows cols : Nat) (hh : 0 < h) (hw : 0 < w) (hr : rows ∣ h) (hc : cols ∣ w) :
    ∃ m, checkerboard h w rows cols = some m ∧
      ∀ y x, y < h → x < w → m.px y x = if (y / (h / rows) + x / (w / cols)) % 2 = 0 then 1 else 0 := by
  have hr1 : 1 ≤ rows := Nat.pos_of_dvd_of_pos hr hh
  have hc1 : 1 ≤ cols := Nat.pos_of_dvd_of_pos hc hw
  have hrh := Nat.le_of_dvd hh hr
  have hcw := Nat.le_of_dvd hw hc
  have e1 : clipCells (rows : Int) h = rows := clipCells_id _ _ hr1 hrh
  have e2 : clipCells (cols : Int) w = cols := clipCells_id _ _ hc1 hcw
  obtain ⟨m, hm, hpx⟩ := grid_exact h w rows cols ((List.range (rows * cols)).map (fun k => checkerAlpha (k / cols) (k % cols))) hh hw hr hc (by simp)
  refine ⟨m, ?_, ?_⟩
  · unfold checkerboard
    rw [if_neg (by omega)]
    simp only [e1, e2]
    exact hm
  · intro y x hy hx
    have c1 := cellOf_lt h rows y hr1 hrh hy
    have c2 := cellOf_lt w cols x hc1 hcw hx
    rw [cellOf_exact h rows y hr hy] at c1
    rw [cellOf_exact w cols x hc hx] at c2
    have hlt : y / (h / rows) * cols + x / (w / cols) < rows * cols := by
      calc y / (h / rows) * cols + x / (w / cols) < (y / (h / rows) + 1) * cols := by rw [Nat.add_mul]; omega
        _ ≤ rows * cols := Nat.mul_le_mul_right _ c1
    have := hpx y x hy hx
    simp only [List.getElem?_map, List.getElem?_range hlt, Option.map_some, Option.some.injEq] at this
    rw [← this]
    generalize y / (h / rows) = a at *
    generalize x / (w / cols) = b at *
    have q1 : (a * cols + b) / cols = a := by
      rw [Nat.mul_comm, Nat.mul_add_div (by omega), Nat.div_eq_of_lt c2, Nat.add_zero]
    have q2 : (a * cols + b) % cols = b := by
      rw [Nat.mul_comm, Nat.mul_add_mod, Nat.mod_eq_of_lt c2]
    rw [q1, q2]
    unfold checkerAlpha
    rcases Nat.mod_two_eq_zero_or_one a with ha | ha <;> rcases Nat.mod_two_eq_zero_or_one b with hb | hb <;> simp [ha, hb, Nat.add_mod]

/-- C73 is false: the cell at the top left is documented to be 1 always. It is 0 for five rows in three cells: the surrounding pixels mirror the second row of
cells. -/
theorem checkerboard_top_left : ∃ m, checkerboard 5 3 3 3 = some m ∧ m.px 0 0 = 0 := ⟨_, rfl, by decide +kernel⟩

/-- C73: the mask of bounding boxes is 1 exactly where a box with one of the wanted labels covers the pixel, and 0 elsewhere. -/
theorem boxes_mask (h w : Nat) (boxes : List Box) (labels : Option (List Nat)) (y x : Nat) (hy : y < h) (hx : x < w) :
    (boxesMask h w boxes labels).h = h ∧ (boxesMask h w boxes labels).w = w ∧
    ((∃ b ∈ boxes, Wanted labels b ∧ Covers b y x) → (boxesMask h w boxes labels).px y x = 1) ∧
    ((¬ ∃ b ∈ boxes, Wanted labels b ∧ Covers b y x) → (boxesMask h w boxes labels).px y x = 0) := by
  refine ⟨rfl, rfl, ?_⟩
  unfold boxesMask
  have key := fold_marks labels h w y x hy hx boxes (fun _ _ => 0)
  exact ⟨key.1, key.2⟩

example : (boxesMask 4 4 [⟨1 / 2, 1, 5 / 2, 3, some 7⟩] (some [7])).px 1 1 = 1 ∧ (boxesMask 4 4 [⟨1 / 2, 1, 5 / 2, 3, some 7⟩] (some [7])).px 1 2 = 0 ∧
    (boxesMask 4 4 [⟨1 / 2, 1, 5 / 2, 3, some 7⟩] (some [8])).px 1 1 = 0 ∧ (boxesMask 4 4 [⟨1 / 2, 1, 5 / 2, 3, none⟩] none).px 1 1 = 1 := by decide +kernel

/-- C73: the mask of class ids is 1 exactly where some channel of the segmentation map has one of the ids. -/
theorem class_mask (h w : Nat) (arr : Nat → Nat → List Int) (ids : List Int) (y x : Nat) :
    ((∃ id ∈ ids, id ∈ arr y x) → (classMask h w arr ids).px y x = 1) ∧ ((¬ ∃ id ∈ ids, id ∈ arr y x) → (classMask h w arr ids).px y x = 0) := by
  unfold classMask
  simp only [foldl_or, Bool.false_or, List.any_eq_true, beq_iff_eq]
  have e : (∃ id ∈ ids, ∃ v ∈ arr y x, v = id) ↔ ∃ id ∈ ids, id ∈ arr y x := by simp
  exact ⟨fun hc => by rw [if_pos (e.2 hc)], fun hc => by rw [if_neg (fun h => hc (e.1 h))]⟩

/-- C73: the table of alphas per hue: with `B` bins (at most 256), the entry `k` is the alpha of the bin `⌊k / ⌈256 / B⌉⌋`, and the rotation shifts it. -/
theorem hue_table (alphas : List ℚ) (h1 : 1 ≤ alphas.length) (h2 : alphas.length ≤ 256) (rot k : Nat) (hr : rot < 256) (hk : k < 256) :
    (rotate (upscale alphas) rot).length = 256 ∧
    (rotate (upscale alphas) rot)[k]? = alphas[(k + rot) % 256 / ((256 + alphas.length - 1) / alphas.length)]? := by
  set B := alphas.length with hB
  have hd := Nat.div_add_mod (256 + B - 1) B
  have hm := Nat.mod_lt (256 + B - 1) (by omega : 0 < B)
  have hc : 256 ≤ B * ((256 + B - 1) / B) := by omega
  have hpos : 0 < (256 + B - 1) / B := Nat.div_pos (by omega) (by omega)
  have len : (upscale alphas).length = 256 := by
    unfold upscale
    rw [List.length_take, List.length_flatMap, ← hB]
    simp only [List.length_replicate, List.map_const', List.sum_replicate_nat, ← hB]
    omega
  have get : ∀ i, i < 256 → (upscale alphas)[i]? = alphas[i / ((256 + B - 1) / B)]? := by
    intro i hi'
    unfold upscale
    rw [List.getElem?_take, if_pos hi', flatMap_replicate_get _ _ _ hpos]
  unfold rotate
  rw [len, Nat.mod_eq_of_lt hr]
  split
  · refine ⟨by simp only [List.length_append, List.length_drop, List.length_take, len]; omega, ?_⟩
    by_cases hkr : k < 256 - rot
    · rw [List.getElem?_append_left (by rw [List.length_drop, len]; exact hkr), List.getElem?_drop, get _ (by omega),
        Nat.mod_eq_of_lt (by omega), Nat.add_comm]
    · rw [List.getElem?_append_right (by rw [List.length_drop, len]; omega), List.length_drop, len, List.getElem?_take, if_pos (by omega),
        get _ (by omega)]
      congr 2
      omega
  · refine ⟨len, ?_⟩
    rw [get _ hk, Nat.mod_eq_of_lt (by omega)]
    congr 2
    omega

/-- C73: so every entry of the table is the alpha of one of the bins, and a bin is used only if its first entry is below 256: of 200 bins only 128 can
matter. -/
theorem hue_bins_used (alphas : List ℚ) (h1 : 1 ≤ alphas.length) (h2 : alphas.length ≤ 256) (rot : Nat) (hr : rot < 256) (b : Nat) (hb : b < alphas.length) :
    (∃ k < 256, (k + rot) % 256 / ((256 + alphas.length - 1) / alphas.length) = b) ↔ b * ((256 + alphas.length - 1) / alphas.length) < 256 := by
  have hpos : 0 < (256 + alphas.length - 1) / alphas.length := Nat.div_pos (by omega) (by omega)
  generalize (256 + alphas.length - 1) / alphas.length = c at *
  constructor
  · rintro ⟨k, hk, rfl⟩
    have := Nat.div_mul_le_self ((k + rot) % 256) c
    have := Nat.mod_lt (k + rot) (by omega : 0 < 256)
    omega
  · intro hlt
    refine ⟨(b * c + (256 - rot)) % 256, Nat.mod_lt _ (by omega), ?_⟩
    have : ((b * c + (256 - rot)) % 256 + rot) % 256 = b * c := by omega
    rw [this, Nat.mul_div_cancel _ hpos]

example : (256 + 200 - 1) / 200 = 2 ∧ 128 * 2 = 256 := by decide

/-- C73 is false: hues of 8 bit images in OpenCV are below 180, but the bins cover 256 values: of four bins without rotation, the last one is never used. -/
theorem hue_last_bin (a b c d : ℚ) (hue : Nat) (h : hue < 180) :
    (rotate (upscale [a, b, c, d]) 0)[hue]? = [a, b, c][hue / 64]? := by
  have := (hue_table [a, b, c, d] (by simp) (by simp) 0 hue (by omega) (by omega)).2
  have e : (256 + [a, b, c, d].length - 1) / [a, b, c, d].length = 64 := by simp
  rw [this, e, Nat.mod_eq_of_lt (by omega), Nat.add_zero]
  have h3 : hue / 64 < 3 := by omega
  have : hue / 64 = 0 ∨ hue / 64 = 1 ∨ hue / 64 = 2 := by omega
  rcases this with h | h | h <;> rw [h] <;> rfl

/-- C73: the rotation always selects one of the 256 entries: full turns do not matter. -/
theorem rotation_bins (deg : ℚ) : rotationBins deg < 256 ∧ rotationBins 0 = 0 ∧ rotationBins 360 = 0 ∧ rotationBins 180 = 128 ∧ rotationBins (-90) = 192 := by
  refine ⟨?_, by decide +kernel, by decide +kernel, by decide +kernel, by decide +kernel⟩
  unfold rotationBins
  omega

/-- C73: the mask value of a pixel is the alpha of its hue, clipped to `[0, 1]`, up to a rounding to 255 steps. -/
theorem hue_alpha (table : List ℚ) (hue : Nat) (a : ℚ) (h : table[hue]? = some a) :
    ∃ v, hueAlpha table hue = some v ∧ 0 ≤ v ∧ v ≤ 1 ∧ |v - min (max a 0) 1| ≤ 1 / 510 := by
  refine ⟨((min (max (npRound (a * 255)) 0) 255 : Int) : ℚ) / 255, by unfold hueAlpha; rw [h]; rfl, ?_⟩
  have c0 : (0 : Int) ≤ min (max (npRound (a * 255)) 0) 255 := by omega
  have c1 : min (max (npRound (a * 255)) 0) 255 ≤ (255 : Int) := by omega
  have c0' : (0 : ℚ) ≤ ((min (max (npRound (a * 255)) 0) 255 : Int) : ℚ) := by exact_mod_cast c0
  have c1' : ((min (max (npRound (a * 255)) 0) 255 : Int) : ℚ) ≤ 255 := by exact_mod_cast c1
  refine ⟨by positivity, by rw [div_le_one (by norm_num)]; exact c1', ?_⟩
  by_cases hneg : a ≤ 0
  · have : npRound (a * 255) ≤ 0 := npRound_le (by push_cast; linarith)
    rw [max_eq_right this, max_eq_right hneg]
    norm_num
  · by_cases hbig : 1 ≤ a
    · have : (255 : Int) ≤ npRound (a * 255) := le_npRound (by push_cast; linarith)
      rw [max_eq_left (by omega), min_eq_right this, max_eq_left (by linarith), min_eq_right hbig]
      norm_num
    · have h0 : 0 ≤ npRound (a * 255) := npRound_nonneg (by linarith)
      have h1 : npRound (a * 255) ≤ 255 := npRound_le (by push_cast; linarith)
      rw [max_eq_left h0, min_eq_left h1, max_eq_left (by linarith), min_eq_left (by linarith)]
      have := npRound_dist (a * 255)
      rw [abs_le] at this ⊢
      constructor <;> linarith [this.1, this.2]

example : hueAlpha [1 / 3] 0 = some (85 / 255) ∧ hueAlpha [1 / 2] 0 = some (128 / 255) := by decide +kernel

/-- C73: inverting a mask: where the sample is at least one half, the mask becomes one minus itself, else it stays; so twice is the identity. -/
theorem invert_mask (p : ℚ) (m : Mask) (y x : Nat) :
    (invertMask p m).h = m.h ∧ (invertMask p m).w = m.w ∧
    (1 / 2 ≤ p → (invertMask p m).px y x = 1 - m.px y x) ∧ (p < 1 / 2 → (invertMask p m).px y x = m.px y x) ∧
    (invertMask p (invertMask p m)).px y x = m.px y x := by
  unfold invertMask
  by_cases h : p ≥ 1 / 2
  · simp only [if_pos h, true_and]
    exact ⟨fun _ => trivial, fun h' => absurd h (not_le.2 h'), by ring⟩
  · simp only [if_neg h, true_and]
    exact ⟨fun h' => absurd h' h, fun _ => trivial, trivial⟩

end Imgaug.Props.MaskGen
