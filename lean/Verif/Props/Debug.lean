import Verif.Proofs.Debug
/-! Property C128: debug images. -/
namespace Imgaug.Debug
open Imgaug Imgaug.Props
variable {α : Type}

/-! ### Fixtures -/

/-- Pixels are numbers, resizing repeats pixels, texts are white. -/
def demoLib : Lib Nat where
  resize := fun a h w => ⟨h, w, fun y x => a.px (y * a.h / h) (x * a.w / w)⟩
  resizeNearest := fun a h w => ⟨h, w, fun y x => a.px (y * a.h / h) (x * a.w / w)⟩
  mix := fun o a => (3 * o + a) / 4
  text := fun _ h w => ⟨h, w, fun _ _ => 255⟩
  pink := 200

theorem demoLib_ok : LibOk demoLib where
  size := fun _ _ _ => ⟨rfl, rfl⟩
  same := fun a y x hy hx => by
    simp only [demoLib]; rw [Nat.mul_div_cancel _ (by omega), Nat.mul_div_cancel _ (by omega)]
  sizeN := fun _ _ _ => ⟨rfl, rfl⟩
  sameN := fun a y x hy hx => by
    simp only [demoLib]; rw [Nat.mul_div_cancel _ (by omega), Nat.mul_div_cancel _ (by omega)]
  text := fun _ _ _ => ⟨rfl, rfl⟩

/-- Two images of different size. -/
def imgA : Pic Nat := ⟨3, 4, fun y x => 10 * y + x⟩
def imgB : Pic Nat := ⟨30, 50, fun y x => y + x⟩

/-! ### The picture -/

theorem grid_length (L : Lib α) (imgs : List (Pic α)) (cols : List (Col α)) (hl : ∀ c ∈ cols, c.contents.length = imgs.length) :
    ∀ c ∈ grid L imgs cols, c.length = imgs.length + 2 := by
  intro c hc
  obtain ⟨d, hd, rfl⟩ := List.mem_map.1 hc
  simp [column, hl d hd]

/-- The cells of a column. -/
theorem grid_cell (L : Lib α) (imgs : List (Pic α)) (d : Col α) (hl : d.contents.length = imgs.length) (r : Nat) (c : Cell α)
    (h : (column L d.title d.descr (List.zipWith (cellOf L) imgs d.contents))[r]? = some c) :
    (∃ s, c = border L (textCell L s) ∧ (r = 0 ∧ s = d.title ∨ r = 1 ∧ s = d.descr)) ∨
    (∃ i a t, r = i + 2 ∧ imgs[i]? = some a ∧ d.contents[i]? = some t ∧ c = border L (cellOf L a t)) := by
  match r with
  | 0 => simp [column] at h; exact .inl ⟨_, h.symm, .inl ⟨rfl, rfl⟩⟩
  | 1 => simp [column] at h; exact .inl ⟨_, h.symm, .inr ⟨rfl, rfl⟩⟩
  | i + 2 =>
    right
    simp only [column, List.map_cons, List.getElem?_cons_succ, List.getElem?_map, List.getElem?_zipWith] at h
    have hi : i < imgs.length := by
      by_contra hn
      have : imgs[i]? = none := List.getElem?_eq_none_iff.2 (by omega)
      rw [this] at h; simp at h
    have h1 : imgs[i]? = some (imgs[i]) := List.getElem?_eq_getElem hi
    have h2 : d.contents[i]? = some (d.contents[i]'(by omega)) := List.getElem?_eq_getElem (by omega)
    refine ⟨i, _, _, rfl, h1, h2, ?_⟩
    rw [h1, h2] at h
    simpa using h.symm

theorem cellOf_min (L : Lib α) (a : Pic α) (t : Content α) : (cellOf L a t).minH = a.h ∧ (cellOf L a t).minW = a.w := by
  cases t <;> exact ⟨rfl, rfl⟩

/-- C128: a debug image can be drawn whenever there are as many maps and annotations as images, no image is empty and annotations belong to
images that are not empty. Images are never resized: every image has a row as high as itself, below the two rows of texts, and is
shown in the middle of the columns, which are as wide as their widest cell. Each column shows it in its own way, and nothing
else is drawn there: as it is, mixed with the map that is resized to the image, or with the annotations at their places, moved with the
image. Between cells there is a border of two pixels, and one around everything. -/
theorem debug_image (L : Lib α) (hL : LibOk L) (imgs : List (Pic α)) (himg : ∀ a ∈ imgs, 0 < a.h ∧ 0 < a.w)
    (cols : List (Col α)) (hne : cols ≠ []) (hl : ∀ c ∈ cols, c.contents.length = imgs.length)
    (hok : ∀ c ∈ cols, ∀ t ∈ c.contents, t.Ok) :
    ∃ (g : Pic α) (heights widths : List Nat), drawDebug L (grid L imgs cols) = some g ∧
      heights.length = imgs.length + 2 ∧ widths.length = cols.length ∧
      (∀ (i : Nat) (a : Pic α), imgs[i]? = some a → heights[i + 2]? = some a.h) ∧
      (∀ (k w : Nat), widths[k]? = some w → ∀ a ∈ imgs, a.w ≤ w) ∧
      (∀ (k w : Nat) (col : Col α), widths[k]? = some w → cols[k]? = some col → (∃ a ∈ imgs, a.w = w) ∨
        ∃ s, (s = col.title ∨ s = col.descr) ∧ w = max 20 (7 * longest (s.splitOn "\n"))) ∧
      g.h = (heights.map (· + 2)).sum + 2 ∧ g.w = (widths.map (· + 2)).sum + 2 ∧
      ∀ (i k : Nat) (a : Pic α) (col : Col α) (t : Content α) (w : Nat), imgs[i]? = some a → cols[k]? = some col →
        col.contents[i]? = some t → widths[k]? = some w → ∀ y x, y < a.h → x < w →
        t.Shows L a w y x (g.px (1 + rowTop heights (i + 2) + 1 + y) (1 + rowTop widths k + 1 + x)) := by
  have hgl := grid_length L imgs cols hl
  have hgne : grid L imgs cols ≠ [] := by
    intro h
    exact hne (List.map_eq_nil_iff.1 h)
  obtain ⟨hlen, hrows⟩ := rowHeights_spec (imgs.length + 2) (grid L imgs cols) hgne hgl
  have himgH : ∀ (i : Nat) (a : Pic α), imgs[i]? = some a → (rowHeights (grid L imgs cols))[i + 2]? = some a.h := by
    intro i a hi
    have hi' : i < imgs.length := (List.getElem?_eq_some_iff.1 hi).1
    obtain ⟨v, hv, -, col, hcol, c, hc, e⟩ := hrows (i + 2) (by omega)
    obtain ⟨d, hd, rfl⟩ := List.mem_map.1 hcol
    rcases grid_cell L imgs d (hl d hd) (i + 2) c hc with ⟨s, -, h⟩ | ⟨j, b, t, hj, hb, -, rfl⟩
    · omega
    · have : j = i := by omega
      subst this
      rw [hi] at hb; cases hb
      rw [hv, e]
      exact congrArg some (cellOf_min L a t).1
  have hwid : ∀ col ∈ grid L imgs cols, ∀ a ∈ imgs, a.w ≤ maxWidth col := by
    intro col hcol a ha
    obtain ⟨d, hd, rfl⟩ := List.mem_map.1 hcol
    obtain ⟨i, hi⟩ := List.getElem?_of_mem ha
    have hi' : i < imgs.length := (List.getElem?_eq_some_iff.1 hi).1
    have ht : d.contents[i]? = some (d.contents[i]'(by have := hl d hd; omega)) := List.getElem?_eq_getElem (by have := hl d hd; omega)
    have := (maxWidth_spec (column L d.title d.descr (List.zipWith (cellOf L) imgs d.contents))).1 (border L (cellOf L a (d.contents[i]'(by have := hl d hd; omega)))) (by
      apply List.mem_of_getElem? (i := i + 2)
      simp [column, List.getElem?_map, List.getElem?_zipWith, hi, ht])
    rwa [show (border L (cellOf L a (d.contents[i]'(by have := hl d hd; omega)))).minW = a.w from (cellOf_min L a _).2] at this
  have hdraw : ∀ col ∈ grid L imgs cols, ∀ (r : Nat) (c : Cell α) (h : Nat), col[r]? = some c →
      (rowHeights (grid L imgs cols))[r]? = some h → ∃ p, c.draw h (maxWidth col) = some p ∧ p.h = h + 2 ∧ p.w = maxWidth col + 2 := by
    intro col hcol r c h hc hh
    have hcol' := hcol
    obtain ⟨d, hd, rfl⟩ := List.mem_map.1 hcol
    rcases grid_cell L imgs d (hl d hd) r c hc with ⟨s, rfl, -⟩ | ⟨i, a, t, rfl, ha, ht, rfl⟩
    · obtain ⟨q, q1, q2, q3, -⟩ := border_draw L (textCell L s) h (maxWidth (column L d.title d.descr (List.zipWith (cellOf L) imgs d.contents))) _ rfl
      exact ⟨q, q1, by rw [q2, (hL.text _ _ _).1], by rw [q3, (hL.text _ _ _).2]⟩
    · rw [himgH i a ha] at hh; cases hh
      have hm := List.mem_of_getElem? ha
      obtain ⟨p, p1, p2, p3, -⟩ := cellOf_draw L hL a (himg a hm).1 (himg a hm).2 t (hok d hd t (List.mem_of_getElem? ht)) _
        (hwid _ hcol' a hm)
      obtain ⟨q, q1, q2, q3, -⟩ := border_draw L (cellOf L a t) a.h _ p p1
      exact ⟨q, q1, by rw [q2, p2], by rw [q3, p3]⟩
  obtain ⟨g, g1, g2, g3, g4⟩ := drawGrid_spec (grid L imgs cols) hgne (imgs.length + 2) (by omega) hgl hdraw
  have hp := pad_nat g 1 1 1 1 L.pink
  refine ⟨⟨1 + g.h + 1, 1 + g.w + 1, fun y x => if 1 ≤ y ∧ y < 1 + g.h ∧ 1 ≤ x ∧ x < 1 + g.w then g.px (y - 1) (x - 1) else L.pink⟩,
    rowHeights (grid L imgs cols), (grid L imgs cols).map maxWidth, ?_, hlen, by simp [grid], himgH, ?_, ?_, ?_, ?_, ?_⟩
  · unfold drawDebug
    rw [g1, Option.bind_some]
    exact hp
  · intro k w hk a ha
    rw [List.getElem?_map, Option.map_eq_some_iff] at hk
    obtain ⟨col, hcol, rfl⟩ := hk
    exact hwid col (List.mem_of_getElem? hcol) a ha
  · intro k w col hk hcol
    rw [grid, List.map_map, List.getElem?_map, hcol, Option.map_some, Option.some.injEq] at hk
    obtain ⟨c, hc, e⟩ := (maxWidth_spec (column L col.title col.descr (List.zipWith (cellOf L) imgs col.contents))).2 (by simp [column])
    obtain ⟨r, hr⟩ := List.getElem?_of_mem hc
    have hk' : maxWidth (column L col.title col.descr (List.zipWith (cellOf L) imgs col.contents)) = w := hk
    rcases grid_cell L imgs col (hl col (List.mem_of_getElem? hcol)) r c hr with ⟨s, rfl, h⟩ | ⟨i, a, t, rfl, ha, ht, rfl⟩
    · right
      exact ⟨s, by tauto, by rw [← hk', ← e]; rfl⟩
    · left
      exact ⟨a, List.mem_of_getElem? ha, by rw [← hk', ← e]; exact (cellOf_min L a t).2.symm⟩
  · simp only [g2]
    unfold rowTop
    rw [← hlen, List.take_length]; omega
  · simp only [g3, List.map_map]
    have : ((fun x => x + 2) ∘ maxWidth : List (Cell α) → Nat) = fun c => maxWidth c + 2 := rfl
    rw [this]; omega
  · intro i k a col t w hi hk ht hw y x hy hx
    rw [List.getElem?_map, Option.map_eq_some_iff] at hw
    obtain ⟨cells, hcells, rfl⟩ := hw
    have hc' := hcells
    rw [grid, List.getElem?_map, hk] at hc'
    simp only [Option.map_some, Option.some.injEq] at hc'
    have hmem := List.mem_of_getElem? hcells
    have ha := List.mem_of_getElem? hi
    have hcell : cells[i + 2]? = some (border L (cellOf L a t)) := by
      rw [← hc']
      simp [column, List.getElem?_map, List.getElem?_zipWith, hi, ht]
    obtain ⟨p, p1, p2, p3, p4⟩ := cellOf_draw L hL a (himg a ha).1 (himg a ha).2 t (hok col (List.mem_of_getElem? hk) t (List.mem_of_getElem? ht))
      (maxWidth cells) (hwid cells hmem a ha)
    obtain ⟨q, q1, q2, q3, q4⟩ := border_draw L (cellOf L a t) a.h _ p p1
    have := g4 k (i + 2) cells _ a.h q hcells hcell (himgH i a hi) q1 (1 + y) (1 + x) (by omega) (by omega)
    have hb := hrows (i + 2) (by have := (List.getElem?_eq_some_iff.1 hi).1; omega)
    have hw2 : rowTop ((grid L imgs cols).map maxWidth) k = (((grid L imgs cols).take k).map (fun c => maxWidth c + 2)).sum := by
      unfold rowTop; rw [← List.map_take, List.map_map]; rfl
    rw [hw2]
    have hgh : rowTop (rowHeights (grid L imgs cols)) (i + 2) + (1 + y) < g.h := by
      rw [g2]
      have hlt : i + 2 < (rowHeights (grid L imgs cols)).length := by rw [hlen]; have := (List.getElem?_eq_some_iff.1 hi).1; omega
      have e1 : rowTop (rowHeights (grid L imgs cols)) (i + 2 + 1) = rowTop (rowHeights (grid L imgs cols)) (i + 2) + (a.h + 2) := by
        unfold rowTop
        rw [List.take_add_one, himgH i a hi]
        simp
      have e2 : rowTop (rowHeights (grid L imgs cols)) (i + 2 + 1) ≤ rowTop (rowHeights (grid L imgs cols)) (imgs.length + 2) := by
        unfold rowTop
        rw [hlen] at hlt
        obtain ⟨m, hm⟩ : ∃ m, imgs.length + 2 = (i + 2 + 1) + m := ⟨imgs.length + 2 - (i + 2 + 1), by omega⟩
        rw [hm]
        generalize i + 2 + 1 = j
        rw [List.take_add, List.map_append, List.sum_append]; omega
      omega
    have hgw : (((grid L imgs cols).take k).map (fun c => maxWidth c + 2)).sum + (1 + x) < g.w := by
      rw [g3]
      have hlt : k < (grid L imgs cols).length := (List.getElem?_eq_some_iff.1 hcells).1
      have e1 : (((grid L imgs cols).take (k + 1)).map (fun c => maxWidth c + 2)).sum =
          (((grid L imgs cols).take k).map (fun c => maxWidth c + 2)).sum + (maxWidth cells + 2) := by
        rw [List.take_add_one, hcells]; simp
      have e2 : (((grid L imgs cols).take (k + 1)).map (fun c => maxWidth c + 2)).sum ≤ ((grid L imgs cols).map (fun c => maxWidth c + 2)).sum := by
        conv_rhs => rw [← List.take_append_drop (k + 1) (grid L imgs cols)]
        rw [List.map_append, List.sum_append]; omega
      omega
    simp only
    rw [if_pos ⟨by omega, by omega, by omega, by omega⟩]
    rw [show 1 + rowTop (rowHeights (grid L imgs cols)) (i + 2) + 1 + y - 1 = rowTop (rowHeights (grid L imgs cols)) (i + 2) + (1 + y) by omega,
      show 1 + (((grid L imgs cols).take k).map (fun c => maxWidth c + 2)).sum + 1 + x - 1 =
        (((grid L imgs cols).take k).map (fun c => maxWidth c + 2)).sum + (1 + x) by omega, this, q4 y x (by omega) (by omega)]
    exact p4 y x hy hx

example : LibOk demoLib ∧ (∀ a ∈ [imgA, imgB], 0 < a.h ∧ 0 < a.w) ∧
    (∀ c ∈ [(⟨"Images", "a\nb", [.plain, .overlay imgB]⟩ : Col Nat)], c.contents.length = [imgA, imgB].length) ∧
    (((drawGrid [[border demoLib (imageCell demoLib imgA none), border demoLib (imageCell demoLib imgB none)]]).map (fun g =>
      (g.h, g.w, g.px 1 1))) = some (imgA.h + 2 + imgB.h + 2, max imgA.w imgB.w + 2, (centred imgA (max imgA.w imgB.w) demoLib.pink).px 0 0)) := by
  refine ⟨demoLib_ok, by simp [imgA, imgB], by simp, by decide +kernel⟩

/-- C128: columns with another number of cells than the first one are an error. -/
theorem columns_must_agree (cols : List (List (Cell α))) (c d : List (Cell α)) (hc : cols.head? = some c) (hd : d ∈ cols)
    (h : d.length ≠ c.length) : drawGrid cols = none := by
  unfold drawGrid
  rw [if_pos]
  right
  exact List.any_eq_true.2 ⟨d, hd, by simpa [hc] using h⟩

/-- C128: the general form of placing an image in an area. If it succeeds, the area is filled exactly, with as much padding above as below and
left as right, up to one pixel. -/
theorem resizePad_fills (L : Lib α) (hL : LibOk L) (a : Pic α) (h w : Nat) (r : Pic α) (s : Nat × Nat) (pads : Int × Int × Int × Int)
    (hr : resizePad L a h w = some (r, s, pads)) :
    r.h = h ∧ r.w = w ∧ 1 ≤ s.1 ∧ s.1 ≤ h ∧ 1 ≤ s.2 ∧ s.2 ≤ w ∧ (s.1 = h ∨ s.2 = w) ∧
    pads.1 + s.1 + pads.2.2.1 = h ∧ pads.2.2.2 + s.2 + pads.2.1 = w ∧
    pads.1 ≤ pads.2.2.1 ∧ pads.2.2.1 ≤ pads.1 + 1 ∧ pads.2.2.2 ≤ pads.2.1 ∧ pads.2.1 ≤ pads.2.2.2 + 1 := by
  unfold resizePad at hr
  simp only [Option.bind_eq_some_iff, Option.map_eq_some_iff, Prod.mk.injEq] at hr
  obtain ⟨s', hs, p, hp, rfl, rfl, rfl⟩ := hr
  have half : ∀ (n m : Nat), ∃ t b : Int, ⌊((n : ℚ) - m) / 2⌋ = t ∧ ⌈((n : ℚ) - m) / 2⌉ = b ∧ t + m + b = n ∧ t ≤ b ∧ b ≤ t + 1 := by
    intro n m
    refine ⟨_, _, rfl, rfl, ?_, ?_, ?_⟩
    · have e : ((n : ℚ) - m) / 2 = (((n : Int) - m : Int) : ℚ) / (2 : Nat) := by push_cast; ring
      have hf : ⌊((n : ℚ) - m) / 2⌋ = ((n : Int) - m) / 2 := by rw [e, Rat.floor_intCast_div_natCast]; rfl
      have hc : ⌈((n : ℚ) - m) / 2⌉ = -(-((n : Int) - m) / 2) := by
        rw [Int.ceil_eq_iff]
        have h1 : ((n : Int) - m) ≤ 2 * -(-((n : Int) - m) / 2) := by omega
        have h2 : 2 * -(-((n : Int) - m) / 2) < ((n : Int) - m) + 2 := by omega
        have h1' : ((n : ℚ) - m) ≤ 2 * ((-(-((n : Int) - m) / 2) : Int) : ℚ) := by exact_mod_cast h1
        have h2' : 2 * ((-(-((n : Int) - m) / 2) : Int) : ℚ) < ((n : ℚ) - m) + 2 := by exact_mod_cast h2
        constructor <;> linarith
      rw [hf, hc]; omega
    · exact Int.floor_le_ceil _
    · exact Int.ceil_le_floor_add_one _
  have hone : 1 ≤ s'.1 ∧ 1 ≤ s'.2 ∧ ((0 < h → s'.1 = h) ∨ (0 < w → s'.2 = w)) := by
    unfold rsSize at hs
    split at hs
    · cases hs
    · split at hs
      · cases hs
        simp only [npRound_nat]
        omega
      · split at hs
        · cases hs
        · cases hs
          simp only [npRound_nat]
          omega
  obtain ⟨t, b, e1, e2, e3, e4, e5⟩ := half h s'.1
  obtain ⟨l, q, f1, f2, f3, f4, f5⟩ := half w s'.2
  unfold pad at hp
  simp only [paddings, e1, e2, f1, f2] at hp ⊢
  split at hp
  · rename_i hpos
    cases hp
    simp only [(hL.size a s'.1 s'.2).1, (hL.size a s'.1 s'.2).2]
    omega
  · cases hp

/-- C128: outside of debug images the general form can fail: an image of 10 x 100 pixels cannot be placed in an area of 20 x 111 pixels,
although it fits, because the differences and not the ratios of the sizes decide which side is filled. No row of a debug image is higher than its
image, so that this does not happen there. -/
theorem resizePad_may_fail (L : Lib α) (a : Pic α) (hh : a.h = 10) (hw : a.w = 100) : resizePad L a 20 111 = none := by
  unfold resizePad
  rw [hh, hw, show rsSize 10 100 20 111 = some (20, 200) by decide +kernel, Option.bind_some,
    show paddings 20 111 (20, 200) = (0, -44, 0, -45) by decide +kernel]
  rfl

/-! ### Values -/

/-- C128: the shown bytes. Boolean images are black and white; unsigned images are scaled so that the largest value is white, without changing
the order of values; float images are cut to between 0 and 1. Images of bytes are shown as they are. -/
theorem shown_values :
    (shown .b 0 = 0 ∧ shown .b 1 = 255) ∧
    (∀ hi : Int, 0 < hi → shown (.u hi) 0 = 0 ∧ shown (.u hi) hi = 255 ∧
      ∀ v w : ℚ, v ≤ w → shown (.u hi) v ≤ shown (.u hi) w) ∧
    (∀ n : Nat, n ≤ 255 → shown (.u 255) n = n) ∧
    (∀ v : ℚ, 0 ≤ shown .f v ∧ shown .f v ≤ 255 ∧ (v ≤ 0 → shown .f v = 0) ∧ (1 ≤ v → shown .f v = 255)) := by
  refine ⟨by decide +kernel, fun hi hp => ?_, fun n hn => ?_, fun v => ?_⟩
  · have hq : (0 : ℚ) < hi := by exact_mod_cast hp
    refine ⟨by simp [shown], ?_, ?_⟩
    · simp only [shown, div_self hq.ne', min_self]
      norm_num
    · intro v w hvw
      apply Int.floor_mono
      have : v / hi ≤ w / hi := div_le_div_of_nonneg_right hvw hq.le
      have h2 := max_le_max (le_refl (0 : ℚ)) (min_le_min (le_refl (1 : ℚ)) this)
      linarith
  · have hn' : (n : ℚ) ≤ 255 := by exact_mod_cast hn
    have h0 : (0 : ℚ) ≤ n := Nat.cast_nonneg n
    simp only [shown, Int.cast_ofNat]
    rw [min_eq_right (by rw [div_le_one (by norm_num)]; exact hn'), max_eq_right (by positivity)]
    rw [show (n : ℚ) / 255 * 255 = ((n : Int) : ℚ) by push_cast; field_simp, Int.floor_intCast]
  · have h1 : (0 : ℚ) ≤ max 0 (min 1 v) := le_max_left _ _
    have h2 : max 0 (min 1 v) ≤ 1 := max_le (by norm_num) (min_le_left _ _)
    refine ⟨Int.floor_nonneg.2 (by positivity), ?_, fun hv => ?_, fun hv => ?_⟩
    · have : shown .f v < 256 := Int.floor_lt.2 (by push_cast; linarith)
      omega
    · simp [shown, max_eq_left (min_le_of_right_le hv)]
    · simp only [shown, min_eq_left hv]; norm_num

/-- C128 is false for images of signed integers: whatever they contain, they are shown all black, because the smallest value of the dtype
is added where it should be subtracted. -/
theorem signed_black (lo hi : Int) (h : hi = -lo - 1) (hlo : lo < 0) (v : ℚ) (_h1 : (lo : ℚ) ≤ v) (h2 : v ≤ hi) :
    shown (.i lo hi) v = 0 := by
  have hd : (0 : ℚ) < ((hi - lo : Int) : ℚ) := by
    have : 0 < hi - lo := by omega
    exact_mod_cast this
  have hneg : (lo : ℚ) + v ≤ 0 := by
    have : (hi : ℚ) = -lo - 1 := by rw [h]; push_cast; ring
    linarith
  have : ((lo : ℚ) + v) / ((hi - lo : Int) : ℚ) ≤ 0 := div_nonpos_of_nonpos_of_nonneg hneg hd.le
  simp only [shown]
  rw [max_eq_left (le_trans (min_le_right _ _) this)]
  simp

example : shown (.i (-128) 127) 127 = 0 ∧ shown (.i (-128) 127) (-128) = 0 ∧ shown (.u 255) 77 = 77 := by decide +kernel

/-! ### Descriptions -/

theorem lastMax_spec : ∀ (l : List ((ℚ × ℚ) × ℚ)) (m), lastMax l = some m → m ∈ l ∧ ∀ c ∈ l, c.2 ≤ m.2
  | [], m, h => by cases h
  | a :: l, m, h => by
    unfold lastMax at h
    cases hl : lastMax l with
    | none =>
      rw [hl] at h; simp only [Option.some.injEq] at h; subst h
      have : l = [] := by
        cases l with
        | nil => rfl
        | cons b t =>
          unfold lastMax at hl
          split at hl
          · cases hl
          · split at hl <;> cases hl
      subst this
      exact ⟨by simp, by simp⟩
    | some b =>
      rw [hl] at h
      obtain ⟨h1, h2⟩ := lastMax_spec l b hl
      simp only at h
      split at h
      · rename_i hlt
        cases h
        refine ⟨by simp, fun c hc => ?_⟩
        rcases List.mem_cons.1 hc with rfl | hc
        · exact le_refl _
        · exact le_trans (h2 c hc) hlt.le
      · rename_i hle
        cases h
        refine ⟨by simp [h1], fun c hc => ?_⟩
        rcases List.mem_cons.1 hc with rfl | hc
        · exact not_lt.1 hle
        · exact h2 c hc

theorem foldl_min_le : ∀ (l : List Int) (a : Int), (∀ x ∈ l, l.foldl min a ≤ x) ∧ l.foldl min a ≤ a ∧ (l.foldl min a = a ∨ l.foldl min a ∈ l)
  | [], a => ⟨by simp, le_refl _, .inl rfl⟩
  | b :: l, a => by
    obtain ⟨h1, h2, h3⟩ := foldl_min_le l (min a b)
    simp only [List.foldl_cons]
    refine ⟨fun x hx => ?_, by omega, ?_⟩
    · rcases List.mem_cons.1 hx with rfl | hx
      · omega
      · exact h1 x hx
    · rcases h3 with h3 | h3
      · rcases le_total a b with h | h
        · left; rw [h3, min_eq_left h]
        · right; rw [h3, min_eq_right h]; simp
      · right; simp [h3]

theorem foldl_max_ge : ∀ (l : List Int) (a : Int), (∀ x ∈ l, x ≤ l.foldl max a) ∧ a ≤ l.foldl max a ∧ (l.foldl max a = a ∨ l.foldl max a ∈ l)
  | [], a => ⟨by simp, le_refl _, .inl rfl⟩
  | b :: l, a => by
    obtain ⟨h1, h2, h3⟩ := foldl_max_ge l (max a b)
    simp only [List.foldl_cons]
    refine ⟨fun x hx => ?_, by omega, ?_⟩
    · rcases List.mem_cons.1 hx with rfl | hx
      · omega
      · exact h1 x hx
    · rcases h3 with h3 | h3
      · rcases le_total a b with h | h
        · right; rw [h3, max_eq_right h]; simp
        · left; rw [h3, max_eq_left h]
      · right; simp [h3]

/-- C128 (partial): the numbers in the description of annotations are right: the fewest and most items on an image, the number of items, how many
coordinates there are and how many are not in their image, and a coordinate that is farthest from the centre of its image. Missing: annotations without
any item, see `no_items_fail`. -/
theorem description_partial (l : Items) (hne : l ≠ []) (d : Descr) (h : describe l = some d) :
    (∀ r ∈ l, d.fewest ≤ r.1.length ∧ (r.1.length : Int) ≤ d.most) ∧
    (∃ r ∈ l, d.fewest = r.1.length) ∧ (∃ r ∈ l, d.most = r.1.length) ∧
    d.total = ((l.map (fun r => r.1.length)).sum : Nat) ∧
    d.coords = (l.map (fun r => (r.1.map List.length).sum)).sum ∧
    d.outside = (l.map (fun r => (r.1.map (fun item => (item.filter (fun (p : ℚ × ℚ) => decide (¬ (0 ≤ p.1 ∧ p.1 < (r.2.2 : ℚ) ∧ 0 ≤ p.2 ∧ p.2 < (r.2.1 : ℚ))))).length)).sum)).sum ∧
    ∃ r ∈ l, ∃ item ∈ r.1, d.extreme ∈ item ∧ ∀ r' ∈ l, ∀ item' ∈ r'.1, ∀ p ∈ item',
      (p.1 - (r'.2.2 : ℚ) / 2) ^ 2 + (p.2 - (r'.2.1 : ℚ) / 2) ^ 2 ≤
        (d.extreme.1 - (r.2.2 : ℚ) / 2) ^ 2 + (d.extreme.2 - (r.2.1 : ℚ) / 2) ^ 2 := by
  unfold describe at h
  simp only [if_neg hne] at h
  split at h
  · cases h
  rw [Option.map_eq_some_iff] at h
  obtain ⟨e, he, rfl⟩ := h
  obtain ⟨e1, e2⟩ := lastMax_spec _ _ he
  have hmap : l.map (fun r => (r.1.length : Int)) ≠ [] := by simpa using hne
  obtain ⟨m1, m2, m3⟩ := foldl_min_le (l.map (fun r => (r.1.length : Int))) ((l.map (fun r => (r.1.length : Int))).headD 0)
  obtain ⟨n1, n2, n3⟩ := foldl_max_ge (l.map (fun r => (r.1.length : Int))) ((l.map (fun r => (r.1.length : Int))).headD 0)
  have hhead : (l.map (fun r => (r.1.length : Int))).headD 0 ∈ l.map (fun r => (r.1.length : Int)) := by
    cases l with
    | nil => exact absurd rfl hne
    | cons a t => simp
  refine ⟨fun r hr => ⟨m1 _ (List.mem_map_of_mem hr), n1 _ (List.mem_map_of_mem hr)⟩, ?_, ?_, ?_, ?_, ?_, ?_⟩
  · have : minL (l.map (fun r => (r.1.length : Int))) ∈ l.map (fun r => (r.1.length : Int)) := by
      unfold minL
      rcases m3 with m3 | m3
      · rw [m3]; exact hhead
      · exact m3
    obtain ⟨r, hr, e⟩ := List.mem_map.1 this
    exact ⟨r, hr, e.symm⟩
  · have : maxL (l.map (fun r => (r.1.length : Int))) ∈ l.map (fun r => (r.1.length : Int)) := by
      unfold maxL
      rcases n3 with n3 | n3
      · rw [n3]; exact hhead
      · exact n3
    obtain ⟨r, hr, e⟩ := List.mem_map.1 this
    exact ⟨r, hr, e.symm⟩
  · clear * -
    induction l with
    | nil => rfl
    | cons a t ih => simp only [List.map_cons, List.sum_cons] at ih ⊢; rw [ih]; push_cast; rfl
  · simp only [allCoords, List.length_flatMap, List.length_map]
  · simp only [allCoords]
    clear * -
    induction l with
    | nil => rfl
    | cons a t ih =>
      rw [List.flatMap_cons, List.filter_append, List.length_append, ih, List.map_cons, List.sum_cons]
      congr 1
      induction a.1 with
      | nil => rfl
      | cons b u ih2 =>
        rw [List.flatMap_cons, List.filter_append, List.length_append, ih2, List.map_cons, List.sum_cons]
        congr 1
        rw [List.filter_map, List.length_map]
        congr 2
        funext p
        rw [Bool.eq_iff_iff]
        simp only [outside, Function.comp, Bool.not_eq_true', Bool.and_eq_false_iff, decide_eq_false_iff_not, decide_eq_true_eq]
        tauto
  · obtain ⟨c, hc, hce⟩ := List.mem_map.1 e1
    unfold allCoords at hc
    obtain ⟨r, hr, hc⟩ := List.mem_flatMap.1 hc
    obtain ⟨item, hi, hc⟩ := List.mem_flatMap.1 hc
    obtain ⟨p, hp, rfl⟩ := List.mem_map.1 hc
    simp only at hce
    subst hce
    refine ⟨r, hr, item, hi, hp, ?_⟩
    intro r' hr' item' hi' q hq
    have := e2 (q, dist r'.2.1 r'.2.2 q) (by
      refine List.mem_map.2 ⟨(q, dist r'.2.1 r'.2.2 q, outside r'.2.1 r'.2.2 q), ?_, rfl⟩
      unfold allCoords
      exact List.mem_flatMap.2 ⟨r', hr', List.mem_flatMap.2 ⟨item', hi', List.mem_map.2 ⟨q, hq, rfl⟩⟩⟩)
    exact this

example : ∃ d, describe [([[(1, 1), (9, 1)], [(2, 2)]], 5, 5), ([], 5, 5)] = some d ∧ d.fewest = 0 ∧ d.most = 2 ∧ d.total = 2 ∧
    d.outside = 1 ∧ d.coords = 3 ∧ d.extreme = (9, 1) := by
  refine ⟨(describe [([[(1, 1), (9, 1)], [(2, 2)]], 5, 5), ([], 5, 5)]).get (by decide +kernel), (Option.some_get _).symm, ?_⟩
  decide +kernel

/-- C128 is false for annotations without any item: a debug image of images none of which has a keypoint (box, ...) is an error, also if
they are only saved every now and then in training. -/
theorem no_items_fail (l : Items) (hne : l ≠ []) (h : ∀ r ∈ l, r.1 = []) : describe l = none := by
  unfold describe
  simp only
  rw [if_pos ⟨hne, by simpa using h⟩]

/-! ### Saving -/

theorem onBatches_spec (fileName : Int → String) (hinj : ∀ a b : Int, fileName a = fileName b → a = b)
    (hl : ∀ a, fileName a ≠ "batch_latest.png") (N : Nat) (hN : 0 < N) : ∀ (n k : Nat) (s : Saver),
    s.scheduleId = (k : Int) - 1 → s.folderId = (k : Int) - 1 → Saved fileName N k s.files →
    ∃ t, onBatches fileName N k n s = some t ∧ Saved fileName N (k + n) t.files := by
  intro n
  induction n with
  | zero => intro k s _ _ h; exact ⟨s, rfl, h⟩
  | succ n ih =>
    intro k s h1 h2 h3
    have key : ∃ t, onBatch fileName N s k = some t ∧ t.scheduleId = ((k + 1 : Nat) : Int) - 1 ∧ t.folderId = ((k + 1 : Nat) : Int) - 1 ∧
        Saved fileName N (k + 1) t.files := by
      unfold onBatch
      rw [if_neg (by omega)]
      simp only [h1, h2]
      have e : (k : Int) - 1 + 1 = k := by omega
      rw [e]
      by_cases hd : (k : Int) % N = 0
      · rw [if_pos hd]
        have hdv : N ∣ k := by
          have := Int.dvd_of_emod_eq_zero hd
          exact_mod_cast this
        refine ⟨_, rfl, by simp, by simp, ?_⟩
        intro name v
        simp only [write, List.mem_cons, List.mem_filter, bne_iff_ne, Prod.mk.injEq]
        constructor
        · rintro (⟨rfl, rfl⟩ | ⟨⟨rfl, rfl⟩ | ⟨hm, hne⟩, hne2⟩)
          · right; exact ⟨rfl, by omega, hdv, fun j hj _ => by omega⟩
          · left; exact ⟨by omega, hdv, rfl⟩
          · rcases (h3 name v).1 hm with ⟨a, b, c⟩ | ⟨a, -⟩
            · left; exact ⟨by omega, b, c⟩
            · exact absurd a hne2
        · rintro (⟨a, b, rfl⟩ | ⟨rfl, a, b, c⟩)
          · right
            refine ⟨?_, hl _⟩
            by_cases hv : v = k
            · left; rw [hv]; exact ⟨rfl, rfl⟩
            · right
              exact ⟨(h3 _ v).2 (.inl ⟨by omega, b, rfl⟩), fun hh => hv (by have := hinj _ _ hh; omega)⟩
          · left
            exact ⟨rfl, by have := c k (by omega) hdv; omega⟩
      · rw [if_neg hd]
        have hdv : ¬ N ∣ k := by
          intro h
          exact hd (Int.emod_eq_zero_of_dvd (by exact_mod_cast h))
        refine ⟨_, rfl, by simp, by simp, ?_⟩
        intro name v
        rw [h3 name v]
        constructor
        · rintro (⟨a, b, c⟩ | ⟨a, b, c, d⟩)
          · left; exact ⟨by omega, b, c⟩
          · right
            refine ⟨a, by omega, c, fun j hj hj2 => ?_⟩
            by_cases hjk : j = k
            · subst hjk; exact absurd hj2 hdv
            · exact d j (by omega) hj2
        · rintro (⟨a, b, c⟩ | ⟨a, b, c, d⟩)
          · left; exact ⟨by by_contra hh; have : v = k := by omega
                            subst this; exact hdv b, b, c⟩
          · right
            refine ⟨a, ?_, c, fun j hj hj2 => d j (by omega) hj2⟩
            by_contra hh
            have : v = k := by omega
            subst this; exact hdv c
    obtain ⟨t, t1, t2, t3, t4⟩ := key
    obtain ⟨u, u1, u2⟩ := ih (k + 1) t t2 t3 t4
    refine ⟨u, ?_, by rwa [show k + (n + 1) = k + 1 + n by omega]⟩
    rw [onBatches, t1, Option.bind_some, u1]

/-- C128: `SaveDebugImageEveryNBatches` saves the batches 0, N, 2N, ... and no others, each under the number of the batch, and the latest of
them also as "batch_latest.png", after any number of batches. -/
theorem saves_every_n (fileName : Int → String) (hinj : ∀ a b : Int, fileName a = fileName b → a = b)
    (hl : ∀ a, fileName a ≠ "batch_latest.png") (N : Nat) (hN : 0 < N) (n : Nat) :
    ∃ t, onBatches fileName N 0 n saver0 = some t ∧ Saved fileName N n t.files := by
  have := onBatches_spec fileName hinj hl N hN n 0 saver0 rfl rfl (by
    intro name v
    constructor
    · intro h; cases h
    · rintro (⟨a, -⟩ | ⟨-, a, -⟩) <;> omega)
  rwa [Nat.zero_add] at this

/-- Names as assumed. -/
def demoName (z : Int) : String := String.ofList ('b' :: List.replicate z.toNat '+' ++ List.replicate (-z).toNat '-')

theorem demoName_ok : (∀ a b : Int, demoName a = demoName b → a = b) ∧ ∀ a, demoName a ≠ "batch_latest.png" := by
  constructor
  · intro a b h
    have h' := congrArg String.toList h
    simp only [demoName, String.toList_ofList] at h'
    have h1 := congrArg (List.count '+') h'
    have h2 := congrArg (List.count '-') h'
    simp [List.count_cons, List.count_append, List.count_replicate] at h1 h2
    omega
  · intro a h
    have h' := congrArg (fun s => List.count 'a' s.toList) h
    simp [demoName, List.count_cons, List.count_append, List.count_replicate] at h'

example : ((onBatches demoName 3 0 8 saver0).map (fun t => t.files)) =
    some [("batch_latest.png", 6), (demoName 6, 6), (demoName 3, 3), (demoName 0, 0)] := by decide +kernel

/-- C128: an interval of 0 is accepted but makes every batch fail. -/
theorem interval_zero (fileName : Int → String) (s : Saver) (b : Nat) : onBatch fileName 0 s b = none := rfl

end Imgaug.Debug
