import Verif.Proofs.Extract
/-! C93: extracting the pixels of a bounding box. -/
namespace Imgaug.Extract.Props
open Imgaug Imgaug.Size Imgaug.Extract Imgaug.Extract.Spec Imgaug.Props
variable {α : Type}

/-- C93 (partial): with padding, the result is the rectangle of pixels between the rounded corners of the box, zero where the image has
no pixel, and at least one pixel high and wide if asked for. Missing are boxes in the image whose right or bottom edge is less than half
a pixel away from that of the image (`last_column_lost`). -/
theorem window_partial (zero : α) (b : BB) (a : Img α) (pz : Bool) (ho : Ordered b)
    (h : Inside b a → npRound b.x2 < a.w ∧ npRound b.y2 < a.h) :
    ∃ r, extract zero b a true none pz = some r ∧
      IsWindow zero a (npRound b.y1) (npRound b.x1) (extent pz b.y1 b.y2) (extent pz b.x1 b.x2) r := by
  have m1 := npRound_mono ho.1
  have m2 := npRound_mono ho.2
  unfold extract
  rw [clipped_same b a ho h, grown_eq pz (rounded b) m1 m2]
  simp only [rounded, if_true]
  have := padded_window zero a ⟨npRound b.x1, npRound b.y1, if pz then max (npRound b.x2) (npRound b.x1 + 1) else npRound b.x2,
    if pz then max (npRound b.y2) (npRound b.y1 + 1) else npRound b.y2⟩ none (by cases pz <;> simp <;> omega)
    (by cases pz <;> simp <;> omega) (by simp)
  simp only [extent_eq pz _ _ ho.1, extent_eq pz _ _ ho.2] at this
  exact this

/-- A box that is partly above and left of the image of 3 rows and 4 columns, and one far outside. -/
example : (extract 0 (BB.init (-2) (-1) 2 (3 / 2)) (numbered 3 4) true none true).map Img.toList =
    some [[0, 0, 0, 0], [0, 0, 1, 2], [0, 0, 5, 6]] := by decide +kernel

example : (extract 0 (BB.init 9 1 9 3) (numbered 3 4) true none true).map Img.toList = some [[0], [0]] := by decide +kernel

example : Ordered (BB.init (-2) (-1) 2 (3 / 2)) ∧ ¬ Inside (BB.init (-2) (-1) 2 (3 / 2)) (numbered 3 4) := by
  unfold Ordered Inside; decide +kernel

/-- C93 is false for boxes that end less than half a pixel before the edge of the image: the whole image is taken with a box that covers
it, but its last row and column are lost with a box that is smaller by a quarter of a pixel, although both have the same rounded
corners. -/
theorem last_column_lost :
    (extract 0 (BB.init 0 0 4 3) (numbered 3 4) true none true).map Img.toList = some [[1, 2, 3, 4], [5, 6, 7, 8], [9, 10, 11, 12]] ∧
    (extract 0 (BB.init 0 0 (15 / 4) (11 / 4)) (numbered 3 4) true none true).map Img.toList = some [[1, 2, 3], [5, 6, 7]] ∧
    rounded (BB.init 0 0 (15 / 4) (11 / 4)) = rounded (BB.init 0 0 4 3) := by
  decide +kernel

/-- C93: a box in the image gives a part of the image, with or without padding: no pixel is made up, and the result is the rectangle
between the rounded corners without the last column and the last row of the image, which are only used if nothing else is left. -/
theorem inside_no_padding (zero : α) (b : BB) (a : Img α) (m : Option Int) (ho : Ordered b) (h : Inside b a)
    (hm : ∀ k, m = some k → 0 ≤ k) :
    ∃ r, extract zero b a true m true = some r ∧
      r.h = max 1 (min (npRound b.y2) (a.h - 1) - min (npRound b.y1) (a.h - 1)).toNat ∧
      r.w = max 1 (min (npRound b.x2) (a.w - 1) - min (npRound b.x1) (a.w - 1)).toNat ∧
      ∀ i j : Nat, i < r.h → j < r.w → ∃ p q : Nat, p < a.h ∧ q < a.w ∧ (p : Int) = min (npRound b.y1) (a.h - 1) + i ∧
        (q : Int) = min (npRound b.x1) (a.w - 1) + j ∧ r.px i j = a.px p q := by
  obtain ⟨e, h1, h2, h3, h4, h5, h6, h7, h8⟩ := clipped_inside b a h ho
  unfold extract
  rw [e, grown_eq true _ (by simp only; omega) (by simp only; omega)]
  simp only [if_true]
  obtain ⟨r, hr, e1, e2, e3⟩ := padded_window zero a
    ⟨min (npRound b.x1) (a.w - 1), min (npRound b.y1) (a.h - 1),
      max (min (npRound b.x2) (a.w - 1)) (min (npRound b.x1) (a.w - 1) + 1),
      max (min (npRound b.y2) (a.h - 1)) (min (npRound b.y1) (a.h - 1) + 1)⟩ m (by simp only; omega) (by simp only; omega)
      (by intro k hk; have := hm k hk; simp only; omega)
  simp only at e1 e2 e3
  refine ⟨r, hr, by omega, by omega, ?_⟩
  intro i j hi' hj
  have := (e3 i j (by omega) (by omega)).1 (min (npRound b.y1) (a.h - 1) + i).toNat (min (npRound b.x1) (a.w - 1) + j).toNat
    (by omega) (by omega) (by omega) (by omega)
  exact ⟨_, _, by omega, by omega, by omega, by omega, this⟩

example : Ordered (BB.init 0 0 (15 / 4) (11 / 4)) ∧ Inside (BB.init 0 0 (15 / 4) (11 / 4)) (numbered 3 4) := by
  unfold Ordered Inside; decide +kernel

example : (extract 0 (BB.init (15 / 4) 1 (31 / 8) 1) (numbered 3 4) true none true).map Img.toList = some [[8]] := by decide +kernel

/-- C93 (partial): with padding of any amount and `prevent_zero_size`, the result has at least one row and one column. Missing are the
other ways to call the method (`empty_with_limit`, `empty_without_padding`). -/
theorem never_empty_partial (zero : α) (b : BB) (a : Img α) (ho : Ordered b) :
    ∃ r, extract zero b a true none true = some r ∧ 0 < r.h ∧ 0 < r.w := by
  by_cases h : Inside b a
  · obtain ⟨r, h1, h2, h3, -⟩ := inside_no_padding zero b a none ho h (by simp)
    exact ⟨r, h1, by omega, by omega⟩
  · obtain ⟨r, h1, h2, h3, -⟩ := window_partial zero b a true ho (fun h' => absurd h' h)
    refine ⟨r, h1, ?_, ?_⟩
    · rw [h2, extent, if_pos rfl]; omega
    · rw [h3, extent, if_pos rfl]; omega

example : Ordered (BB.init 7 7 7 7) := by unfold Ordered; decide +kernel

/-- C93 is false with `pad_max`: the result may be empty although `prevent_zero_size` is set, here for a point outside of the image. -/
theorem empty_with_limit :
    (extract 0 (BB.init 9 1 9 3) (numbered 3 4) true (some 2) true).map (fun r => (r.h, r.w)) = some (2, 0) := by
  decide +kernel

/-- C93 (partial): a limit of the padding changes nothing if no side needs more than that. Missing: larger paddings, for which the
result has other pixels (`limit_shifts`). -/
theorem limit_unused_partial (zero : α) (b : BB) (a : Img α) (pz : Bool) (k : Int) (hk : 0 ≤ k) (ho : Ordered b)
    (h : Inside b a → npRound b.x2 < a.w ∧ npRound b.y2 < a.h) (h1 : -npRound b.x1 ≤ k) (h2 : -npRound b.y1 ≤ k)
    (h3 : npRound b.x1 + extent pz b.x1 b.x2 ≤ a.w + k) (h4 : npRound b.y1 + extent pz b.y1 b.y2 ≤ a.h + k) :
    ∃ r, extract zero b a true (some k) pz = some r ∧
      IsWindow zero a (npRound b.y1) (npRound b.x1) (extent pz b.y1 b.y2) (extent pz b.x1 b.x2) r := by
  have m1 := npRound_mono ho.1
  have m2 := npRound_mono ho.2
  have e1 := extent_eq pz _ _ ho.1
  have e2 := extent_eq pz _ _ ho.2
  unfold extract
  rw [clipped_same b a ho h, grown_eq pz (rounded b) m1 m2]
  simp only [rounded, if_true]
  have := padded_window zero a ⟨npRound b.x1, npRound b.y1, if pz then max (npRound b.x2) (npRound b.x1 + 1) else npRound b.x2,
    if pz then max (npRound b.y2) (npRound b.y1 + 1) else npRound b.y2⟩ (some k) (by cases pz <;> simp <;> omega)
    (by cases pz <;> simp <;> omega) (by
      intro k' hk'
      rw [Option.some.injEq] at hk'
      subst hk'
      simp only
      refine ⟨h1, h2, ?_, ?_, hk⟩
      · cases pz <;> simp at e1 ⊢ <;> omega
      · cases pz <;> simp at e2 ⊢ <;> omega)
  simp only [e1, e2] at this
  exact this

example : (extract 0 (BB.init (-2) (-1) 2 (3 / 2)) (numbered 3 4) true (some 2) true).map Img.toList =
    some [[0, 0, 0, 0], [0, 0, 1, 2], [0, 0, 5, 6]] := by decide +kernel

/-- C93 is false with a `pad_max` that is too small: the pixels are not those in the box, here columns −1 to 2 for a box that covers
columns −3 to 0 and a limit of one. -/
theorem limit_shifts :
    (extract 0 (BB.init (-3) 0 1 1) (numbered 1 4) true (some 1) true).map Img.toList = some [[0, 1, 2, 3]] ∧
    (extract 0 (BB.init (-3) 0 1 1) (numbered 1 4) true none true).map Img.toList = some [[0, 0, 0, 1]] := by
  decide +kernel

/-- C93: `pad_max` bounds the size of the result, however far the box is away. -/
theorem limit_bounds_size (zero : α) (b : BB) (a r : Img α) (pz : Bool) (k : Int) (hk : 0 ≤ k)
    (h : extract zero b a true (some k) pz = some r) : (r.h : Int) ≤ a.h + 2 * k ∧ (r.w : Int) ≤ a.w + 2 * k := by
  unfold extract at h
  exact padded_size zero a r _ k hk h

example : (extract 0 (BB.init (-3000) 0 2000 1) (numbered 1 4) true (some 1) true).map (fun r => (r.h, r.w)) = some (1, 6) := by
  decide +kernel

/-- C93 (partial): without padding, a box of at least one pixel whose rounded corners are on the image gives the pixels between them.
Missing are boxes close to the edge (`last_column_lost`) and boxes outside (`unpadded_wraps`). -/
theorem unpadded_inside_partial (zero : α) (b : BB) (a : Img α) (m : Option Int) (pz : Bool) (ho : Ordered b)
    (h : Inside b a → npRound b.x2 < a.w ∧ npRound b.y2 < a.h) (h1 : 0 ≤ npRound b.x1) (h2 : 0 ≤ npRound b.y1)
    (h3 : npRound b.x1 < npRound b.x2) (h4 : npRound b.y1 < npRound b.y2) (h5 : npRound b.x2 ≤ a.w) (h6 : npRound b.y2 ≤ a.h) :
    ∃ r, extract zero b a false m pz = some r ∧
      IsWindow zero a (npRound b.y1) (npRound b.x1) (extent false b.y1 b.y2) (extent false b.x1 b.x2) r := by
  have e : grown pz (clipped b ⟨a.h, a.w⟩) = rounded b := by
    rw [clipped_same b a ho h, grown_eq pz (rounded b) (npRound_mono ho.1) (npRound_mono ho.2)]
    simp only [rounded, Xyxy.mk.injEq, true_and]
    cases pz <;> simp <;> omega
  refine ⟨slice a (rounded b), ?_, slice_inside zero a (rounded b) h3.le h4.le h1 h2 h5 h6⟩
  unfold extract
  rw [e, if_neg (by simp), unpadded, if_pos]
  have t1 := tuple_low (npRound b.x1) (npRound b.y1) (npRound b.x2) (npRound b.y2) h1 h2 (by omega) (by omega)
  simp only [rounded, Bool.and_eq_true]
  refine ⟨⟨⟨t1, ?_⟩, decide_eq_true (sub_pos.2 h4)⟩, decide_eq_true (sub_pos.2 h3)⟩
  rw [tupleLt, if_neg (by omega)]
  simp only [decide_eq_true_eq]
  omega

example : (extract 0 (BB.init 1 0 3 2) (numbered 3 4) false none true).map Img.toList = some [[2, 3], [6, 7]] := by decide +kernel

/-- C93 (partial): without padding, a box that starts left of the image or right of it gives a single black pixel, or an empty image if
`prevent_zero_size` is not set. Missing: boxes above or below (`unpadded_wraps`) and those that start where the image ends
(`empty_without_padding`). -/
theorem unpadded_outside_partial (zero : α) (b : BB) (a : Img α) (m : Option Int) (pz : Bool)
    (h : npRound b.x1 < 0 ∨ (a.w : Int) < npRound b.x1) (h' : ¬ Inside b a) :
    ∃ r, extract zero b a false m pz = some r ∧ r.h = (if pz then 1 else 0) ∧ r.w = (if pz then 1 else 0) ∧
      ∀ i j, r.px i j = zero := by
  unfold extract
  rw [clipped_outside b a h', if_neg (by simp)]
  refine ⟨_, rfl, ?_⟩
  have hx : (grown pz (rounded b)).x1 = npRound b.x1 := by cases pz <;> rfl
  rw [unpadded, if_neg]
  · cases pz <;> simp
  · rw [hx]
    simp only [Bool.and_eq_true, not_and]
    intro t1 t2
    exfalso
    obtain ⟨⟨t1, t3⟩, -⟩ := t1
    rw [tupleLt] at t3
    rw [tupleLt] at t1
    rcases h with h | h
    · rw [if_neg (by omega)] at t1
      simp at t1
      omega
    · rw [if_neg (by omega)] at t3
      simp at t3
      omega

example : (extract 0 (BB.init (-1) 0 3 2) (numbered 3 4) false none true).map Img.toList = some [[0]] := by decide +kernel

/-- C93 is false without padding for a box that starts above the image: rows are counted from the end, and the pixels are from another
place: row 1 for a box that covers the rows −2 to 1 of an image of three rows. -/
theorem unpadded_wraps :
    (extract 0 (BB.init 1 (-2) 3 2) (numbered 3 4) false none true).map Img.toList = some [[6, 7]] ∧
    (extract 0 (BB.init 1 (-2) 3 2) (numbered 3 4) true none true).map Img.toList = some [[0, 0], [0, 0], [2, 3], [6, 7]] := by
  decide +kernel

/-- C93 is false without padding for boxes that start above the image or where it ends: the result is empty although
`prevent_zero_size` is set. -/
theorem empty_without_padding :
    (extract 0 (BB.init 1 (-1) 3 2) (numbered 3 4) false none true).map (fun r => (r.h, r.w)) = some (0, 2) ∧
    (extract 0 (BB.init 4 0 6 2) (numbered 3 4) false none true).map (fun r => (r.h, r.w)) = some (2, 0) := by
  decide +kernel

end Imgaug.Extract.Props
