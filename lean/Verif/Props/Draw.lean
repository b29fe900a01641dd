import Verif.Proofs.Draw
/-! C116: drawing keypoints and bounding boxes changes only their pixels. -/
namespace Imgaug.Draw.Props
open Imgaug Imgaug.Dtypes Imgaug.Draw

/-- C116: drawing a keypoint gives an image of the same size and dtype, in which the pixels of the square around the closest pixel of the keypoint have the color
(or are mixed with it, if alpha is at most 0.99), and all others are as before. -/
theorem keypoint_drawn (im r : Img) (hok : im.Ok) (x y : ℚ) (color : Color) (alpha : ℚ) (size : Nat) (raise : Bool)
    (h : drawKp im x y color alpha size raise = some r) :
    Same im r ∧ ∀ yy xx ch, yy < im.h → xx < im.w → ch < im.c →
      (¬ InSquare x y (size / 2) yy xx ∨ alpha < 1 / 100 → r.px yy xx ch = im.px yy xx ch) ∧
      (InSquare x y (size / 2) yy xx → alpha > 99 / 100 → Holds im.dt (color.comp ch) → r.px yy xx ch = color.comp ch) ∧
      (InSquare x y (size / 2) yy xx → 1 / 100 ≤ alpha → alpha ≤ 99 / 100 → IsU8 color im.c → im.dt = ⟨.u, 1⟩ ∨ im.dt.kind = .f →
        r.px yy xx ch = over im.dt alpha (color.comp ch) (im.px yy xx ch)) := by
  have hstay : ∀ yy xx ch, yy < im.h → xx < im.w → ch < im.c → back im.dt (im.px yy xx ch) = im.px yy xx ch :=
    fun yy xx ch h1 h2 h3 => back_holds (hok yy xx ch h1 h2 h3)
  have hvis : ∀ yy xx, yy < im.h → xx < im.w → InSquare x y (size / 2) yy xx →
      (∃ i : Nat, i < im.h ∧ |(i : Int) - npRound y| ≤ (size / 2 : Nat)) ∧ (∃ i : Nat, i < im.w ∧ |(i : Int) - npRound x| ≤ (size / 2 : Nat)) :=
    fun yy xx h1 h2 hs => ⟨⟨yy, h1, hs.1⟩, ⟨xx, h2, hs.2⟩⟩
  have vx := visible_iff (npRound x) (size / 2) im.w
  have vy := visible_iff (npRound y) (size / 2) im.h
  have ry := range_iff (npRound y) (size / 2) im.h
  have rx := range_iff (npRound x) (size / 2) im.w
  unfold drawKp at h
  simp only at h
  generalize clipI (max (npRound x - (size / 2 : Nat)) 0) 0 im.w = X1 at *
  generalize clipI (min (npRound x + 1 + (size / 2 : Nat)) im.w) 0 im.w = X2 at *
  generalize clipI (max (npRound y - (size / 2 : Nat)) 0) 0 im.h = Y1 at *
  generalize clipI (min (npRound y + 1 + (size / 2 : Nat)) im.h) 0 im.h = Y2 at *
  by_cases h1 : im.flat = true ∧ color.isOne = false
  · rw [if_pos h1] at h; cases h
  rw [if_neg h1] at h
  by_cases h2 : alpha < 1 / 100
  · rw [if_pos h2] at h
    cases h
    refine ⟨⟨rfl, rfl, rfl, rfl, rfl⟩, ?_⟩
    intro yy xx ch _ _ _
    refine ⟨fun _ => rfl, fun _ ha => ?_, fun _ ha => ?_⟩ <;> exfalso <;> linarith
  rw [if_neg h2] at h
  split at h
  · rename_i hv
    split at h
    · cases h
      refine ⟨⟨rfl, rfl, rfl, rfl, rfl⟩, ?_⟩
      intro yy xx ch p1 p2 p3
      have hin : (Y1 ≤ (yy : Int) ∧ (yy : Int) < Y2 ∧ X1 ≤ (xx : Int) ∧ (xx : Int) < X2) ↔ InSquare x y (size / 2) yy xx := by
        unfold InSquare
        rw [← ry yy p1, ← rx xx p2, and_assoc]
      dsimp only
      refine ⟨fun ha => ?_, fun hs ha hk => ?_, fun hs ha hb hk hd => ?_⟩
      · have hn : ¬ InSquare x y (size / 2) yy xx := ha.resolve_right h2
        rw [if_neg (mt hin.1 hn)]
        split_ifs
        · rfl
        · exact hstay yy xx ch p1 p2 p3
      · rw [if_pos (hin.2 hs), if_pos ha]
        exact Params.astype_holds _ hk
      · rw [if_pos (hin.2 hs), if_neg (by linarith)]
        obtain ⟨k0, k1⟩ := isU8_bounds hk p3
        exact back_mix (by linarith) (by linarith) (hok yy xx ch p1 p2 p3) hd k0 k1
    · cases h
  · rename_i hv
    split at h
    · cases h
    · cases h
      refine ⟨by split_ifs <;> exact ⟨rfl, rfl, rfl, rfl, rfl⟩, ?_⟩
      intro yy xx ch p1 p2 p3
      have hns : ¬ InSquare x y (size / 2) yy xx := by
        intro hs
        obtain ⟨e1, e2⟩ := hvis yy xx p1 p2 hs
        obtain ⟨a1, a2⟩ := vx.2 e2
        obtain ⟨a3, a4⟩ := vy.2 e1
        exact hv ⟨a1, a3, a2, a4⟩
      refine ⟨fun _ => ?_, fun hs => absurd hs hns, fun hs => absurd hs hns⟩
      split_ifs
      · rfl
      · exact hstay yy xx ch p1 p2 p3

/-- Keypoint at (3.6, 0.2) with the size 3: the pixel (0, 4) is in the square, and so is (1, 3), but (2, 4) and (0, 2) are not. -/
example : ((drawKp grey (36 / 10) (2 / 10) (.many [255, 0, 10]) 1 3 true).map fun r => (r.px 0 4 0, r.px 1 3 2, r.px 2 4 0, r.px 0 2 0)) = some (255, 10, 100, 100) := by
  decide +kernel
/-- The mix with alpha 0.3: 70 + 76.5. -/
example : ((drawKp grey (36 / 10) (2 / 10) (.many [255, 0, 10]) (3 / 10) 3 true).map fun r => (r.px 0 4 0, r.px 0 2 0)) = some (146, 100) := by decide +kernel

/-- C116: drawing a keypoint fails exactly if several colors are given for an image without channels, or if the keypoint is to be drawn (alpha is at least 0.01)
and its square is in the image and the color doesn't fit the channels, or its square isn't in the image and an exception was asked for. -/
theorem when_keypoints_fail (im : Img) (x y : ℚ) (color : Color) (alpha : ℚ) (size : Nat) (raise : Bool) :
    drawKp im x y color alpha size raise = none ↔
      (im.flat = true ∧ color.isOne = false) ∨ (1 / 100 ≤ alpha ∧
        (((∃ yy xx, yy < im.h ∧ xx < im.w ∧ InSquare x y (size / 2) yy xx) ∧ color.fits im.c = false) ∨
         (¬ (∃ yy xx, yy < im.h ∧ xx < im.w ∧ InSquare x y (size / 2) yy xx) ∧ raise = true))) := by
  have vx := visible_iff (npRound x) (size / 2) im.w
  have vy := visible_iff (npRound y) (size / 2) im.h
  have hex : (∃ yy xx, yy < im.h ∧ xx < im.w ∧ InSquare x y (size / 2) yy xx) ↔
      (∃ i : Nat, i < im.h ∧ |(i : Int) - npRound y| ≤ (size / 2 : Nat)) ∧ (∃ i : Nat, i < im.w ∧ |(i : Int) - npRound x| ≤ (size / 2 : Nat)) :=
    ⟨fun ⟨a, b, h1, h2, h3⟩ => ⟨⟨a, h1, h3.1⟩, ⟨b, h2, h3.2⟩⟩, fun ⟨⟨a, h1, h3⟩, ⟨b, h2, h4⟩⟩ => ⟨a, b, h1, h2, h3, h4⟩⟩
  rw [hex, ← vx, ← vy]
  unfold drawKp
  simp only
  generalize clipI (max (npRound x - (size / 2 : Nat)) 0) 0 im.w = X1 at *
  generalize clipI (min (npRound x + 1 + (size / 2 : Nat)) im.w) 0 im.w = X2 at *
  generalize clipI (max (npRound y - (size / 2 : Nat)) 0) 0 im.h = Y1 at *
  generalize clipI (min (npRound y + 1 + (size / 2 : Nat)) im.h) 0 im.h = Y2 at *
  by_cases h1 : im.flat = true ∧ color.isOne = false
  · rw [if_pos h1]; exact ⟨fun _ => Or.inl h1, fun _ => rfl⟩
  rw [if_neg h1]
  by_cases h2 : alpha < 1 / 100
  · rw [if_pos h2]
    refine ⟨fun h => (nomatch h), ?_⟩
    rintro (h | ⟨h, -⟩)
    · exact absurd h h1
    · exact absurd h (not_le.2 h2)
  rw [if_neg h2]
  have h2' := not_lt.1 h2
  split
  · rename_i hv
    cases hf : color.fits im.c
    · simp only [Bool.false_eq_true, if_false, true_iff]
      right
      refine ⟨h2', Or.inl ⟨⟨⟨hv.2.1, hv.2.2.2⟩, ⟨hv.1, hv.2.2.1⟩⟩, trivial⟩⟩
    · simp only [if_true, reduceCtorEq, false_iff]
      rintro (h | ⟨-, ⟨-, h⟩ | ⟨h, -⟩⟩)
      · exact h1 h
      · cases h
      · exact h ⟨⟨hv.2.1, hv.2.2.2⟩, ⟨hv.1, hv.2.2.1⟩⟩
  · rename_i hv
    have hv' : ¬ ((¬ ((Y1 < 0 ∨ Y1 ≥ im.h) ∧ (Y2 < 0 ∨ Y2 ≥ (im.h : Int) + 1)) ∧ ¬ Y2 - Y1 < 1) ∧
        (¬ ((X1 < 0 ∨ X1 ≥ im.w) ∧ (X2 < 0 ∨ X2 ≥ (im.w : Int) + 1)) ∧ ¬ X2 - X1 < 1)) :=
      fun ⟨⟨a, b⟩, ⟨c, d⟩⟩ => hv ⟨c, a, d, b⟩
    cases raise
    · simp only [Bool.false_eq_true, if_false, reduceCtorEq, false_iff]
      rintro (h | ⟨-, ⟨h, -⟩ | ⟨-, h⟩⟩)
      · exact h1 h
      · exact hv' h
      · cases h
    · simp only [if_true, true_iff]
      right
      refine ⟨h2', Or.inr ⟨hv', trivial⟩⟩

example : drawKp grey 7 2 (.one 0) 1 3 true = none ∧ (drawKp grey 7 2 (.one 0) 1 3 false).isSome = true := by decide +kernel
example : drawKp grey 2 2 (.many [1, 2]) 1 3 false = none := by decide +kernel

/-- C116 (partial): keypoints in the image are always drawn if the size is at least 2 and the color fits. Missing: the size 1 (see `keypoint_in_image_fails`). -/
theorem keypoints_in_image_partial (im : Img) (hf : im.flat = false) (x y : ℚ) (h : 0 ≤ x ∧ x < im.w ∧ 0 ≤ y ∧ y < im.h) (color : Color)
    (hc : color.fits im.c = true) (alpha : ℚ) (size : Nat) (hs : 2 ≤ size) (raise : Bool) :
    ∃ r, drawKp im x y color alpha size raise = some r := by
  have key : ∀ (v : ℚ) (n : Nat), 0 ≤ v → v < n → ∃ i : Nat, i < n ∧ |(i : Int) - npRound v| ≤ (size / 2 : Nat) := by
    intro v n h0 h1
    have r0 := Imgaug.Props.npRound_nonneg h0
    have r1 : npRound v ≤ (n : Int) := Imgaug.Props.npRound_le (by exact_mod_cast h1.le)
    have hn : 0 < n := by
      have : (0 : ℚ) < n := lt_of_le_of_lt h0 h1
      exact_mod_cast this
    have : 1 ≤ size / 2 := by omega
    by_cases hh : npRound v = n
    · refine ⟨n - 1, by omega, ?_⟩
      rw [abs_le]; omega
    · refine ⟨(npRound v).toNat, by omega, ?_⟩
      rw [abs_le]; omega
  obtain ⟨i, i1, i2⟩ := key y im.h h.2.2.1 h.2.2.2
  obtain ⟨j, j1, j2⟩ := key x im.w h.1 h.2.1
  rw [← Option.ne_none_iff_exists']
  intro hn
  rw [when_keypoints_fail] at hn
  rcases hn with ⟨h1, -⟩ | ⟨-, ⟨-, h1⟩ | ⟨h1, -⟩⟩
  · rw [hf] at h1; cases h1
  · rw [hc] at h1; cases h1
  · exact h1 ⟨i, j, i1, j1, i2, j2⟩

/-- C116 is false for keypoints of the size 1 in the right or lower half of the last pixels: they are in the image, but drawing them fails, as if they weren't. -/
theorem keypoint_in_image_fails : (0 : ℚ) ≤ 47 / 10 ∧ (47 / 10 : ℚ) < grey.w ∧ drawKp grey (47 / 10) 2 (.one 0) 1 1 true = none := by decide +kernel

/-- C116 (partial): for odd sizes S the square has S × S pixels: those from S/2 before the closest pixel to S/2 after it. Missing: even sizes (see
`even_sizes_too_large`). -/
theorem square_size_partial (x y : ℚ) (size : Nat) (h : size % 2 = 1) (yy xx : Nat) :
    InSquare x y (size / 2) yy xx ↔ (∃ i : Nat, i < size ∧ (yy : Int) = npRound y - (size / 2 : Nat) + i) ∧
      (∃ i : Nat, i < size ∧ (xx : Int) = npRound x - (size / 2 : Nat) + i) := by
  have key : ∀ (v : Int) (n : Nat), |(n : Int) - v| ≤ (size / 2 : Nat) ↔ ∃ i : Nat, i < size ∧ (n : Int) = v - (size / 2 : Nat) + i := by
    intro v n
    rw [abs_le]
    constructor
    · intro h1
      exact ⟨((n : Int) - v + (size / 2 : Nat)).toNat, by omega, by omega⟩
    · rintro ⟨i, h1, h2⟩
      omega
  exact and_congr (key _ _) (key _ _)

/-- C116 is false for even sizes: with the size 2, three pixels of a row have the color. -/
theorem even_sizes_too_large : ((drawKp grey 2 2 (.one 0) 1 2 true).map fun r => (List.range 5).map fun xx => r.px 2 xx 0) = some [100, 0, 0, 0, 100] := by
  decide +kernel

/-- C116: drawing a bounding box with alpha of at least 0.99 gives an image of the same size and dtype, in which the pixels of the frame have the color, and all
others are as before. The frame is `size` pixels thick: it's the outline of the box and extends to the outside. -/
theorem box_drawn (im : Img) (b : BB) (hb : b.x1 ≤ b.x2 ∧ b.y1 ≤ b.y2) (color : Color) (hc : IsU8 (toU8 color) im.c) (hd : im.c = 0 ∨ ∀ n : Nat, n ≤ 255 → Holds im.dt n) (alpha : ℚ)
    (ha : 99 / 100 ≤ alpha) (size : Nat) (copy raise : Bool) (r : Img × Img) (h : drawBox im b color alpha size copy raise = some r) :
    Same im r.1 ∧ ∀ yy xx ch, yy < im.h → xx < im.w → ch < im.c →
      (OnFrame b im size yy xx → r.1.px yy xx ch = (toU8 color).comp ch) ∧ (¬ OnFrame b im size yy xx → r.1.px yy xx ch = im.px yy xx ch) := by
  unfold drawBox at h
  split_ifs at h
  cases h
  obtain ⟨h1, h2⟩ := loop_spec im b hb (toU8 color) alpha (!copy) (fun _ ch => astype im.dt ((toU8 color).comp ch)) (fun _ _ _ => rfl) (fun h => absurd ha h)
    (fun _ => True) (fun _ _ _ _ => trivial) (fun h => absurd ha h) (fun _ _ _ _ _ _ => trivial) size
  refine ⟨h1, ?_⟩
  intro yy xx ch p1 p2 p3
  have := h2 yy xx ch p1 p2 p3
  refine ⟨fun hf => ?_, fun hf => ?_⟩
  · rw [if_pos hf] at this
    rw [this]
    obtain ⟨n, n1, n2⟩ := hc ch p3
    rw [n2]
    exact Params.astype_holds _ ((hd.resolve_left (by omega)) n n1)
  · rw [if_neg hf] at this
    exact this

/-- C116: the components of a color that is given as a tuple or list lose their decimals before a bounding box is drawn. -/
theorem color_without_decimals (l : List ℚ) (hl : ∀ v ∈ l, 0 ≤ v ∧ v < 256) (ch : Nat) (h : l.length = 1 ∨ ch < l.length) :
    (toU8 (.many l)).comp ch = ⌊(Color.many l).comp ch⌋ := by
  have key : ∀ v : ℚ, 0 ≤ v → v < 256 → astype ⟨.u, 1⟩ v = ⌊v⌋ := by
    intro v h0 h1
    have f0 : 0 ≤ ⌊v⌋ := Int.floor_nonneg.2 h0
    have f1 : ⌊v⌋ < 256 := Int.floor_lt.2 (by exact_mod_cast h1)
    have e : pyInt v = ⌊v⌋ := by unfold pyInt; rw [if_neg (not_lt.2 h0)]
    have l0 : Dtypes.lo ⟨.u, 1⟩ = 0 := by decide +kernel
    have l1 : Dtypes.hi ⟨.u, 1⟩ = 255 := by decide +kernel
    show ((Dtypes.wrap ⟨.u, 1⟩ (pyInt v) : Int) : ℚ) = _
    rw [e, Dtypes.wrap_id _ _ (by rw [l0]; exact f0) (by rw [l1]; omega)]
  match l, hl, h with
  | [], _, h => simp at h
  | [v], hl, _ => exact key v (hl v (by simp)).1 (hl v (by simp)).2
  | a :: b :: t, hl, h =>
    have hc : ch < (a :: b :: t).length := by
      rcases h with h | h
      · simp at h
      · exact h
    have hm := hl _ (List.getElem_mem hc)
    have e1 : (toU8 (.many (a :: b :: t))).comp ch = ((a :: b :: t).map (astype ⟨.u, 1⟩)).getD ch 0 := rfl
    have e2 : (Color.many (a :: b :: t)).comp ch = (a :: b :: t).getD ch 0 := rfl
    rw [e1, e2, List.getD_eq_getElem?_getD, List.getD_eq_getElem?_getD, List.getElem?_map, List.getElem?_eq_getElem hc]
    exact key _ hm.1 hm.2

example : (toU8 (.many [255 / 2, 3, 9 / 10])).comp 0 = 127 := by
  rw [color_without_decimals _ (by intro v hv; simp only [List.mem_cons, List.not_mem_nil, or_false] at hv; rcases hv with rfl | rfl | rfl <;> norm_num) 0 (by simp)]
  norm_num [Color.comp]

/-- C116 (partial): with a smaller alpha, the pixels of the frame are mixed with the color, each of them once, and all others are as before. Missing: images that
are neither uint8 nor of float type with values from 0 to 255 (see `other_pixels_clipped`). -/
theorem box_mixed_partial (im : Img) (hok : im.Ok) (hv : ∀ y x ch, y < im.h → x < im.w → ch < im.c → 0 ≤ im.px y x ch ∧ im.px y x ch ≤ 255)
    (hd : im.dt = ⟨.u, 1⟩ ∨ im.dt.kind = .f) (b : BB) (hb : b.x1 ≤ b.x2 ∧ b.y1 ≤ b.y2) (color : Color) (hc : IsU8 (toU8 color) im.c) (alpha : ℚ)
    (h0 : 0 ≤ alpha) (ha : alpha < 99 / 100) (size : Nat) (copy raise : Bool) (r : Img × Img) (h : drawBox im b color alpha size copy raise = some r) :
    Same im r.1 ∧ ∀ yy xx ch, yy < im.h → xx < im.w → ch < im.c →
      (OnFrame b im size yy xx → r.1.px yy xx ch = over im.dt alpha ((toU8 color).comp ch) (im.px yy xx ch)) ∧
      (¬ OnFrame b im size yy xx → r.1.px yy xx ch = im.px yy xx ch) := by
  unfold drawBox at h
  split_ifs at h
  cases h
  set g : ℚ → Nat → ℚ := fun v ch => if im.dt.kind = .f then max 0 (min 255 ((1 - alpha) * v + alpha * (toU8 color).comp ch)) else
      astype im.dt (max 0 (min 255 ((1 - alpha) * v + alpha * (toU8 color).comp ch))) with hg
  have gval : ∀ v ch, ch < im.c → 0 ≤ v → v ≤ 255 → g v ch = over im.dt alpha ((toU8 color).comp ch) v := by
    intro v ch p3 v0 v1
    obtain ⟨k0, k1⟩ := isU8_bounds hc p3
    obtain ⟨b0, b1⟩ := mix_bounds h0 (by linarith) v0 v1 k0 k1
    simp only [hg, over]
    rw [min_eq_right b1, max_eq_right b0]
    rcases hd with hu | hf
    · rw [hu, if_neg (by decide), if_pos rfl]
      exact astype_u8 b0 b1
    · have hn : im.dt ≠ ⟨.u, 1⟩ := by intro e; rw [e] at hf; cases hf
      rw [if_pos hf, if_neg hn]
  have oval : ∀ v ch, ch < im.c → 0 ≤ v → v ≤ 255 → 0 ≤ over im.dt alpha ((toU8 color).comp ch) v ∧ over im.dt alpha ((toU8 color).comp ch) v ≤ 255 ∧
      (im.dt = ⟨.u, 1⟩ → ∃ z : Int, over im.dt alpha ((toU8 color).comp ch) v = z) := by
    intro v ch p3 v0 v1
    obtain ⟨k0, k1⟩ := isU8_bounds hc p3
    obtain ⟨b0, b1⟩ := mix_bounds h0 (by linarith) v0 v1 k0 k1
    unfold over
    split_ifs with hu
    · refine ⟨by exact_mod_cast Int.floor_nonneg.2 b0, le_trans (Int.floor_le _) b1, fun _ => ⟨_, rfl⟩⟩
    · exact ⟨b0, b1, fun h => absurd h hu⟩
  obtain ⟨h1, h2⟩ := loop_spec im b hb (toU8 color) alpha (!copy) g (fun h => absurd h (by linarith)) (fun _ _ _ => rfl)
    (fun v => 0 ≤ v ∧ v ≤ 255 ∧ (im.dt = ⟨.u, 1⟩ → ∃ z : Int, v = z))
    (fun v ch p3 hp => by rw [gval v ch p3 hp.1 hp.2.1]; exact oval v ch p3 hp.1 hp.2.1)
    (fun _ v hp => by
      obtain ⟨v0, v1, v2⟩ := hp
      rw [min_eq_right v1, max_eq_right v0]
      rcases hd with hu | hf
      · rw [hu, if_neg (by decide), astype_u8 v0 v1]
        obtain ⟨z, rfl⟩ := v2 hu
        rw [Int.floor_intCast]
      · rw [if_pos hf])
    (fun y x ch p1 p2 p3 => ⟨(hv y x ch p1 p2 p3).1, (hv y x ch p1 p2 p3).2, fun hu => by
      obtain ⟨-, -, hi⟩ := hok y x ch p1 p2 p3
      exact hi (by rw [hu]; decide)⟩) size
  refine ⟨h1, ?_⟩
  intro yy xx ch p1 p2 p3
  have := h2 yy xx ch p1 p2 p3
  refine ⟨fun hf => ?_, fun hf => ?_⟩
  · rw [if_pos hf] at this
    exact this.trans (gval _ _ p3 (hv yy xx ch p1 p2 p3).1 (hv yy xx ch p1 p2 p3).2)
  · rw [if_neg hf] at this
    exact this

/-- The box from (1, 1) to (3, 4) and its frame of two pixels: (0, 0) and (1, 2) are on it, (2, 2) isn't. -/
example : ((drawBox grey ⟨1, 1, 3, 4, none⟩ (.many [255, 0, 10]) 1 2 true true).map fun r => (r.1.px 0 0 0, r.1.px 1 2 1, r.1.px 2 2 0)) = some (255, 0, 100) := by
  decide +kernel
example : ((drawBox grey ⟨1, 1, 3, 4, none⟩ (.many [255, 0, 10]) (3 / 10) 2 true true).map fun r => (r.1.px 0 0 0, r.1.px 1 2 1, r.1.px 2 2 0)) = some (146, 70, 100) := by
  decide +kernel
example : IsU8 (toU8 (.many [255, 0, 10])) grey.c := by
  intro ch h
  have : ch = 0 ∨ ch = 1 ∨ ch = 2 := by simp only [grey] at h; omega
  rcases this with rfl | rfl | rfl
  · exact ⟨255, by decide, by decide +kernel⟩
  · exact ⟨0, by decide, by decide +kernel⟩
  · exact ⟨10, by decide, by decide +kernel⟩

/-- C116: the outlines of boxes in the image are all in the image. -/
theorem outline_in_image (im : Img) (b : BB) (hb : b.x1 ≤ b.x2 ∧ b.y1 ≤ b.y2) (h : Within b im) :
    (0 ≤ line b im b.y1 im.h ∧ line b im b.y1 im.h ≤ line b im b.y2 im.h ∧ line b im b.y2 im.h < im.h) ∧
    (0 ≤ line b im b.x1 im.w ∧ line b im b.x1 im.w ≤ line b im b.x2 im.w ∧ line b im b.x2 im.w < im.w) ∧
    ∃ yy xx, yy < im.h ∧ xx < im.w ∧ OnFrame b im 1 yy xx := by
  obtain ⟨-, l1, l2⟩ := edges_eq b im hb
  have hW := h
  obtain ⟨w1, w2, w3, w4⟩ := h
  have n1 := Imgaug.Props.npRound_nonneg w1
  have n2 := Imgaug.Props.npRound_nonneg w3
  have hh : (0 : ℚ) < im.h := by linarith [hb.2]
  have hw : (0 : ℚ) < im.w := by linarith [hb.1]
  have hh' : 0 < im.h := by exact_mod_cast hh
  have hw' : 0 < im.w := by exact_mod_cast hw
  have e : ∀ v n, line b im v n = min (npRound v) ((n : Int) - 1) := fun v n => by unfold line; rw [if_pos hW]
  have a1 : 0 ≤ line b im b.y1 im.h := by rw [e]; omega
  have a2 : 0 ≤ line b im b.x1 im.w := by rw [e]; omega
  have a3 : line b im b.y2 im.h < im.h := by rw [e]; omega
  have a4 : line b im b.x2 im.w < im.w := by rw [e]; omega
  refine ⟨⟨a1, l1, a3⟩, ⟨a2, l2, a4⟩, (line b im b.y1 im.h).toNat, (line b im b.x1 im.w).toNat, by omega, by omega, ?_⟩
  unfold OnFrame
  omega

example : Within ⟨1, 1, 48 / 10, 57 / 10, none⟩ grey := by unfold Within; simp only [grey]; norm_num

/-- C116: drawing boxes fails exactly if an exception for boxes outside of the image was asked for and the box is, or there's something to draw and the image has no
channels or the color doesn't fit them. -/
theorem when_boxes_fail (im : Img) (b : BB) (color : Color) (alpha : ℚ) (size : Nat) (copy raise : Bool) :
    drawBox im b color alpha size copy raise = none ↔
      (raise = true ∧ b.isOutOfImage ⟨im.h, im.w⟩ true false = true) ∨ (0 < size ∧ (im.flat = true ∨ color.fits im.c = false)) := by
  unfold drawBox
  split_ifs with h1 h2
  · simp [h1]
  · simp only [true_iff]; exact Or.inr h2
  · simp only [reduceCtorEq, false_iff]
    rintro (h | h)
    · exact h1 h
    · exact h2 h

/-- C116 (partial): by default the array of the caller is left as it is; with copy=False and an alpha of at least 0.99, it becomes the result. Missing: copy=False with
a smaller alpha (see `not_in_place`). -/
theorem in_place_partial (im : Img) (b : BB) (color : Color) (alpha : ℚ) (size : Nat) (raise : Bool) :
    (∀ r, drawBox im b color alpha size true raise = some r → r.2 = im) ∧
    (99 / 100 ≤ alpha → ∀ r, drawBox im b color alpha size false raise = some r → r.2 = r.1) := by
  constructor
  · intro r h
    unfold drawBox at h
    split_ifs at h
    cases h
    exact (loop_arg im b (toU8 color) alpha size).1
  · intro ha r h
    unfold drawBox at h
    split_ifs at h
    cases h
    exact (loop_arg im b (toU8 color) alpha size).2 ha

/-- C116 is false for copy=False with a smaller alpha: the array of the caller isn't changed, and the box is only drawn in the result. -/
theorem not_in_place : ((drawBox grey ⟨1, 1, 3, 4, none⟩ (.one 0) (1 / 2) 1 false false).map fun r => (r.1.px 1 1 0, r.2.px 1 1 0)) = some (50, 100) := by decide +kernel

/-- C116 is false for images with values above 255 and a smaller alpha: pixels anywhere in the image are changed to 255. -/
theorem other_pixels_clipped : ∃ im : Img, im.Ok ∧ im.px 5 4 0 = 1000 ∧
    ((drawBox im ⟨1, 1, 3, 3, none⟩ (.one 0) (1 / 2) 1 true false).map fun r => r.1.px 5 4 0) = some 255 :=
  ⟨⟨⟨.i, 4⟩, 6, 5, 3, false, fun _ _ _ => 1000⟩, fun _ _ _ _ _ _ =>
    (⟨by decide +kernel, by decide +kernel, fun _ => ⟨1000, rfl⟩⟩ : Holds ⟨.i, 4⟩ 1000), rfl, by decide +kernel⟩

/-- C116: drawing several keypoints on a uint8 image leaves the pixels that are in none of their squares as they are. -/
theorem off_keypoints (kps : List (ℚ × ℚ)) (im r : Img) (hok : im.Ok) (hu : im.dt = ⟨.u, 1⟩) (color : Color) (hc : IsU8 color im.c) (alpha : ℚ)
    (size : Nat) (raise : Bool) (h : drawKps im kps color alpha size raise = some r) :
    Same im r ∧ ∀ yy xx ch, yy < im.h → xx < im.w → ch < im.c → (∀ k ∈ kps, ¬ InSquare k.1 k.2 (size / 2) yy xx) → r.px yy xx ch = im.px yy xx ch := by
  induction kps generalizing im with
  | nil =>
    simp only [drawKps, List.foldlM_nil, Option.pure_def, Option.some.injEq] at h
    subst h
    exact ⟨⟨rfl, rfl, rfl, rfl, rfl⟩, fun _ _ _ _ _ _ _ => rfl⟩
  | cons k ks ih =>
    simp only [drawKps, List.foldlM_cons] at h
    rw [Option.bind_eq_bind, Option.bind_eq_some_iff] at h
    obtain ⟨m, hm, hr⟩ := h
    obtain ⟨s1, p1⟩ := keypoint_drawn im m hok k.1 k.2 color alpha size raise hm
    have hmok : m.Ok := by
      intro yy xx ch a1 a2 a3
      rw [← s1.2.1] at a1
      rw [← s1.2.2.1] at a2
      rw [← s1.2.2.2.1] at a3
      rw [← s1.1]
      obtain ⟨q1, q2, q3⟩ := p1 yy xx ch a1 a2 a3
      have hold := hok yy xx ch a1 a2 a3
      by_cases hs : InSquare k.1 k.2 (size / 2) yy xx
      · by_cases c1 : alpha < 1 / 100
        · rw [q1 (Or.inr c1)]; exact hold
        · have hk : Holds im.dt (color.comp ch) := by
            obtain ⟨n, n1, n2⟩ := hc ch a3
            rw [hu, n2]
            refine ⟨by rw [show lo (⟨.u, 1⟩ : DType) = 0 from rfl]; exact_mod_cast Nat.zero_le n, ?_, fun _ => ⟨n, by simp⟩⟩
            rw [show hi (⟨.u, 1⟩ : DType) = 255 from by decide]
            exact_mod_cast n1
          by_cases c2 : alpha > 99 / 100
          · rw [q2 hs c2 hk]; exact hk
          · rw [q3 hs (not_lt.1 c1) (not_lt.1 c2) hc (Or.inl hu), hu]
            rw [hu] at hold
            obtain ⟨v0, v1⟩ := u8_cases hold
            obtain ⟨k0, k1⟩ := isU8_bounds hc a3
            obtain ⟨b0, b1⟩ := mix_bounds (a := alpha) (by linarith [not_lt.1 c1]) (by linarith [not_lt.1 c2]) v0 v1 k0 k1
            unfold over
            rw [if_pos rfl, ← astype_u8 b0 b1]
            exact astype_u8_holds _
      · rw [q1 (Or.inl hs)]; exact hold
    obtain ⟨s2, p2⟩ := ih m hmok (s1.1 ▸ hu) (s1.2.2.2.1 ▸ hc) hr
    refine ⟨⟨s1.1.trans s2.1, s1.2.1.trans s2.2.1, s1.2.2.1.trans s2.2.2.1, s1.2.2.2.1.trans s2.2.2.2.1, s1.2.2.2.2.trans s2.2.2.2.2⟩, ?_⟩
    intro yy xx ch a1 a2 a3 hn
    rw [p2 yy xx ch (s1.2.1 ▸ a1) (s1.2.2.1 ▸ a2) (s1.2.2.2.1 ▸ a3) (fun q hq => hn q (List.mem_cons_of_mem _ hq))]
    exact (p1 yy xx ch a1 a2 a3).1 (Or.inl (hn k (by simp)))

example : ((drawKps grey [(0, 0), (4, 4)] (.one 7) 1 3 true).map fun r => (r.px 1 1 0, r.px 2 2 0, r.px 5 4 2)) = some (7, 100, 7) := by decide +kernel

/-- C116: drawing several bounding boxes leaves the pixels that are on none of their frames as they are, with an alpha of at least 0.99. -/
theorem off_boxes (bs : List BB) (hb : ∀ b ∈ bs, b.x1 ≤ b.x2 ∧ b.y1 ≤ b.y2) (im r : Img) (color : Color) (hc : IsU8 (toU8 color) im.c)
    (hd : im.c = 0 ∨ ∀ n : Nat, n ≤ 255 → Holds im.dt n) (alpha : ℚ) (ha : 99 / 100 ≤ alpha) (size : Nat) (raise : Bool)
    (h : drawBoxes im bs color alpha size raise = some r) :
    Same im r ∧ ∀ yy xx ch, yy < im.h → xx < im.w → ch < im.c →
      ((∀ b ∈ bs, ¬ OnFrame b im size yy xx) → r.px yy xx ch = im.px yy xx ch) ∧
      ((∃ b ∈ bs, OnFrame b im size yy xx) → r.px yy xx ch = (toU8 color).comp ch) := by
  induction bs generalizing im with
  | nil =>
    simp only [drawBoxes, List.foldlM_nil, Option.pure_def, Option.some.injEq] at h
    subst h
    exact ⟨⟨rfl, rfl, rfl, rfl, rfl⟩, fun _ _ _ _ _ _ => ⟨fun _ => rfl, fun ⟨b, hb, _⟩ => by cases hb⟩⟩
  | cons b bs ih =>
    simp only [drawBoxes, List.foldlM_cons] at h
    rw [Option.bind_eq_bind, Option.bind_eq_some_iff] at h
    obtain ⟨m, hm, hr⟩ := h
    rw [Option.map_eq_some_iff] at hm
    obtain ⟨q, hq, rfl⟩ := hm
    obtain ⟨s1, p1⟩ := box_drawn im b (hb b (by simp)) color hc hd alpha ha size false raise q hq
    have fr : ∀ b' yy xx, OnFrame b' q.1 size yy xx ↔ OnFrame b' im size yy xx := by
      intro b' yy xx
      unfold OnFrame
      rw [← s1.2.1, ← s1.2.2.1, line_congr b' im q.1 s1, line_congr b' im q.1 s1, line_congr b' im q.1 s1, line_congr b' im q.1 s1]
    obtain ⟨s2, p2⟩ := ih (fun b' h' => hb b' (List.mem_cons_of_mem _ h')) q.1 (s1.2.2.2.1 ▸ hc) (s1.1 ▸ s1.2.2.2.1 ▸ hd) hr
    refine ⟨⟨s1.1.trans s2.1, s1.2.1.trans s2.2.1, s1.2.2.1.trans s2.2.2.1, s1.2.2.2.1.trans s2.2.2.2.1, s1.2.2.2.2.trans s2.2.2.2.2⟩, ?_⟩
    intro yy xx ch a1 a2 a3
    obtain ⟨u1, u2⟩ := p2 yy xx ch (s1.2.1 ▸ a1) (s1.2.2.1 ▸ a2) (s1.2.2.2.1 ▸ a3)
    obtain ⟨w1, w2⟩ := p1 yy xx ch a1 a2 a3
    refine ⟨fun hn => ?_, ?_⟩
    · rw [u1 (fun b' h' => by rw [fr]; exact hn b' (List.mem_cons_of_mem _ h'))]
      exact w2 (hn b (by simp))
    · rintro ⟨b', hb', hf⟩
      by_cases hex : ∃ b'' ∈ bs, OnFrame b'' q.1 size yy xx
      · exact u2 hex
      · rw [u1 (fun b'' h'' hf'' => hex ⟨b'', h'', hf''⟩)]
        rcases List.mem_cons.1 hb' with rfl | hmem
        · exact w1 hf
        · exact absurd ⟨b', hmem, (fr b' yy xx).2 hf⟩ hex

example : ((drawBoxes grey [⟨0, 0, 2, 2, none⟩, ⟨2, 3, 4, 5, none⟩] (.one 7) 1 1 true).map fun r => (r.px 0 2 0, r.px 1 1 0, r.px 4 2 1)) = some (7, 100, 7) := by decide +kernel

end Imgaug.Draw.Props
