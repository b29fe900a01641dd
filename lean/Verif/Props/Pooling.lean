import Verif.Proofs.Pooling
import Verif.Spec.Pooling
/-! Pooling. -/
namespace Imgaug.Pooling
open Imgaug Imgaug.Size Finset
variable {α β : Type}

/-- C55: pooling a non-empty image gives one value per block, with ceil(H/h) rows and ceil(W/w) columns; there is a position (t, l)
of the image in the blocks such that every block is the multiset of image pixels and padded values at its place, and the image
lies in the blocks completely, less than a block smaller, in their middle. -/
theorem pool_blocks (border : Nat → Nat → α) (f : Multiset α → α) (a : Img α) (bh bw : Nat) (hh : 1 ≤ a.h) (hw : 1 ≤ a.w)
    (h1 : 1 ≤ bh) (w1 : 1 ≤ bw) :
    ∃ (r : Img α) (t l : Nat), pool border f a bh bw = some r ∧ r.h = (a.h + bh - 1) / bh ∧ r.w = (a.w + bw - 1) / bw ∧
      a.h ≤ r.h * bh ∧ r.h * bh < a.h + bh ∧ t = (r.h * bh - a.h) / 2 ∧
      a.w ≤ r.w * bw ∧ r.w * bw < a.w + bw ∧ l = (r.w * bw - a.w) / 2 ∧
      ∀ Y X, Y < r.h → X < r.w → r.px Y X = f (∑ y ∈ range bh, ∑ x ∈ range bw,
        {if t ≤ Y * bh + y ∧ Y * bh + y < t + a.h ∧ l ≤ X * bw + x ∧ X * bw + x < l + a.w then
          a.px (Y * bh + y - t) (X * bw + x - l) else border (Y * bh + y) (X * bw + x)}) := by
  obtain ⟨p, t, l, e, e1, e2, e3, e4, g1, g2, g3, g4, g5⟩ := padded border a bh bw hh hw h1 w1
  have d1 : p.h / bh = (a.h + bh - 1) / bh := by rw [e1, Nat.mul_div_cancel _ (by omega)]
  have d2 : p.w / bw = (a.w + bw - 1) / bw := by rw [e2, Nat.mul_div_cancel _ (by omega)]
  refine ⟨_, t, l, by rw [pool, if_neg (by omega), e, Option.map_some], d1, d2, ?_, ?_, ?_, ?_, ?_, ?_, ?_⟩
  · simp only; rw [d1, ← e1]; exact g1
  · simp only; rw [d1, ← e1]; exact g2
  · simp only; rw [d1, ← e1]; exact e3
  · simp only; rw [d2, ← e2]; exact g3
  · simp only; rw [d2, ← e2]; exact g4
  · simp only; rw [d2, ← e2]; exact e4
  · intro Y X _ _
    simp only [block, g5]

/-- C55: every pixel of the image lies in exactly one block. -/
theorem pool_pixel_in_one_block (H b rows t : Nat) (hb : 1 ≤ b) (h : t + H ≤ rows * b) (y : Nat) (hy : y < H) :
    ∃! q : Nat × Nat, q.1 < rows ∧ q.2 < b ∧ q.1 * b + q.2 = t + y := by
  refine ⟨((t + y) / b, (t + y) % b), ⟨?_, Nat.mod_lt _ hb, ?_⟩, ?_⟩
  · rw [Nat.div_lt_iff_lt_mul hb]; omega
  · simp only; rw [mul_comm]; exact Nat.div_add_mod _ _
  · rintro ⟨Y, i⟩ ⟨_, h2, h3⟩
    simp only at h2 h3
    rw [← h3, Prod.mk.injEq]
    constructor
    · rw [mul_comm, Nat.mul_add_div hb, Nat.div_eq_of_lt h2, add_zero]
    · rw [mul_comm, Nat.mul_add_mod, Nat.mod_eq_of_lt h2]

/-- C55: the uint8 path of maximum and minimum pooling (flip, dilate or erode, flip, take every k-th pixel) gives the same result as
block-wise pooling, for all images, block sizes and paddings, whatever the function of the values in a window is. -/
theorem minmax_pool_uint8 (border : Nat → Nat → α) (f : Multiset α → α) (a : Img α) (bh bw : Nat) (hh : 1 ≤ a.h) (hw : 1 ≤ a.w)
    (h1 : 1 ≤ bh) (w1 : 1 ≤ bw) :
    ∃ r q, minmaxPool border f true a bh bw = some r ∧ pool border f a bh bw = some q ∧ r.Same q := by
  obtain ⟨p, p', e, hp', hsame, hh', hw', d1, d2⟩ := padded_or border a bh bw hh hw h1 w1
  refine ⟨_, _, by rw [minmaxPool, if_neg (by omega), if_pos ⟨rfl, by omega, by omega⟩, minmaxPoolUint8, hp', Option.map_some],
    by rw [pool, if_neg (by omega), e, Option.map_some], ?_⟩
  refine ⟨?_, ?_, ?_⟩
  · simp only [every, flipBoth, morph]
    rw [hh', ← d1, every_size _ _ h1, d1]
  · simp only [every, flipBoth, morph]
    rw [hw', ← d2, every_size _ _ w1, d2]
  · intro Y X hY hX
    have r1 := row_lt _ bh Y hY
    have r2 := row_lt _ bw X hX
    simp only [every, flipBoth, morph, block]
    congr 1
    rw [← sum_reflect bh]
    refine Finset.sum_congr rfl (fun i hi => ?_)
    rw [← sum_reflect bw]
    refine Finset.sum_congr rfl (fun j hj => ?_)
    rw [Finset.mem_range] at hi hj
    rw [d1] at r1
    rw [d2] at r2
    simp only [hh', hw']
    rw [if_pos (by omega)]
    rw [hsame _ _ (by omega) (by omega)]
    congr 2 <;> omega

/-- C55: so is the uint8 path of median pooling, for the block sizes that it is used for. -/
theorem median_pool_uint8 (border : Nat → Nat → α) (f : Multiset α → α) (a : Img α) (bh bw : Nat) (hh : 1 ≤ a.h) (hw : 1 ≤ a.w)
    (h1 : 1 ≤ bh) (w1 : 1 ≤ bw) :
    ∃ r q, medianPool border f true a bh bw = some r ∧ pool border f a bh bw = some q ∧ r.Same q := by
  by_cases hcond : (bh = bw ∧ (bh = 3 ∨ bh = 5 ∨ ((bh = 7 ∨ bh = 9 ∨ bh = 11 ∨ bh = 13) ∧ a.h * a.w ≤ 32 * 32)) ∧ a.h ≠ 0 ∧ a.w ≠ 0)
  · obtain ⟨rfl, hodd, _⟩ := hcond
    have hodd' : bh % 2 = 1 := by omega
    obtain ⟨p, p', e, hp', hsame, hh', hw', d1, d2⟩ := padded_or border a bh bh hh hw h1 w1
    refine ⟨_, _, by rw [medianPool, if_neg (by omega), if_pos ⟨rfl, rfl, hodd, by omega, by omega⟩, medianPoolCv2, hp', Option.map_some],
      by rw [pool, if_neg (by omega), e, Option.map_some], ?_⟩
    refine ⟨?_, ?_, ?_⟩
    · simp only [every, medianBlur]
      rw [hh', ← d1, every_size _ _ h1, d1]
    · simp only [every, medianBlur]
      rw [hw', ← d2, every_size _ _ h1, d2]
    · intro Y X hY hX
      have r1 := row_lt _ bh Y hY
      have r2 := row_lt _ bh X hX
      simp only [every, medianBlur, block]
      congr 1
      refine Finset.sum_congr rfl (fun i hi => ?_)
      refine Finset.sum_congr rfl (fun j hj => ?_)
      rw [Finset.mem_range] at hi hj
      rw [d1] at r1
      rw [d2] at r2
      rw [hh', hw', min_eq_left (by omega), min_eq_left (by omega), hsame _ _ (by omega) (by omega)]
      congr 2 <;> omega
  · obtain ⟨q, _, _, e, _⟩ := pool_blocks border f a bh bw hh hw h1 w1
    exact ⟨q, q, by rw [medianPool, if_neg (by omega), if_neg (fun h => hcond h.2), e], e, rfl, rfl, fun _ _ _ _ => rfl⟩

/-- C55: arrays without pixels and block sizes of zero leave the array as it is. -/
theorem pool_trivial (border : Nat → Nat → α) (f : Multiset α → α) (u : Bool) (a : Img α) (bh bw : Nat)
    (h : (a.h = 0 ∨ a.w = 0) ∨ bh = 0 ∨ bw = 0) :
    minmaxPool border f u a bh bw = some a ∧ medianPool border f u a bh bw = some a := by
  rcases h with h | h
  · have hp : pool border f a bh bw = some a := by rw [pool, if_pos h]
    constructor
    · rw [minmaxPool]; split_ifs <;> first | rfl | exact hp | omega
    · rw [medianPool]; split_ifs <;> first | rfl | exact hp | omega
  · rw [minmaxPool, medianPool, if_pos h, if_pos h]; exact ⟨rfl, rfl⟩

/-- C55: with the padding mode "edge", which is the default of maximum and minimum pooling, the padding does not matter: a result is
the maximum (minimum) of exactly the pixels of the image in its block. -/
theorem max_pool_edge (isMax : Bool) (f : Multiset ℚ → ℚ) (hf : PicksExtreme isMax f) (u : Bool) (a : Img ℚ) (bh bw : Nat) (hh : 1 ≤ a.h)
    (hw : 1 ≤ a.w) (h1 : 1 ≤ bh) (w1 : 1 ≤ bw) :
    ∃ r : Img ℚ, r.h = (a.h + bh - 1) / bh ∧ r.w = (a.w + bw - 1) / bw ∧
      minmaxPool (edge a ((r.h * bh - a.h) / 2) ((r.w * bw - a.w) / 2)) f u a bh bw = some r ∧
      ∀ Y X, Y < r.h → X < r.w → Extreme isMax (pixelsOf a ((r.h * bh - a.h) / 2) ((r.w * bw - a.w) / 2) bh bw Y X) (r.px Y X) := by
  set R := (a.h + bh - 1) / bh with hR
  set C := (a.w + bw - 1) / bw with hC
  set B := edge a ((R * bh - a.h) / 2) ((C * bw - a.w) / 2) with hB
  obtain ⟨q, t, l, e, e1, e2, g1, g2, e3, g3, g4, e4, g5⟩ := pool_blocks B f a bh bw hh hw h1 w1
  rw [← hR] at e1
  rw [← hC] at e2
  obtain ⟨r, hr, hs⟩ : ∃ r, minmaxPool B f u a bh bw = some r ∧ r.Same q := by
    cases u
    · exact ⟨q, by rw [minmaxPool, if_neg (by omega), if_neg (by simp), e], rfl, rfl, fun _ _ _ _ => rfl⟩
    · obtain ⟨r, q', k1, k2, k3⟩ := minmax_pool_uint8 B f a bh bw hh hw h1 w1
      rw [e] at k2
      obtain rfl := Option.some.inj k2
      exact ⟨r, k1, k3⟩
  obtain ⟨s1, s2, s3⟩ := hs
  refine ⟨r, by rw [s1, e1], by rw [s2, e2], by rw [s1, s2, e1, e2]; exact hr, ?_⟩
  intro Y X hY hX
  rw [s1, s2]
  rw [s1] at hY
  rw [s2] at hX
  rw [s3 Y X (by omega) (by omega), g5 Y X hY hX, ← e3, ← e4]
  have r1 := row_lt q.h bh Y hY
  have r2 := row_lt q.w bw X hX
  have hBe : ∀ y x, B y x = edge a t l y x := by intro y x; rw [hB, e3, e4, e1, e2]
  set S := ∑ y ∈ range bh, ∑ x ∈ range bw, ({if t ≤ Y * bh + y ∧ Y * bh + y < t + a.h ∧ l ≤ X * bw + x ∧ X * bw + x < l + a.w then
          a.px (Y * bh + y - t) (X * bw + x - l) else B (Y * bh + y) (X * bw + x)} : Multiset ℚ) with hS
  have hmem : ∀ v, v ∈ S ↔ v ∈ pixelsOf a t l bh bw Y X := by
    intro v
    rw [hS, mem_sum2, pixelsOf, Set.mem_ofPred_eq]
    constructor
    · rintro ⟨i, j, hi, hj, rfl⟩
      refine ⟨min (Y * bh + i - t) (a.h - 1), min (X * bw + j - l) (a.w - 1), by omega, by omega, ?_, ?_, ?_, ?_, ?_⟩
      · rcases Nat.eq_zero_or_pos Y with rfl | hY0
        · omega
        · have : Y * bh ≥ bh := Nat.le_mul_of_pos_left bh hY0
          omega
      · rcases Nat.eq_zero_or_pos Y with rfl | hY0
        · omega
        · have : Y * bh ≥ bh := Nat.le_mul_of_pos_left bh hY0
          omega
      · rcases Nat.eq_zero_or_pos X with rfl | hX0
        · omega
        · have : X * bw ≥ bw := Nat.le_mul_of_pos_left bw hX0
          omega
      · rcases Nat.eq_zero_or_pos X with rfl | hX0
        · omega
        · have : X * bw ≥ bw := Nat.le_mul_of_pos_left bw hX0
          omega
      · split_ifs with hc
        · rw [min_eq_left (by omega), min_eq_left (by omega)]
        · rw [hBe, edge]
    · rintro ⟨y, x, hy, hx, k1, k2, k3, k4, rfl⟩
      refine ⟨t + y - Y * bh, l + x - X * bw, by omega, by omega, ?_⟩
      rw [if_pos (by omega)]
      congr 1 <;> omega
  have hne : S ≠ 0 := by
    intro h0
    have := congrArg Multiset.card h0
    rw [hS, card_sum2, Multiset.card_zero] at this
    rcases Nat.mul_eq_zero.mp this with h | h <;> omega
  have := hf S hne
  cases isMax <;> simp only [Extreme, Bool.false_eq_true, if_true, if_false] at this ⊢
  · exact ⟨(hmem _).mp this.1, fun v hv => this.2 ((hmem v).mpr hv)⟩
  · exact ⟨(hmem _).mp this.1, fun v hv => this.2 ((hmem v).mpr hv)⟩

/-- C55: with the same padding, minimum pooling is nowhere above average pooling, and that nowhere above maximum pooling; also
when the averages are rounded to integers in any monotone way. -/
theorem pool_order (border : Nat → Nat → Int) (rnd : ℚ → Int) (hm : Monotone rnd) (hi : ∀ n : Int, rnd n = n) (fmin fmax : Multiset Int → Int)
    (h1 : ∀ s ≠ 0, IsLeast {v | v ∈ s} (fmin s)) (h2 : ∀ s ≠ 0, IsGreatest {v | v ∈ s} (fmax s)) (a : Img Int) (bh bw : Nat)
    (hh : 1 ≤ a.h) (hw : 1 ≤ a.w) (hb1 : 1 ≤ bh) (hb2 : 1 ≤ bw) (u : Bool) :
    ∃ lo av up, minmaxPool border fmin u a bh bw = some lo ∧ avgPoolInt border rnd a bh bw = some av ∧
      minmaxPool border fmax u a bh bw = some up ∧ lo.h = av.h ∧ lo.w = av.w ∧ up.h = av.h ∧ up.w = av.w ∧
      ∀ Y X, Y < av.h → X < av.w → lo.px Y X ≤ av.px Y X ∧ av.px Y X ≤ up.px Y X := by
  have key : ∀ f : Multiset Int → Int, ∃ r q, minmaxPool border f u a bh bw = some r ∧ pool border f a bh bw = some q ∧ r.Same q := by
    intro f
    cases u
    · obtain ⟨q, _, _, e, _⟩ := pool_blocks border f a bh bw hh hw hb1 hb2
      exact ⟨q, q, by rw [minmaxPool, if_neg (by omega), if_neg (by simp), e], e, rfl, rfl, fun _ _ _ _ => rfl⟩
    · exact minmax_pool_uint8 border f a bh bw hh hw hb1 hb2
  obtain ⟨lo, lo', a1, a2, a3, a4, a5⟩ := key fmin
  obtain ⟨up, up', b1, b2, b3, b4, b5⟩ := key fmax
  obtain ⟨p, t, l, e, -⟩ := padded border a bh bw hh hw hb1 hb2
  have c2 : avgPoolInt border rnd a bh bw = some ⟨p.h / bh, p.w / bw,
      fun Y X => rnd (average ((block p bh bw Y X).map (fun v : Int => (v : ℚ))))⟩ := by rw [avgPoolInt, if_neg (by omega), pool, if_neg (by omega), e, Option.map_some]
  rw [pool, if_neg (by omega), e, Option.map_some] at a2 b2
  obtain rfl := Option.some.inj a2
  obtain rfl := Option.some.inj b2
  refine ⟨lo, _, up, a1, c2, b1, a3, a4, b3, b4, ?_⟩
  intro Y X hY hX
  rw [a5 Y X hY hX, b5 Y X hY hX]
  simp only
  have hne : block p bh bw Y X ≠ 0 := by
    intro h0
    have := congrArg Multiset.card h0
    rw [block, card_sum2, Multiset.card_zero] at this
    rcases Nat.mul_eq_zero.mp this with h | h <;> omega
  obtain ⟨m1, m2⟩ := h1 _ hne
  obtain ⟨n1, n2⟩ := h2 _ hne
  obtain ⟨k1, k2⟩ := average_between ((block p bh bw Y X).map (fun v : Int => (v : ℚ))) (by simpa using hne) (fmin (block p bh bw Y X)) (fmax (block p bh bw Y X))
    (by intro v hv; obtain ⟨w, hw, rfl⟩ := Multiset.mem_map.mp hv; exact_mod_cast m2 hw)
    (by intro v hv; obtain ⟨w, hw, rfl⟩ := Multiset.mem_map.mp hv; exact_mod_cast n2 hw)
  have q1 := hm k1
  have q2 := hm k2
  rw [hi] at q1 q2
  exact ⟨q1, q2⟩

/-- C55: with the default paddings ("reflect" for averages, "edge" for maxima) an average can exceed the maximum: here the pixels
0, 0, 100, 0, 0 in blocks of four columns, where the second average is 25 and the second maximum 0. -/
theorem default_paddings_break_order :
    let a : Img Int := ⟨1, 5, fun _ x => if x = 2 then 100 else 0⟩
    (avgPoolInt (reflect a 0 1) pyInt a 1 4).map (fun r => (r.h, r.w, r.px 0 1)) = some (1, 2, 25) ∧
    ∀ f : Multiset Int → Int, (∀ s ≠ 0, IsGreatest {v | v ∈ s} (f s)) →
      (minmaxPool (edge a 0 1) f false a 1 4).map (fun r => (r.h, r.w, r.px 0 1)) = some (1, 2, 0) := by
  refine ⟨by decide +kernel, fun f hf => ?_⟩
  have h0 : f {0, 0, 0, 0} = 0 := by
    have := (hf {0, 0, 0, 0} (by simp)).1
    simpa using this
  calc _ = some (1, 2, f {0, 0, 0, 0}) := by rfl
    _ = _ := by rw [h0]

/-- The hypotheses are met by a 5 x 7 image and blocks of 2 x 3: three rows and three columns of blocks. -/
example : ((pool (fun _ _ => 0) (fun s => (s.map id).sum) (⟨5, 7, fun y x => y + x⟩ : Img Nat) 2 3).map (fun r => (r.h, r.w))) = some (3, 3) := by
  decide +kernel

/-- There is a maximum and a minimum. -/
example : ∃ f, PicksExtreme true f := by
  have : ∀ s : Multiset ℚ, ∃ v, s ≠ 0 → Extreme true {v | v ∈ s} v := by
    intro s
    by_cases h : s = 0
    · exact ⟨0, fun h' => absurd h h'⟩
    · obtain ⟨v, hv, hm⟩ := Finset.exists_max_image s.toFinset id (by simpa [Finset.nonempty_iff_ne_empty] using h)
      exact ⟨v, fun _ => ⟨by simpa using hv, fun w hw => hm w (by simpa using hw)⟩⟩
  choose f hf using this
  exact ⟨f, hf⟩

/-- Truncation is monotone and keeps integers. -/
example : Monotone pyInt ∧ ∀ n : Int, pyInt n = n := by
  constructor
  · intro a b h
    simp only [pyInt]
    split_ifs with h1 h2 h2
    · have := Int.floor_le_floor (show -b ≤ -a by linarith); omega
    · have := Int.floor_nonneg.mpr (show 0 ≤ -a by linarith)
      have := Int.floor_nonneg.mpr (show 0 ≤ b by linarith)
      omega
    · linarith
    · exact Int.floor_le_floor h
  · intro n
    simp only [pyInt]
    split_ifs
    · rw [← Int.cast_neg, Int.floor_intCast, neg_neg]
    · rw [Int.floor_intCast]

/-- C55: the default padding of averages mirrors the image at its first and last row and column, without repeating them. -/
theorem reflect_mirrors (a : Img α) (top left d x : Nat) (y : Nat) (hd : d < a.h) (hd' : d < a.w) :
    (d ≤ top → reflect a top left (top - d) x = reflect a top left (top + d) x) ∧
    reflect a top left (top + (a.h - 1) + d) x = reflect a top left (top + (a.h - 1) - d) x ∧
    (d ≤ left → reflect a top left y (left - d) = reflect a top left y (left + d)) ∧
    reflect a top left y (left + (a.w - 1) + d) = reflect a top left y (left + (a.w - 1) - d) ∧
    (∀ i j, i < a.h → j < a.w → reflect a top left (top + i) (left + j) = a.px i j) := by
  unfold reflect
  refine ⟨fun h => ?_, ?_, fun h => ?_, ?_, fun i j hi hj => ?_⟩
  · congr 1
    split_ifs <;> omega
  · congr 1
    split_ifs <;> omega
  · congr 1
    split_ifs <;> omega
  · congr 1
    split_ifs <;> omega
  · congr 1
    · split_ifs <;> omega
    · split_ifs <;> omega

end Imgaug.Pooling
