import Verif.Proofs.Conv
import Verif.Proofs.Quantize
namespace Imgaug.Conv
open Imgaug Imgaug.Dtypes Imgaug.Resize

/-- An image that is not empty, of a dtype that can be filtered, whose components fit into its dtype. -/
structure Good (im : Im) : Prop where
  h : 0 < im.h
  w : 0 < im.w
  c : im.c ≠ some 0
  dt : im.dt ∈ supported
  valid : Valid im

/-- C87: `convolve_` with one matrix keeps shape and dtype and stores at every pixel, in every channel, the sum of products of the matrix with the
pixels of the channel under it, the image being mirrored at its borders. -/
theorem one_matrix (im : Im) (hg : Good im) (K : Kernel) (hK : 0 < K.h ∧ 0 < K.w) :
    ∃ r, convolve im (.array 2 K) = some r ∧ r.dt = im.dt ∧ r.shape = im.shape ∧
      ∃ sy sx, Mirrored im.h sy ∧ Mirrored im.w sx ∧ ∀ y x k : Nat, k < im.c.getD 1 →
        r.px y x k = stored im.dt (∑ i ∈ Finset.range K.h, ∑ j ∈ Finset.range K.w,
          K.k i j * im.px (sy ((y : Int) + i - (K.h / 2 : Nat))) (sx ((x : Int) + j - (K.w / 2 : Nat))) k) := by
  obtain ⟨g1, g2, g3, g4, g5⟩ := hg
  have hrej : rejected im.dt = false := by
    have := g4
    simp only [supported, List.mem_cons, List.not_mem_nil, or_false] at this
    rcases this with h | h | h | h | h | h | h | h <;> rw [h] <;> decide
  obtain ⟨ms, hms⟩ : ∃ ms, ms = (if im.c.getD 1 > 512 then List.replicate (im.c.getD 1) (some K) else [some K]) := ⟨_, rfl⟩
  have huse : ms.all usable = true := by
    rw [hms, List.all_eq_true]
    intro a ha
    have : a = some K := by
      split at ha
      · exact (List.mem_replicate.1 ha).2
      · simpa using ha
    rw [this]
    simp only [usable, Bool.and_eq_true, bne_iff_ne]
    omega
  have hof : ∀ k, k < im.c.getD 1 → matrixOf ms k = some K := by
    intro k hk
    rw [hms, matrixOf]
    by_cases hc : im.c.getD 1 > 512
    · rw [if_pos hc, List.length_replicate, if_neg (by omega), List.getD_eq_getElem?_getD, List.getElem?_replicate, if_pos hk]; rfl
    · rw [if_neg hc]; rfl
  refine ⟨convolved im ms, ?_, rfl, rfl, reflect im.h, reflect im.w, reflect_mirrored _ g1, reflect_mirrored _ g2, ?_⟩
  · rw [convolve, if_neg (by simp [hrej]), if_neg (by simp [g3]; omega), matrices, if_pos rfl, ← hms, Option.bind_some, if_pos huse]
  · intro y x k hk
    simp only [convolved]
    rw [hof k hk, filtered, restored_saturate _ g4, weighted_sum]

/-- A small uint8 image: pixel `(y, x)` has the value `10 y + x`. -/
def small (d : DType) (c : Option Nat) : Im := ⟨d, 2, 3, c, fun y x k => 10 * (y : ℚ) + x + 100 * k⟩

example : ((convolve (small ⟨.u, 1⟩ (some 2)) (.array 2 ⟨1, 2, fun _ _ => 1⟩)).map (fun r => (r.px 0 0 0, r.px 0 1 0, r.px 1 2 1))) = some (1, 1, 223) := by
  decide +kernel
example : ((convolve (small ⟨.u, 1⟩ (some 2)) (.array 2 ⟨1, 2, fun _ _ => 20⟩)).map (fun r => r.px 1 2 1)) = some 255 := by decide +kernel

/-- C87: with a list of matrices every channel is filtered with its own matrix, as an image with that single channel would be; `None` leaves a channel
as it is. -/
theorem matrix_per_channel (im : Im) (hg : Good im) (l : List (Option Kernel)) (hl : l.length = im.c.getD 1) (hu : l.all usable = true) :
    ∃ r, convolve im (.list l) = some r ∧ r.dt = im.dt ∧ r.shape = im.shape ∧ ∀ y x k : Nat, k < im.c.getD 1 →
      (l[k]? = some none → r.px y x k = im.px y x k) ∧
      (∀ K, l[k]? = some (some K) → ∃ s, convolve (channel im k) (.array 2 K) = some s ∧ r.px y x k = s.px y x 0) := by
  obtain ⟨g1, g2, g3, g4, g5⟩ := hg
  have hrej : rejected im.dt = false := by
    have := g4
    simp only [supported, List.mem_cons, List.not_mem_nil, or_false] at this
    rcases this with h | h | h | h | h | h | h | h <;> rw [h] <;> decide
  have hm : matrices (im.c.getD 1) (.list l) = some l := by
    rw [matrices, if_pos hl, if_neg (by omega)]
  have hof : ∀ k, k < im.c.getD 1 → ∀ a, l[k]? = some a → matrixOf l k = a := by
    intro k hk a ha
    rw [matrixOf]
    split_ifs with h1
    · have : k = 0 := by omega
      rw [this] at ha
      rw [List.getD_eq_getElem?_getD, ha]; rfl
    · rw [List.getD_eq_getElem?_getD, ha]; rfl
  refine ⟨convolved im l, ?_, rfl, rfl, ?_⟩
  · rw [convolve, if_neg (by simp [hrej]), if_neg (by simp [g3]; omega), hm, Option.bind_some, if_pos hu]
  · intro y x k hk
    constructor
    · intro h
      simp only [convolved]
      rw [hof k hk none h, filtered, restored_holds _ g4 _ (g5 y x k)]
    · intro K h
      have hKu : usable (some K) = true := List.all_eq_true.1 hu _ (List.mem_of_getElem? h)
      refine ⟨convolved (channel im k) [some K], ?_, ?_⟩
      · have : matrices ((channel im k).c.getD 1) (.array 2 K) = some [some K] := by simp [matrices, channel]
        rw [convolve, this, if_neg (by simp [hrej, channel]), if_neg (by simp [channel]; omega), Option.bind_some, if_pos (by simp [hKu])]
      · simp only [convolved, channel]
        rw [hof k hk _ h]
        simp only [filtered, matrixOf]
        rfl

example : ((convolve (small ⟨.u, 1⟩ (some 2)) (.list [none, some ⟨1, 1, fun _ _ => 2⟩])).map (fun r => (r.px 1 2 0, r.px 1 2 1))) = some (12, 224) := by
  decide +kernel

/-- C87: one matrix for all channels is the same as a list with that matrix for every channel. -/
theorem one_matrix_as_list (im : Im) (hg : Good im) (K : Kernel) (hK : 0 < K.h ∧ 0 < K.w) :
    ∃ r s, convolve im (.array 2 K) = some r ∧ convolve im (.list (List.replicate (im.c.getD 1) (some K))) = some s ∧ SameIm r s := by
  obtain ⟨r, e1, e2, e3, sy, sx, m1, m2, e4⟩ := one_matrix im hg K hK
  have hu : (List.replicate (im.c.getD 1) (some K)).all usable = true := by
    rw [List.all_eq_true]
    intro a ha
    rw [(List.mem_replicate.1 ha).2]
    simp only [usable, Bool.and_eq_true, bne_iff_ne]
    omega
  obtain ⟨s, f1, f2, f3, f4⟩ := matrix_per_channel im hg _ (List.length_replicate) hu
  refine ⟨r, s, e1, f1, by rw [e2, f2], by rw [e3, f3], ?_⟩
  intro y x k hy hx hk
  have hk' : k < im.c.getD 1 := by
    have : s.c = im.c := by simpa [Im.shape] using congrArg (fun t => t.2.2) f3
    rw [this] at hk; exact hk
  obtain ⟨s', g1, g2⟩ := (f4 y x k hk').2 K (by rw [List.getElem?_replicate, if_pos hk'])
  have hgc : Good (channel im k) := ⟨hg.h, hg.w, by simp [channel], hg.dt, fun y x _ => hg.valid y x k⟩
  have hrej : rejected im.dt = false := by
    have := hg.dt
    simp only [supported, List.mem_cons, List.not_mem_nil, or_false] at this
    rcases this with h | h | h | h | h | h | h | h <;> rw [h] <;> decide
  have hs' : s' = convolved (channel im k) [some K] := by
    have : matrices ((channel im k).c.getD 1) (.array 2 K) = some [some K] := by simp [matrices, channel]
    rw [convolve, this] at g1
    have h1 := hg.h
    have h2 := hg.w
    have hKu : usable (some K) = true := by
      simp only [usable, Bool.and_eq_true, bne_iff_ne]; omega
    rw [if_neg (by simp [hrej, channel]), if_neg (by simp [channel]; omega), Option.bind_some, if_pos (by simp [hKu])] at g1
    exact (Option.some.inj g1).symm
  have hr : r = convolved im (if im.c.getD 1 > 512 then List.replicate (im.c.getD 1) (some K) else [some K]) := by
    have h1 := hg.h
    have h2 := hg.w
    rw [convolve, if_neg (by simp [hrej]), if_neg (by simp [hg.c]; omega), matrices, if_pos rfl, Option.bind_some] at e1
    generalize (if im.c.getD 1 > 512 then List.replicate (im.c.getD 1) (some K) else [some K]) = ms at e1
    by_cases hms : ms.all usable = true
    · rw [if_pos hms] at e1
      exact (Option.some.inj e1).symm
    · rw [if_neg hms] at e1
      cases e1
  rw [g2, hs', hr]
  simp only [convolved, channel]
  have hof : matrixOf (if im.c.getD 1 > 512 then List.replicate (im.c.getD 1) (some K) else [some K]) k = some K := by
    rw [matrixOf]
    by_cases hc : im.c.getD 1 > 512
    · rw [if_pos hc, List.length_replicate, if_neg (by omega), List.getD_eq_getElem?_getD, List.getElem?_replicate, if_pos hk']; rfl
    · rw [if_neg hc]; rfl
  rw [hof]
  rfl

/-- C87: `convolve_` raises exactly for dtypes that OpenCV cannot filter and, if the image is not empty, for arguments that are no matrix with
entries or no list with one (or `None`) per channel. Empty images are returned as they are. -/
theorem result_iff (im : Im) (arg : KArg) (hall : im.dt ∈ all) :
    (convolve im arg).isSome ↔ im.dt ∈ supported ∧ ((im.h = 0 ∨ im.w = 0 ∨ im.c = some 0) ∨
      (∃ K, arg = .array 2 K ∧ 0 < K.h ∧ 0 < K.w) ∨
      (∃ l, arg = .list l ∧ l.length = im.c.getD 1 ∧ ∀ K, some K ∈ l → 0 < K.h ∧ 0 < K.w)) := by
  have hrej : rejected im.dt = false ↔ im.dt ∈ supported := by
    simp only [all, List.mem_cons, List.not_mem_nil, or_false] at hall
    rcases hall with h | h | h | h | h | h | h | h | h | h | h | h | h <;> rw [h] <;> decide
  have huse : ∀ K, usable (some K) = true ↔ 0 < K.h ∧ 0 < K.w := by
    intro K
    simp only [usable, Bool.and_eq_true, bne_iff_ne]; omega
  rw [convolve]
  by_cases h1 : rejected im.dt
  · rw [if_pos h1]
    simp only [Option.isSome_none, Bool.false_eq_true, false_iff]
    intro h
    rw [hrej.2 h.1] at h1; cases h1
  · have hs : im.dt ∈ supported := hrej.1 (by simpa using h1)
    rw [if_neg h1]
    by_cases h2 : im.h = 0 ∨ im.w = 0 ∨ im.c = some 0
    · rw [if_pos h2]
      simp [hs, h2]
    · rw [if_neg h2]
      cases arg with
      | array ndim K =>
        by_cases hn : ndim = 2
        · subst hn
          rw [matrices, if_pos rfl, Option.bind_some]
          have hall' : (if im.c.getD 1 > 512 then List.replicate (im.c.getD 1) (some K) else [some K]).all usable = true ↔ 0 < K.h ∧ 0 < K.w := by
            rw [← huse]
            split_ifs with hc
            · rw [List.all_replicate]
              split
              · omega
              · rfl
            · simp
          by_cases hK : 0 < K.h ∧ 0 < K.w
          · rw [if_pos (hall'.2 hK)]
            simp [hs, hK]
          · rw [if_neg (fun h => hK (hall'.1 h))]
            simp only [Option.isSome_none, Bool.false_eq_true, false_iff]
            rintro ⟨_, h | ⟨K', e, h'⟩ | ⟨l, e, _⟩⟩
            · exact h2 h
            · cases e; exact hK h'
            · cases e
        · rw [matrices, if_neg hn]
          simp only [Option.bind_none, Option.isSome_none, Bool.false_eq_true, false_iff]
          rintro ⟨_, h | ⟨K', e, h'⟩ | ⟨l, e, _⟩⟩
          · exact h2 h
          · cases e; exact hn rfl
          · cases e
      | list l =>
        by_cases hl : l.length = im.c.getD 1
        · have : matrices (im.c.getD 1) (.list l) = some l := by
            rw [matrices, if_pos hl, if_neg (by omega)]
          rw [this, Option.bind_some]
          have hall' : l.all usable = true ↔ ∀ K, some K ∈ l → 0 < K.h ∧ 0 < K.w := by
            rw [List.all_eq_true]
            constructor
            · intro h K hK; exact (huse K).1 (h _ hK)
            · intro h a ha
              cases a with
              | none => rfl
              | some K => exact (huse K).2 (h K ha)
          by_cases hK : ∀ K, some K ∈ l → 0 < K.h ∧ 0 < K.w
          · rw [if_pos (hall'.2 hK)]
            simp only [Option.isSome_some, true_iff]
            exact ⟨hs, Or.inr (Or.inr ⟨l, rfl, hl, hK⟩)⟩
          · rw [if_neg (fun h => hK (hall'.1 h))]
            simp only [Option.isSome_none, Bool.false_eq_true, false_iff]
            rintro ⟨_, h | ⟨K', e, h'⟩ | ⟨l', e, _, h'⟩⟩
            · exact h2 h
            · cases e
            · cases e; exact hK h'
        · rw [matrices, if_neg hl]
          simp only [Option.bind_none, Option.isSome_none, Bool.false_eq_true, false_iff]
          rintro ⟨_, h | ⟨K', e, h'⟩ | ⟨l', e, h', _⟩⟩
          · exact h2 h
          · cases e
          · cases e; exact hl h'
      | other =>
        rw [matrices]
        simp only [Option.bind_none, Option.isSome_none, Bool.false_eq_true, false_iff]
        rintro ⟨_, h | ⟨K', e, h'⟩ | ⟨l', e, h', _⟩⟩
        · exact h2 h
        · cases e
        · cases e

example : (convolve (small ⟨.u, 4⟩ none) (.array 2 noChange)).isNone ∧ (convolve (small ⟨.u, 1⟩ none) (.array 3 noChange)).isNone ∧
    (convolve (small ⟨.u, 1⟩ (some 2)) (.list [some noChange])).isNone := by decide +kernel

/-- C87 is false for arrays with three axes: the documentation of `Convolve` allows a function to return one, but any image that is not empty then raises. -/
theorem three_axes_raise (K : Kernel) : convolveImage (some (.array 3 K)) (small ⟨.u, 1⟩ (some 3)) = none := by
  simp [convolveImage, convolve, small, rejected, matrices]

/-- C87: empty images are returned as they are. -/
theorem empty_kept (im : Im) (hd : im.dt ∈ supported) (he : im.h = 0 ∨ im.w = 0 ∨ im.c = some 0) (arg : KArg) : convolve im arg = some im := by
  have hrej : rejected im.dt = false := by
    have := hd
    simp only [supported, List.mem_cons, List.not_mem_nil, or_false] at this
    rcases this with h | h | h | h | h | h | h | h <;> rw [h] <;> decide
  rw [convolve, if_neg (by simp [hrej]), if_pos he]

example : (convolve ⟨⟨.u, 1⟩, 0, 3, none, fun _ _ _ => 0⟩ .other).isSome := by decide +kernel

/-- C87: a matrix whose entries are not negative and add up to one takes averages: no component leaves the range of its channel. -/
theorem average_within (im : Im) (hg : Good im) (K : Kernel) (hK : 0 < K.h ∧ 0 < K.w) (ha : Average K) (k : Nat) (hk : k < im.c.getD 1) (a b : ℚ)
    (hab : ∀ y x, y < im.h → x < im.w → a ≤ im.px y x k ∧ im.px y x k ≤ b) (hha : Holds im.dt a) (hhb : Holds im.dt b) :
    ∃ r, convolve im (.array 2 K) = some r ∧ ∀ y x, a ≤ r.px y x k ∧ r.px y x k ≤ b := by
  obtain ⟨r, e1, _, _, sy, sx, m1, m2, e4⟩ := one_matrix im hg K hK
  refine ⟨r, e1, ?_⟩
  intro y x
  have hmono : ∀ u v : ℚ, u ≤ v → stored im.dt u ≤ stored im.dt v := by
    intro u v huv
    unfold stored
    cases im.dt.kind
    · simp only
      exact min_le_min_right _ (max_le_max_right _ (by exact_mod_cast Props.npRound_mono huv))
    · simp only
      exact min_le_min_right _ (max_le_max_right _ (by exact_mod_cast Props.npRound_mono huv))
    · simp only
      split_ifs <;> linarith
    · simp only
      split_ifs
      · exact min_le_min_right _ (max_le_max_right _ huv)
      · exact huv
  have hin : ∀ i j : Int, a ≤ im.px (sy i) (sx j) k ∧ im.px (sy i) (sx j) k ≤ b := fun i j => hab _ _ (m1.bounded _) (m2.bounded _)
  obtain ⟨h0, h1⟩ := ha
  rw [total_sum] at h1
  rw [e4 y x k hk]
  constructor
  · rw [← stored_holds _ hg.dt a hha]
    apply hmono
    calc a = (∑ i ∈ Finset.range K.h, ∑ j ∈ Finset.range K.w, K.k i j) * a := by rw [h1, one_mul]
      _ = ∑ i ∈ Finset.range K.h, ∑ j ∈ Finset.range K.w, K.k i j * a := by
        rw [Finset.sum_mul]; exact Finset.sum_congr rfl (fun i _ => Finset.sum_mul _ _ _)
      _ ≤ _ := by
        apply Finset.sum_le_sum; intro i hi'
        apply Finset.sum_le_sum; intro j hj'
        exact mul_le_mul_of_nonneg_left (hin _ _).1 (h0 i j (Finset.mem_range.1 hi') (Finset.mem_range.1 hj'))
  · rw [← stored_holds _ hg.dt b hhb]
    apply hmono
    calc _ ≤ ∑ i ∈ Finset.range K.h, ∑ j ∈ Finset.range K.w, K.k i j * b := by
          apply Finset.sum_le_sum; intro i hi'
          apply Finset.sum_le_sum; intro j hj'
          exact mul_le_mul_of_nonneg_left (hin _ _).2 (h0 i j (Finset.mem_range.1 hi') (Finset.mem_range.1 hj'))
      _ = (∑ i ∈ Finset.range K.h, ∑ j ∈ Finset.range K.w, K.k i j) * b := by
        rw [Finset.sum_mul]; exact Finset.sum_congr rfl (fun i _ => (Finset.sum_mul _ _ _).symm)
      _ = b := by rw [h1, one_mul]

example : Average ⟨2, 2, fun _ _ => 1 / 4⟩ := ⟨fun _ _ _ _ => by norm_num, by decide +kernel⟩

/-- C87: a channel with the same value at all pixels keeps one value at all pixels: the sum of the entries of the matrix times the value. -/
theorem flat_channel (im : Im) (hg : Good im) (K : Kernel) (hK : 0 < K.h ∧ 0 < K.w) (k : Nat) (hk : k < im.c.getD 1) (v : ℚ)
    (hv : ∀ y x, y < im.h → x < im.w → im.px y x k = v) :
    ∃ r, convolve im (.array 2 K) = some r ∧ ∀ y x, r.px y x k = stored im.dt ((∑ i ∈ Finset.range K.h, ∑ j ∈ Finset.range K.w, K.k i j) * v) := by
  obtain ⟨r, e1, _, _, sy, sx, m1, m2, e4⟩ := one_matrix im hg K hK
  refine ⟨r, e1, ?_⟩
  intro y x
  rw [e4 y x k hk]
  congr 1
  rw [Finset.sum_mul]
  apply Finset.sum_congr rfl
  intro i _
  rw [Finset.sum_mul]
  apply Finset.sum_congr rfl
  intro j _
  rw [hv _ _ (m1.bounded _) (m2.bounded _)]

/-- C87: the matrices of `Sharpen`, `Emboss`, `EdgeDetect` and `DirectedEdgeDetect` exist exactly for `alpha` in `[0, 1]`. -/
theorem alpha_range (alpha : ℚ) : (∀ l, (sharpen alpha l).isSome ↔ 0 ≤ alpha ∧ alpha ≤ 1) ∧ (∀ s, (emboss alpha s).isSome ↔ 0 ≤ alpha ∧ alpha ≤ 1) ∧
    ((edgeDetect alpha).isSome ↔ 0 ≤ alpha ∧ alpha ≤ 1) ∧ (∀ a d, (directed a alpha d).isSome ↔ 0 ≤ alpha ∧ alpha ≤ 1) := by
  have h : ∀ E, (mixed alpha E).isSome ↔ 0 ≤ alpha ∧ alpha ≤ 1 := by
    intro E
    rw [mixed]
    split_ifs with h
    · simp [h]
    · simpa using h
  exact ⟨fun l => h _, fun s => h _, h _, fun a d => h _⟩

example : (sharpen (1 / 2) 1).isSome ∧ (sharpen 2 1).isNone := by decide +kernel

/-- C87: `Sharpen`, `Emboss`, `EdgeDetect` and `DirectedEdgeDetect` blend: a component is the (rounded and clipped) mixture of what it was and of what the matrix for `alpha = 1` computes, with `alpha` as the share of the latter. -/
theorem blends (alpha : ℚ) (h0 : 0 ≤ alpha) (h1 : alpha ≤ 1) (make : ℚ → Option Kernel)
    (hmake : (∃ l, make = fun a => sharpen a l) ∨ (∃ s, make = fun a => emboss a s) ∨ make = edgeDetect ∨ (∃ an d, make = fun a => directed an a d))
    (im : Im) (hg : Good im) :
    ∃ K E r sy sx, make alpha = some K ∧ make 1 = some E ∧ convolve im (.array 2 K) = some r ∧ r.dt = im.dt ∧ r.shape = im.shape ∧
      Mirrored im.h sy ∧ Mirrored im.w sx ∧ ∀ y x k, y < im.h → x < im.w → k < im.c.getD 1 →
        r.px y x k = stored im.dt ((1 - alpha) * im.px y x k + alpha * (∑ i ∈ Finset.range 3, ∑ j ∈ Finset.range 3,
          E.k i j * im.px (sy ((y : Int) + i - 1)) (sx ((x : Int) + j - 1)) k)) := by
  obtain ⟨F, hF, hmix⟩ : ∃ F : Kernel, (F.h = 3 ∧ F.w = 3) ∧ ∀ a, make a = mixed a F := by
    rcases hmake with ⟨l, h⟩ | ⟨s, h⟩ | h | ⟨an, d, h⟩ <;> subst h
    · exact ⟨_, ⟨rfl, rfl⟩, fun a => rfl⟩
    · exact ⟨_, ⟨rfl, rfl⟩, fun a => rfl⟩
    · exact ⟨_, ⟨rfl, rfl⟩, fun a => rfl⟩
    · exact ⟨_, ⟨rfl, rfl⟩, fun a => rfl⟩
  obtain ⟨K, hKm⟩ := mixed_some alpha F h0 h1
  have hKm' := hKm
  obtain ⟨E, hEm⟩ := mixed_some 1 F (by norm_num) (le_refl _)
  have hKs : K.h = 3 ∧ K.w = 3 := by
    rw [mixed, if_pos ⟨h0, h1⟩, Option.some.injEq] at hKm'
    subst hKm'; exact ⟨rfl, rfl⟩
  obtain ⟨r, e1, e2, e3, sy, sx, m1, m2, e4⟩ := one_matrix im hg K (by omega)
  refine ⟨K, E, r, sy, sx, by rw [hmix, hKm], by rw [hmix, hEm], e1, e2, e3, m1, m2, ?_⟩
  intro y x k hy hx hk
  rw [e4 y x k hk]
  congr 1
  rw [hKs.1, hKs.2]
  rw [mixed, if_pos ⟨h0, h1⟩, Option.some.injEq] at hKm
  rw [mixed, if_pos ⟨by norm_num, le_refl _⟩, Option.some.injEq] at hEm
  subst hKm hEm
  have ey : sy ((y : Int) + (1 : Nat) - (3 / 2 : Nat)) = y := by
    have : (y : Int) + (1 : Nat) - (3 / 2 : Nat) = (y : Nat) := by omega
    rw [this]; exact m1.inside y hy
  have ex : sx ((x : Int) + (1 : Nat) - (3 / 2 : Nat)) = x := by
    have : (x : Int) + (1 : Nat) - (3 / 2 : Nat) = (x : Nat) := by omega
    rw [this]; exact m2.inside x hx
  have e1' : ((3 / 2 : Nat) : Int) = 1 := by decide
  simp only [Finset.sum_range_succ, Finset.sum_range_zero, e1'] at ey ex ⊢
  rw [ey, ex]
  simp only [noChange, three]
  norm_num
  ring

example : ((sharpen (1 / 2) 1).bind (fun K => convolve (small ⟨.u, 1⟩ none) (.array 2 K))).map (fun r => (r.px 0 1 0, r.px 1 1 0)) = some (0, 41) := by
  decide +kernel

/-- C87: with `alpha = 0` these augmenters leave every image as it is. -/
theorem alpha_zero (make : ℚ → Option Kernel)
    (hmake : (∃ l, make = fun a => sharpen a l) ∨ (∃ s, make = fun a => emboss a s) ∨ make = edgeDetect ∨ (∃ an d, make = fun a => directed an a d))
    (im : Im) (hg : Good im) : ∃ K r, make 0 = some K ∧ convolve im (.array 2 K) = some r ∧ SameIm r im := by
  obtain ⟨K, E, r, sy, sx, e1, _, e3, e4, e5, _, _, e6⟩ := blends 0 (le_refl _) (by norm_num) make hmake im hg
  refine ⟨K, r, e1, e3, e4, e5, ?_⟩
  intro y x k hy hx hk
  rw [e6 y x k hy hx hk]
  have : (1 - 0) * im.px y x k + 0 * (∑ i ∈ Finset.range 3, ∑ j ∈ Finset.range 3, E.k i j * im.px (sy ((y : Int) + i - 1)) (sx ((x : Int) + j - 1)) k) = im.px y x k := by ring
  rw [this]
  exact stored_holds _ hg.dt _ (hg.valid y x k)

/-- C87: on a channel with one value `v`, `Sharpen` computes `v` times `1 - alpha + alpha * lightness`, `Emboss` keeps the value and the detectors of
edges compute `(1 - alpha) * v`: where there is no edge they show nothing. -/
theorem flat_effects (alpha : ℚ) (h0 : 0 ≤ alpha) (h1 : alpha ≤ 1) (im : Im) (hg : Good im) (k : Nat) (hk : k < im.c.getD 1) (v : ℚ)
    (hv : ∀ y x, y < im.h → x < im.w → im.px y x k = v) :
    (∀ l, ∃ K r, sharpen alpha l = some K ∧ convolve im (.array 2 K) = some r ∧ ∀ y x, r.px y x k = stored im.dt ((1 - alpha + alpha * l) * v)) ∧
    (∀ s, ∃ K r, emboss alpha s = some K ∧ convolve im (.array 2 K) = some r ∧ ∀ y x, r.px y x k = v) ∧
    (∃ K r, edgeDetect alpha = some K ∧ convolve im (.array 2 K) = some r ∧ ∀ y x, r.px y x k = stored im.dt ((1 - alpha) * v)) ∧
    (∀ angle d, (∑ i ∈ Finset.range 3, ∑ j ∈ Finset.range 3, similarity angle (degrees d) i j ≠ 0) → ∃ K r, directed angle alpha d = some K ∧
      convolve im (.array 2 K) = some r ∧ ∀ y x, r.px y x k = stored im.dt ((1 - alpha) * v)) := by
  have key : ∀ (E : Kernel), E.h = 3 ∧ E.w = 3 → ∃ K r, mixed alpha E = some K ∧ convolve im (.array 2 K) = some r ∧
      ∀ y x, r.px y x k = stored im.dt ((1 - alpha + alpha * total E) * v) := by
    intro E hE
    obtain ⟨K, hK⟩ := mixed_some alpha E h0 h1
    have hK' := hK
    rw [mixed, if_pos ⟨h0, h1⟩, Option.some.injEq] at hK'
    obtain ⟨r, e1, e2⟩ := flat_channel im hg K (by subst hK'; exact ⟨by norm_num, by norm_num⟩) k hk v hv
    refine ⟨K, r, hK, e1, ?_⟩
    intro y x
    rw [e2, ← total_sum, total_nine K (by subst hK'; exact ⟨rfl, rfl⟩), total_nine E hE]
    congr 2
    subst hK'
    simp only [noChange, three]
    norm_num
    ring
  refine ⟨?_, ?_, ?_, ?_⟩
  · intro l
    obtain ⟨K, r, e1, e2, e3⟩ := key (three [[-1, -1, -1], [-1, 8 + l, -1], [-1, -1, -1]]) ⟨rfl, rfl⟩
    refine ⟨K, r, e1, e2, ?_⟩
    intro y x
    have ht : total (three [[-1, -1, -1], [-1, 8 + l, -1], [-1, -1, -1]]) = l := by
      rw [three_sum]; simp; ring
    rw [e3, ht]
  · intro s
    obtain ⟨K, r, e1, e2, e3⟩ := key (three [[-1 - s, 0 - s, 0], [0 - s, 1, 0 + s], [0, 0 + s, 1 + s]]) ⟨rfl, rfl⟩
    refine ⟨K, r, e1, e2, ?_⟩
    intro y x
    rw [e3]
    have : (1 - alpha + alpha * total (three [[-1 - s, 0 - s, 0], [0 - s, 1, 0 + s], [0, 0 + s, 1 + s]])) * v = v := by
      rw [three_sum]; simp; ring_nf
    rw [this]
    have := hg.valid 0 0 k
    rw [hv 0 0 hg.h hg.w] at this
    exact stored_holds _ hg.dt _ this
  · obtain ⟨K, r, e1, e2, e3⟩ := key (three [[0, 1, 0], [1, -4, 1], [0, 1, 0]]) ⟨rfl, rfl⟩
    refine ⟨K, r, e1, e2, ?_⟩
    intro y x
    have ht : total (three [[0, 1, 0], [1, -4, 1], [0, 1, 0]]) = 0 := by
      rw [three_sum]; norm_num
    rw [e3, ht, mul_zero, add_zero]
  · intro angle d hd
    obtain ⟨K, r, e1, e2, e3⟩ := key (directedEffect angle (degrees d)) ⟨rfl, rfl⟩
    refine ⟨K, r, e1, e2, ?_⟩
    intro y x
    rw [e3, directed_total]
    · congr 2; ring
    · rw [total_sum]; exact hd

example : (∑ i ∈ Finset.range 3, ∑ j ∈ Finset.range 3, similarity (fun _ x _ => if x = 1 then 0 else 1) (degrees (1 / 4)) i j) ≠ 0 := by decide +kernel

/-- C87: with `alpha = 1` the matrix of `DirectedEdgeDetect` is one in the middle, not positive around it, and the nearer a neighbour is to the
direction the more of it is subtracted. -/
theorem directed_weights (angle : Int → Int → Int → ℚ) (d : ℚ) (ha : ∀ x y, 0 ≤ angle (degrees d) x y ∧ angle (degrees d) x y ≤ 1) :
    ∃ K, directed angle 1 d = some K ∧ K.h = 3 ∧ K.w = 3 ∧ K.k 1 1 = 1 ∧
      (∀ i j : Nat, i < 3 → j < 3 → (i, j) ≠ (1, 1) → K.k i j ≤ 0) ∧
      (∀ i j i' j' : Nat, i < 3 → j < 3 → i' < 3 → j' < 3 → (i, j) ≠ (1, 1) → (i', j') ≠ (1, 1) →
        angle (degrees d) ((j : Int) - 1) ((i : Int) - 1) ≤ angle (degrees d) ((j' : Int) - 1) ((i' : Int) - 1) → K.k i j ≤ K.k i' j') := by
  have hT : 0 ≤ total ⟨3, 3, similarity angle (degrees d)⟩ := by
    rw [total_sum]
    apply Finset.sum_nonneg; intro i _
    apply Finset.sum_nonneg; intro j _
    simp only [similarity]
    split_ifs
    · exact le_refl _
    · positivity
  have hk : ∀ i j : Nat, i < 3 → j < 3 → (i, j) ≠ (1, 1) → (1 - 1) * noChange.k i j + 1 * (directedEffect angle (degrees d)).k i j =
      -((1 - angle (degrees d) ((j : Int) - 1) ((i : Int) - 1)) ^ 4 / total ⟨3, 3, similarity angle (degrees d)⟩) := by
    intro i j _ _ hij
    have hij' : ¬ (i = 1 ∧ j = 1) := fun h => hij (by rw [h.1, h.2])
    simp only [directedEffect, similarity, if_neg hij']
    ring
  refine ⟨⟨3, 3, fun i j => (1 - 1) * noChange.k i j + 1 * (directedEffect angle (degrees d)).k i j⟩, by rw [directed, mixed, if_pos ⟨by norm_num, le_refl _⟩], rfl, rfl, ?_, ?_, ?_⟩
  · simp [directedEffect]
  · intro i j h1 h2 h3
    simp only
    rw [hk i j h1 h2 h3]
    have : 0 ≤ (1 - angle (degrees d) ((j : Int) - 1) ((i : Int) - 1)) ^ 4 / total ⟨3, 3, similarity angle (degrees d)⟩ := div_nonneg (by positivity) hT
    linarith
  · intro i j i' j' h1 h2 h1' h2' h3 h3' hle
    simp only
    rw [hk i j h1 h2 h3, hk i' j' h1' h2' h3']
    have h4 : (1 - angle (degrees d) ((j' : Int) - 1) ((i' : Int) - 1)) ^ 4 ≤ (1 - angle (degrees d) ((j : Int) - 1) ((i : Int) - 1)) ^ 4 := by
      apply pow_le_pow_left₀
      · have := (ha ((j' : Int) - 1) ((i' : Int) - 1)).2; linarith
      · linarith
    have := div_le_div_of_nonneg_right h4 hT
    linarith

example : ((directed (fun _ x _ => if x = 1 then 0 else if x = 0 then 1 / 2 else 1) 1 (1 / 4)).map (fun K => (K.k 0 2, K.k 0 1, K.k 1 1, K.k 1 0))) =
    some (-8 / 25, -1 / 50, 1, 0) := by decide +kernel

/-- C87 (partial): directions from zero may be given in any number of turns: whole turns more make no difference. -/
theorem turns_partial (angle : Int → Int → Int → ℚ) (alpha d : ℚ) (hd : 0 ≤ d) (n : Nat) : directed angle alpha (d + n) = directed angle alpha d := by
  have : degrees (d + n) = degrees d := by
    unfold degrees
    have e : pyInt ((d + n) * 360) = pyInt (d * 360) + 360 * (n : Int) := by
      rw [Quantize.pyInt_floor (by positivity), Quantize.pyInt_floor (by positivity)]
      have : (d + n) * 360 = d * 360 + ((360 * (n : Int) : Int) : ℚ) := by push_cast; ring
      rw [this, Int.floor_add_intCast]
    rw [e, Int.add_mul_emod_self_left]
  rw [directed, this, directed]

/-- C87 is false for directions below zero, which are rounded the other way: `-0.001` is taken for 0 degrees, one turn more, `0.999`, for 359. -/
theorem negative_turns : degrees (-1 / 1000) = 0 ∧ degrees (-1 / 1000 + 1) = 359 := by decide +kernel

/-- C87: `Convolve` augments every image on its own, with the matrix that was chosen for it; without a matrix the image is left as it is. -/
theorem batch (gen : Nat → Im → Option (Option KArg)) (images r : List Im) (h : convolveBatch gen images = some r) :
    r.length = images.length ∧ ∀ (k : Nat) im, images[k]? = some im → ∃ o s, r[k]? = some o ∧ gen k im = some s ∧
      (s = none → o = im) ∧ (∀ K, s = some K → convolve im K = some o) := by
  have hl := mapM_len _ _ _ h
  rw [List.length_zipIdx] at hl
  refine ⟨hl, ?_⟩
  intro k im hk
  obtain ⟨o, ho, h2⟩ := mapM_nth _ _ _ h k (im, k) (by rw [List.getElem?_zipIdx, hk]; simp)
  simp only [Option.bind_eq_some_iff] at h2
  obtain ⟨s, hs, h3⟩ := h2
  refine ⟨o, s, ho, hs, ?_, ?_⟩
  · intro e; subst e
    simpa [convolveImage] using h3.symm
  · intro K e; subst e
    exact h3

example : ((convolveBatch (fun i _ => some (if i = 0 then none else some (.array 2 ⟨1, 1, fun _ _ => 2⟩))) [small ⟨.u, 1⟩ none, small ⟨.u, 1⟩ none]).map
    (fun r => r.map (fun o => o.px 1 2 0))) = some [12, 24] := by decide +kernel

end Imgaug.Conv
