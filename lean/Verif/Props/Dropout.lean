import Verif.Proofs.Dropout
/-! C76: the dropout augmenters. -/
namespace Imgaug.Dropout
open Imgaug Imgaug.Dtypes Imgaug.Resize Imgaug.MulElem
open Imgaug.AddMul (gated)

/-- C76: the argument `p` is the probability of dropping: what is drawn with the parameter built from it is kept with probability one minus
the number, one minus a number in the interval, or one minus a number of the list. -/
theorem drop_probability (a : PArg) (q : Keep) (h : handleP a = some q) (k : ℚ) (hk : CanDraw q k) :
    match a with
    | .number p => 1 - k = p
    | .tuple l => ∃ p₁ p₂, l = [p₁, p₂] ∧ p₁ ≤ 1 - k ∧ 1 - k ≤ p₂
    | .list l => (1 - k) ∈ l
    | .param => q = .given
    | .other => False := by
  cases a with
  | number p =>
    simp only [handleP, Option.some.injEq] at h
    subst h
    simp only [CanDraw] at hk
    linarith [hk.1]
  | tuple l =>
    match l, h with
    | [a, b], h =>
      simp only [handleP] at h
      split_ifs at h
      cases h
      simp only [CanDraw] at hk
      exact ⟨a, b, rfl, by linarith [hk.2.1], by linarith [hk.1]⟩
  | list l =>
    simp only [handleP] at h
    split_ifs at h
    cases h
    obtain ⟨⟨p, hp, rfl⟩, _⟩ := hk
    simpa using hp
  | param => simp only [handleP, Option.some.injEq] at h; exact h.symm
  | other => simp [handleP] at h

example : handleP (.tuple [0, 1 / 4]) = some (.uniform (3 / 4) 1) ∧ CanDraw (.uniform (3 / 4) 1) (4 / 5) :=
  ⟨by norm_num [handleP], by norm_num [CanDraw]⟩

/-- C76: every tuple of two different probabilities in order and every list of probabilities is accepted, and all other tuples and lists are
rejected; for what is accepted, every probability in it can be drawn. -/
theorem p_accepted :
    (∀ l : List ℚ, (handleP (.tuple l)).isSome ↔ ∃ a b, l = [a, b] ∧ 0 ≤ a ∧ a < b ∧ b ≤ 1) ∧
    (∀ l : List ℚ, (handleP (.list l)).isSome ↔ ∀ p ∈ l, 0 ≤ p ∧ p ≤ 1) ∧
    (∀ a b p q, handleP (.tuple [a, b]) = some q → a ≤ p → p ≤ b → CanDraw q (1 - p)) ∧
    (∀ l p q, handleP (.list l) = some q → p ∈ l → CanDraw q (1 - p)) := by
  refine ⟨?_, ?_, ?_, ?_⟩
  · intro l
    constructor
    · intro h
      match l, h with
      | [a, b], h =>
        simp only [handleP] at h
        split_ifs at h with h1 h2
        · exact ⟨a, b, rfl, h2.1.1, h1, h2.2.2⟩
        · simp at h
        · simp at h
    · rintro ⟨a, b, rfl, h1, h2, h3⟩
      have : (0 ≤ a ∧ a ≤ 1) ∧ (0 ≤ b ∧ b ≤ 1) := ⟨⟨h1, by linarith⟩, by linarith, h3⟩
      simp [handleP, if_pos h2, if_pos this]
  · intro l
    simp only [handleP]
    split_ifs with h <;> simpa using h
  · intro a b p q h h1 h2
    simp only [handleP] at h
    split_ifs at h with h3 h4
    cases h
    obtain ⟨⟨a1, a2⟩, b1, b2⟩ := h4
    exact ⟨by linarith, by linarith, by linarith, by linarith⟩
  · intro l p q h hp
    simp only [handleP] at h
    split_ifs at h with h1
    cases h
    simp only [List.all_eq_true, Bool.and_eq_true, decide_eq_true_eq] at h1
    obtain ⟨a, b⟩ := h1 p hp
    exact ⟨⟨p, hp, rfl⟩, by linarith, by linarith⟩

/-- C76 is false of single numbers: they are accepted without a check, and one that is no probability fails only when samples are drawn. -/
theorem number_unchecked : handleP (.number 2) = some (.one (-1)) ∧ ∀ k, ¬ CanDraw (.one (-1)) k := by
  refine ⟨by norm_num [handleP], ?_⟩
  rintro k ⟨h1, h2, _⟩
  linarith

/-- For the examples: masks that drop the first row. -/
def demoDraw (h w c : Nat) : Im := ⟨⟨.i, 4⟩, h, w, some c, fun y _ _ => if y = 0 then 0 else 1⟩

theorem demoDraw_mask : MaskDraw demoDraw := by
  intro h w c
  refine ⟨rfl, rfl, rfl, rfl, fun y x k => ?_⟩
  simp only [demoDraw]
  split_ifs
  · exact Or.inl rfl
  · exact Or.inr rfl

/-- C76: `Dropout` keeps every component of an image as it is or sets it to zero, as the drawn mask says, for all dtypes that are supported and
also if the parameter is not recognised as a mask; without `per_channel`, all channels of a pixel have the same fate. -/
theorem dropout_image (binom : Bool) (draw : Nat → Nat → Nat → Im) (hdraw : MaskDraw draw) (pc : ℚ) (img : Im) (c : Nat) (hc : img.c = some c)
    (hd : img.dt ∈ gated) (hv : Valid img) :
    ∃ r, augImage binom draw pc img = some r ∧ r.dt = img.dt ∧ r.shape = img.shape ∧
      (pc > 1 / 2 → ∀ y x k, In img y x k → r.px y x k = if (draw img.h img.w c).px y x k = 1 then img.px y x k else 0) ∧
      (¬ pc > 1 / 2 → ∀ y x k, In img y x k → r.px y x k = if (draw img.h img.w 1).px y x 0 = 1 then img.px y x k else 0) := by
  obtain ⟨d1, d2, d3, d4, d5⟩ := hdraw img.h img.w (if pc > 1 / 2 then c else 1)
  obtain ⟨r, e1, e2, e3, e4⟩ := masked binom (draw img.h img.w (if pc > 1 / 2 then c else 1)) img c pc hc hd hv d1 d2 d3 d4 d5
  refine ⟨r, ?_, e2, e3, ?_, ?_⟩
  · rw [← e1]
    simp only [augImage, hc]
  · intro h y x k hin
    rw [e4 y x k hin]
    simp only [if_pos h]
  · intro h y x k hin
    rw [e4 y x k hin]
    simp only [if_neg h]

example : (augImage false demoDraw 0 (demo ⟨.i, 2⟩ (some 2) (fun n => 100 * (n : ℚ) - 300))).map list = some [0, 0, 0, 0, 100, 200, 300, 400] := by
  decide +kernel

/-- C76: images of all other dtypes are rejected, also if they are empty. -/
theorem dropout_gate (binom : Bool) (draw : Nat → Nat → Nat → Im) (pc : ℚ) (img : Im) (h : img.dt ∉ gated) : augImage binom draw pc img = none := by
  cases hc : img.c with
  | none => simp only [augImage, hc]
  | some c => simp only [augImage, hc, (gate_first img _).1 h]

example : (⟨.f, 8⟩ : DType) ∉ gated := by decide

/-- C76: `CoarseDropout` draws its mask at a lower resolution, of the drawn size but not below `min_size`, and drops whole cells of a grid: rows
and columns of the image are assigned to rows and columns of that mask, and a component is dropped exactly if its cell is. -/
theorem coarse_dropout (cv : Cv) (hcv : PicksPixels cv) (minSize : Int) (hmin : 1 ≤ minSize) (hw : Int × Int) (binom : Bool)
    (draw : Nat → Nat → Nat → Im) (hdraw : MaskDraw draw) (pc : ℚ) (img : Im) (c : Nat) (hc : img.c = some c)
    (hne : 0 < img.h ∧ 0 < img.w ∧ 0 < c) (hd : img.dt ∈ gated) (hv : Valid img) :
    ∃ m r, lowRes3 cv minSize img.h img.w (if pc > 1 / 2 then c else 1) hw .nearest draw = some m ∧
      augImage binom (fun _ _ _ => m) pc img = some r ∧ r.dt = img.dt ∧ r.shape = img.shape ∧
      ∃ sy sx : Nat → Nat, (∀ y < img.h, (sy y : Int) < max hw.1 minSize) ∧ (∀ x < img.w, (sx x : Int) < max hw.2 minSize) ∧
        ∀ y x k, In img y x k → r.px y x k =
          if (draw (max hw.1 minSize).toNat (max hw.2 minSize).toNat (if pc > 1 / 2 then c else 1)).px (sy y) (sx x) (if pc > 1 / 2 then k else 0) = 1
          then img.px y x k else 0 := by
  obtain ⟨p1, p2, p3⟩ := hne
  set c' := (if pc > 1 / 2 then c else 1) with hc'
  have hc0 : 0 < c' := by rw [hc']; split_ifs <;> omega
  obtain ⟨d1, d2, d3, d4, d5⟩ := hdraw (max hw.1 minSize).toNat (max hw.2 minSize).toNat c'
  set low := draw (max hw.1 minSize).toNat (max hw.2 minSize).toNat c' with hlow
  have hs1 : 1 ≤ max hw.1 minSize := le_trans hmin (le_max_right _ _)
  have hs2 : 1 ≤ max hw.2 minSize := le_trans hmin (le_max_right _ _)
  have hneg : ¬ (max hw.1 minSize < 0 ∨ max hw.2 minSize < 0) := by omega
  have hlv : Valid low := by
    intro y x k
    have e1 : lo ⟨.i, 4⟩ = -2147483648 := by decide +kernel
    have e2 : hi ⟨.i, 4⟩ = 2147483647 := by decide +kernel
    rw [d1]
    rcases d5 y x k with h | h <;> rw [h]
    · exact ⟨by rw [e1]; norm_num, by rw [e2]; norm_num, fun _ => ⟨0, by norm_num⟩⟩
    · exact ⟨by rw [e1]; norm_num, by rw [e2]; norm_num, fun _ => ⟨1, by norm_num⟩⟩
  have hrest : restore low ⟨.i, 4⟩ = some low := by
    have e : ∀ y x k, (changeDtype low.dt ⟨.i, 4⟩ true (low.px y x k)).getD 0 = low.px y x k := by
      intro y x k; rw [changeDtype, if_pos d1]; rfl
    have hc1 : ¬ (low.dt ≠ ⟨.i, 4⟩ ∧ clippable low.dt = false) := fun h => h.1 d1
    simp only [restore, if_neg hc1, e]
    rw [← d1]
  have hsd : sampleDtype .nearest low.dt = some ⟨.i, 4⟩ := by rw [d1]; rfl
  have hone : lowResOne cv minSize img.h img.w c' hw .nearest draw = core cv (some .nearest) (.int img.h, .int img.w) low := by
    simp only [lowResOne, if_neg hneg, ← hlow, hsd, Option.bind_some, hrest]
  have hpair : pair (.tuple [.int (img.h : Int), .int (img.w : Int)]) = some (.int img.h, .int img.w) := by simp [pair, Size.val]
  have hsingle : single cv (some .nearest) (.tuple [.int (img.h : Int), .int (img.w : Int)]) low =
      core cv (some .nearest) (.int img.h, .int img.w) low := by
    simp only [single, d4, hpair, Option.bind_some]
  have hsome : (single cv (some .nearest) (.tuple [.int (img.h : Int), .int (img.w : Int)]) low).isSome := by
    rw [resize_succeeds]
    refine Or.inr (Or.inr (Or.inr (Or.inr ⟨by omega, by omega, ?_⟩)))
    rw [d1]; decide
  obtain ⟨m, hm⟩ := Option.isSome_iff_exists.mp hsome
  obtain ⟨sy, sx, b1, b2, hpx⟩ := nearest_moves_pixels cv hcv low m img.h img.w p1 p2 (by rw [d4]; simp; omega) hlv hm
  obtain ⟨s1, s2, s3, s4⟩ := core_cases cv _ _ low m (by rw [← hsingle]; exact hm)
  have hmt1 : m.h = img.h := by rw [s2]; simp [Resize.target]
  have hmt2 : m.w = img.w := by rw [s3]; simp [Resize.target]
  have hlow3 : lowRes3 cv minSize img.h img.w c' hw .nearest draw = some m := by
    have : core cv (some .nearest) (.int img.h, .int img.w) low = some m := by rw [← hsingle]; exact hm
    simp [lowRes3, lowRes, hone, this]
  obtain ⟨r, e1, e2, e3, e4⟩ := masked binom m img c pc hc hd hv (by rw [s1, d1]) hmt1 hmt2 (by rw [s4, d4])
    (fun y x k => by rw [hpx y x k]; exact d5 _ _ _)
  refine ⟨m, r, hlow3, e1, e2, e3, sy, sx, ?_, ?_, ?_⟩
  · intro y hy
    have := b1 y hy
    rw [d2] at this
    omega
  · intro x hx
    have := b2 x hx
    rw [d3] at this
    omega
  · intro y x k hin
    rw [e4 y x k hin, hpx]

example : (lowRes3 demoCv 1 4 4 1 (1, 2) .nearest demoDraw).map (fun m => (m.h, m.w, m.px 3 0 0)) = some (4, 4, 0) := by decide +kernel

/-- C76: the sizes given in percent are the fractions of the image's height and width, rounded towards zero. -/
theorem percent_size (h w : Nat) (p q : ℚ) (hp : 0 ≤ p) (hq : 0 ≤ q) :
    ((percentSize h w (p, q)).1 : ℚ) ≤ p * h ∧ p * h < (percentSize h w (p, q)).1 + 1 ∧
    ((percentSize h w (p, q)).2 : ℚ) ≤ q * w ∧ q * w < (percentSize h w (p, q)).2 + 1 := by
  have key : ∀ (a : ℚ) (n : Nat), 0 ≤ a → (pyInt (a * n) : ℚ) ≤ a * n ∧ a * n < pyInt (a * n) + 1 := by
    intro a n ha
    have h0 : ¬ (a * n < 0) := not_lt.mpr (mul_nonneg ha (Nat.cast_nonneg n))
    rw [pyInt, if_neg h0]
    exact ⟨Int.floor_le _, Int.lt_floor_add_one _⟩
  exact ⟨(key p h hp).1, (key p h hp).2, (key q w hq).1, (key q w hq).2⟩

example : percentSize 10 7 (1 / 4, 1 / 2) = (2, 3) := by decide +kernel

/-- C76 (partial): samples drawn for several images at a lower resolution are those that each image would get alone, if all methods are the same or all
samples are floats. Missing: integer samples with different methods (`low_res_truncates`). -/
theorem low_res_alone_partial (cv : Cv) (minSize : Int) (h w c : Nat) (rows : List ((Int × Int) × Inter × (Nat → Nat → Nat → Im))) (l : List Im)
    (hl : lowRes cv minSize h w c rows = some l) (d : DType)
    (hd : ∀ r ∈ rows, ∀ a b e, sampleDtype r.2.1 (r.2.2 a b e).dt = some d) :
    rows.mapM (fun r => lowRes3 cv minSize h w c r.1 r.2.1 r.2.2) = some l := by
  have h3 : ∀ r : (Int × Int) × Inter × (Nat → Nat → Nat → Im), lowRes3 cv minSize h w c r.1 r.2.1 r.2.2 = lowResOne cv minSize h w c r.1 r.2.1 r.2.2 := by
    rintro ⟨hw, m, draw⟩
    simp only [lowRes3, lowRes, List.mapM_cons, List.mapM_nil]
    cases lowResOne cv minSize h w c hw m draw <;> simp
  simp only [h3]
  simp only [lowRes, Option.map_eq_some_iff] at hl
  obtain ⟨l0, e0, e1⟩ := hl
  have hdt : ∀ b ∈ l0, b.dt = d := by
    intro b hb
    obtain ⟨i, hi'⟩ := List.mem_iff_getElem?.mp hb
    have hlen := mapM_len _ _ _ e0
    have hlt : i < rows.length := by rw [← hlen]; exact (List.getElem?_eq_some_iff.mp hi').1
    obtain ⟨b', hb', hone⟩ := mapM_nth _ _ _ e0 i rows[i] (List.getElem?_eq_getElem hlt)
    rw [hi', Option.some.injEq] at hb'
    subst hb'
    have hmem : rows[i] ∈ rows := List.getElem_mem hlt
    simp only [lowResOne] at hone
    split_ifs at hone
    rw [hd _ hmem, Option.bind_some, Option.bind_eq_some_iff] at hone
    obtain ⟨a, ha, hcore⟩ := hone
    obtain ⟨s1, _⟩ := core_cases _ _ _ _ _ hcore
    rw [s1]
    simp only [restore] at ha
    split_ifs at ha
    simp only [Option.some.injEq] at ha
    rw [← ha]
  rw [e0, ← e1]
  congr 1
  cases l0 with
  | nil => rfl
  | cons a t =>
    simp only
    symm
    rw [List.map_congr_left (g := id), List.map_id]
    intro b hb
    have e : b.dt = a.dt := by rw [hdt b hb, hdt a (by simp)]
    obtain ⟨bd, bh, bw, bc, bp⟩ := b
    simp only at e
    subst e
    simp

example : ∀ r ∈ [((1, 1), Inter.nearest, demoDraw), ((2, 1), Inter.nearest, demoDraw)],
    ∀ a b e, sampleDtype (r : (Int × Int) × Inter × (Nat → Nat → Nat → Im)).2.1 (r.2.2 a b e).dt = some ⟨.i, 4⟩ := by
  intro r hr a b e
  simp only [List.mem_cons, List.not_mem_nil, or_false] at hr
  rcases hr with rfl | rfl <;> rfl

/-- For the next theorem: a linear interpolation that finds only the mean of zero and one. -/
def halfCv : Cv := fun i d h w h' w' f y x => if i = .nearest then demoCv i d h w h' w' f y x else 1 / 2

/-- C76 is false of different methods: if the first image's samples are integers (nearest neighbour), the interpolated samples of the others are
cut to integers. -/
theorem low_res_truncates :
    (lowRes halfCv 1 4 4 1 [((2, 2), .nearest, demoDraw), ((2, 2), .linear, demoDraw)]).map (fun l => l.map (fun a => a.px 1 1 0)) = some [0, 0] ∧
    (lowRes3 halfCv 1 4 4 1 (2, 2) .linear demoDraw).map (fun a => a.px 1 1 0) = some (1 / 2) := by
  decide +kernel

/-- C76: `Dropout2d` needs the shape of every row to have three entries, and raises in every other case. -/
theorem dropout2d_accepts {α : Type} (keep : Int) (draw : Nat → List ℚ) (shuffle : Nat → List Nat → List Nat) (shapes : List (Option (List Nat)))
    (b : Batch α) : (dropout2d keep draw shuffle shapes b).isSome ↔ ∀ s ∈ shapes, ∃ l, s = some l ∧ 3 ≤ l.length := by
  simp only [dropout2d, Option.isSome_map, AddMul.mapM_isSome]
  refine forall₂_congr (fun s _ => ?_)
  cases s with
  | none => simp [channelsOf]
  | some l =>
    match l with
    | [] => simp [channelsOf]
    | [a] => simp [channelsOf]
    | [a, b] => simp [channelsOf]
    | a :: b :: c :: t => simp [channelsOf]

/-- C76 is false of two-dimensional images in one array with annotations: the annotations' shapes `(H,W)` count, not those of the images
`(H,W,1)`, and `Dropout2d` raises an error. The same images in a list are accepted. -/
theorem dropout2d_flat_images (keep : Int) (draw : Nat → List ℚ) (shuffle : Nat → List Nat → List Nat) (b : Batch Nat) (n h w : Nat) (hn : 0 < n) :
    dropout2d keep draw shuffle (rowwiseShapes n [.array [h, w, 1], .items (List.replicate n (some [h, w]))]) b = none ∧
    (dropout2d keep draw shuffle (rowwiseShapes n [.items (List.replicate n (some [h, w, 1])), .items (List.replicate n (some [h, w]))]) b).isSome := by
  have e1 : rowwiseShapes n [.array [h, w, 1], .items (List.replicate n (some [h, w]))] = List.replicate n (some [h, w]) := by
    have a0 : (List.replicate n ((none : Option (List Nat)), false)).map (fun a => (some [h, w, 1], a.2)) = List.replicate n (some [h, w, 1], false) := by
      rw [List.map_replicate]
    have a1 : (List.replicate n (some [h, w, 1], false)).all (fun a => a.2) = false := by
      rw [List.all_eq_false]
      exact ⟨(some [h, w, 1], false), by simp; omega, by simp⟩
    have a2 : ((List.replicate n (some [h, w, 1], false)).zipIdx.map (setFound (List.replicate n (some [h, w])))) = List.replicate n (some [h, w], true) := by
      apply List.ext_getElem?
      intro i
      simp only [List.getElem?_map, List.getElem?_zipIdx, Nat.zero_add, List.getElem?_replicate]
      split_ifs with hi'
      · simp [setFound, List.getD_eq_getElem?_getD, hi']
      · rfl
    simp only [rowwiseShapes, rowShapes, a0, a1, a2]
    simp
  have e2 : rowwiseShapes n [.items (List.replicate n (some [h, w, 1])), .items (List.replicate n (some [h, w]))] =
      List.replicate n (some [h, w, 1]) := by
    have a2 : ((List.replicate n ((none : Option (List Nat)), false)).zipIdx.map (setFound (List.replicate n (some [h, w, 1])))) = List.replicate n (some [h, w, 1], true) := by
      apply List.ext_getElem?
      intro i
      simp only [List.getElem?_map, List.getElem?_zipIdx, Nat.zero_add, List.getElem?_replicate]
      split_ifs with hi'
      · simp [setFound, List.getD_eq_getElem?_getD, hi']
      · rfl
    simp only [rowwiseShapes, rowShapes, a2]
    simp
  constructor
  · rw [e1, ← Option.not_isSome_iff_eq_none, dropout2d_accepts]
    intro hcon
    obtain ⟨l, h1, h2⟩ := hcon (some [h, w]) (by simp; omega)
    cases h1
    simp at h2
  · rw [e2, dropout2d_accepts]
    intro s hs
    rw [List.mem_replicate] at hs
    exact ⟨_, hs.2, by simp⟩

/-- C76: `Dropout2d` sets whole channels to zero and changes nothing else in an image. For image `i`, the channels are chosen among those whose own
sample (the samples being dealt out image after image) is below one half, and they are as many as possible while `nb_keep_channels` channels are
kept. The annotations of a row are dropped completely if that are all channels of the row, and are left alone otherwise. -/
theorem dropout2d_spec {α : Type} (keep : Int) (draw : Nat → List ℚ) (hdraw : ∀ n, (draw n).length = n) (shuffle : Nat → List Nat → List Nat)
    (hs : ∀ i l, (shuffle i l).Perm l) (shapes : List (Option (List Nat))) (b r : Batch α) (h : dropout2d keep draw shuffle shapes b = some r)
    (himg : ∀ l, b.images = some l → l.length = shapes.length) :
    SameColumns b r ∧ ∃ chans : List Nat, chans.length = shapes.length ∧
      (∀ (i a d c : Nat) (t : List Nat), shapes[i]? = some (some (a :: d :: c :: t)) → chans[i]? = some c) ∧
      ∀ (i c : Nat), chans[i]? = some c → ∃ D, Drops (draw chans.sum) chans keep.toNat i c D ∧
        (∀ l l' a a', b.images = some l → r.images = some l' → l[i]? = some a → l'[i]? = some a' → Zeroed D a a') ∧
        (D.length = c → RowDropped b r i) ∧ (D.length ≠ c → RowKept b r i) := by
  simp only [dropout2d, Option.map_eq_some_iff] at h
  obtain ⟨chans, hch, rfl⟩ := h
  have hlen : chans.length = shapes.length := mapM_len _ _ _ hch
  set drops := dealOut (max keep 0).toNat shuffle (draw chans.sum) chans with hdrops
  have hdl : drops.length = shapes.length := by rw [hdrops, dealOut]; simp [hlen]
  have hkeep : (max keep 0).toNat = keep.toNat := by omega
  set f : List Img → List Img := fun l => (l.zip drops).map (fun p => zeroChannels p.2 p.1) ++ l.drop drops.length with hf
  set b' : Batch α := { b with images := b.images.map f } with hb'
  constructor
  · obtain ⟨_, c2, c3, c4⟩ := dropRows_columns (fun i => decide (i ∈ allDropped chans drops)) b'
    refine ⟨?_, c2, c3, c4⟩
    simp only [dropRows, hb']
    cases hi0 : b.images with
    | none => rfl
    | some l =>
      simp only [Option.map_some, hf, List.length_append, List.length_map, List.length_zip, List.length_drop]
      congr 1
      have := himg l hi0
      omega
  · refine ⟨chans, hlen, ?_, ?_⟩
    · intro i a d c t hsh
      obtain ⟨c', h1, h2⟩ := mapM_nth _ _ _ hch i _ hsh
      rw [h1]
      simp only [channelsOf, Option.bind_some] at h2
      simpa using h2.symm
    · intro i c hc
      have hd : drops[i]? = some (dropIds (max keep 0).toNat (shuffle i) (((draw chans.sum).drop (chans.take i).sum).take c) c) :=
        dealOut_get _ _ _ _ i c hc
      refine ⟨dropIds (max keep 0).toNat (shuffle i) (((draw chans.sum).drop (chans.take i).sum).take c) c, ?_, ?_, ?_, ?_⟩
      · rw [← hkeep]
        exact dropIds_spec _ _ _ _ _ hc (hdraw _) _ (hs i)
      · intro l l' a a' hl hl' ha ha'
        simp only [dropRows, hb', hl, Option.map_some, Option.some.injEq] at hl'
        rw [← hl', hf] at ha'
        have hlt : i < l.length := (List.getElem?_eq_some_iff.mp ha).1
        have hlt2 : i < drops.length := (List.getElem?_eq_some_iff.mp hd).1
        have hz : (l.zip drops)[i]? = some (a, dropIds (max keep 0).toNat (shuffle i) (((draw chans.sum).drop (chans.take i).sum).take c) c) :=
          List.getElem?_zip_eq_some.mpr ⟨ha, hd⟩
        rw [List.getElem?_append_left (by simp; omega), List.getElem?_map, hz] at ha'
        simp only [Option.map_some, Option.some.injEq] at ha'
        rw [← ha']
        exact zeroed _ _
      · intro hall
        exact (dropRows_row (fun i => decide (i ∈ allDropped chans drops)) b' i).1 (by
          rw [decide_eq_true_eq, mem_allDropped chans drops i c _ hc hd]; exact hall)
      · intro hall
        exact (dropRows_row (fun i => decide (i ∈ allDropped chans drops)) b' i).2 (by
          rw [decide_eq_false_iff_not, mem_allDropped chans drops i c _ hc hd]; exact hall)

example : dropout2d 1 (fun n => List.replicate n 0) (fun _ l => l.reverse) [some [1, 2, 2], some [1, 1, 1]]
    (⟨some [⟨2, [[1, 2], [3, 4]]⟩, ⟨1, [[5]]⟩], none, none, [some [[7], [8]]]⟩ : Batch Nat)
    = some ⟨some [⟨2, [[1, 0], [3, 0]]⟩, ⟨1, [[5]]⟩], none, none, [some [[7], [8]]]⟩ := by decide +kernel

/-- C76 (partial): an image keeps `nb_keep_channels` channels, or all that it has, and as long as that is at least one, its annotations are kept.
Missing: images without channels (`no_channels_drop`). -/
theorem dropout2d_keeps_partial (ps : List ℚ) (chans : List Nat) (keep i c : Nat) (D : List Nat) (hD : Drops ps chans keep i c D) :
    min keep c ≤ c - D.length ∧ (0 < keep → 0 < c → D.length ≠ c) := by
  obtain ⟨_, _, h3⟩ := hD
  omega

example : Drops [0, 0, 1] [3] 1 0 3 [0, 1] := by
  refine ⟨by decide, ?_, by decide +kernel⟩
  intro j hj
  simp only [List.mem_cons, List.not_mem_nil, or_false] at hj
  rcases hj with rfl | rfl <;> exact ⟨by norm_num, by norm_num [sampleAt]⟩

/-- C76 is false of images without channels: although no channel is dropped and one is to be kept, all annotations are dropped. -/
theorem no_channels_drop :
    dropout2d 1 (fun n => List.replicate n 1) (fun _ l => l) [some [4, 4, 0]] (⟨some [⟨0, []⟩], none, none, [some [[7]]]⟩ : Batch Nat)
      = some ⟨some [⟨0, []⟩], none, none, [some [[]]]⟩ := by decide +kernel

/-- C76: `TotalDropout` replaces all of a row whose sample is below one half by zeros and empty lists, and leaves all other rows alone. -/
theorem total_dropout {α : Type} (ps : List ℚ) (b : Batch α) :
    SameColumns b (totalDropout ps b) ∧ ∀ (i : Nat) (p : ℚ), ps[i]? = some p →
      (p < 1 / 2 → RowDropped b (totalDropout ps b) i ∧
        ∀ l l' a, b.images = some l → (totalDropout ps b).images = some l' → l[i]? = some a →
          l'[i]? = some ⟨a.c, a.px.map (List.map (fun _ => 0))⟩) ∧
      (¬ p < 1 / 2 → RowKept b (totalDropout ps b) i ∧
        ∀ l l', b.images = some l → (totalDropout ps b).images = some l' → l'[i]? = l[i]?) := by
  constructor
  · refine ⟨?_, ?_, ?_, ?_⟩
    · cases h : b.images <;> simp [totalDropout, dropRows, h]
    · cases h : b.heatmaps <;> simp [totalDropout, dropRows, h, fillRows]
    · cases h : b.segmaps <;> simp [totalDropout, dropRows, h, fillRows]
    · simp only [totalDropout, dropRows, List.map_map]
      apply List.map_congr_left
      intro a _
      cases a <;> simp [emptyRows]
  · intro i p hp
    have hlt : i < ps.length := (List.getElem?_eq_some_iff.mp hp).1
    have hget : ps.getD i 0 = p := by rw [List.getD_eq_getElem?_getD, hp]; rfl
    have himg : ∀ l l', b.images = some l → (totalDropout ps b).images = some l' → l'[i]? =
        l[i]?.map (fun a => if p < 1 / 2 then (⟨a.c, a.px.map (List.map (fun _ => 0))⟩ : Img) else a) := by
      intro l l' hl hl'
      simp only [totalDropout, dropRows, hl, Option.map_some, Option.some.injEq] at hl'
      rw [← hl', List.getElem?_map, List.getElem?_zipIdx]
      cases l[i]? with
      | none => rfl
      | some a => simp only [Option.map_some, Nat.zero_add, hget, hlt, decide_true, Bool.true_and, decide_eq_true_eq]
    constructor
    · intro h
      refine ⟨(dropRows_row _ _ i).1 (by simp only [hlt, hget, h, decide_true, Bool.and_self]), ?_⟩
      intro l l' a hl hl' ha
      rw [himg l l' hl hl', ha, Option.map_some, if_pos h]
    · intro h
      refine ⟨(dropRows_row _ _ i).2 (by simp only [hlt, hget, h, decide_true, decide_false, Bool.and_false]), ?_⟩
      intro l l' hl hl'
      rw [himg l l' hl hl']
      simp only [if_neg h]
      cases l[i]? <;> rfl

example : totalDropout [1, 0] (⟨some [⟨1, [[1]]⟩, ⟨1, [[2]]⟩], some [[1 / 2], [1 / 3]], none, [none, some [[7], [8]]]⟩ : Batch Nat)
    = ⟨some [⟨1, [[1]]⟩, ⟨1, [[0]]⟩], some [[1 / 2], [0]], none, [none, some [[7], []]]⟩ := by decide +kernel

/-- C76: parameters that draw boolean samples cannot be drawn at a lower resolution. -/
theorem bool_samples_rejected (cv : Cv) (minSize : Int) (h w c : Nat) (hw : Int × Int) (m : Inter) (draw : Nat → Nat → Nat → Im)
    (hd : ∀ h w c, (draw h w c).dt.kind = .b) : lowRes3 cv minSize h w c hw m draw = none := by
  have : lowResOne cv minSize h w c hw m draw = none := by
    unfold lowResOne
    simp only
    split
    · rfl
    · unfold sampleDtype
      rw [hd]
      rfl
  simp [lowRes3, lowRes, this]

/-- C76: in a batch of lists the shape of a row is that of one of its items, and it is missing only if the row has no item at all. -/
theorem row_shapes (n : Nat) (cols : List (List (Option (List Nat)))) (i : Nat) (hi : i < n) :
    ∃ s, (rowwiseShapes n (cols.map Col.items))[i]? = some s ∧ (s = none ↔ ∀ l ∈ cols, l.getD i none = none) ∧
      (s ≠ none → ∃ l ∈ cols, l.getD i none = s) := by
  have key : ∀ (cols : List (List (Option (List Nat)))) (acc : List (Option (List Nat) × Bool)) (a : Option (List Nat)) (fl : Bool),
      acc[i]? = some (a, fl) → (fl = true ↔ a ≠ none) →
      ∃ s, (rowShapes (cols.map Col.items) acc)[i]? = some s ∧ (s = none ↔ a = none ∧ ∀ l ∈ cols, l.getD i none = none) ∧
        (s ≠ none → s = a ∨ ∃ l ∈ cols, l.getD i none = s) := by
    intro cols
    induction cols with
    | nil =>
      intro acc a fl ha _
      exact ⟨a, by simp [rowShapes, ha], by simp, fun _ => Or.inl rfl⟩
    | cons l cols ih =>
      intro acc a fl ha hfl
      have hget : (acc.zipIdx.map (setFound l))[i]? = some (setFound l ((a, fl), i)) := by
        rw [List.getElem?_map, List.getElem?_zipIdx, ha]; simp
      rw [List.map_cons, rowShapes]
      cases hl : l.getD i none with
      | some t =>
        have hset : setFound l ((a, fl), i) = (some t, true) := by simp only [setFound, hl]
        rw [hset] at hget
        split
        · refine ⟨some t, by rw [List.getElem?_map, hget]; rfl, ?_, fun _ => Or.inr ⟨l, by simp, hl⟩⟩
          simp only [reduceCtorEq, List.mem_cons, forall_eq_or_imp, hl, false_and, and_false]
        · obtain ⟨s, h1, h2, h3⟩ := ih _ (some t) true hget (by simp)
          refine ⟨s, h1, ?_, fun hs => ?_⟩
          · rw [h2]; simp only [reduceCtorEq, List.mem_cons, forall_eq_or_imp, hl, false_and, and_false]
          · rcases h3 hs with h | ⟨l', hl', h⟩
            · exact Or.inr ⟨l, by simp, by rw [hl, h]⟩
            · exact Or.inr ⟨l', by simp [hl'], h⟩
      | none =>
        have hset : setFound l ((a, fl), i) = (a, fl) := by simp only [setFound, hl]
        rw [hset] at hget
        split
        · next hall =>
          have : fl = true := by
            have := List.all_eq_true.1 hall (a, fl) (List.mem_of_getElem? hget)
            simpa using this
          have hne := hfl.1 this
          refine ⟨a, by rw [List.getElem?_map, hget]; rfl, ?_, fun _ => Or.inl rfl⟩
          simp [hne]
        · obtain ⟨s, h1, h2, h3⟩ := ih _ a fl hget hfl
          refine ⟨s, h1, ?_, fun hs => ?_⟩
          · rw [h2]; simp only [List.mem_cons, forall_eq_or_imp, hl, true_and]
          · rcases h3 hs with h | ⟨l', hl', h⟩
            · exact Or.inl h
            · exact Or.inr ⟨l', by simp [hl'], h⟩
  obtain ⟨s, h1, h2, h3⟩ := key cols (List.replicate n (none, false)) none false (by simp [hi]) (by simp)
  refine ⟨s, h1, by simpa using h2, fun hs => ?_⟩
  rcases h3 hs with h | h
  · exact absurd h hs
  · exact h

example : rowwiseShapes 2 [.items [some [4, 4], none], .items [none, some [2, 2]]] = [some [4, 4], some [2, 2]] := by decide +kernel

end Imgaug.Dropout
