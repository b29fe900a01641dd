import Verif.Proofs.AffineArgs
/-! Property C103: the arguments of `Affine`. -/
namespace Imgaug.AffineArgs
open Imgaug Imgaug.Params
variable {σ : Type}

/-- C103 (partial): the constructor accepts exactly the documented arguments: numbers, pairs, lists, parameters and dictionaries with at least one
key; scales not below 0.0001; integers for pixels; not both kinds of translation; known backends; strings as modes; orders from 0 to 5, for
the backend cv2 only 0, 1 and 3. Missing: the orders 2 and 4 for cv2, which are documented, see `order_not_mapped`. -/
theorem affine_accepts_partial (a : Args) (hi : ∀ v, a.order = .val v → IntNums v) : (init a).isSome = true ↔ a.Valid := by
  have cont : ∀ v, (continuous v).isSome = true ↔ NumOk .none true v := fun v => continuous_accepts v .none true true
  have disc : ∀ v, (discrete v).isSome = true ↔ NumOk .none false v := fun v => discrete_accepts v .none true true false
  have sc : ∀ v, (handleContinuous v (.interval (some (1 / 10000)) none) true true).isSome = true ↔
      NumOk (.interval (some (1 / 10000)) none) true v := fun v => continuous_accepts v _ true true
  have axis : ∀ (f : Val → Option Handled) (vr : VR) (fl : Bool) (d : Val) (b : Arg), (∀ v, (f v).isSome = true ↔ NumOk vr fl v) →
      (f d).isSome = true → b ≠ .none → ((perAxis f d b).isSome = true ↔ b.NumOk vr fl) := by
    intro f vr fl d b hf hd hb
    cases b with
    | none => exact absurd rfl hb
    | val v =>
      simp only [perAxis, Option.isSome_map, hf, Arg.NumOk]
      exact ⟨fun h => ⟨by simp, fun k w hw => by cases hw; exact h⟩, fun h => h.2 .x v rfl⟩
    | dict x y =>
      simp only [perAxis, Option.isSome_map]
      exact twoKeys_isSome f vr fl d x y hf hd
  have hs : ∀ b : Arg, b ≠ .none → ((shearArg b).isSome = true ↔ b.NumOk .none true) := by
    intro b hb
    rw [← axis continuous .none true (int 0) b cont rfl hb]
    cases b with
    | none => exact absurd rfl hb
    | val v =>
      rcases v with x | l | l
      · cases x <;> simp [shearArg, perAxis]
      · simp [shearArg, perAxis]
      · simp [shearArg, perAxis]
    | dict x y => simp [shearArg, perAxis]
  have none_ok : ∀ vr fl, Arg.NumOk vr fl .none := fun vr fl => ⟨by simp, fun k v h => by cases h⟩
  unfold init
  rw [build_isSome]
  have ho := order_isSome a.backend a.order hi
  have hc : (cvalArg a.cval).isSome = true ↔ ∀ v, a.cval = .val v → NumOk .none true v := by
    cases a.cval with
    | all => simp [cvalArg]
    | val v => simp [cvalArg, cont]
  have hm := mode_isSome a.mode
  by_cases hn : a.nothing = true
  · have hf : a.filled = { a with
      scale := .dict (some (floats (9 / 10) (11 / 10))) (some (floats (9 / 10) (11 / 10)))
      translatePercent := .dict (some (floats (-1 / 10) (1 / 10))) (some (floats (-1 / 10) (1 / 10)))
      rotate := some (ints (-15) 15)
      shear := .dict (some (ints (-10) 10)) (some (ints (-10) 10)) } := by simp [Args.filled, hn]
    simp only [Args.nothing, Bool.and_eq_true, beq_iff_eq] at hn
    obtain ⟨⟨⟨⟨h1, h2⟩, h3⟩, h4⟩, h5⟩ := hn
    rw [hf]
    simp only [h3]
    have e1 : (scaleArg (.dict (some (floats (9 / 10) (11 / 10))) (some (floats (9 / 10) (11 / 10))))).isSome = true := by decide +kernel
    have e2 : (translateArg .none (.dict (some (floats (-1 / 10) (1 / 10))) (some (floats (-1 / 10) (1 / 10))))).isSome = true := by
      decide +kernel
    have e3 : ((some (ints (-15) 15)).bind continuous).isSome = true := by decide +kernel
    have e4 : (shearArg (.dict (some (ints (-10) 10)) (some (ints (-10) 10)))).isSome = true := by decide +kernel
    simp only [e1, e2, e3, e4, and_true]
    rw [ho, hc, hm]
    constructor
    · rintro ⟨b1, b2, b3, b4⟩
      exact ⟨b1, by rw [h1]; exact none_ok _ _, by rw [h2]; exact none_ok _ _, by rw [h3]; exact none_ok _ _, Or.inl h2,
        by rw [h4]; simp, by rw [h5]; exact none_ok _ _, b3, b4, b2⟩
    · intro h
      exact ⟨h.backend, h.order, h.cval, h.mode⟩
  · have hf : a.filled = { a with
      scale := if a.scale = .none then .val (float 1) else a.scale
      rotate := some (a.rotate.getD (float 0))
      shear := if a.shear = .none then .val (float 0) else a.shear } := by simp [Args.filled, hn]
    rw [hf]
    simp only
    have e1 : (scaleArg (if a.scale = .none then .val (float 1) else a.scale)).isSome = true ↔
        a.scale.NumOk (.interval (some (1 / 10000)) none) true := by
      split_ifs with h1
      · rw [h1]
        exact ⟨fun _ => none_ok _ _, fun _ => by decide +kernel⟩
      · exact axis _ _ true (float 1) a.scale sc (by decide +kernel) h1
    have e2 : (translateArg a.translatePx a.translatePercent).isSome = true ↔
        a.translatePercent.NumOk .none true ∧ a.translatePx.NumOk .none false ∧
        (a.translatePercent = .none ∨ a.translatePx = .none) := by
      by_cases hp : a.translatePx = .none <;> by_cases hq : a.translatePercent = .none
      · rw [hp, hq]
        exact ⟨fun _ => ⟨none_ok _ _, none_ok _ _, Or.inl rfl⟩, fun _ => by decide +kernel⟩
      · rw [hp, translate_percent a.translatePercent hq, Option.isSome_map, axis _ _ true (int 0) _ cont rfl hq]
        exact ⟨fun h => ⟨h, none_ok _ _, Or.inr rfl⟩, fun h => h.1⟩
      · rw [hq, translate_px a.translatePx hp, Option.isSome_map, axis _ _ false (int 0) _ disc rfl hp]
        exact ⟨fun h => ⟨none_ok _ _, h, Or.inl rfl⟩, fun h => h.2.1⟩
      · rw [translate_both _ _ hp hq]
        simp [hp, hq]
    have e3 : ((some (a.rotate.getD (float 0))).bind continuous).isSome = true ↔ ∀ v, a.rotate = some v → NumOk .none true v := by
      simp only [Option.bind_some, cont]
      cases a.rotate with
      | none => simp only [Option.getD_none, reduceCtorEq, false_implies, implies_true, iff_true]; exact (cont _).1 rfl
      | some v => simp
    have e4 : (shearArg (if a.shear = .none then .val (float 0) else a.shear)).isSome = true ↔ a.shear.NumOk .none true := by
      split_ifs with h1
      · rw [h1]
        exact ⟨fun _ => none_ok _ _, fun _ => by decide +kernel⟩
      · exact hs a.shear h1
    rw [e1, e2, e3, e4, ho, hc, hm]
    constructor
    · rintro ⟨b1, b2, b3, b4, b5, ⟨b6, b7, b8⟩, b9, b10⟩
      exact ⟨b1, b5, b6, b7, b8, b9, b10, b3, b4, b2⟩
    · intro h
      exact ⟨h.backend, h.order, h.cval, h.mode, h.scale, ⟨h.percent, h.px, h.notBoth⟩, h.rotate, h.shear⟩

/-- C103 (partial): each image gets values that the arguments stand for: arguments that are left out are neutral, if any other one is given.
Missing: two values for the shear and one for `cval`, see `shear_not_two_values` and `cval_not_one_value`. -/
theorem affine_requested_partial (P : Values ℚ) (Q : Values String) (a : Args) (hn : a.nothing = false) (hf : a.Filled) (c : Conf)
    (h : init a = some c) (S : Sampler σ Handled ℚ) (hS : Ok (Supports P) S) (M : Sampler σ ModeDist String) (hM : Ok (ModeDist.Supports Q) M)
    (n : Nat) (g : σ) :
    (drawSamples S M c n g).length = n ∧ (∀ r ∈ drawSamples S M c n g, Requested P Q a r) ∧
    (c.percent = true ↔ a.translatePercent ≠ .none) := by
  obtain ⟨_, ho, hcv, hm, hs, ht, ⟨v, hv, hr⟩, hsh⟩ := build_some a.filled c h
  have hfil : a.filled = { a with
      scale := if a.scale = .none then .val (float 1) else a.scale
      rotate := some (a.rotate.getD (float 0))
      shear := if a.shear = .none then .val (float 0) else a.shear } := by simp [Args.filled, hn]
  rw [hfil] at ho hcv hm hs ht hv hsh
  simp only at ho hcv hm hs ht hv hsh
  have htr := translate_supports P a.translatePx a.translatePercent c.translate c.percent ht hf.px hf.percent hf.pxInts
  refine ⟨by simp [drawSamples], ?_, htr.1⟩
  intro r hr'
  simp only [drawSamples, List.mem_map, List.mem_range] at hr'
  obtain ⟨i, hi, rfl⟩ := hr'
  have hsc := axes_ok hS c.scale n g i hi
  have scx := scale_supports P a.scale c.scale hs hf.scale
  have hta := axes_ok hS c.translate n (drawAxes S c.scale n g).2 i hi
  have hshe : ∀ g', a.shear.Allows P 0 .x ((drawShear S c.shear n g').1.1.getD i 0) ∧
      (¬ a.shear.IsNumber → a.shear.Allows P 0 .y ((drawShear S c.shear n g').1.2.getD i 0)) ∧
      (a.shear.IsNumber → (drawShear S c.shear n g').1.2.getD i 0 = 0) :=
    fun g' => shear_filled hS a.shear c.shear hsh hf.shear n g' i hi
  refine ⟨scx .x _ hsc.1, scx .y _ hsc.2, htr.2 .x _ hta.1, htr.2 .y _ hta.2, ?_, ?_, (hshe _).1, (hshe _).2.1, (hshe _).2.2, rfl, ?_, ?_, ?_⟩
  · intro hp hnp
    rw [hp] at ht
    have hw := translate_whole P a.translatePx c.translate c.percent ht hf.px hnp
    obtain ⟨zx, hzx⟩ := hw .x _ hta.1
    obtain ⟨zy, hzy⟩ := hw .y _ hta.2
    exact ⟨zx, zy, hzx, hzy⟩
  · have hsup := sample_ok hS c.rotate n (drawAxes S c.translate n (drawAxes S c.scale n g).2).2 i hi 0
    cases hro : a.rotate with
    | none =>
      rw [hro] at hv
      cases hv
      have : c.rotate = .det ⟨false, 0⟩ := by
        have : continuous (float 0) = some (.det ⟨false, 0⟩) := rfl
        rw [Option.getD_none, this] at hr
        exact (Option.some.inj hr).symm
      rw [this] at hsup ⊢
      exact hsup
    | some w =>
      rw [hro] at hv
      cases hv
      exact continuous_supports P _ .none c.rotate _ hr (hf.rotate w hro) hsup
  · intro u hu
    exact cval_supports P a.cval c.cval hcv hf.cval u (hS.values _ _ _ u (row3_mem hS c.cval n _ i hi u hu))
  · exact mode_supports Q a.mode c.mode hm hf.mode _ (sample_ok hM c.mode n _ i hi "")
  · exact order_supports P a.backend a.order c.order (by have := (build_some a.filled c h).1; rw [hfil] at this; exact this) ho hf.order
      hf.orderInts _ (sample_ok hS c.order n _ i hi 0)

/-- The arguments of `Affine(scale={"x": (0.5, 2)}, translate_px=[-3, 4], shear=(-5, 5), order=[0, 1])`. -/
example : let a : Args := ⟨.dict (some (floats (1 / 2) 2)) none, .none, .val (.iter [.num ⟨true, -3⟩, .num ⟨true, 4⟩]), none, .val (ints (-5) 5),
      .val (.iter [.num ⟨true, 0⟩, .num ⟨true, 1⟩]), .all, .str "edge", .cv2⟩
    a.nothing = false ∧ a.Filled ∧ (init a).isSome = true := by
  refine ⟨by decide, ⟨?_, ?_, ?_, ?_, ?_, by simp, by simp, by simp, ?_, ?_⟩, by decide +kernel⟩
  · intro k v h; cases k <;> simp [Arg.on] at h; subst h; simp [Val.Filled, floats]
  · intro k v h; cases h
  · intro k v h; cases h; simp [Val.Filled]
  · intro v h; cases h
  · intro k v h; cases h; simp [Val.Filled, ints]
  · intro k v h n hn _
    cases h
    simp only [numbers, List.mem_cons, Atom.num.injEq, List.not_mem_nil, or_false] at hn
    rcases hn with rfl | rfl
    · exact ⟨-3, by simp⟩
    · exact ⟨4, by simp⟩
  · intro v h n hn _
    cases h
    simp only [numbers, List.mem_cons, Atom.num.injEq, List.not_mem_nil, or_false] at hn
    rcases hn with rfl | rfl
    · exact ⟨0, by simp⟩
    · exact ⟨1, by simp⟩

/-- There are samplers as assumed. -/
example : Ok (Supports (fun _ v => v = 0)) alternating ∧ Ok (ModeDist.Supports (fun _ s => s = "edge")) alternatingModes :=
  ⟨alternating_ok, alternatingModes_ok⟩

/-- C103: without any argument, images are scaled by 0.9 to 1.1, translated by up to a tenth of their size, rotated by up to 15 degrees and
sheared by up to 10 degrees. -/
theorem affine_defaults (P : Values ℚ) (Q : Values String) (a : Args) (hn : a.nothing = true) (c : Conf)
    (h : init a = some c) (S : Sampler σ Handled ℚ) (hS : Ok (Supports P) S) (M : Sampler σ ModeDist String) (_hM : Ok (ModeDist.Supports Q) M)
    (n : Nat) (g : σ) :
    c.percent = true ∧ ∀ r ∈ drawSamples S M c n g, 9 / 10 ≤ r.scaleX ∧ r.scaleX ≤ 11 / 10 ∧ 9 / 10 ≤ r.scaleY ∧ r.scaleY ≤ 11 / 10 ∧
      |r.translateX| ≤ 1 / 10 ∧ |r.translateY| ≤ 1 / 10 ∧ |r.rotate| ≤ 15 ∧ |r.shearX| ≤ 10 ∧ |r.shearY| ≤ 10 := by
  obtain ⟨_, _, _, _, hs, ht, ⟨v, hv, hr⟩, hsh⟩ := build_some a.filled c h
  have hfil : a.filled = { a with
      scale := .dict (some (floats (9 / 10) (11 / 10))) (some (floats (9 / 10) (11 / 10)))
      translatePercent := .dict (some (floats (-1 / 10) (1 / 10))) (some (floats (-1 / 10) (1 / 10)))
      rotate := some (ints (-15) 15)
      shear := .dict (some (ints (-10) 10)) (some (ints (-10) 10)) } := by simp [Args.filled, hn]
  simp only [Args.nothing, Bool.and_eq_true, beq_iff_eq] at hn
  rw [hfil] at hs ht hv hsh
  simp only [hn.1.1.2] at hs ht hv hsh
  cases hv
  have es : c.scale = .each (.uniform ⟨false, 9 / 10⟩ ⟨false, 11 / 10⟩) (.uniform ⟨false, 9 / 10⟩ ⟨false, 11 / 10⟩) :=
    Option.some.inj (hs.symm.trans (by decide +kernel))
  have et : (c.translate, c.percent) = (.each (.uniform ⟨false, -1 / 10⟩ ⟨false, 1 / 10⟩) (.uniform ⟨false, -1 / 10⟩ ⟨false, 1 / 10⟩), true) :=
    Option.some.inj (ht.symm.trans (by decide +kernel))
  have er : c.rotate = .uniform ⟨true, (-15 : Int)⟩ ⟨true, (15 : Int)⟩ := Option.some.inj (hr.symm.trans (by decide +kernel))
  have esh : c.shear = .each (.uniform ⟨true, (-10 : Int)⟩ ⟨true, (10 : Int)⟩) (.uniform ⟨true, (-10 : Int)⟩ ⟨true, (10 : Int)⟩) :=
    Option.some.inj (hsh.symm.trans (by decide +kernel))
  rw [Prod.mk.injEq] at et
  refine ⟨et.2, ?_⟩
  intro r hr'
  simp only [drawSamples, List.mem_map, List.mem_range] at hr'
  obtain ⟨i, hi, rfl⟩ := hr'
  have h1 := axes_ok hS c.scale n g i hi
  have h2 := axes_ok hS c.translate n (drawAxes S c.scale n g).2 i hi
  have h3 := sample_ok hS c.rotate n (drawAxes S c.translate n (drawAxes S c.scale n g).2).2 i hi 0
  have h4x := fun g' => sample_ok hS (.uniform ⟨true, (-10 : Int)⟩ ⟨true, (10 : Int)⟩) n g' i hi 0
  rw [es] at h1
  rw [et.1] at h2
  rw [er] at h3
  rw [esh, er, et.1, es]
  rw [et.1, es] at h3
  rw [es] at h2
  have b1 := fun (u : ℚ) h => uniform_bounds (P := P) (i := false) (j := false) (a := 9 / 10) (b := 11 / 10) (u := u) h (by norm_num)
  have b2 := fun (u : ℚ) h => uniform_bounds (P := P) (i := false) (j := false) (a := -1 / 10) (b := 1 / 10) (u := u) h (by norm_num)
  have b3 := uniform_bounds h3 (by norm_num)
  have b4 := fun g' => uniform_bounds (h4x g') (by norm_num)
  have tenth : ∀ q : ℚ, -1 / 10 ≤ q ∧ q ≤ 1 / 10 → |q| ≤ 1 / 10 := fun q h => abs_le.2 ⟨by linarith [h.1], h.2⟩
  have ints : ∀ (q : ℚ) (z : Int), ((-z : Int) : ℚ) ≤ q ∧ q ≤ ((z : Int) : ℚ) → |q| ≤ (z : ℚ) := fun q z h => abs_le.2 ⟨by simpa using h.1, h.2⟩
  exact ⟨(b1 _ h1.1).1, (b1 _ h1.1).2, (b1 _ h1.2).1, (b1 _ h1.2).2, tenth _ (b2 _ h2.1), tenth _ (b2 _ h2.2), ints _ 15 b3,
    ints _ 10 (b4 _), ints _ 10 (b4 _)⟩

example : noArgs.nothing = true ∧ (init noArgs).isSome = true := by decide +kernel

/-- C103: both axes get the same scale and the same translation unless a dictionary is given, and the same shear unless a number or a
dictionary is given. -/
theorem affine_axes_shared (a : Args) (hn : a.nothing = false) (c : Conf) (h : init a = some c) (S : Sampler σ Handled ℚ)
    (M : Sampler σ ModeDist String) (n : Nat) (g : σ) (r : Row) (hr : r ∈ drawSamples S M c n g) :
    (¬ a.scale.IsDict → r.scaleX = r.scaleY) ∧
    (¬ a.translatePercent.IsDict → ¬ a.translatePx.IsDict → r.translateX = r.translateY) ∧
    (¬ a.shear.IsDict → ¬ a.shear.IsNumber → a.shear ≠ .none → r.shearX = r.shearY) := by
  obtain ⟨_, _, _, _, hs, ht, _, hsh⟩ := build_some a.filled c h
  have hfil : a.filled = { a with
      scale := if a.scale = .none then .val (float 1) else a.scale
      rotate := some (a.rotate.getD (float 0))
      shear := if a.shear = .none then .val (float 0) else a.shear } := by simp [Args.filled, hn]
  rw [hfil] at hs ht hsh
  simp only at hs ht hsh
  simp only [drawSamples, List.mem_map, List.mem_range] at hr
  obtain ⟨i, hi, rfl⟩ := hr
  have shared : ∀ (f : Val → Option Handled) (d : Val) (b : Arg) (ax : Axes), perAxis f d b = some ax → ¬ b.IsDict → ∃ q, ax = .same q := by
    intro f d b ax hb hd
    cases b with
    | none => cases hb
    | val v => obtain ⟨q, _, rfl⟩ := Option.map_eq_some_iff.1 hb; exact ⟨q, rfl⟩
    | dict x y => exact absurd ⟨x, y, rfl⟩ hd
  refine ⟨fun hd => ?_, fun hp hq => ?_, fun hd hm h0 => ?_⟩
  · obtain ⟨q, hq⟩ := shared _ _ _ _ hs (by split_ifs with h0 <;> [(rintro ⟨x, y, hxy⟩; cases hxy); exact hd])
    simp [hq, drawAxes]
  · have : ∃ q, c.translate = .same q := by
      by_cases h1 : a.translatePx = .none <;> by_cases h2 : a.translatePercent = .none
      · rw [h1, h2] at ht
        obtain ⟨ax, hax, hh⟩ := Option.map_eq_some_iff.1 (show (perAxis discrete (int 0) (.val (int 0))).map (fun a => (a, false)) = _ from ht)
        rw [show ax = c.translate from congrArg Prod.fst hh] at hax
        exact shared _ _ _ _ hax (by rintro ⟨x, y, hxy⟩; cases hxy)
      · rw [h1, translate_percent _ h2] at ht
        obtain ⟨ax, hax, hh⟩ := Option.map_eq_some_iff.1 ht
        rw [show ax = c.translate from congrArg Prod.fst hh] at hax
        exact shared _ _ _ _ hax hp
      · rw [h2, translate_px _ h1] at ht
        obtain ⟨ax, hax, hh⟩ := Option.map_eq_some_iff.1 ht
        rw [show ax = c.translate from congrArg Prod.fst hh] at hax
        exact shared _ _ _ _ hax hq
      · rw [translate_both _ _ h1 h2] at ht
        cases ht
    obtain ⟨q, hq⟩ := this
    simp [hq, drawAxes]
  · rw [if_neg h0] at hsh
    have : ∃ q, c.shear = .both q := by
      cases hb : a.shear with
      | none => exact absurd hb h0
      | dict x y => exact absurd ⟨x, y, hb⟩ hd
      | val v =>
        rw [hb] at hsh
        rw [shearArg_both v (by rintro ⟨m, hm'⟩; exact hm ⟨m, by rw [hb, hm']⟩)] at hsh
        obtain ⟨q, _, hq⟩ := Option.map_eq_some_iff.1 hsh
        exact ⟨q, hq.symm⟩
    obtain ⟨q, hq⟩ := this
    simp [hq, drawShear]

/-- C103 is false for `shear`: the documentation promises two values per image for a tuple, a list or a parameter, of which one is the shear
along the x axis and one along the y axis, but both axes always get the same value. For a dictionary the values do differ. -/
theorem shear_not_two_values :
    let a : Args := { noArgs with shear := .val (ints (-5) 5) }
    let b : Args := { noArgs with shear := .dict (some (ints (-5) 5)) (some (ints (-5) 5)) }
    (∀ (c : Conf), init a = some c → ∀ (S : Sampler σ Handled ℚ) (M : Sampler σ ModeDist String) (n : Nat) (g : σ),
      ∀ r ∈ drawSamples S M c n g, r.shearX = r.shearY) ∧
    ∃ c, init b = some c ∧ ∃ r ∈ drawSamples alternating alternatingModes c 1 0, r.shearX ≠ r.shearY := by
  refine ⟨fun c hc S M n g r hr => ?_, ?_⟩
  · refine (affine_axes_shared _ (by decide) c hc S M n g r hr).2.2 ?_ ?_ (by simp)
    · rintro ⟨x, y, h⟩; cases h
    · rintro ⟨m, h⟩; cases h
  · exact ⟨(init { noArgs with shear := .dict (some (ints (-5) 5)) (some (ints (-5) 5)) }).get (by decide +kernel), (Option.some_get _).symm,
      by decide +kernel⟩

/-- C103 is false for `order` with the backend cv2: the documentation maps the orders 2 and 4 to bicubic interpolation, but the constructor
rejects them. -/
theorem order_not_mapped : (∀ a : Args, a.backend = .cv2 → a.order = .val (int 2) ∨ a.order = .val (int 4) → init a = none) ∧
    (init { noArgs with backend := .cv2, order := .val (int 3) }).isSome = true := by
  refine ⟨fun a hb ho => ?_, by decide +kernel⟩
  have hi : ∀ v, a.order = .val v → IntNums v := by
    intro v hv m hm _
    rcases ho with ho | ho <;> rw [ho] at hv <;> cases hv <;> simp only [numbers, int, List.mem_cons, Atom.num.injEq, List.not_mem_nil, or_false] at hm <;>
      subst hm
    · exact ⟨2, rfl⟩
    · exact ⟨4, rfl⟩
  by_contra hne
  have hv := (affine_accepts_partial a hi).1 (by cases h : init a with | none => exact absurd h hne | some c => rfl)
  rcases ho with ho | ho
  · rcases hv.order _ ho with ⟨i, h⟩ | ⟨z, h, hz⟩ | ⟨l, h, _⟩
    · cases h
    · simp only [int, Val.atom.injEq, Atom.num.injEq, Num.mk.injEq, true_and, Int.cast_inj] at h
      subst h
      rcases hz.2.2 hb with h | h | h <;> omega
    · cases h
  · rcases hv.order _ ho with ⟨i, h⟩ | ⟨z, h, hz⟩ | ⟨l, h, _⟩
    · cases h
    · simp only [int, Val.atom.injEq, Atom.num.injEq, Num.mk.injEq, true_and, Int.cast_inj] at h
      subst h
      rcases hz.2.2 hb with h | h | h <;> omega
    · cases h

/-- C103 is false for `cval`: the documentation promises one value per image for a list, but three values are drawn, one for each channel. -/
theorem cval_not_one_value :
    ∃ c, init { noArgs with cval := .val (.iter [.num ⟨true, 0⟩, .num ⟨true, 255⟩]) } = some c ∧
      ∃ r ∈ drawSamples alternating alternatingModes c 1 0, ∃ x ∈ r.cval, ∃ y ∈ r.cval, x ≠ y :=
  ⟨(init { noArgs with cval := .val (.iter [.num ⟨true, 0⟩, .num ⟨true, 255⟩]) }).get (by decide +kernel), (Option.some_get _).symm,
    by decide +kernel⟩

/-- C103: if only `translate_px` is given, without stochastic parameters, then coordinates are moved by whole numbers of pixels that the
argument stands for. -/
theorem affine_only_px (P : Values ℚ) (Q : Values String) (a : Args) (h1 : a.scale = .none) (h2 : a.translatePercent = .none)
    (h3 : a.rotate = none) (h4 : a.shear = .none) (h5 : a.translatePx ≠ .none) (h6 : ∀ k i, a.translatePx.on k ≠ some (.atom (.par i)))
    (hf : a.Filled) (c : Conf) (h : init a = some c) (S : Sampler σ Handled ℚ) (hS : Ok (Supports P) S) (M : Sampler σ ModeDist String)
    (hM : Ok (ModeDist.Supports Q) M) (n : Nat) (g : σ) (r : Row) (hr : r ∈ drawSamples S M c n g) (img : Affine.Shape) (hz : ¬ img.hasZero) :
    ∃ x y : Int, a.translatePx.Allows P 0 .x x ∧ a.translatePx.Allows P 0 .y y ∧
      ∀ v : ℝ × ℝ, (Affine.toMatrix (toSamples c.percent r) img img false 0).1.apply v = (v.1 + x, v.2 + y) := by
  have hn : a.nothing = false := by simp [Args.nothing, h5]
  obtain ⟨_, hreq, hpc⟩ := affine_requested_partial P Q a hn hf c h S hS M hM n g
  have hq := hreq r hr
  obtain ⟨x, y, hx, hy⟩ := hq.whole h2 h6
  have hp : c.percent = false := by
    rw [h2] at hpc
    simpa using hpc
  have tx := hq.translateX
  have ty := hq.translateY
  rw [if_pos h2] at tx ty
  rw [hx] at tx
  rw [hy] at ty
  refine ⟨x, y, tx, ty, fun v => ?_⟩
  have sx := hq.scaleX
  have sy := hq.scaleY
  have ro := hq.rotate
  have shx := hq.shearX
  have shy := hq.shearY (by rw [h4]; rintro ⟨m, hm⟩; cases hm)
  rw [h1] at sx sy
  rw [h3] at ro
  rw [h4] at shx shy
  simp only [Arg.Allows, Arg.on, RotateAllowed] at sx sy ro shx shy
  have hs : toSamples c.percent r = ⟨1, 1, (x : ℝ), (y : ℝ), false, 0, 0, 0⟩ := by
    simp only [toSamples, sx, sy, ro, shx, shy, hx, hy, hp]
    norm_num
  rw [hs, Affine.affine_documented_partial _ img hz]
  · simp only [Affine.transform, Affine.linear, Affine.sheared, Affine.scaled, Affine.rotated, Affine.shift]
    refine Prod.ext ?_ ?_ <;> simp <;> ring
  · refine ⟨Or.inl ⟨rfl, rfl⟩, by norm_num, by norm_num, ?_⟩
    simp only [Affine.shift]
    intro hc
    have : (x : ℝ) * 10000 = 1 := by
      simp at hc
      rw [hc]; norm_num
    have : x * 10000 = 1 := by exact_mod_cast this
    omega

example : let a : Args := { noArgs with translatePx := .dict (some (int 7)) none }
    a.scale = .none ∧ a.translatePx ≠ .none ∧ (∀ k i, a.translatePx.on k ≠ some (.atom (.par i))) ∧ (init a).isSome = true := by
  refine ⟨rfl, by simp, ?_, by decide +kernel⟩
  intro k i h
  cases k <;> cases h

/-- C103 (partial): the drawn values have their documented meaning: coordinates are rotated by the angle in degrees, scaled, sheared by the angles in degrees and
translated, as C71 says, by the values of the row. Missing are values at the thresholds below which a part of the matrix is left out (`Regular`). -/
theorem affine_row_meaning_partial (percent : Bool) (r : Row) (img : Affine.Shape) (hz : ¬ img.hasZero)
    (hr : (⟨r.scaleX, r.scaleY, r.translateX, r.translateY, percent, Radians r.rotate, Radians r.shearX, Radians r.shearY⟩ : Affine.Samples).Regular img)
    (v : ℝ × ℝ) :
    (Affine.toMatrix (toSamples percent r) img img false 0).1.apply v =
      Affine.transform ⟨r.scaleX, r.scaleY, r.translateX, r.translateY, percent, Radians r.rotate, Radians r.shearX, Radians r.shearY⟩ img v := by
  have e : toSamples percent r = ⟨r.scaleX, r.scaleY, r.translateX, r.translateY, percent, Radians r.rotate, Radians r.shearX, Radians r.shearY⟩ := by
    simp only [toSamples, Radians]
    push_cast
    rfl
  rw [e, Affine.affine_documented_partial _ img hz hr]

example : (⟨((2 : ℚ) : ℝ), ((3 : ℚ) : ℝ), ((5 : ℚ) : ℝ), ((7 : ℚ) : ℝ), false, Radians 90, Radians 45, Radians (-45)⟩ : Affine.Samples).Regular
    ⟨10, 20, some 3⟩ ∧ ¬ (⟨10, 20, some 3⟩ : Affine.Shape).hasZero := by
  refine ⟨⟨Or.inr (Or.inl ?_), ?_, ?_, ?_⟩, ?_⟩ <;> norm_num [Affine.shift, Affine.Shape.hasZero, Radians, pyPi]

end Imgaug.AffineArgs
