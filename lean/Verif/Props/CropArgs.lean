import Verif.Proofs.CropArgs
/-! C100: what the arguments `px`, `percent` and `sample_independently` of `CropAndPad`, `Pad` and `Crop` make happen. -/
namespace Imgaug.CropArgs
open Imgaug Imgaug.Size

/-- C100: an image is padded and cropped by amounts that the arguments of `CropAndPad` ask for: side by side in the order top, right,
bottom, left, positive amounts by padding, negative ones by cropping so that a row and a column remain. With neither argument given the
amounts are between -10 and 10 percent. -/
theorem amounts_requested {σ : Type} (P : Values) (S : Sampler σ) (hS : Ok P S) (independently : Bool) (px percent : Arg) (ms : Mode × Sides)
    (hm : cropAndPad px percent = some ms) (shapes : List Shape) (g : σ) (rows : List (Trbl × Trbl))
    (h : drawSamples S independently ms shapes g = some rows) :
    rows.length = shapes.length ∧ ∀ (i : Nat) s c p, shapes[i]? = some s → rows[i]? = some (c, p) → ∃ t,
      Requested P (interval (-1 / 10) (1 / 10)) px percent s t ∧ Fits s t c p :=
  requested hS independently _ px percent ms hm shapes g rows h

/-- C100: the same for `Pad`, with 0 to 10 percent by default. -/
theorem pad_requested {σ : Type} (P : Values) (S : Sampler σ) (hS : Ok P S) (independently : Bool) (px percent : Arg) (ms : Mode × Sides)
    (hm : pad px percent = some ms) (shapes : List Shape) (g : σ) (rows : List (Trbl × Trbl))
    (h : drawSamples S independently ms shapes g = some rows) :
    rows.length = shapes.length ∧ ∀ (i : Nat) s c p, shapes[i]? = some s → rows[i]? = some (c, p) → ∃ t,
      Requested P (interval 0 (1 / 10)) px percent s t ∧ Fits s t c p := by
  simp only [pad, Option.bind_eq_some_iff] at hm
  obtain ⟨px', hx, pc', hp, hm⟩ := hm
  obtain ⟨h1, h2⟩ := requested hS independently _ px' pc' ms hm shapes g rows h
  refine ⟨h1, fun i s c p hs hr => ?_⟩
  obtain ⟨t, ht, hf⟩ := h2 i s c p hs hr
  have := requested_scaled (P := P) (f := validate) (m := 1) (Or.inl rfl) (by exact_mod_cast validate_scales)
    (default := interval 0 (1 / 10)) (by simp [interval, Arg.over, Entry.over, validate]) hx hp
    (by simp [Arg.Plain, interval]) ht
  simp only [one_mul] at this
  exact ⟨t, this.1, hf⟩

/-- C100: `Pad` never crops, as long as the parameters passed to it do not yield negative values. -/
theorem pad_only {σ : Type} (P : Values) (S : Sampler σ) (hS : Ok P S) (independently : Bool) (px percent : Arg) (ms : Mode × Sides)
    (hm : pad px percent = some ms) (hpx : px.Plain) (hpc : percent.Plain) (hP : ∀ i u, P i u → 0 ≤ u)
    (shapes : List Shape) (g : σ) (rows : List (Trbl × Trbl)) (h : drawSamples S independently ms shapes g = some rows) :
    ∀ r ∈ rows, r.1 = ⟨0, 0, 0, 0⟩ := by
  simp only [pad, Option.bind_eq_some_iff] at hm
  obtain ⟨px', hx, pc', hp, hm⟩ := hm
  obtain ⟨h1, h2⟩ := requested hS independently _ px' pc' ms hm shapes g rows h
  intro r hr
  obtain ⟨i, hi', hr⟩ := List.mem_iff_getElem.mp hr
  obtain ⟨c, p⟩ := r
  have hs : shapes[i]? = some (shapes[i]'(by omega)) := List.getElem?_eq_getElem _
  obtain ⟨t, ht, hf⟩ := h2 i _ c p hs (by rw [List.getElem?_eq_getElem hi', hr])
  have := requested_scaled (P := P) (f := validate) (m := 1) (Or.inl rfl) (by exact_mod_cast validate_scales)
    (default := interval 0 (1 / 10)) (by simp [interval, Arg.over, Entry.over, validate]) hx hp
    (by simp [Arg.Plain, interval]) ht
  simp only [one_mul] at this
  obtain ⟨t0, t1, t2, t3⟩ := this.2 hP hpx hpc
  have e0 := hf.top
  have e1 := hf.right
  have e2 := hf.bottom
  have e3 := hf.left
  obtain ⟨c0, c1, c2, c3⟩ := c
  simp only [Trbl.mk.injEq] at *
  omega

/-- C100: `Crop` crops by the amounts that its arguments ask for, with 0 to 10 percent by default. -/
theorem crop_requested {σ : Type} (P : Values) (S : Sampler σ) (hS : Ok P S) (independently : Bool) (px percent : Arg) (ms : Mode × Sides)
    (hm : crop px percent = some ms) (shapes : List Shape) (g : σ) (rows : List (Trbl × Trbl))
    (h : drawSamples S independently ms shapes g = some rows) :
    rows.length = shapes.length ∧ ∀ (i : Nat) s c p, shapes[i]? = some s → rows[i]? = some (c, p) → ∃ u,
      Requested P (interval 0 (1 / 10)) px percent s u ∧ Fits s (negative u) c p := by
  simp only [crop, Option.bind_eq_some_iff] at hm
  obtain ⟨px', hx, pc', hp, hm⟩ := hm
  obtain ⟨h1, h2⟩ := requested hS independently _ px' pc' ms hm shapes g rows h
  refine ⟨h1, fun i s c p hs hr => ?_⟩
  obtain ⟨t, ht, hf⟩ := h2 i s c p hs hr
  have := requested_scaled (P := P) (f := negate) (m := -1) (Or.inr rfl) (by exact_mod_cast negate_scales)
    (default := interval 0 (1 / 10)) (by simp [interval, Arg.over, Entry.over, negate]) hx hp
    (by simp [Arg.Plain, interval]) ht
  refine ⟨_, this.1, ?_⟩
  have e : negative ⟨-1 * t.top, -1 * t.right, -1 * t.bottom, -1 * t.left⟩ = t := by simp [negative]
  rw [e]
  exact hf

/-- C100: `Crop` never pads, as long as the parameters passed to it do not yield negative values. -/
theorem crop_only {σ : Type} (P : Values) (S : Sampler σ) (hS : Ok P S) (independently : Bool) (px percent : Arg) (ms : Mode × Sides)
    (hm : crop px percent = some ms) (hpx : px.Plain) (hpc : percent.Plain) (hP : ∀ i u, P i u → 0 ≤ u)
    (shapes : List Shape) (g : σ) (rows : List (Trbl × Trbl)) (h : drawSamples S independently ms shapes g = some rows) :
    ∀ r ∈ rows, r.2 = ⟨0, 0, 0, 0⟩ := by
  simp only [crop, Option.bind_eq_some_iff] at hm
  obtain ⟨px', hx, pc', hp, hm⟩ := hm
  obtain ⟨h1, h2⟩ := requested hS independently _ px' pc' ms hm shapes g rows h
  intro r hr
  obtain ⟨i, hi', hr⟩ := List.mem_iff_getElem.mp hr
  obtain ⟨c, p⟩ := r
  have hs : shapes[i]? = some (shapes[i]'(by omega)) := List.getElem?_eq_getElem _
  obtain ⟨t, ht, hf⟩ := h2 i _ c p hs (by rw [List.getElem?_eq_getElem hi', hr])
  have := requested_scaled (P := P) (f := negate) (m := -1) (Or.inr rfl) (by exact_mod_cast negate_scales)
    (default := interval 0 (1 / 10)) (by simp [interval, Arg.over, Entry.over, negate]) hx hp
    (by simp [Arg.Plain, interval]) ht
  obtain ⟨t0, t1, t2, t3⟩ := this.2 hP hpx hpc
  rw [hf.padded]
  simp only [Trbl.mk.injEq]
  omega

/-- C100: the amounts of all images can be drawn, unless a parameter for `px` yields a value that is not an integer. -/
theorem always_drawn {σ : Type} (P : Values) (S : Sampler σ) (hS : Ok P S) (independently : Bool) (px percent : Arg) (ms : Mode × Sides)
    (hm : cropAndPad px percent = some ms ∨ pad px percent = some ms ∨ crop px percent = some ms)
    (hP : px = .none ∨ ∀ i u, P i u → ∃ z : Int, u = z) (shapes : List Shape) (g : σ) :
    drawSamples S independently ms shapes g ≠ none := by
  rcases hm with hm | hm | hm
  · exact drawSamples_ne hS independently _ px percent ms hm hP shapes g
  · simp only [pad, Option.bind_eq_some_iff] at hm
    obtain ⟨px', hx, pc', hp, hm⟩ := hm
    exact drawSamples_ne hS independently _ px' pc' ms hm (hP.imp_left (over_none_iff hx).mpr) shapes g
  · simp only [crop, Option.bind_eq_some_iff] at hm
    obtain ⟨px', hx, pc', hp, hm⟩ := hm
    exact drawSamples_ne hS independently _ px' pc' ms hm (hP.imp_left (over_none_iff hx).mpr) shapes g

/-- C100: `px` and `percent` cannot both be given. -/
theorem not_both (px percent : Arg) (hx : px ≠ .none) (hp : percent ≠ .none) :
    cropAndPad px percent = none ∧ pad px percent = none ∧ crop px percent = none := by
  have key : ∀ d x y, x ≠ Arg.none → y ≠ Arg.none → modeAndSides d x y = none := by
    intro d x y hx hy
    cases x <;> cases y <;> simp_all [modeAndSides]
  refine ⟨key _ _ _ hx hp, ?_, ?_⟩
  · by_contra hne
    obtain ⟨ms, hm⟩ := Option.ne_none_iff_exists'.mp hne
    simp only [pad, Option.bind_eq_some_iff] at hm
    obtain ⟨px', h1, pc', h2, hm⟩ := hm
    rw [key _ _ _ (fun e => hx ((over_none_iff h1).mp e)) (fun e => hp ((over_none_iff h2).mp e))] at hm
    simp at hm
  · by_contra hne
    obtain ⟨ms, hm⟩ := Option.ne_none_iff_exists'.mp hne
    simp only [crop, Option.bind_eq_some_iff] at hm
    obtain ⟨px', h1, pc', h2, hm⟩ := hm
    rw [key _ _ _ (fun e => hx ((over_none_iff h1).mp e)) (fun e => hp ((over_none_iff h2).mp e))] at hm
    simp at hm

/-- C100: for `px` exactly the documented values are accepted: by `CropAndPad` all of them, by `Pad` and `Crop` those without negative
numbers. -/
theorem px_accepted (px : Arg) (h : px ≠ .none) :
    (cropAndPad px .none ≠ none ↔ px.PxOk) ∧ (pad px .none ≠ none ↔ px.PxOk ∧ px.Nonneg) ∧ (crop px .none ≠ none ↔ px.PxOk ∧ px.Nonneg) :=
  ⟨modeAndSides_px _ px h, scaled_px validate_keeps _ px h, scaled_px negate_keeps _ px h⟩

/-- C100 (partial): for `percent` the documented values are accepted by `CropAndPad`. Missing: other values are refused. -/
theorem percent_accepted_partial (percent : Arg) (h : percent.PercentOk) : cropAndPad .none percent ≠ none :=
  modeAndSides_percent _ percent (by rintro rfl; exact h) h

/-- C100 is false for numbers within a tuple of four: the number -3, refused by itself, is accepted there. -/
theorem percent_unchecked :
    cropAndPad .none (.atom (.int (-3))) = none ∧
    cropAndPad .none (.tuple [.atom (.int (-3)), .atom (.int 0), .atom (.int 0), .atom (.int 0)]) ≠ none := by
  constructor
  · simp [cropAndPad, modeAndSides, percentArg, fracOf, numOf]
  · simp [cropAndPad, modeAndSides, percentArg, four, percentParam, numOf]

/-- C100 (partial): with `sample_independently=False`, and a number or a pair of numbers for `px`, all sides of an image get the same
amount. Missing: parameters, see `parameters_differ`. -/
theorem same_px_partial {σ : Type} (P : Values) (S : Sampler σ) (hS : Ok P S) (px : Arg)
    (hx : (∃ z, px = .atom (.int z)) ∨ ∃ a b, px = .tuple [a, b]) (ms : Mode × Sides)
    (hm : cropAndPad px .none = some ms) (shapes : List Shape) (g : σ) (rows : List (Trbl × Trbl))
    (h : drawSamples S false ms shapes g = some rows) :
    ∀ (i : Nat) s c p, shapes[i]? = some s → rows[i]? = some (c, p) → ∃ a : Int, px.Allows P 0 a ∧ Fits s ⟨a, a, a, a⟩ c p := by
  intro i s c p hs hr
  have : ∃ sides, pxArg px = some sides ∧ ms = (.px, sides) := by
    rcases hx with ⟨z, rfl⟩ | ⟨a, b, rfl⟩ <;> simp only [cropAndPad, modeAndSides, Option.map_eq_some_iff] at hm <;>
      (obtain ⟨sides, hsd, e⟩ := hm; exact ⟨sides, hsd, e.symm⟩)
  obtain ⟨sides, hsd, rfl⟩ := this
  obtain ⟨d, rfl⟩ := px_all hx hsd
  obtain ⟨f, t, hf, ⟨f0, -⟩, ht, rfl, rfl⟩ := (drawn hS false _ shapes g rows h).2 i s c p hs hr
  obtain ⟨v, rfl⟩ := fours_all d _ g i f hf
  simp only [amounts, Option.bind_eq_some_iff, Option.map_eq_some_iff] at ht
  obtain ⟨t0, e0, t1, e1, t2, e2, t3, e3, rfl⟩ := ht
  rw [e0, Option.some.injEq] at e1 e2 e3
  subst e1 e2 e3
  refine ⟨t0, ?_, fits _ _⟩
  rw [← asInt_some e0]
  exact pxArg_allows hsd 0 (by omega) f0

/-- C100 (partial): the same for `percent`: all sides get the same fraction. Missing: parameters. -/
theorem same_percent_partial {σ : Type} (P : Values) (S : Sampler σ) (hS : Ok P S) (percent : Arg)
    (hx : (∃ q a, percent = .atom a ∧ a.Is q) ∨ ∃ a b, percent = .tuple [a, b]) (ms : Mode × Sides)
    (hm : cropAndPad .none percent = some ms) (shapes : List Shape) (g : σ) (rows : List (Trbl × Trbl))
    (h : drawSamples S false ms shapes g = some rows) :
    ∀ (i : Nat) s c p, shapes[i]? = some s → rows[i]? = some (c, p) → ∃ q t, percent.Allows P 0 q ∧
      |(t.top : ℚ) - s.h * q| ≤ 1 / 2 ∧ t.bottom = t.top ∧ |(t.left : ℚ) - s.w * q| ≤ 1 / 2 ∧ t.right = t.left ∧ Fits s t c p := by
  intro i s c p hs hr
  have : ∃ sides, percentArg percent = some sides ∧ ms = (.percent, sides) := by
    rcases hx with ⟨z, _, rfl, -⟩ | ⟨a, b, rfl⟩ <;> simp only [cropAndPad, modeAndSides, Option.map_eq_some_iff] at hm <;>
      (obtain ⟨sides, hsd, e⟩ := hm; exact ⟨sides, hsd, e.symm⟩)
  obtain ⟨sides, hsd, rfl⟩ := this
  obtain ⟨d, rfl⟩ := percent_all hx hsd
  obtain ⟨f, t, hf, ⟨f0, -⟩, ht, rfl, rfl⟩ := (drawn hS false _ shapes g rows h).2 i s c p hs hr
  obtain ⟨v, rfl⟩ := fours_all d _ g i f hf
  simp only [amounts, Option.some.injEq] at ht
  subst ht
  refine ⟨v, percentToPx s v v v v, percentArg_allows hsd 0 (by omega) f0, ?_, ?_, ?_, ?_, fits _ _⟩
  · unfold percentToPx; exact Imgaug.Props.npRound_dist _
  · unfold percentToPx; rfl
  · unfold percentToPx; exact Imgaug.Props.npRound_dist _
  · unfold percentToPx; rfl

/-- C100: with `sample_independently=True` and a pair of integers for `px`, every side of every image gets its own value. -/
theorem own_values {σ : Type} (P : Values) (S : Sampler σ) (hS : Ok P S) (a b : Int) (ms : Mode × Sides)
    (hm : cropAndPad (.tuple [.atom (.int a), .atom (.int b)]) .none = some ms) (shapes : List Shape) (g : σ) (rows : List (Trbl × Trbl))
    (h : drawSamples S true ms shapes g = some rows) :
    ∃ v : List ℚ, v = (S (.discrete a b) (shapes.length * 4) g).1 ∧
      ∀ (i : Nat) s c p, shapes[i]? = some s → rows[i]? = some (c, p) → ∃ t, v[4 * i]? = some (t.top : ℚ) ∧ v[4 * i + 1]? = some (t.right : ℚ) ∧
        v[4 * i + 2]? = some (t.bottom : ℚ) ∧ v[4 * i + 3]? = some (t.left : ℚ) ∧ Fits s t c p := by
  refine ⟨_, rfl, ?_⟩
  intro i s c p hs hr
  simp only [cropAndPad, modeAndSides, pxArg, pxParam, Entry.asAtom, intOf, Option.bind_some, Option.map_some, Option.some.injEq] at hm
  subst hm
  obtain ⟨f, t, hf, -, ht, rfl, rfl⟩ := (drawn hS true _ shapes g rows h).2 i s c p hs hr
  rw [fours_independent _ _ _ _ _ hf] at ht
  simp only [amounts, Option.bind_eq_some_iff, Option.map_eq_some_iff] at ht
  obtain ⟨t0, e0, t1, e1, t2, e2, t3, e3, rfl⟩ := ht
  have hlen := hS.length (.discrete a b) (shapes.length * 4) g
  have hi' : i < shapes.length := (List.getElem?_eq_some_iff.mp hs).1
  have get : ∀ j, j < shapes.length * 4 → ∀ z : Int, (S (.discrete a b) (shapes.length * 4) g).1.getD j 0 = z →
      (S (.discrete a b) (shapes.length * 4) g).1[j]? = some (z : ℚ) := by
    intro j hj z hz
    rw [← hz, List.getElem?_eq_getElem (by omega)]
    simp [List.getD, List.getElem?_eq_getElem (show j < (S (.discrete a b) (shapes.length * 4) g).1.length by omega)]
  exact ⟨_, get _ (by omega) _ (asInt_some e0), get _ (by omega) _ (asInt_some e1), get _ (by omega) _ (asInt_some e2),
    get _ (by omega) _ (asInt_some e3), fits _ _⟩

/-- C100 is false for parameters with `sample_independently=False`: the sides get different amounts. -/
theorem parameters_differ : ∃ ms, cropAndPad (.atom (.par false 0)) .none = some ms ∧
    drawSamples least false ms [⟨10, 10⟩] 0 = some [(⟨0, 0, 0, 0⟩, ⟨0, 1, 2, 3⟩)] := by
  refine ⟨_, rfl, ?_⟩
  decide +kernel

/-- C100 is false for parameters that yield negative values, here a parameter that the user multiplied by -1: then `Crop` pads. -/
theorem crop_pads : ∃ ms, crop (.atom (.par true 0)) .none = some ms ∧
    drawSamples least false ms [⟨10, 10⟩] 1 = some [(⟨0, 0, 0, 0⟩, ⟨1, 2, 3, 4⟩)] := by
  refine ⟨_, rfl, ?_⟩
  decide +kernel

/-- A case: 1 pixel cropped at the top, 2 to 5 padded at the right, 3 or 4 at the bottom, and a parameter at the left. -/
example : ∃ ms, Ok (fun _ u => 0 ≤ u) least ∧
    cropAndPad (.tuple [.atom (.int (-1)), .tuple [.int 2, .int 5], .list [.int 3, .int 4], .atom (.par false 7)]) .none = some ms ∧
    drawSamples least true ms [⟨10, 20⟩] 5 = some [(⟨1, 0, 0, 0⟩, ⟨0, 2, 3, 8⟩)] :=
  ⟨_, least_ok, rfl, by decide +kernel⟩

/-- A case: a quarter of the image cropped on each side. -/
example : ∃ ms, crop .none (.atom (.float (1 / 4))) = some ms ∧
    drawSamples least false ms [⟨10, 20⟩] 5 = some [(⟨2, 5, 2, 5⟩, ⟨0, 0, 0, 0⟩)] :=
  ⟨(.percent, .all (.det (-(1 / 4)))), by decide +kernel, by decide +kernel⟩

/-- A case: a pair of integers, with all sides and with each side. -/
example : ∃ ms, cropAndPad (.tuple [.atom (.int 3), .atom (.int 1)]) .none = some ms ∧
    drawSamples least false ms [⟨10, 20⟩] 5 = some [(⟨0, 0, 0, 0⟩, ⟨1, 1, 1, 1⟩)] ∧
    drawSamples least true ms [⟨10, 20⟩] 5 = some [(⟨0, 0, 0, 0⟩, ⟨1, 1, 1, 1⟩)] :=
  ⟨_, rfl, by decide +kernel, by decide +kernel⟩

/-- A case: the default of `Pad`, and values that are not negative. -/
example : ∃ ms, pad .none .none = some ms ∧ Arg.none.Plain ∧ drawSamples least true ms [⟨10, 20⟩] 5 = some [(⟨0, 0, 0, 0⟩, ⟨0, 0, 0, 0⟩)] :=
  ⟨(.percent, .all (.uniform 0 (1 / 10))), by decide +kernel, trivial, by decide +kernel⟩

/-- A case: values that are documented. -/
example : (Arg.tuple [.atom (.int 3), .atom (.int 1)]).PxOk ∧ (Arg.tuple [.atom (.int 3), .atom (.int 1)]).Nonneg ∧
    (interval (-1 / 2) 1).PercentOk := by
  refine ⟨Or.inl ⟨_, _, rfl⟩, ?_, Or.inl ⟨_, _, rfl, ⟨_, Or.inr rfl, ?_⟩, ⟨_, Or.inr rfl, ?_⟩⟩⟩
  · simp [Arg.Nonneg, Entry.Nonneg, Atom.Nonneg]
  · norm_num
  · norm_num

end Imgaug.CropArgs
