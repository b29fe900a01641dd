import Verif.Spec.Cv2Args
import Verif.Props.AffineArgs
import Verif.Props.AffineCv2
import Verif.Proofs.Canny
/-! Property C135: the arguments of `AffineCv2`. -/
namespace Imgaug.Cv2Args
open Imgaug Imgaug.Params Imgaug.AffineArgs
variable {σ : Type}

theorem order_table (s : String) (z : Int) : IsOrder s z ↔ (s, z) ∈ orders := by
  constructor
  · intro h; cases h <;> decide
  · intro h
    simp only [orders, List.mem_cons, Prod.mk.injEq, List.not_mem_nil, or_false] at h
    rcases h with ⟨rfl, rfl⟩ | ⟨rfl, rfl⟩ | ⟨rfl, rfl⟩ | ⟨rfl, rfl⟩ <;> constructor

theorem mode_table (s : String) (z : Int) : IsMode s z ↔ (s, z) ∈ modes := by
  constructor
  · intro h; cases h <;> decide
  · intro h
    simp only [modes, List.mem_cons, Prod.mk.injEq, List.not_mem_nil, or_false] at h
    rcases h with ⟨rfl, rfl⟩ | ⟨rfl, rfl⟩ | ⟨rfl, rfl⟩ | ⟨rfl, rfl⟩ | ⟨rfl, rfl⟩ <;> constructor

theorem order_resolved (s : String) (z : Int) (h : IsOrder s z) : resolve orders (.str s) = some z := by cases h <;> decide
theorem mode_resolved (s : String) (z : Int) (h : IsMode s z) : resolve modes (.str s) = some z := by cases h <;> decide

theorem known_iff (t : Table) (T : String → Int → Prop) (hT : ∀ s z, T s z ↔ (s, z) ∈ t) (n : Name) :
    known t n = true ↔ ∃ z, StandsFor T n z := by
  cases n with
  | int w => simp [known, StandsFor, hT]
  | str s => simp [known, StandsFor, hT]

theorem name_isSome (t : Table) (T : String → Int → Prop) (hT : ∀ s z, T s z ↔ (s, z) ∈ t) (a : NameArg) :
    (nameArg t a).isSome = true ↔ NameOk T a := by
  cases a with
  | all => simp [nameArg, NameOk]
  | one n =>
    simp only [nameArg, NameOk, ← known_iff t T hT]
    split_ifs with h <;> simp [h]
  | list l =>
    simp only [nameArg, NameOk]
    have key : ∀ l : List (Option Name), (∀ x ∈ l, ∃ n, x = some n) → l.mapM id = some (l.map (fun x => x.getD (.int 0))) := by
      intro l hl
      apply Dtypes.mapM_some
      intro x hx
      obtain ⟨n, rfl⟩ := hl x hx
      rfl
    by_cases hl : ∀ x ∈ l, ∃ n, x = some n
    · rw [key l hl, Option.bind_some]
      have : (l.map (fun x => x.getD (Name.int 0))).all (known t) = true ↔ ∀ x ∈ l, ∃ n z, x = some n ∧ StandsFor T n z := by
        simp only [List.all_eq_true, List.mem_map, forall_exists_index, and_imp, forall_apply_eq_imp_iff₂, known_iff t T hT]
        constructor
        · intro h x hx
          obtain ⟨n, rfl⟩ := hl x hx
          obtain ⟨z, hz⟩ := h _ hx
          exact ⟨n, z, rfl, hz⟩
        · intro h x hx
          obtain ⟨n, z, rfl, hz⟩ := h x hx
          exact ⟨z, hz⟩
      rw [← this]
      split_ifs with h <;> simp [h]
    · have : l.mapM id = none := by
        by_contra hc
        obtain ⟨ns, hns⟩ := Option.ne_none_iff_exists'.1 hc
        apply hl
        intro x hx
        obtain ⟨i, hi, rfl⟩ := List.getElem_of_mem hx
        cases hxi : l[i] with
        | some n => exact ⟨n, rfl⟩
        | none =>
          exfalso
          have : ∀ (l : List (Option Name)) ns, l.mapM id = some ns → none ∉ l := by
            intro l
            induction l with
            | nil => simp
            | cons a t ih =>
              intro ns h
              cases a with
              | none => simp at h
              | some b =>
                simp only [List.mapM_cons, id, Option.bind_eq_bind, Option.bind_some, Option.bind_eq_some_iff] at h
                obtain ⟨ns', h1, _⟩ := h
                simpa using ih ns' h1
          exact this l ns hns (hxi ▸ List.getElem_mem hi)
      rw [this]
      simp only [Option.bind_none, Option.isSome_none, Bool.false_eq_true, false_iff]
      intro h
      apply hl
      intro x hx
      obtain ⟨n, _, e, _⟩ := h x hx
      exact ⟨n, e⟩
  | par i => simp [nameArg, NameOk]
  | other => simp [nameArg, NameOk]

theorem init_isSome (a : Args) : (init a).isSome = true ↔
    (nameArg orders a.order).isSome ∧ (cvalArg a.cval).isSome ∧ (nameArg modes a.mode).isSome ∧
    (scaleArg a.scale).isSome ∧ (translateArg a.translatePx a.translatePercent).isSome ∧
    (continuous a.rotate).isSome ∧ (continuous a.shear).isSome := by
  unfold init
  cases nameArg orders a.order <;> cases cvalArg a.cval <;> cases nameArg modes a.mode <;> cases scaleArg a.scale <;>
    cases translateArg a.translatePx a.translatePercent <;> cases continuous a.rotate <;> cases continuous a.shear <;> simp

theorem init_some (a : Args) (c : Conf) (h : init a = some c) :
    nameArg orders a.order = some c.order ∧ cvalArg a.cval = some c.cval ∧ nameArg modes a.mode = some c.mode ∧
    scaleArg a.scale = some c.scale ∧ (∃ b, translateArg a.translatePx a.translatePercent = some (c.translate, b)) ∧
    continuous a.rotate = some c.rotate ∧ continuous a.shear = some c.shear := by
  unfold init at h
  simp only [Option.bind_eq_bind, Option.bind_eq_some_iff, Option.pure_def, Option.some.injEq] at h
  obtain ⟨o, ho, cv, hcv, m, hm, s, hs, ⟨t, b⟩, ht, r, hr, sh, hsh, rfl⟩ := h
  exact ⟨ho, hcv, hm, hs, ⟨b, ht⟩, hr, hsh⟩

/-- C135: the constructor accepts exactly the documented arguments: the interpolations nearest, linear, cubic and lanczos4 and five ways of filling, each by
its name or by OpenCV's number; fill values from 0 to 255; scales not below 0.0001; integers for pixels; not both kinds of translation. -/
theorem cv2_accepts (a : Args) : (init a).isSome = true ↔ a.Valid := by
  have cont : ∀ v, (continuous v).isSome = true ↔ NumOk .none true v := fun v => continuous_accepts v .none true true
  have disc : ∀ v, (discrete v).isSome = true ↔ NumOk .none false v := fun v => discrete_accepts v .none true true false
  have sc : ∀ v, (handleContinuous v (.interval (some (1 / 10000)) none) true true).isSome = true ↔
      NumOk (.interval (some (1 / 10000)) none) true v := fun v => continuous_accepts v _ true true
  have axis : ∀ (f : Val → Option Handled) (vr : VR) (fl : Bool) (d : Val) (b : Arg), (∀ v, (f v).isSome = true ↔ NumOk vr fl v) →
      (f d).isSome = true → b ≠ .none → ((perAxis f d b).isSome = true ↔ b.NumOk vr fl) := by
    intro f vr fl d b hf hd hb
    cases b with
    | none => exact absurd rfl hb
    | val v =>
      simp only [perAxis, Option.isSome_map, hf, Arg.NumOk]
      exact ⟨fun h => ⟨by simp, fun k w hw => by cases hw; exact h⟩, fun h => h.2 .x v rfl⟩
    | dict x y =>
      simp only [perAxis, Option.isSome_map]
      exact twoKeys_isSome f vr fl d x y hf hd
  have none_ok : ∀ vr fl, Arg.NumOk vr fl .none := fun vr fl => ⟨by simp, fun k v h => by cases h⟩
  have hc : (cvalArg a.cval).isSome = true ↔ ∀ v, a.cval = .val v → NumOk (.interval (some 0) (some 255)) true v := by
    cases a.cval with
    | all => simp [cvalArg]
    | val v => simpa [cvalArg, NumOk] using discrete_accepts v (.interval (some 0) (some 255)) true true true
  have hsc : (scaleArg a.scale).isSome = true ↔ a.scale ≠ .none ∧ a.scale.NumOk (.interval (some (1 / 10000)) none) true := by
    by_cases hs : a.scale = .none
    · simp [hs, scaleArg, perAxis]
    · rw [show scaleArg a.scale = perAxis _ (float 1) a.scale from rfl, axis _ _ true (float 1) a.scale sc (by decide +kernel) hs]
      simp [hs]
  have e2 : (translateArg a.translatePx a.translatePercent).isSome = true ↔
      a.translatePercent.NumOk .none true ∧ a.translatePx.NumOk .none false ∧
      (a.translatePercent = .none ∨ a.translatePx = .none) := by
    by_cases hp : a.translatePx = .none <;> by_cases hq : a.translatePercent = .none
    · rw [hp, hq]
      exact ⟨fun _ => ⟨none_ok _ _, none_ok _ _, Or.inl rfl⟩, fun _ => by decide +kernel⟩
    · rw [hp, translate_percent a.translatePercent hq, Option.isSome_map, axis _ _ true (int 0) _ cont rfl hq]
      exact ⟨fun h => ⟨h, none_ok _ _, Or.inr rfl⟩, fun h => h.1⟩
    · rw [hq, translate_px a.translatePx hp, Option.isSome_map, axis _ _ false (int 0) _ disc rfl hp]
      exact ⟨fun h => ⟨none_ok _ _, h, Or.inl rfl⟩, fun h => h.2.1⟩
    · rw [translate_both _ _ hp hq]
      simp [hp, hq]
  rw [init_isSome, name_isSome orders IsOrder order_table, name_isSome modes IsMode mode_table, hc, hsc, e2, cont, cont]
  constructor
  · rintro ⟨b1, b2, b3, b4, ⟨b5, b6, b7⟩, b8, b9⟩
    exact ⟨b4, b5, b6, b7, b8, b9, b2, b1, b3⟩
  · intro h
    exact ⟨h.order, h.cval, h.mode, h.scale, ⟨h.percent, h.px, h.notBoth⟩, h.rotate, h.shear⟩

/-- `AffineCv2(scale={"x": (0.5, 2)}, translate_px=[-3, 4], order=["nearest", "cubic"], cval=ALL, mode=3)` is valid. -/
example : (init ⟨.dict (some (floats (1 / 2) 2)) none, .none, .val (.iter [.num ⟨true, -3⟩, .num ⟨true, 4⟩]), float 0, ints (-5) 5,
    .list [some (.str "nearest"), some (.str "cubic")], .all, .one (.int 3)⟩).isSome = true := by decide +kernel

/-- C135: each image gets scales, translations, angles and shears that the arguments stand for. -/
theorem cv2_requested (P : Values ℚ) (K : Nat → Bool) (Q : Nat → Name → Prop) (a : Args) (hf : a.Filled) (c : Conf) (h : init a = some c)
    (S : Sampler σ Handled ℚ) (hS : Ok (Supports P) S) (M : Sampler σ NameDist Name) (_hM : Ok (NameDist.Supports Q) M) (n : Nat) (g : σ) :
    (drawSamples K S M c n g).length = n ∧ ∀ r ∈ drawSamples K S M c n g, Requested P a r := by
  obtain ⟨_, _, _, hs, ⟨b, ht⟩, hr, hsh⟩ := init_some a c h
  refine ⟨by simp [drawSamples], ?_⟩
  intro r hr'
  simp only [drawSamples, List.mem_map, List.mem_range] at hr'
  obtain ⟨i, hi, rfl⟩ := hr'
  have hne : a.scale ≠ .none := by
    intro e
    rw [e] at hs
    cases hs
  have scx := scale_supports P a.scale c.scale (by rw [if_neg hne]; exact hs) hf.scale
  have hsc := axes_ok hS c.scale n g i hi
  have htr := translate_supports P a.translatePx a.translatePercent c.translate b ht hf.px hf.percent hf.pxInts
  have hta := axes_ok hS c.translate n (drawAxes S c.scale n g).2 i hi
  exact ⟨scx .x _ hsc.1, scx .y _ hsc.2, htr.2 .x _ hta.1, htr.2 .y _ hta.2,
    continuous_supports P _ .none c.rotate _ hr hf.rotate (sample_ok hS c.rotate n _ i hi 0),
    continuous_supports P _ .none c.shear _ hsh hf.shear (sample_ok hS c.shear n _ i hi 0), rfl⟩

/-- Two images with translations from a list. -/
example : ∃ c, init { noArgs with translatePx := .val (.iter [.num ⟨true, -3⟩, .num ⟨true, 4⟩]) } = some c ∧
    (drawSamples (fun _ => false) alternating alternatingNames c 2 0).map (fun r => (r.geo.tx.v, r.geo.ty.v)) = [(-3, -3), (4, 4)] := by
  exact ⟨_, Option.eq_some_of_isSome (by decide +kernel), by decide +kernel⟩

theorem list_some (l : List (Option Name)) (ns : List Name) (h : l.mapM id = some ns) : l = ns.map some := by
  induction l generalizing ns with
  | nil => simp at h; subst h; rfl
  | cons a t ih =>
    cases a with
    | none => simp at h
    | some b =>
      simp only [List.mapM_cons, id, Option.bind_eq_bind, Option.bind_some, Option.bind_eq_some_iff, Option.pure_def, Option.some.injEq] at h
      obtain ⟨ns', h1, rfl⟩ := h
      rw [ih ns' h1]
      rfl

theorem asArray_same (l : List Name) (h : ¬ ∃ z s, Name.int z ∈ l ∧ Name.str s ∈ l) : asArray l = l := by
  unfold asArray
  split_ifs with hs
  · simp only [List.any_eq_true] at hs
    obtain ⟨x, hx, hxs⟩ := hs
    cases x with
    | int z => simp at hxs
    | str s =>
      have : ∀ n ∈ l, n.toStr = id n := by
        intro n hn
        cases n with
        | int z => exact absurd ⟨z, s, hn, hx⟩ h
        | str s => rfl
      rw [List.map_congr_left this, List.map_id]
  · rfl

theorem name_resolved (t : Table) (ht : t ≠ []) (T : String → Int → Prop) (hT : ∀ s z, T s z ↔ (s, z) ∈ t) (hr : ∀ s z, T s z → resolve t (.str s) = some z)
    (Q : Nat → Name → Prop) (a : NameArg) (d : NameDist) (h : nameArg t a = some d) (hl : a ≠ .list []) (hm : ¬ a.Mixed)
    (hp : ∀ i n, a = .par i → Q i n → ∃ z, StandsFor T n z) (n : Name) (hn : NameDist.Supports Q d.array n) :
    ∃ z, resolve t n = some z ∧ NameAllowed T (fun i z => ∃ n, Q i n ∧ StandsFor T n z) a z := by
  have res : ∀ n z, StandsFor T n z → resolve t n = some z := by
    intro n z hz
    cases n with
    | int w => rw [show resolve t (.int w) = some w from rfl, hz.1]
    | str s => exact hr s z hz
  cases a with
  | all =>
    simp only [nameArg, Option.some.injEq] at h
    subst h
    simp only [NameDist.array] at hn
    rw [asArray_same _ (by rintro ⟨z, s, _, hs⟩; simp at hs)] at hn
    have := hn (by simpa using ht)
    simp only [List.mem_map] at this
    obtain ⟨e, he, rfl⟩ := this
    exact ⟨e.2, rfl, e.1, (hT _ _).2 he⟩
  | one m =>
    simp only [nameArg] at h
    split_ifs at h with hk
    cases h
    simp only [NameDist.array, NameDist.Supports] at hn
    subst hn
    obtain ⟨z, hz⟩ := (known_iff t T hT n).1 hk
    exact ⟨z, res n z hz, hz⟩
  | list l =>
    simp only [nameArg, Option.bind_eq_some_iff] at h
    obtain ⟨ns, hns, h⟩ := h
    split_ifs at h with hk
    cases h
    have hl' := list_some l ns hns
    subst hl'
    simp only [NameDist.array] at hn
    rw [asArray_same ns (by
      rintro ⟨z, s, hz, hs⟩
      exact hm ⟨_, z, s, rfl, List.mem_map_of_mem hz, List.mem_map_of_mem hs⟩)] at hn
    have hmem := hn (by rintro rfl; exact hl rfl)
    obtain ⟨z, hz⟩ := (known_iff t T hT n).1 (List.all_eq_true.1 hk n hmem)
    exact ⟨z, res n z hz, n, List.mem_map_of_mem hmem, hz⟩
  | par i =>
    cases h
    obtain ⟨z, hz⟩ := hp i n rfl hn
    exact ⟨z, res n z hz, n, hn, hz⟩
  | other => cases h

theorem cval_value (P : Values ℚ) (a : AllOr) (d : Handled) (h : cvalArg a = some d) (hf : a ≠ .val (.iter [])) (u : ℚ) (hu : Supports P d u) :
    ∃ w, CvalAllowed P a w ∧ pyInt u = pyInt w := by
  cases a with
  | all =>
    cases h
    obtain ⟨z, rfl, h1, h2⟩ := hu
    refine ⟨z, ⟨?_, ?_⟩, rfl⟩
    · exact_mod_cast h1
    · exact_mod_cast h2
  | val v =>
    have hv : Val.Filled v := by rintro rfl; exact hf rfl
    have := Canny.threshold_value P v d u h hv hu
    have rng : ∀ w, Allows P v w → (∀ i, v ≠ .atom (.par i)) → 0 ≤ w := by
      intro w hw hnp
      have ha := (discrete_accepts v (.interval (some 0) (some 255)) true true true).1 (by rw [show handleDiscrete v _ _ _ _ = some d from h]; rfl)
      rcases ha with ⟨i, hi⟩ | ⟨_, ha⟩
      · exact absurd hi (hnp i)
      · have lo : ∀ n : Num, .num n ∈ numbers v → 0 ≤ n.q := fun n hn => (ha n hn).1 0 rfl
        rcases v with x | l | l
        · cases x with
          | num n => rw [show w = n.q from hw]; exact lo n (by simp [numbers])
          | par i => exact absurd rfl (hnp i)
          | bool b => exact hw.elim
          | other => exact hw.elim
        · obtain ⟨x, y, rfl, h1, _⟩ := hw
          exact (le_min (lo x (by simp [numbers])) (lo y (by simp [numbers]))).trans h1
        · obtain ⟨n, hn, rfl⟩ := hw
          exact lo n hn
    by_cases hnp : ∃ i, v = .atom (.par i)
    · obtain ⟨i, rfl⟩ := hnp
      exact ⟨u, this, rfl⟩
    · have hnp' : ∀ i, v ≠ .atom (.par i) := fun i e => hnp ⟨i, e⟩
      have : ∃ w, Allows P v w ∧ u = ⌊w⌋ := by
        rcases v with x | l | l
        · cases x with
          | par i => exact absurd rfl (hnp' i)
          | _ => exact this
        · exact this
        · exact this
      obtain ⟨w, hw, rfl⟩ := this
      exact ⟨w, hw, by rw [Dtypes.pyInt_intCast, Canny.pyInt_floor (rng w hw hnp')]⟩

/-- C135 (partial): each image is warped with an interpolation and a way of filling that the arguments stand for, names and numbers alike, and is filled with
requested values. Missing: lists with names and numbers, see `mixed_raises`, and fill values that are no integers, see `floats_cut`. -/
theorem cv2_settings_partial (P : Values ℚ) (K : Nat → Bool) (Q : Nat → Name → Prop) (a : Args) (hf : a.Filled) (c : Conf) (h : init a = some c)
    (hom : ¬ a.order.Mixed) (hmm : ¬ a.mode.Mixed) (hop : ∀ i n, a.order = .par i → Q i n → ∃ z, StandsFor IsOrder n z)
    (hmp : ∀ i n, a.mode = .par i → Q i n → ∃ z, StandsFor IsMode n z)
    (S : Sampler σ Handled ℚ) (hS : Ok (Supports P) S) (M : Sampler σ NameDist Name) (hM : Ok (NameDist.Supports Q) M) (n : Nat) (g : σ) :
    ∀ r ∈ drawSamples K S M c n g, ∃ w, warpImage r = some w ∧
      NameAllowed IsOrder (fun i z => ∃ n, Q i n ∧ StandsFor IsOrder n z) a.order w.order ∧
      NameAllowed IsMode (fun i z => ∃ n, Q i n ∧ StandsFor IsMode n z) a.mode w.mode ∧
      w.cval.length = 3 ∧ ∀ z ∈ w.cval, ∃ u, CvalAllowed P a.cval u ∧ z = pyInt u := by
  obtain ⟨ho, hcv, hm, _, _, _, _⟩ := init_some a c h
  intro r hr
  simp only [drawSamples, List.mem_map, List.mem_range] at hr
  obtain ⟨i, hi, rfl⟩ := hr
  obtain ⟨zo, ro, ao⟩ := name_resolved orders (by decide) IsOrder order_table order_resolved Q a.order c.order ho hf.order hom hop _
    (sample_ok hM c.order.array n
      (M c.mode.array n (S c.cval (n * 3) (S c.shear n (S c.rotate n (drawAxes S c.translate n (drawAxes S c.scale n g).2).2).2).2).2).2 i hi (.int 0))
  obtain ⟨zm, rm, am⟩ := name_resolved modes (by decide) IsMode mode_table mode_resolved Q a.mode c.mode hm hf.mode hmm hmp _
    (sample_ok hM c.mode.array n
      (S c.cval (n * 3) (S c.shear n (S c.rotate n (drawAxes S c.translate n (drawAxes S c.scale n g).2).2).2).2).2 i hi (.int 0))
  refine ⟨⟨zo, zm, _⟩, by simp only [warpImage, ro, rm, Option.bind_some, Option.map_some]; rfl, ao, am, rfl, ?_⟩
  intro z hz
  obtain ⟨u, hu, rfl⟩ := List.mem_map.1 hz
  exact cval_value P a.cval c.cval hcv hf.cval u (hS.values _ _ _ u (row3_mem hS c.cval n _ i hi u hu))

/-- `AffineCv2(order=["nearest", "cubic"], mode=[2, 3])` meets the hypotheses. -/
example : let a : Args := { noArgs with order := .list [some (.str "nearest"), some (.str "cubic")], mode := .list [some (.int 2), some (.int 3)] }
    (init a).isSome = true ∧ ¬ a.order.Mixed ∧ ¬ a.mode.Mixed ∧ a.Filled := by
  refine ⟨by decide +kernel, ?_, ?_, ⟨?_, ?_, ?_, by simp [Val.Filled, noArgs, float], by simp [Val.Filled, noArgs, float], by simp,
    by simp [noArgs, int], by simp, ?_⟩⟩
  · rintro ⟨l, z, s, e, h1, h2⟩
    cases e
    simp at h1
  · rintro ⟨l, z, s, e, h1, h2⟩
    cases e
    simp at h2
  · intro k v h; cases h; simp [Val.Filled, float]
  · intro k v h; cases h
  · intro k v h; cases h
  · intro k v h; cases h

/-- C135: heatmaps and segmentation maps are filled with zeros, whatever is requested for images; heatmaps are interpolated like images and segmentation maps
by the nearest value. -/
theorem maps_settings (r : Row) (w : Warp) (h : warpImage r = some w) :
    warpHeatmap r = some ⟨w.order, 0, [0]⟩ ∧ warpSegmap r = some ⟨0, 0, [0]⟩ := by
  have e : resolve modes (.str "constant") = some 0 := by decide
  have p : pyInt 0 = 0 := by decide +kernel
  simp only [warpImage, Option.bind_eq_some_iff, Option.map_eq_some_iff] at h
  obtain ⟨m, _, o, ho, rfl⟩ := h
  refine ⟨?_, ?_⟩
  · simp [warpHeatmap, warpImage, e, ho, p]
  · simp [warpSegmap, warpImage, e, show resolve orders (.int 0) = some 0 from rfl, p]

/-- An image that is filled with white. -/
example : warpImage ⟨⟨1, 1, ⟨false, 3⟩, ⟨false, 0⟩, 0, 0⟩, [255, 255, 255], .str "wrap", .str "cubic"⟩ = some ⟨2, 3, [255, 255, 255]⟩ := by decide +kernel

/-- C135 is false for lists with names and numbers: such a list is accepted, but whenever a number is drawn from it, augmentation raises an exception. -/
theorem mixed_raises (l : List Name) (z : Int) (s : String) (hz : (Name.int z) ∈ l) (hs : (Name.str s) ∈ l) (hk : ∀ n ∈ l, known orders n = true) :
    (init { noArgs with order := .list (l.map some) }).isSome = true ∧
    ∀ w : Int, Name.int w ∉ asArray l ∧ (Name.int w ∈ l → Name.str (toString w) ∈ asArray l ∧ resolve orders (.str (toString w)) = none) := by
  have harr : asArray l = l.map Name.toStr := by
    unfold asArray
    rw [if_pos]
    simp only [List.any_eq_true]
    exact ⟨_, hs, rfl⟩
  refine ⟨?_, fun w => ⟨?_, fun hw => ⟨?_, ?_⟩⟩⟩
  · rw [init_isSome]
    refine ⟨?_, ((init_isSome noArgs).1 (by decide +kernel)).2⟩
    rw [name_isSome orders IsOrder order_table]
    intro x hx
    obtain ⟨n, hn, rfl⟩ := List.mem_map.1 hx
    obtain ⟨z, hz⟩ := (known_iff orders IsOrder order_table n).1 (hk n hn)
    exact ⟨n, z, rfl, hz⟩
  · rw [harr]
    intro h
    obtain ⟨n, _, e⟩ := List.mem_map.1 h
    cases n <;> simp [Name.toStr] at e
  · rw [harr]
    exact List.mem_map.2 ⟨_, hw, rfl⟩
  · have := hk _ hw
    simp only [known, orders, List.map_cons, List.map_nil, List.contains_eq_mem, decide_eq_true_eq, List.mem_cons, List.not_mem_nil, or_false] at this
    rcases this with rfl | rfl | rfl | rfl <;> decide +kernel

/-- `order=["nearest", 1]`: the second image cannot be augmented. -/
example : (init { noArgs with order := .list [some (.str "nearest"), some (.int 1)] }).isSome = true ∧
    (asArray [.str "nearest", .int 1]).map (resolve orders) = [some 0, none] := by decide +kernel

/-- C135 is false for fill values that are no integers: 254.9 is documented to be possible, but 254 is used. -/
theorem floats_cut (c : Conf) (h : init { noArgs with cval := .val (float (2549 / 10)) } = some c) (P : Values ℚ) (K : Nat → Bool)
    (S : Sampler σ Handled ℚ) (hS : Ok (Supports P) S) (M : Sampler σ NameDist Name) (n : Nat) (g : σ) :
    ∀ r ∈ drawSamples K S M c n g, r.cval = [254, 254, 254] := by
  have hc : c.cval = .det ⟨true, 254⟩ := by
    have := (init_some _ c h).2.1
    have e : cvalArg (.val (float (2549 / 10))) = some (.det ⟨true, 254⟩) := by decide +kernel
    rw [e] at this
    exact (Option.some.inj this).symm
  intro r hr
  simp only [drawSamples, List.mem_map, List.mem_range] at hr
  obtain ⟨i, hi, rfl⟩ := hr
  have : ∀ u ∈ row3 (S c.cval (n * 3) (S c.shear n (S c.rotate n (drawAxes S c.translate n (drawAxes S c.scale n g).2).2).2).2).1 i, u = 254 := by
    intro u hu
    have := hS.values _ _ _ u (row3_mem hS c.cval n _ i hi u hu)
    rw [hc] at this
    exact this
  simp only [row3, List.mem_cons, List.not_mem_nil, or_false, forall_eq_or_imp, forall_eq] at this
  simp only [row3, this]

/-- It is accepted. -/
example : (init { noArgs with cval := .val (float (2549 / 10)) }).isSome = true := by decide +kernel

/-- C135 is false for numbers as orders: the cubic interpolation is number 2 here and number 3 for `Affine`, and each is an error for the other one (with
OpenCV as backend). -/
theorem order_numbers_differ : (init { noArgs with order := .one (.int 2) }).isSome = true ∧ init { noArgs with order := .one (.int 3) } = none ∧
    AffineArgs.init { AffineArgs.noArgs with backend := .cv2, order := .val (int 2) } = none ∧
    (AffineArgs.init { AffineArgs.noArgs with backend := .cv2, order := .val (int 3) }).isSome = true := by
  decide +kernel

/-- The values of a numeric argument come as floats if it is a float, a pair, or a list with a float. -/
theorem isFloat_continuous (K : Nat → Bool) (v : Val) (d : Handled) (h : continuous v = some d) (hp : ∀ i, v ≠ .atom (.par i)) :
    isFloat K d = true ↔ (∃ l, v = .tuple l) ∨ ∃ n : Num, .num n ∈ numbers v ∧ n.isInt = false := by
  unfold continuous at h
  rcases v with x | l | l
  · cases x with
    | num n =>
      simp only [handleContinuous] at h
      split_ifs at h
      cases h
      simp [isFloat, numbers]
    | par i => exact absurd rfl (hp i)
    | bool b => cases h
    | other => cases h
  · simp only [handleContinuous, if_true] at h
    split at h
    · split_ifs at h
      cases h
      simp [isFloat]
    · cases h
  · simp only [handleContinuous, if_true] at h
    split at h
    · rename_i ns hns
      split_ifs at h
      cases h
      have hl := (mapM_num l ns).mp hns
      subst hl
      simp [isFloat, numbers]
    · cases h

theorem isFloat_discrete (K : Nat → Bool) (v : Val) (d : Handled) (h : discrete v = some d) (hp : ∀ i, v ≠ .atom (.par i)) : isFloat K d = false := by
  unfold discrete at h
  rcases v with x | l | l
  · cases x with
    | num n =>
      simp only [handleDiscrete] at h
      split_ifs at h
      cases h
      rfl
    | par i => exact absurd rfl (hp i)
    | bool b => cases h
    | other => cases h
  · simp only [handleDiscrete, if_true] at h
    split at h
    · split_ifs at h
      cases h
      rfl
    · cases h
  · simp only [handleDiscrete, if_true] at h
    split at h
    · split_ifs at h
      cases h
      rfl
    · cases h

/-- C135: a translation by pixels is one, unless it is a stochastic parameter. -/
theorem px_is_pixels (K : Nat → Bool) (a : Args) (c : Conf) (h : init a = some c) (hpc : a.translatePercent = .none)
    (hp : ∀ k i, a.translatePx.on k ≠ some (.atom (.par i))) (S : Sampler σ Handled ℚ) (M : Sampler σ NameDist Name) (n : Nat) (g : σ) :
    ∀ r ∈ drawSamples K S M c n g, ∀ size, AffineCv2.px r.geo.tx size = r.geo.tx.v ∧ AffineCv2.px r.geo.ty size = r.geo.ty.v := by
  obtain ⟨_, _, _, _, ⟨b, ht⟩, _, _⟩ := init_some a c h
  rw [hpc] at ht
  have hz : discrete (int 0) = some (.det ⟨true, ((0 : Int) : ℚ)⟩) := by decide +kernel
  have key : isFloat K (axisX c.translate) = false ∧ isFloat K (axisY c.translate) = false := by
    have hd : ∀ v d, discrete v = some d → (∀ i, v ≠ .atom (.par i)) → isFloat K d = false := fun v d => isFloat_discrete K v d
    cases hpx : a.translatePx with
    | none =>
      rw [hpx] at ht
      simp only [translateArg, perAxis, hz, Option.map_some, Option.some.injEq, Prod.mk.injEq] at ht
      rw [← ht.1]
      exact ⟨rfl, rfl⟩
    | val v =>
      rw [hpx] at ht hp
      rw [translate_px _ (by simp)] at ht
      simp only [perAxis, Option.map_map, Option.map_eq_some_iff] at ht
      obtain ⟨d, hdv, e⟩ := ht
      simp only [Function.comp, Prod.mk.injEq] at e
      rw [← e.1]
      have := hd v d hdv (fun i e => hp .x i (by simp [Arg.on, e]))
      exact ⟨this, this⟩
    | dict x y =>
      rw [hpx] at ht hp
      rw [translate_px _ (by simp)] at ht
      simp only [perAxis, Option.map_map, Option.map_eq_some_iff, twoKeys] at ht
      obtain ⟨d, hdv, e⟩ := ht
      split_ifs at hdv
      simp only [Option.bind_eq_some_iff, Option.map_eq_some_iff] at hdv
      obtain ⟨d1, h1, d2, h2, rfl⟩ := hdv
      simp only [Function.comp, Prod.mk.injEq] at e
      rw [← e.1]
      refine ⟨hd _ d1 h1 ?_, hd _ d2 h2 ?_⟩
      · intro i e
        cases x with
        | none => simp [int] at e
        | some v => exact hp .x i (by simpa [Arg.on] using e)
      · intro i e
        cases y with
        | none => simp [int] at e
        | some v => exact hp .y i (by simpa [Arg.on] using e)
  intro r hr size
  simp only [drawSamples, List.mem_map, List.mem_range] at hr
  obtain ⟨i, hi, rfl⟩ := hr
  simp [AffineCv2.px, key]

/-- `AffineCv2(translate_px={"x": (-3, 4)})`. -/
example : ∃ c, init { noArgs with translatePx := .dict (some (ints (-3) 4)) none } = some c ∧
    (drawSamples (fun _ => true) alternating alternatingNames c 2 0).map (fun r => (AffineCv2.px r.geo.tx 100, AffineCv2.px r.geo.ty 100)) = [(-3, 0), (4, 0)] :=
  ⟨_, Option.eq_some_of_isSome (by decide +kernel), by decide +kernel⟩

/-- C135 (partial): a translation in percent that is one argument for both axes is a fraction of the size, up to half a pixel, if it is a float, a pair, or a
list with a float. Missing: integers, see `percent_is_pixels`. -/
theorem percent_is_fraction_partial (K : Nat → Bool) (a : Args) (c : Conf) (h : init a = some c) (v : Val) (hv : a.translatePercent = .val v)
    (hf : (∃ l, v = .tuple l) ∨ ∃ n : Num, .num n ∈ numbers v ∧ n.isInt = false)
    (S : Sampler σ Handled ℚ) (M : Sampler σ NameDist Name) (n : Nat) (g : σ) :
    ∀ r ∈ drawSamples K S M c n g, ∀ size : Nat, |AffineCv2.px r.geo.tx size - r.geo.tx.v * size| ≤ 1 / 2 ∧
      |AffineCv2.px r.geo.ty size - r.geo.ty.v * size| ≤ 1 / 2 := by
  obtain ⟨_, _, _, _, ⟨b, ht⟩, _, _⟩ := init_some a c h
  rw [hv] at ht
  have hpx : a.translatePx = .none := by
    by_contra hne
    rw [translate_both _ _ hne (by simp)] at ht
    cases ht
  rw [hpx, translate_percent _ (by simp)] at ht
  simp only [perAxis, Option.map_map, Option.map_eq_some_iff] at ht
  obtain ⟨d, hd, e⟩ := ht
  simp only [Function.comp, Prod.mk.injEq] at e
  have hfl : isFloat K d = true := (isFloat_continuous K v d hd (by
    rintro i rfl
    rcases hf with ⟨l, hl⟩ | ⟨m, hm, _⟩
    · cases hl
    · simp [numbers] at hm)).2 hf
  intro r hr size
  simp only [drawSamples, List.mem_map, List.mem_range] at hr
  obtain ⟨i, hi, rfl⟩ := hr
  rw [← e.1]
  exact ⟨AffineCv2.fraction_of_size _ hfl size, AffineCv2.fraction_of_size _ hfl size⟩

/-- `AffineCv2(translate_percent=(0, 1))` for an image with 100 columns. -/
example : ∃ c, init { noArgs with translatePercent := .val (ints 0 1) } = some c ∧
    (drawSamples (fun _ => true) alternating alternatingNames c 2 0).map (fun r => AffineCv2.px r.geo.tx 100) = [0, 100] :=
  ⟨_, Option.eq_some_of_isSome (by decide +kernel), by decide +kernel⟩

/-- C135 is false for integers as fractions of the size: `translate_percent=[0, 1]` translates by 0 or 1 pixels, while `translate_percent=(0, 1)` translates by
up to the size of the image. -/
theorem percent_is_pixels (K : Nat → Bool) (a : Args) (c : Conf) (h : init a = some c) (v : Val) (hv : a.translatePercent = .val v)
    (ht : ∀ l, v ≠ .tuple l) (hp : ∀ i, v ≠ .atom (.par i)) (hi : ∀ n : Num, .num n ∈ numbers v → n.isInt = true)
    (S : Sampler σ Handled ℚ) (M : Sampler σ NameDist Name) (n : Nat) (g : σ) :
    ∀ r ∈ drawSamples K S M c n g, ∀ size, AffineCv2.px r.geo.tx size = r.geo.tx.v ∧ AffineCv2.px r.geo.ty size = r.geo.ty.v := by
  obtain ⟨_, _, _, _, ⟨b, htr⟩, _, _⟩ := init_some a c h
  rw [hv] at htr
  have hpx : a.translatePx = .none := by
    by_contra hne
    rw [translate_both _ _ hne (by simp)] at htr
    cases htr
  rw [hpx, translate_percent _ (by simp)] at htr
  simp only [perAxis, Option.map_map, Option.map_eq_some_iff] at htr
  obtain ⟨d, hd, e⟩ := htr
  simp only [Function.comp, Prod.mk.injEq] at e
  have hfl : isFloat K d = false := by
    rw [Bool.eq_false_iff, Ne, isFloat_continuous K v d hd hp]
    rintro (⟨l, hl⟩ | ⟨m, hm, hm'⟩)
    · exact ht l hl
    · rw [hi m hm] at hm'
      cases hm'
  intro r hr size
  simp only [drawSamples, List.mem_map, List.mem_range] at hr
  obtain ⟨i, hi, rfl⟩ := hr
  rw [← e.1]
  simp [AffineCv2.px, axisX, axisY, hfl]

/-- `AffineCv2(translate_percent=[0, 1])` for an image with 100 columns. -/
example : ∃ c, init { noArgs with translatePercent := .val (.iter [.num ⟨true, 0⟩, .num ⟨true, 1⟩]) } = some c ∧
    (drawSamples (fun _ => true) alternating alternatingNames c 2 0).map (fun r => AffineCv2.px r.geo.tx 100) = [0, 1] :=
  ⟨_, Option.eq_some_of_isSome (by decide +kernel), by decide +kernel⟩

/-- C135: without arguments nothing is moved. -/
theorem nothing_moved (P : Values ℚ) (K : Nat → Bool) (c : Conf) (h : init noArgs = some c) (S : Sampler σ Handled ℚ) (hS : Ok (Supports P) S)
    (M : Sampler σ NameDist Name) (n : Nat) (g : σ) :
    ∀ r ∈ drawSamples K S M c n g, ∀ hh w (u : ℝ × ℝ), AffineCv2.moveContent r.geo hh w u = u := by
  have hc : c = ⟨.same (.det ⟨false, 1⟩), .same (.det ⟨true, 0⟩), .det ⟨false, 0⟩, .det ⟨false, 0⟩, .det (.int 1), .det ⟨true, 0⟩, .det (.int 0)⟩ := by
    have e : init noArgs = some ⟨.same (.det ⟨false, 1⟩), .same (.det ⟨true, 0⟩), .det ⟨false, 0⟩, .det ⟨false, 0⟩, .det (.int 1), .det ⟨true, 0⟩, .det (.int 0)⟩ := by
      decide +kernel
    rw [e] at h
    exact (Option.some.inj h).symm
  subst hc
  intro r hr hh w u
  simp only [drawSamples, List.mem_map, List.mem_range] at hr
  obtain ⟨i, hi, rfl⟩ := hr
  have h1 := axes_ok hS (.same (.det ⟨false, 1⟩)) n g i hi
  have h2 := axes_ok hS (.same (.det ⟨true, 0⟩)) n (drawAxes S (.same (.det ⟨false, 1⟩)) n g).2 i hi
  have h3 := fun g => sample_ok hS (.det ⟨false, 0⟩) n g i hi 0
  apply AffineCv2.neutral_keeps
  · exact h1
  · exact h3 _
  · exact h3 _
  · simp only [AffineCv2.px, isFloat, axisX, Bool.not_true, Bool.false_eq_true, if_false]; exact h2.1
  · simp only [AffineCv2.px, isFloat, axisY, Bool.not_true, Bool.false_eq_true, if_false]; exact h2.2

/-- It is accepted. -/
example : (init noArgs).isSome = true := by decide +kernel

end Imgaug.Cv2Args
