import Verif.Spec.AffineArgs
import Verif.Props.Handle
import Verif.Props.Affine
/-! Helper lemmas for Props/AffineArgs.lean. -/
namespace Imgaug.AffineArgs
open Imgaug Imgaug.Params

theorem continuous_supports (P : Values ℚ) (v : Val) (vr : VR) (d : Handled) (u : ℚ) (h : handleContinuous v vr true true = some d)
    (hf : Val.Filled v) (hu : Supports P d u) : Allows P v u := by
  rcases v with a | l | l
  · cases a with
    | num n =>
      simp only [handleContinuous] at h
      split_ifs at h
      cases h
      exact hu
    | par i => cases h; exact hu
    | bool b => cases h
    | other => cases h
  · simp only [handleContinuous, if_true] at h
    cases e : l.mapM asNum with
    | none => rw [e] at h; cases h
    | some ns =>
      rw [e] at h
      have hl := (mapM_num l ns).mp e
      match ns, h, hl with
      | [a, b], h, hl =>
        simp only at h
        split_ifs at h
        cases h
        exact ⟨a, b, hl, hu⟩
  · simp only [handleContinuous, if_true] at h
    cases e : l.mapM asNum with
    | none => rw [e] at h; cases h
    | some ns =>
      rw [e] at h
      have hl := (mapM_num l ns).mp e
      simp only at h
      split_ifs at h
      cases h
      have hne : ns ≠ [] := by rintro rfl; exact hf (by rw [hl]; rfl)
      obtain ⟨n, hn, rfl⟩ := hu hne
      exact ⟨n, by rw [hl]; exact List.mem_map_of_mem hn, rfl⟩

theorem pyInt_of_intNum {n : Num} (h : ∃ z : Int, n.q = z) : (pyInt n.q : ℚ) = n.q := by
  obtain ⟨z, hz⟩ := h
  rw [hz, Dtypes.pyInt_intCast]

theorem mapM_int (l : List Atom) (ns : List Num) (h : l.mapM (asNumOrInt false) = some ns) :
    l = ns.map .num ∧ ∀ n ∈ ns, n.isInt = true := by
  induction l generalizing ns with
  | nil => simp at h; subst h; simp
  | cons a t ih =>
    cases ha : asNumOrInt false a with
    | none => simp [ha] at h
    | some n =>
      cases ht : t.mapM (asNumOrInt false) with
      | none => simp [ha, ht] at h
      | some r =>
        simp [ha, ht] at h
        subst h
        obtain ⟨h1, h2⟩ := ih r ht
        cases a with
        | num m =>
          simp only [asNumOrInt, Bool.false_or] at ha
          split_ifs at ha with hm
          cases ha
          exact ⟨by rw [h1]; rfl, by simpa [hm] using h2⟩
        | _ => cases ha

theorem discrete_supports' (P : Values ℚ) (v : Val) (vr : VR) (d : Handled) (u : ℚ) (h : handleDiscrete v vr true true false = some d)
    (hf : Val.Filled v) (hi : IntNums v) (hu : Supports P d u) : Allows P v u := by
  rcases v with a | l | l
  · cases a with
    | num n =>
      simp only [handleDiscrete, Bool.false_or] at h
      split_ifs at h with h1 h2
      cases h
      exact Eq.trans hu (pyInt_of_intNum (hi n (by simp [numbers]) h1))
    | par i => cases h; exact hu
    | bool b => cases h
    | other => cases h
  · simp only [handleDiscrete, if_true] at h
    cases e : l.mapM (asNumOrInt false) with
    | none => rw [e] at h; cases h
    | some ns =>
      rw [e] at h
      obtain ⟨hl, hint⟩ := mapM_int l ns e
      match ns, h, hl, hint with
      | [a, b], h, hl, hint =>
        simp only at h
        split_ifs at h
        cases h
        obtain ⟨z, rfl, h1, h2⟩ := hu
        have ea := pyInt_of_intNum (hi a (by simp [numbers, hl]) (hint a (by simp)))
        have eb := pyInt_of_intNum (hi b (by simp [numbers, hl]) (hint b (by simp)))
        refine ⟨a, b, hl, ?_, ?_⟩
        · rw [← ea, ← eb]; exact_mod_cast h1
        · rw [← ea, ← eb]; exact_mod_cast h2
  · simp only [handleDiscrete, if_true] at h
    cases e : l.mapM (asNumOrInt false) with
    | none => rw [e] at h; cases h
    | some ns =>
      rw [e] at h
      obtain ⟨hl, hint⟩ := mapM_int l ns e
      simp only at h
      split_ifs at h
      cases h
      have hne : ns ≠ [] := by rintro rfl; exact hf (by rw [hl]; rfl)
      obtain ⟨z, hz, rfl⟩ := hu (by simpa using hne)
      obtain ⟨n, hn, rfl⟩ := List.mem_map.1 hz
      exact ⟨n, by rw [hl]; exact List.mem_map_of_mem hn,
        pyInt_of_intNum (hi n (by simp [numbers, hl, hn]) (hint n hn))⟩

theorem discrete_supports (P : Values ℚ) (v : Val) (d : Handled) (u : ℚ) (h : discrete v = some d)
    (hf : Val.Filled v) (hi : IntNums v) (hu : Supports P d u) : Allows P v u := discrete_supports' P v .none d u h hf hi hu

/-- The parameter of an axis. -/
def Axes.on : Axes → Axis → Handled
  | .same d, _ => d
  | .each x _, .x => x
  | .each _ y, .y => y

theorem perAxis_supports (P : Values ℚ) (f : Val → Option Handled) (default : Val) (neutral : ℚ) (a : Arg) (ax : Axes) (k : Axis) (u : ℚ)
    (h : perAxis f default a = some ax) (hu : Supports P (ax.on k) u)
    (hd : ∀ d, f default = some d → Supports P d u → u = neutral)
    (hf : ∀ v, a.on k = some v → ∀ d, f v = some d → Supports P d u → Allows P v u) : a.Allows P neutral k u := by
  cases a with
  | none => cases h
  | val v =>
    obtain ⟨d, hd', rfl⟩ := Option.map_eq_some_iff.1 h
    exact hf v rfl d hd' hu
  | dict x y =>
    obtain ⟨⟨dx, dy⟩, hxy, rfl⟩ := Option.map_eq_some_iff.1 h
    unfold twoKeys at hxy
    split_ifs at hxy with hn
    obtain ⟨d1, h1, hxy⟩ := Option.bind_eq_some_iff.1 hxy
    obtain ⟨d2, h2, hxy⟩ := Option.map_eq_some_iff.1 hxy
    cases hxy
    cases k with
    | x =>
      cases x with
      | none => exact hd _ h1 hu
      | some v => exact hf v rfl _ h1 hu
    | y =>
      cases y with
      | none => exact hd _ h2 hu
      | some v => exact hf v rfl _ h2 hu

variable {σ : Type}

theorem getD_mem {β : Type} {l : List β} {n i : Nat} (hl : l.length = n) (hi : i < n) (z : β) : l.getD i z ∈ l := by
  have : i < l.length := by omega
  simp [List.getD, List.getElem?_eq_getElem this]

theorem sample_ok {α β : Type} {Sup : α → β → Prop} {S : Sampler σ α β} (hS : Ok Sup S) (d : α) (n : Nat) (g : σ) (i : Nat) (hi : i < n) (z : β) :
    Sup d ((S d n g).1.getD i z) := hS.values d n g _ (getD_mem (hS.length d n g) hi z)

theorem axes_ok {P : Values ℚ} {S : Sampler σ Handled ℚ} (hS : Ok (Supports P) S) (a : Axes) (n : Nat) (g : σ) (i : Nat) (hi : i < n) :
    Supports P (a.on .x) ((drawAxes S a n g).1.1.getD i 0) ∧ Supports P (a.on .y) ((drawAxes S a n g).1.2.getD i 0) := by
  cases a with
  | same d => exact ⟨sample_ok hS d n g i hi 0, sample_ok hS d n g i hi 0⟩
  | each x y => exact ⟨sample_ok hS x n g i hi 0, sample_ok hS y n _ i hi 0⟩

theorem shear_supports {P : Values ℚ} {S : Sampler σ Handled ℚ} (hS : Ok (Supports P) S) (a : Arg) (s : Shear) (h : shearArg a = some s)
    (hf : a.Filled) (n : Nat) (g : σ) (i : Nat) (hi : i < n) :
    a.Allows P 0 .x ((drawShear S s n g).1.1.getD i 0) ∧
    (¬ a.IsNumber → a.Allows P 0 .y ((drawShear S s n g).1.2.getD i 0)) ∧
    (a.IsNumber → (drawShear S s n g).1.2.getD i 0 = 0) := by
  have hd : ∀ (u : ℚ) d, continuous (int 0) = some d → Supports P d u → u = 0 := by
    intro u d hd hu
    cases hd
    simpa [Supports] using hu
  have hv : ∀ v, Val.Filled v → ∀ (u : ℚ) d, continuous v = some d → Supports P d u → Allows P v u :=
    fun v hv u d hd hu => continuous_supports P v .none d u hd hv hu
  cases a with
  | none => cases h
  | dict x y =>
    obtain ⟨⟨dx, dy⟩, hxy, rfl⟩ := Option.map_eq_some_iff.1 h
    have hp : perAxis continuous (int 0) (.dict x y) = some (.each dx dy) := by simp [perAxis, hxy]
    refine ⟨?_, fun _ => ?_, ?_⟩
    · exact perAxis_supports P continuous (int 0) 0 _ _ .x _ hp (sample_ok hS dx n g i hi 0) (hd _) (fun v hv' => hv v (hf .x v hv') _)
    · exact perAxis_supports P continuous (int 0) 0 _ _ .y _ hp (sample_ok hS dy n _ i hi 0) (hd _) (fun v hv' => hv v (hf .y v hv') _)
    · rintro ⟨m, hm⟩; cases hm
  | val v =>
    have hfv := hf .x v rfl
    by_cases hn : ∃ m, v = .atom (.num m)
    · obtain ⟨m, rfl⟩ := hn
      obtain ⟨d, hd', rfl⟩ := Option.map_eq_some_iff.1 (show (continuous (.atom (.num m))).map Shear.xOnly = some s from h)
      refine ⟨hv _ hfv _ d hd' (sample_ok hS d n g i hi 0), fun hc => absurd ⟨m, rfl⟩ hc, fun _ => ?_⟩
      simp only [drawShear, List.getD, List.getElem?_map]
      cases (S d n g).1[i]? <;> rfl
    · have h' : (continuous v).map Shear.both = some s := by
        rcases v with a | l | l
        · cases a with
          | num m => exact absurd ⟨m, rfl⟩ hn
          | _ => exact h
        · exact h
        · exact h
      obtain ⟨d, hd', rfl⟩ := Option.map_eq_some_iff.1 h'
      refine ⟨hv _ hfv _ d hd' (sample_ok hS d n g i hi 0), fun _ => hv _ hfv _ d hd' (sample_ok hS d n g i hi 0), ?_⟩
      rintro ⟨m, hm⟩
      cases hm
      exact absurd ⟨m, rfl⟩ hn

theorem shearArg_both (v : Val) (hn : ¬ ∃ m, v = .atom (.num m)) : shearArg (.val v) = (continuous v).map .both := by
  rcases v with a | l | l
  · cases a with
    | num m => exact absurd ⟨m, rfl⟩ hn
    | _ => rfl
  · rfl
  · rfl

/-- What the constructor does. -/
theorem build_some (a : Args) (c : Conf) (h : build a = some c) :
    a.backend ≠ .other ∧ orderArg a.backend a.order = some c.order ∧ cvalArg a.cval = some c.cval ∧ modeArg a.mode = some c.mode ∧
    scaleArg a.scale = some c.scale ∧ translateArg a.translatePx a.translatePercent = some (c.translate, c.percent) ∧
    (∃ v, a.rotate = some v ∧ continuous v = some c.rotate) ∧ shearArg a.shear = some c.shear := by
  unfold build at h
  split_ifs at h with hb
  simp only [Option.bind_eq_bind, Option.bind_eq_some_iff, Option.pure_def, Option.some.injEq] at h
  obtain ⟨o, ho, cv, hcv, m, hm, s, hs, ⟨t, pc⟩, ht, r, ⟨v, hv, hr⟩, sh, hsh, rfl⟩ := h
  exact ⟨hb, ho, hcv, hm, hs, ht, ⟨v, hv, hr⟩, hsh⟩

theorem build_isSome (a : Args) : (build a).isSome = true ↔
    a.backend ≠ .other ∧ (orderArg a.backend a.order).isSome ∧ (cvalArg a.cval).isSome ∧ (modeArg a.mode).isSome ∧
    (scaleArg a.scale).isSome ∧ (translateArg a.translatePx a.translatePercent).isSome ∧
    (a.rotate.bind continuous).isSome ∧ (shearArg a.shear).isSome := by
  unfold build
  split_ifs with hb
  · simp [hb]
  · cases orderArg a.backend a.order <;> cases cvalArg a.cval <;> cases modeArg a.mode <;> cases scaleArg a.scale <;>
      cases translateArg a.translatePx a.translatePercent <;> cases a.rotate.bind continuous <;> cases shearArg a.shear <;>
      simp [hb]

theorem twoKeys_isSome (f : Val → Option Handled) (vr : VR) (fl : Bool) (d : Val) (x y : Option Val)
    (hf : ∀ v, (f v).isSome = true ↔ NumOk vr fl v) (hd : (f d).isSome = true) :
    (twoKeys f d x y).isSome = true ↔ Arg.NumOk vr fl (.dict x y) := by
  have key : (x.isNone && y.isNone) = false → ((twoKeys f d x y).isSome = true ↔ (f (x.getD d)).isSome = true ∧ (f (y.getD d)).isSome = true) := by
    intro h
    unfold twoKeys
    rw [h]
    cases f (x.getD d) <;> cases f (y.getD d) <;> simp
  have on1 : ∀ z : Option Val, (f (z.getD d)).isSome = true ↔ ∀ v, z = some v → NumOk vr fl v := by
    intro z
    cases z with
    | none => simp [hd]
    | some v => simp [hf]
  by_cases hn : (x.isNone && y.isNone) = false
  · rw [key hn, on1 x, on1 y]
    constructor
    · rintro ⟨h1, h2⟩
      refine ⟨by rintro ⟨⟩; simp at hn, fun k v hv => ?_⟩
      cases k with
      | x => exact h1 v hv
      | y => exact h2 v hv
    · rintro ⟨_, h⟩
      exact ⟨fun v hv => h .x v hv, fun v hv => h .y v hv⟩
  · have hxy : x = none ∧ y = none := by simpa using hn
    obtain ⟨rfl, rfl⟩ := hxy
    simp [twoKeys, Arg.NumOk]

theorem orderOk_iff (b : Backend) (z : Int) : orderOk b z = true ↔ OrderOk b z := by
  unfold orderOk OrderOk
  cases b <;> simp <;> omega

theorem num_ext {n : Num} (hi : n.isInt = true) {z : Int} (hz : n.q = z) : n = ⟨true, z⟩ := by
  cases n; simp_all

theorem order_isSome (b : Backend) (o : AllOr) (hi : ∀ v, o = .val v → IntNums v) : (orderArg b o).isSome = true ↔
    ∀ v, o = .val v → (∃ i, v = .atom (.par i)) ∨ (∃ z, v = int z ∧ OrderOk b z) ∨
      ∃ l : List Int, v = .iter (l.map (fun (z : Int) => .num ⟨true, z⟩)) ∧ ∀ z ∈ l, OrderOk b z := by
  cases o with
  | all => simp [orderArg]
  | val v =>
    have hv := hi v rfl
    simp only [AllOr.val.injEq, forall_eq']
    rcases v with a | l | l
    · cases a with
      | par i => simp [orderArg]
      | bool c => simp [orderArg, int]
      | other => simp [orderArg, int]
      | num n =>
        have e : (orderArg b (.val (.atom (.num n)))).isSome = (n.isInt && orderOk b (pyInt n.q)) := by
          simp only [orderArg]
          cases (n.isInt && orderOk b (pyInt n.q)) <;> rfl
        rw [e, Bool.and_eq_true, orderOk_iff]
        constructor
        · rintro ⟨h1, h2⟩
          obtain ⟨z, hz⟩ := hv n (by simp [numbers]) h1
          rw [hz, Dtypes.pyInt_intCast] at h2
          exact Or.inr (Or.inl ⟨z, by rw [num_ext h1 hz]; rfl, h2⟩)
        · rintro (⟨i, h⟩ | ⟨z, h, hz⟩ | ⟨l, h, _⟩)
          · cases h
          · cases h
            exact ⟨rfl, by simpa [Dtypes.pyInt_intCast] using hz⟩
          · cases h
    · simp [orderArg, int]
    · have back : ∀ zs : List Int, (zs.map (fun z : Int => Atom.num ⟨true, z⟩)).mapM (asNumOrInt false) = some (zs.map (fun z : Int => ⟨true, z⟩)) := by
        intro zs
        induction zs with
        | nil => rfl
        | cons z t ih => simp [asNumOrInt, ih]
      simp only [orderArg]
      constructor
      · intro h
        cases e : l.mapM (asNumOrInt false) with
        | none => rw [e] at h; cases h
        | some ns =>
          rw [e] at h
          simp only [Option.bind_some] at h
          by_cases hall : (ns.all fun n => orderOk b (pyInt n.q)) = true
          swap
          · rw [if_neg hall] at h; cases h
          obtain ⟨hl, hint⟩ := mapM_int l ns e
          have hn : ∀ n ∈ ns, n = ⟨true, (pyInt n.q : Int)⟩ := by
            intro n hn
            obtain ⟨z, hz⟩ := hv n (by simp [numbers, hl, hn]) (hint n hn)
            have := num_ext (hint n hn) hz
            rw [hz, Dtypes.pyInt_intCast]
            exact this
          refine Or.inr (Or.inr ⟨ns.map (fun n => pyInt n.q), ?_, ?_⟩)
          · rw [hl, List.map_map]
            congr 1
            apply List.map_congr_left
            intro n hn'
            simp only [Function.comp]
            rw [← hn n hn']
          · intro z hz
            obtain ⟨n, hn', rfl⟩ := List.mem_map.1 hz
            exact (orderOk_iff b _).1 (List.all_eq_true.1 hall n hn')
      · rintro (⟨i, h⟩ | ⟨z, h, hz⟩ | ⟨zs, h, hz⟩)
        · cases h
        · cases h
        · cases h
          rw [back]
          simp only [Option.bind_some]
          rw [if_pos]
          · rfl
          · simp only [List.all_map, List.all_eq_true, Function.comp, Dtypes.pyInt_intCast]
            exact fun z hz' => (orderOk_iff b z).2 (hz z hz')

theorem mode_isSome (m : ModeArg) : (modeArg m).isSome = true ↔ m ≠ .other ∧ ∀ l, m = .list l → none ∉ l := by
  cases m with
  | list l =>
    simp only [modeArg, Option.isSome_map, ne_eq, reduceCtorEq, not_false_eq_true, ModeArg.list.injEq, forall_eq', true_and]
    induction l with
    | nil => simp
    | cons a t ih =>
      cases a with
      | none => simp
      | some s =>
        simp only [List.mapM_cons, id, Option.bind_eq_bind, Option.bind_some, Option.pure_def, List.mem_cons, reduceCtorEq, false_or]
        rw [← ih]
        cases t.mapM id <;> simp
  | _ => simp [modeArg]

theorem translate_percent (p : Arg) (h : p ≠ .none) : translateArg .none p = (perAxis continuous (int 0) p).map (fun a => (a, true)) := by
  cases p with
  | none => exact absurd rfl h
  | _ => rfl

theorem translate_px (p : Arg) (h : p ≠ .none) : translateArg p .none = (perAxis discrete (int 0) p).map (fun a => (a, false)) := by
  cases p with
  | none => exact absurd rfl h
  | _ => rfl

theorem translate_both (p q : Arg) (h : p ≠ .none) (h' : q ≠ .none) : translateArg p q = none := by
  cases p <;> cases q <;> first | rfl | exact absurd rfl h | exact absurd rfl h'

theorem det_zero {P : Values ℚ} {f : Val → Option Handled} {v : Val} {b : Bool} {z : ℚ} (h : f v = some (.det ⟨b, z⟩)) (u : ℚ) :
    ∀ d, f v = some d → Supports P d u → u = z := by
  intro d hd hu
  rw [h] at hd
  cases hd
  exact hu

theorem translate_supports (P : Values ℚ) (px pc : Arg) (t : Axes) (b : Bool) (h : translateArg px pc = some (t, b))
    (hx : px.Filled) (hc : pc.Filled) (hi : ∀ k v, px.on k = some v → IntNums v) :
    (b = true ↔ pc ≠ .none) ∧ ∀ (k : Axis) (u : ℚ), Supports P (t.on k) u → (if pc = .none then px else pc).Allows P 0 k u := by
  have zc : continuous (int 0) = some (.det ⟨true, ((0 : Int) : ℚ)⟩) := rfl
  have zd : discrete (int 0) = some (.det ⟨true, ((0 : Int) : ℚ)⟩) := by decide +kernel
  by_cases hpc : pc = .none
  · subst hpc
    rw [if_pos rfl]
    by_cases hpx : px = .none
    · subst hpx
      have : translateArg .none .none = some (.same (.det ⟨true, ((0 : Int) : ℚ)⟩), false) := by
        simp only [translateArg, perAxis, zd, Option.map_some]
      rw [this] at h
      cases h
      refine ⟨by simp, fun k u hu => ?_⟩
      simpa [Supports, Axes.on, Arg.Allows, Arg.on] using hu
    · rw [translate_px px hpx] at h
      obtain ⟨a, ha, hab⟩ := Option.map_eq_some_iff.1 h
      cases hab
      refine ⟨by simp, fun k u hu => ?_⟩
      refine perAxis_supports P discrete (int 0) 0 px t k u ha hu (fun d hd hs => by simpa using det_zero zd u d hd hs) ?_
      intro v hv d hd hs
      exact discrete_supports P v d u hd (hx k v hv) (hi k v hv) hs
  · rw [if_neg hpc]
    by_cases hpx : px = .none
    · subst hpx
      rw [translate_percent pc hpc] at h
      obtain ⟨a, ha, hab⟩ := Option.map_eq_some_iff.1 h
      cases hab
      refine ⟨by simp [hpc], fun k u hu => ?_⟩
      refine perAxis_supports P continuous (int 0) 0 pc t k u ha hu (fun d hd hs => by simpa using det_zero zc u d hd hs) ?_
      intro v hv d hd hs
      exact continuous_supports P v .none d u hd (hc k v hv) hs
    · rw [translate_both px pc hpx hpc] at h
      cases h

theorem discrete_whole (P : Values ℚ) (v : Val) {vr : VR} (d : Handled) (u : ℚ) (h : handleDiscrete v vr true true false = some d) (hf : Val.Filled v)
    (hp : ∀ i, v ≠ .atom (.par i)) (hu : Supports P d u) : ∃ z : Int, u = z := by
  rcases v with a | l | l
  · cases a with
    | num n =>
      simp only [handleDiscrete, Bool.false_or] at h
      split_ifs at h with h1 h2
      cases h
      exact ⟨_, hu⟩
    | par i => exact absurd rfl (hp i)
    | bool b => cases h
    | other => cases h
  · simp only [handleDiscrete, if_true] at h
    cases e : l.mapM (asNumOrInt false) with
    | none => rw [e] at h; cases h
    | some ns =>
      rw [e] at h
      match ns, h with
      | [a, b], h =>
        simp only at h
        split_ifs at h
        cases h
        obtain ⟨z, rfl, _⟩ := hu
        exact ⟨z, rfl⟩
  · simp only [handleDiscrete, if_true] at h
    cases e : l.mapM (asNumOrInt false) with
    | none => rw [e] at h; cases h
    | some ns =>
      rw [e] at h
      obtain ⟨hl, _⟩ := mapM_int l ns e
      simp only at h
      split_ifs at h
      cases h
      have hne : ns ≠ [] := by rintro rfl; exact hf (by rw [hl]; rfl)
      obtain ⟨z, _, rfl⟩ := hu (by simpa using hne)
      exact ⟨z, rfl⟩

theorem translate_whole (P : Values ℚ) (px : Arg) (t : Axes) (b : Bool) (h : translateArg px .none = some (t, b))
    (hx : px.Filled) (hp : ∀ k i, px.on k ≠ some (.atom (.par i))) :
    ∀ (k : Axis) (u : ℚ), Supports P (t.on k) u → ∃ z : Int, u = z := by
  intro k u hu
  have zd : discrete (int 0) = some (.det ⟨true, ((0 : Int) : ℚ)⟩) := by decide +kernel
  cases px with
  | none =>
    have : translateArg .none .none = some (.same (.det ⟨true, ((0 : Int) : ℚ)⟩), false) := by
      simp only [translateArg, perAxis, zd, Option.map_some]
    rw [this] at h
    cases h
    exact ⟨0, hu⟩
  | val v =>
    obtain ⟨a, ha, hab⟩ := Option.map_eq_some_iff.1 h
    cases hab
    obtain ⟨d, hd, rfl⟩ := Option.map_eq_some_iff.1 ha
    exact discrete_whole P v d u hd (hx .x v rfl) (fun i hi => hp .x i (by rw [hi]; rfl)) hu
  | dict x y =>
    obtain ⟨a, ha, hab⟩ := Option.map_eq_some_iff.1 h
    cases hab
    obtain ⟨⟨dx, dy⟩, hxy, rfl⟩ := Option.map_eq_some_iff.1 ha
    unfold twoKeys at hxy
    split_ifs at hxy with hn
    obtain ⟨d1, h1, hxy⟩ := Option.bind_eq_some_iff.1 hxy
    obtain ⟨d2, h2, hxy⟩ := Option.map_eq_some_iff.1 hxy
    cases hxy
    have one : ∀ (z : Option Val) (k : Axis) (d : Handled), (Arg.dict x y).on k = z → discrete (z.getD (int 0)) = some d → Supports P d u →
        ∃ z : Int, u = z := by
      intro z k d hz hd hs
      cases z with
      | none => exact ⟨0, det_zero zd u d hd hs⟩
      | some v => exact discrete_whole P v d u hd (hx k v hz) (fun i hi => hp k i (by rw [hz, hi])) hs
    cases k with
    | x => exact one x .x _ rfl h1 hu
    | y => exact one y .y _ rfl h2 hu

theorem scale_supports (P : Values ℚ) (a : Arg) (s : Axes) (h : scaleArg (if a = .none then .val (float 1) else a) = some s) (hf : a.Filled) :
    ∀ (k : Axis) (u : ℚ), Supports P (s.on k) u → a.Allows P 1 k u := by
  intro k u hu
  have one : handleContinuous (float 1) (.interval (some (1 / 10000)) none) true true = some (.det ⟨false, 1⟩) := by decide +kernel
  split_ifs at h with ha
  · subst ha
    have : scaleArg (.val (float 1)) = some (.same (.det ⟨false, 1⟩)) := by simp only [scaleArg, perAxis, one, Option.map_some]
    rw [this] at h
    cases h
    exact hu
  · refine perAxis_supports P _ (float 1) 1 a s k u h hu (fun d hd hs => det_zero (P := P) (f := fun v => handleContinuous v (.interval (some (1 / 10000)) none) true true) one u d hd hs) ?_
    intro v hv d hd hs
    exact continuous_supports P v _ d u hd (hf k v hv) hs

theorem shear_filled {P : Values ℚ} {S : Sampler σ Handled ℚ} (hS : Ok (Supports P) S) (a : Arg) (s : Shear)
    (h : shearArg (if a = .none then .val (float 0) else a) = some s) (hf : a.Filled) (n : Nat) (g : σ) (i : Nat) (hi : i < n) :
    a.Allows P 0 .x ((drawShear S s n g).1.1.getD i 0) ∧
    (¬ a.IsNumber → a.Allows P 0 .y ((drawShear S s n g).1.2.getD i 0)) ∧
    (a.IsNumber → (drawShear S s n g).1.2.getD i 0 = 0) := by
  split_ifs at h with ha
  · subst ha
    have hz := shear_supports hS (.val (float 0)) s h (by intro k v hv; cases hv; simp [Val.Filled, float]) n g i hi
    refine ⟨hz.1, fun _ => hz.2.2 ⟨_, rfl⟩, ?_⟩
    rintro ⟨m, hm⟩
    cases hm
  · exact shear_supports hS a s h hf n g i hi

theorem row3_mem {P : Values ℚ} {S : Sampler σ Handled ℚ} (hS : Ok (Supports P) S) (d : Handled) (n : Nat) (g : σ) (i : Nat) (hi : i < n) (u : ℚ)
    (hu : u ∈ row3 (S d (n * 3) g).1 i) : u ∈ (S d (n * 3) g).1 := by
  have hl := hS.length d (n * 3) g
  simp only [row3, List.mem_cons, List.not_mem_nil, or_false] at hu
  rcases hu with rfl | rfl | rfl
  · exact getD_mem hl (by omega) 0
  · exact getD_mem hl (by omega) 0
  · exact getD_mem hl (by omega) 0

theorem cval_supports (P : Values ℚ) (a : AllOr) (d : Handled) (h : cvalArg a = some d) (hf : a ≠ .val (.iter [])) (u : ℚ)
    (hu : Supports P d u) : CvalAllowed P a u := by
  cases a with
  | all =>
    cases h
    simpa [Supports, CvalAllowed] using hu
  | val v => exact continuous_supports P v .none d u h (fun hv => hf (by rw [hv])) hu

theorem mapM_id {β : Type} (l : List (Option β)) (r : List β) (h : l.mapM id = some r) : l = r.map some := by
  induction l generalizing r with
  | nil => simp at h; subst h; rfl
  | cons a t ih =>
    cases a with
    | none => simp at h
    | some s =>
      cases ht : t.mapM id with
      | none => simp [ht] at h
      | some q =>
        simp [ht] at h
        subst h
        rw [ih q ht]
        rfl

theorem mode_supports (Q : Values String) (m : ModeArg) (d : ModeDist) (h : modeArg m = some d) (hf : m ≠ .list []) (u : String)
    (hu : ModeDist.Supports Q d u) : ModeAllowed Q m u := by
  cases m with
  | all => cases h; exact hu (by simp)
  | str s => cases h; exact hu
  | par i => cases h; exact hu
  | other => cases h
  | list l =>
    obtain ⟨r, hr, rfl⟩ := Option.map_eq_some_iff.1 h
    have hl := mapM_id l r hr
    subst hl
    have hne : r ≠ [] := by rintro rfl; exact hf rfl
    exact List.mem_map_of_mem (hu hne)

theorem order_supports (P : Values ℚ) (b : Backend) (o : AllOr) (d : Handled) (_hb : b ≠ .other) (h : orderArg b o = some d)
    (hf : o ≠ .val (.iter [])) (hi : ∀ v, o = .val v → IntNums v) (u : ℚ) (hu : Supports P d u) : OrderAllowed P b o u := by
  cases o with
  | all =>
    cases h
    obtain ⟨z, hz, rfl⟩ := hu (by split_ifs <;> simp)
    split_ifs at hz with hbb
    · simp only [List.mem_cons, List.not_mem_nil, or_false] at hz
      rcases hz with rfl | rfl | rfl <;> simp [OrderAllowed]
    · have : b = .skimage := by cases b <;> simp_all
      simp only [List.mem_cons, List.not_mem_nil, or_false] at hz
      rcases hz with rfl | rfl | rfl | rfl | rfl <;> simp [OrderAllowed, this]
  | val v =>
    rcases v with a | l | l
    · cases a with
      | par i => cases h; exact hu
      | bool c => cases h
      | other => cases h
      | num n =>
        simp only [orderArg] at h
        split_ifs at h
        cases h
        exact hu
    · cases h
    · simp only [orderArg] at h
      cases e : l.mapM (asNumOrInt false) with
      | none => rw [e] at h; cases h
      | some ns =>
        rw [e] at h
        simp only [Option.bind_some] at h
        split_ifs at h
        cases h
        obtain ⟨hl, hint⟩ := mapM_int l ns e
        have hne : ns ≠ [] := by rintro rfl; exact hf (by rw [hl]; rfl)
        obtain ⟨z, hz, rfl⟩ := hu (by simpa using hne)
        obtain ⟨n, hn, rfl⟩ := List.mem_map.1 hz
        exact ⟨n, by rw [hl]; exact List.mem_map_of_mem hn,
          pyInt_of_intNum (hi _ rfl n (by simp [numbers, hl, hn]) (hint n hn))⟩

theorem uniform_bounds {P : Values ℚ} {i j : Bool} {a b u : ℚ} (h : Supports P (.uniform ⟨i, a⟩ ⟨j, b⟩) u) (hab : a ≤ b) : a ≤ u ∧ u ≤ b := by
  simpa [Supports, min_eq_left hab, max_eq_right hab] using h

theorem alternating_ok : Ok (Supports (fun _ v => v = 0)) alternating := by
  refine ⟨by intro d n g; simp [alternating], ?_⟩
  intro d n g v hv
  simp only [alternating, List.mem_map, List.mem_range] at hv
  obtain ⟨k, _, rfl⟩ := hv
  have pick : ∀ (l : List ℚ), l ≠ [] → l.getD ((g + k) % l.length) 0 ∈ l := by
    intro l hl
    exact getD_mem rfl (Nat.mod_lt _ (List.length_pos_iff.2 hl)) 0
  cases d with
  | det m => rfl
  | uniform a b => simp only [Supports]; split_ifs <;> simp
  | discreteUniform a b =>
    simp only [Supports]
    split_ifs
    · exact ⟨a, rfl, by simp, by simp⟩
    · exact ⟨b, rfl, by simp, by simp⟩
  | choice l =>
    intro hl
    have := pick (l.map (·.q)) (by simpa using hl)
    rw [List.length_map] at this
    obtain ⟨m, hm, he⟩ := List.mem_map.1 this
    exact ⟨m, hm, he.symm⟩
  | choiceInt l =>
    intro hl
    have := pick (l.map (fun z : Int => (z : ℚ))) (by simpa using hl)
    rw [List.length_map] at this
    obtain ⟨m, hm, he⟩ := List.mem_map.1 this
    exact ⟨m, hm, he.symm⟩
  | par i => rfl
  | _ => exact Or.inl rfl

theorem alternatingModes_ok : Ok (ModeDist.Supports (fun _ s => s = "edge")) alternatingModes := by
  refine ⟨by intro d n g; simp [alternatingModes], ?_⟩
  intro d n g v hv
  simp only [alternatingModes, List.mem_map, List.mem_range] at hv
  obtain ⟨k, _, rfl⟩ := hv
  cases d with
  | det s => rfl
  | choice l => exact fun hl => getD_mem rfl (Nat.mod_lt _ (List.length_pos_iff.2 hl)) ""
  | par i => rfl

end Imgaug.AffineArgs
