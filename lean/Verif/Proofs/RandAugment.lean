import Verif.Spec.RandAugment
import Verif.Props.Params
/-! Lemmas for C114. -/
namespace Imgaug.RandAugment
open Imgaug Imgaug.Dtypes Imgaug.Params
variable {σ : Type}

theorem det_sample {E : Env σ} {isInt : Bool} {c : ℚ} {s s' : σ} {v : ℚ} {d : DType} (hc : Holds (if isInt then i32 else f32) c)
    (h : drawSample E (deterministic isInt c) s = some (v, d, s')) : v = c ∧ d = if isInt then i32 else f32 := by
  simp only [drawSample, drawSamples, deterministic_constant isInt c hc, Option.map_some, Option.bind_some] at h
  simp only [List.prod_cons, List.prod_nil, mul_one, List.replicate_one, List.getElem?_cons_zero, Option.map_some, Option.some.injEq, Prod.mk.injEq] at h
  exact ⟨h.1.symm, h.2.1.symm⟩

theorem holds_f32 (c : ℚ) (h0 : -1000 ≤ c) (h1 : c ≤ 1000) : Holds (if false = true then i32 else f32) c := by
  have e1 : lo f32 ≤ -1000 := by decide +kernel
  have e2 : (1000 : Int) ≤ hi f32 := by decide +kernel
  refine ⟨?_, ?_, fun h => absurd rfl h⟩
  · have : ((lo f32 : Int) : ℚ) ≤ -1000 := by exact_mod_cast e1
    simpa using le_trans this h0
  · have : (1000 : ℚ) ≤ ((hi f32 : Int) : ℚ) := by exact_mod_cast e2
    simpa using le_trans h1 this

theorem holds_i32 (n : Int) (h0 : -1000 ≤ n) (h1 : n ≤ 1000) : Holds (if true = true then i32 else f32) (n : ℚ) := by
  simp only [if_true]
  refine ⟨?_, ?_, fun _ => ⟨n, rfl⟩⟩
  · rw [i32_lo]; exact_mod_cast (by omega : (-2147483648 : Int) ≤ n)
  · rw [i32_hi]; exact_mod_cast (by omega : n ≤ (2147483647 : Int))

theorem float_follows (E : Env σ) (m : Param σ) (c : ℚ) (h0 : -1000 ≤ c / mMax) (h1 : c / mMax ≤ 1000) :
    Follows (floatParam E m c) m (fun k v => v = k * (c / mMax)) := by
  intro size s r s' h
  simp only [floatParam, multiply, arith, Option.bind_eq_some_iff] at h
  obtain ⟨⟨r0, s0⟩, e, h⟩ := h
  obtain ⟨s1, e1, -⟩ := drawSamples_some e
  have hb : ((true && !(deterministic false (c / mMax) : Param σ).isDet)) = false := rfl
  simp only [hb, Bool.false_eq_true, if_false, Option.map_eq_some_iff, Prod.mk.injEq] at h
  obtain ⟨⟨y, d, s2⟩, e2, h, -⟩ := h
  obtain ⟨rfl, -⟩ := det_sample (holds_f32 _ h0 h1) e2
  refine ⟨s, r0, s1, e1, ?_⟩
  intro i v hv
  rw [← h] at hv
  simp only [List.getElem?_map, Option.map_eq_some_iff] at hv
  obtain ⟨k, hk, rfl⟩ := hv
  exact ⟨k, hk, rfl⟩

theorem float_dt (E : Env σ) (m : Param σ) (hF : FloatProducts E m) (c : ℚ) (h0 : -1000 ≤ c / mMax) (h1 : c / mMax ≤ 1000) :
    HasDt (floatParam E m c) {f32, f64} := by
  intro size s r s' h
  simp only [floatParam, multiply, arith, Option.bind_eq_some_iff] at h
  obtain ⟨⟨r0, s0⟩, e, h⟩ := h
  obtain ⟨s1, e1, -⟩ := drawSamples_some e
  have hb : ((true && !(deterministic false (c / mMax) : Param σ).isDet)) = false := rfl
  simp only [hb, Bool.false_eq_true, if_false, Option.map_eq_some_iff, Prod.mk.injEq] at h
  obtain ⟨⟨y, d, s2⟩, e2, h, -⟩ := h
  obtain ⟨-, rfl⟩ := det_sample (holds_f32 _ h0 h1) e2
  rw [← h]
  have := hF _ _ _ _ e1
  simpa using this

theorem clip_follows (E : Env σ) (p m : Param σ) (R : ℚ → ℚ → Prop) (a b : ℚ) (h : Follows p m R) :
    Follows (clip E p (some a) (some b)) m (fun k v => ∃ w, R k w ∧ v = min (max w a) b) := by
  intro size s r s' hr
  simp only [Params.clip, Option.map_eq_some_iff, Prod.mk.injEq] at hr
  obtain ⟨⟨r0, s0⟩, e, hr, -⟩ := hr
  obtain ⟨s1, e1, -⟩ := drawSamples_some e
  obtain ⟨t0, l, t1, hm, hl⟩ := h _ _ _ _ e1
  refine ⟨t0, l, t1, hm, ?_⟩
  intro i v hv
  rw [← hr] at hv
  simp only [List.getElem?_map, Option.map_eq_some_iff] at hv
  obtain ⟨w, hw, rfl⟩ := hv
  obtain ⟨k, hk, hR⟩ := hl i w hw
  exact ⟨k, hk, w, hR, rfl⟩

theorem discretize_follows (E : Env σ) (p m : Param σ) (R : ℚ → ℚ → Prop) (hd : HasDt p {f32, f64}) (h : Follows p m R) :
    Follows (discretize E p false) m (fun k v => ∃ w dt, (dt = ⟨.i, 2⟩ ∨ dt = ⟨.i, 4⟩) ∧ R k w ∧ v = astype dt w) := by
  intro size s r s' hr
  simp only [discretize, Option.map_eq_some_iff] at hr
  obtain ⟨⟨r0, s0⟩, e, hr⟩ := hr
  obtain ⟨s1, e1, -⟩ := drawSamples_some e
  obtain ⟨t0, l, t1, hm, hl⟩ := h _ _ _ _ e1
  refine ⟨t0, l, t1, hm, ?_⟩
  have hdt := hd _ _ _ _ e1
  have hk : ¬ (r0.dt.kind ≠ .f) := by
    rcases hdt with h | h <;> rw [h] <;> decide
  have hdt' : (⟨.i, max (8 * r0.dt.bytes / 2) 8 / 8⟩ : DType) = ⟨.i, 2⟩ ∨ (⟨.i, max (8 * r0.dt.bytes / 2) 8 / 8⟩ : DType) = ⟨.i, 4⟩ := by
    rcases hdt with h | h <;> rw [h] <;> decide
  simp only [if_neg hk, Prod.mk.injEq] at hr
  intro i v hv
  rw [← hr.1] at hv
  simp only [List.getElem?_map, Option.map_eq_some_iff, Bool.false_eq_true, if_false] at hv
  obtain ⟨w, hw, rfl⟩ := hv
  obtain ⟨k, hk, hR⟩ := hl i w hw
  exact ⟨k, hk, w, _, hdt', hR, rfl⟩

theorem sign_follows (E : Env σ) (hE : E.Ok) (p m : Param σ) (R : ℚ → ℚ → Prop) (h : Follows p m R) :
    Follows (randomSign E p (1 / 2)) m (fun k v => ∃ w, R k w ∧ (v = |w| ∨ v = -|w|)) := by
  intro size s r s' hr
  simp only [randomSign, Option.bind_eq_some_iff] at hr
  obtain ⟨⟨r0, s0⟩, e, hr⟩ := hr
  obtain ⟨s1, e1, -⟩ := drawSamples_some e
  obtain ⟨t0, l, t1, hm, hl⟩ := h _ _ _ _ e1
  refine ⟨t0, l, t1, hm, ?_⟩
  split_ifs at hr
  simp only [Option.some.injEq, Prod.mk.injEq] at hr
  intro i v hv
  rw [← hr.1] at hv
  rw [List.getElem?_zipWith_eq_some] at hv
  obtain ⟨w, c, hw, hc, rfl⟩ := hv
  obtain ⟨k, hk, hR⟩ := hl i w hw
  have hc1 := (hE.binomial (1 / 2) size.prod s0 (by norm_num) (by norm_num)).2 c (List.mem_of_getElem? hc)
  refine ⟨k, hk, w, hR, ?_⟩
  rcases (by omega : c = 0 ∨ c = 1) with rfl | rfl
  · right; push_cast; ring
  · left; push_cast; ring

theorem arith_follows (E : Env σ) (op : ℚ → ℚ → ℚ) (isInt : Bool) (c : ℚ) (hc : Holds (if isInt then i32 else f32) c) (p m : Param σ)
    (hp : p.isDet = false) (R : ℚ → ℚ → Prop) (h : Follows p m R) :
    Follows (arith E op (deterministic isInt c) p true) m (fun k v => ∃ w, R k w ∧ v = op c w) := by
  intro size s r s' hr
  simp only [arith, hp, Option.bind_eq_some_iff, drawSamples, deterministic_constant isInt c hc, Option.map_some] at hr
  obtain ⟨⟨r0, s0⟩, e, hr⟩ := hr
  simp only [Bool.not_false, Bool.and_true, if_true, Option.map_map, Option.map_eq_some_iff] at hr
  obtain ⟨⟨q, s2⟩, e2, hr⟩ := hr
  simp only [Option.some.injEq, Prod.mk.injEq] at e
  obtain ⟨t0, l, t1, hm, hl⟩ := h _ _ _ _ e2
  refine ⟨t0, l, t1, hm, ?_⟩
  intro i v hv
  simp only [Function.comp, Prod.mk.injEq] at hr
  rw [← hr.1] at hv
  rw [List.getElem?_zipWith_eq_some] at hv
  obtain ⟨x, w, hx, hw, rfl⟩ := hv
  obtain ⟨k, hk, hR⟩ := hl i w hw
  have : x = c := by
    rw [← e.1] at hx
    exact List.eq_of_mem_replicate (List.mem_of_getElem? hx)
  subst this
  exact ⟨k, hk, w, hR, rfl⟩

theorem follows_mono {p m : Param σ} {R R' : ℚ → ℚ → Prop} {S : Set ℚ} (hm : Yields m S) (h : Follows p m R) (hR : ∀ k ∈ S, ∀ v, R k v → R' k v) :
    Follows p m R' := by
  intro size s r s' hr
  obtain ⟨t0, l, t1, hm', hl⟩ := h _ _ _ _ hr
  refine ⟨t0, l, t1, hm', fun i v hv => ?_⟩
  obtain ⟨k, hk, hv'⟩ := hl i v hv
  exact ⟨k, hk, hR k (hm _ _ _ _ hm' k (List.mem_of_getElem? hk)) v hv'⟩

theorem astype_nonneg (dt : DType) (hd : dt = ⟨.i, 2⟩ ∨ dt = ⟨.i, 4⟩) (w : ℚ) (h0 : 0 ≤ w) (h1 : w ≤ 32767) : astype dt w = (⌊w⌋ : Int) := by
  have hf0 : 0 ≤ ⌊w⌋ := Int.floor_nonneg.2 h0
  have hf1 : ⌊w⌋ ≤ 32767 := by
    have := Int.floor_le w
    exact_mod_cast (by linarith : ((⌊w⌋ : Int) : ℚ) ≤ 32767)
  have e : pyInt w = ⌊w⌋ := by unfold pyInt; rw [if_neg (by linarith)]
  have : astype dt w = astype dt ((⌊w⌋ : Int) : ℚ) := by
    rcases hd with rfl | rfl <;> simp only [astype, e, pyInt_intCast]
  rw [this]
  rcases hd with rfl | rfl
  · exact astype_int _ _ (by rw [show lo ⟨.i, 2⟩ = -32768 by decide +kernel]; omega) (by rw [show hi ⟨.i, 2⟩ = 32767 by decide +kernel]; omega)
  · exact astype_int _ _ (by rw [show lo ⟨.i, 4⟩ = -2147483648 by decide +kernel]; omega) (by rw [show hi ⟨.i, 4⟩ = 2147483647 by decide +kernel]; omega)

end Imgaug.RandAugment
