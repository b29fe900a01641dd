import Verif.Proofs.Params
/-! What stochastic parameters produce. -/
namespace Imgaug.Params
open Imgaug Imgaug.Dtypes
variable {σ : Type}

/-- C57: `DeterministicList` fills every shape with its values, repeated cyclically. -/
theorem deterministic_list_cycles (dt : DType) (vals : List ℚ) (hv : vals ≠ []) (hd : ∀ v ∈ vals, Holds dt v) (size : List Nat) (s : σ) :
    ∃ r, (deterministicList dt vals).draw size s = some (r, s) ∧ r.shape = size ∧ r.vals.length = size.prod ∧
      ∀ i, i < size.prod → r.vals[i]? = vals[i % vals.length]? := by
  have e : vals.map (astype dt) = vals := by
    conv_rhs => rw [← List.map_id vals]
    exact List.map_congr_left (fun v h => astype_holds v (hd v h))
  obtain ⟨l, h1, h2, h3⟩ := listSamples_spec vals hv size.prod
  refine ⟨⟨dt, size, l⟩, ?_, rfl, h2, h3⟩
  simp only [deterministicList]
  rw [e, h1]; rfl

/-- C57: a `DeterministicList` without values produces nothing. -/
theorem deterministic_list_empty (dt : DType) (size : List Nat) (s : σ) : (deterministicList dt [] : Param σ).draw size s = none := rfl

/-- C57: `Deterministic` produces its value everywhere; integers have to fit into 32 bits. -/
theorem deterministic_constant (isInt : Bool) (v : ℚ) (hv : Holds (if isInt then i32 else f32) v) (size : List Nat) (s : σ) :
    (deterministic isInt v : Param σ).draw size s = some (⟨if isInt then i32 else f32, size, List.replicate size.prod v⟩, s) := by
  simp only [deterministic, full]
  rw [astype_holds v hv]

/-- C57: larger integers come out as different numbers. -/
theorem deterministic_wraps (s : σ) : ((deterministic true (2 ^ 31) : Param σ).draw [1] s).map (fun r => r.1.vals) = some [-2 ^ 31] := by
  simp only [deterministic, full, Option.map_some]
  decide +kernel

/-- C57: `Choice` produces only listed values, if they can be stored in 32 bits of their kind. Larger integers are not produced, see
`choice_wraps`. -/
theorem choice_listed_partial (E : Env σ) (hE : E.Ok) (dt : DType) (a : List ℚ) (replace : Bool) (p : Option (List ℚ))
    (ha : ∀ v ∈ a, Holds (to32 dt) v) : Yields (choice E dt a replace p) {v | v ∈ a} ∧ Shaped (choice E dt a replace p) := by
  have key : ∀ size s r s', (choice E dt a replace p).draw size s = some (r, s') → ∃ l, (∀ v ∈ l, v ∈ a) ∧ l.length = size.prod ∧ r = conv (to32 dt) size l := by
    intro size s r s' h
    simp only [choice, Option.bind_eq_some_iff, Option.map_eq_some_iff, Prod.mk.injEq] at h
    obtain ⟨⟨idx, s1⟩, h1, l, h2, h3, -⟩ := h
    obtain ⟨k1, k2⟩ := mapM_index a idx l h2
    exact ⟨l, k2, by rw [k1]; exact (hE.choice _ _ _ _ _ _ _ h1).1, h3.symm⟩
  constructor
  · intro size s r s' h v hv
    obtain ⟨l, h1, h2, rfl⟩ := key _ _ _ _ h
    obtain ⟨w, hw, rfl⟩ := conv_mem hv
    rw [astype_holds w (ha w (h1 w hw))]
    exact h1 w hw
  · intro size s r s' h
    obtain ⟨l, h1, h2, rfl⟩ := key _ _ _ _ h
    exact conv_shape _ _ _ h2

/-- C57: `Choice([2**31])` produces -2**31. -/
theorem choice_wraps (E : Env σ) (hE : E.Ok) (s : σ) (r : Arr) (s' : σ)
    (h : (choice E ⟨.i, 8⟩ [2 ^ 31] true none).draw [1] s = some (r, s')) : r.vals = [-2 ^ 31] := by
  simp only [choice, Option.bind_eq_some_iff, Option.map_eq_some_iff, Prod.mk.injEq] at h
  obtain ⟨⟨idx, s1⟩, h1, l, h2, h3, -⟩ := h
  obtain ⟨k1, k2⟩ := mapM_index _ idx l h2
  have hl := (hE.choice _ _ _ _ _ _ _ h1).1
  rw [← h3, conv]
  match l, (k1.trans hl : l.length = [1].prod), k2 with
  | [x], _, k2 =>
    have := k2 x (by simp)
    rw [List.mem_singleton] at this
    subst this
    decide +kernel

/-- C57: `DiscreteUniform` produces integers between its bounds, whatever the bounds are drawn to be and in whatever order. -/
theorem discrete_uniform_range (E : Env σ) (hE : E.Ok) (a b : Param σ) (la ha lb hb : Int) (pa : Yields a (intsBetween la ha))
    (pb : Yields b (intsBetween lb hb)) (h1 : lo i32 ≤ min la lb) (h2 : max ha hb ≤ hi i32) :
    Yields (discreteUniform E a b) (intsBetween (min la lb) (max ha hb)) ∧ Shaped (discreteUniform E a b) := by
  have key : ∀ size s r s', (discreteUniform E a b).draw size s = some (r, s') →
      (r.shape = size ∧ r.vals.length = size.prod) ∧ ∀ v ∈ r.vals, v ∈ intsBetween (min la lb) (max ha hb) := by
    intro size s r s' h
    simp only [discreteUniform, Option.bind_eq_some_iff] at h
    obtain ⟨⟨va, da, sa⟩, ea, ⟨vb, db, sb⟩, eb, h⟩ := h
    obtain ⟨na, rfl, ia1, ia2⟩ := pa.sample ea
    obtain ⟨nb, rfl, ib1, ib2⟩ := pb.sample eb
    simp only at h
    split_ifs at h with c1 c2 c3 c3
    · simp only [Option.some.injEq, Prod.mk.injEq] at h
      rw [← h.1]
      refine ⟨full_shape _ _ _, fun v hv => ?_⟩
      rw [full_mem hv]
      exact ⟨na, astype_int i32 na (by omega) (by omega), by omega, by omega⟩
    · simp only [Option.some.injEq, Prod.mk.injEq] at h
      have hlt : nb < na := by exact_mod_cast c2
      obtain ⟨k1, k2⟩ := hE.integers nb (na + 1) size.prod sb (by omega)
      rw [← h.1]
      refine ⟨conv_shape _ _ _ (by simpa using k1), fun v hv => ?_⟩
      obtain ⟨w, hw, rfl⟩ := conv_mem hv
      obtain ⟨z, hz, rfl⟩ := List.mem_map.mp hw
      have := k2 z hz
      refine ⟨z, astype_int i32 z (by omega) (by omega), by omega, by omega⟩
    · simp only [Option.some.injEq, Prod.mk.injEq] at h
      have hle : na ≤ nb := by exact_mod_cast not_lt.mp c2
      obtain ⟨k1, k2⟩ := hE.integers na (nb + 1) size.prod sb (by omega)
      rw [← h.1]
      refine ⟨conv_shape _ _ _ (by simpa using k1), fun v hv => ?_⟩
      obtain ⟨w, hw, rfl⟩ := conv_mem hv
      obtain ⟨z, hz, rfl⟩ := List.mem_map.mp hw
      have := k2 z hz
      refine ⟨z, astype_int i32 z (by omega) (by omega), by omega, by omega⟩
  exact ⟨fun size s r s' h => (key size s r s' h).2, fun size s r s' h => (key size s r s' h).1⟩

/-- C57: `Uniform` produces numbers between its bounds. -/
theorem uniform_range (E : Env σ) (hE : E.Ok) (a b : Param σ) (la ha lb hb : ℚ) (pa : Yields a (between la ha)) (pb : Yields b (between lb hb)) :
    Yields (uniform E a b) (between (min la lb) (max ha hb)) ∧ Shaped (uniform E a b) := by
  have key : ∀ size s r s', (uniform E a b).draw size s = some (r, s') →
      (r.shape = size ∧ r.vals.length = size.prod) ∧ ∀ v ∈ r.vals, v ∈ between (min la lb) (max ha hb) := by
    intro size s r s' h
    simp only [uniform, Option.bind_eq_some_iff, Option.map_eq_some_iff] at h
    obtain ⟨⟨va, da, sa⟩, ea, ⟨vb, db, sb⟩, eb, h⟩ := h
    obtain ⟨ia1, ia2⟩ := pa.sample ea
    obtain ⟨ib1, ib2⟩ := pb.sample eb
    have m1 := min_le_left la lb
    have m2 := min_le_right la lb
    have m3 := le_max_left ha hb
    have m4 := le_max_right ha hb
    simp only at h
    split_ifs at h with c1 c2
    · simp only [Prod.mk.injEq] at h
      rw [← h.1]
      refine ⟨full_shape _ _ _, fun v hv => ?_⟩
      rw [full_mem hv, astype_f32]
      exact ⟨by linarith, by linarith⟩
    · simp only [Prod.mk.injEq] at h
      obtain ⟨k1, k2⟩ := hE.uniform vb va size.prod sb c2
      rw [← h.1]
      refine ⟨conv_shape _ _ _ k1, fun v hv => ?_⟩
      obtain ⟨w, hw, e⟩ := conv_mem hv
      have := k2 w hw
      rw [e, astype_f32]
      exact ⟨by linarith, by linarith⟩
    · simp only [Prod.mk.injEq] at h
      obtain ⟨k1, k2⟩ := hE.uniform va vb size.prod sb (lt_of_le_of_ne (not_lt.mp c2) c1)
      rw [← h.1]
      refine ⟨conv_shape _ _ _ k1, fun v hv => ?_⟩
      obtain ⟨w, hw, e⟩ := conv_mem hv
      have := k2 w hw
      rw [e, astype_f32]
      exact ⟨by linarith, by linarith⟩
  exact ⟨fun size s r s' h => (key size s r s' h).2, fun size s r s' h => (key size s r s' h).1⟩

/-- C57: `Binomial` produces 0 and 1. -/
theorem binomial_range (E : Env σ) (hE : E.Ok) (p : Param σ) : Yields (binomial E p) {0, 1} ∧ Shaped (binomial E p) := by
  have key : ∀ size s r s', (binomial E p).draw size s = some (r, s') → (r.shape = size ∧ r.vals.length = size.prod) ∧ ∀ v ∈ r.vals, v ∈ ({0, 1} : Set ℚ) := by
    intro size s r s' h
    simp only [binomial, Option.bind_eq_some_iff] at h
    obtain ⟨⟨v, d, s1⟩, e, h⟩ := h
    split_ifs at h with c
    simp only [Option.some.injEq, Prod.mk.injEq] at h
    obtain ⟨k1, k2⟩ := hE.binomial v size.prod s1 c.1 c.2
    rw [← h.1]
    refine ⟨conv_shape _ _ _ (by simpa using k1), fun w hw => ?_⟩
    obtain ⟨u, hu, rfl⟩ := conv_mem hw
    obtain ⟨n, hn, rfl⟩ := List.mem_map.mp hu
    have hn1 := k2 n hn
    have : astype i32 (n : ℚ) = n := by
      have := astype_int i32 n (by rw [i32_lo]; omega) (by rw [i32_hi]; omega)
      exact_mod_cast this
    rw [this]
    rcases (by omega : n = 0 ∨ n = 1) with rfl | rfl <;> simp
  exact ⟨fun size s r s' h => (key size s r s' h).2, fun size s r s' h => (key size s r s' h).1⟩

/-- C57: `Binomial` fails exactly when its probability does, or is drawn outside of [0, 1]. -/
theorem binomial_rejects (E : Env σ) (p : Param σ) (size : List Nat) (s : σ) :
    (binomial E p).draw size s = none ↔ ∀ v d s', drawSample E p s = some (v, d, s') → v < 0 ∨ 1 < v := by
  simp only [binomial]
  cases h : drawSample E p s with
  | none => simp
  | some r =>
    obtain ⟨v, d, s1⟩ := r
    simp only [Option.bind_some]
    split_ifs with c
    · simp only [Option.some.injEq, Prod.mk.injEq, false_iff]
      intro hh
      rcases hh v d s1 ⟨rfl, rfl, rfl⟩ with h' | h' <;> linarith [c.1, c.2]
    · simp only [Option.some.injEq, Prod.mk.injEq, true_iff]
      rintro v' d' s' ⟨rfl, rfl, rfl⟩
      by_contra hh
      push Not at hh
      exact c hh

/-- C57: `Poisson` produces non-negative integers (those that the distribution yields, if they fit into 32 bits), also for negative rates. -/
theorem poisson_range (E : Env σ) (hE : E.Ok) (lam : Param σ) (hb : ∀ l n s, ∀ v ∈ (E.poisson l n s).1, v < 2 ^ 31) :
    Yields (poisson E lam) {v | ∃ n : Nat, v = n} ∧ Shaped (poisson E lam) := by
  have key : ∀ size s r s', (poisson E lam).draw size s = some (r, s') → (r.shape = size ∧ r.vals.length = size.prod) ∧ ∀ v ∈ r.vals, ∃ n : Nat, v = n := by
    intro size s r s' h
    simp only [poisson, Option.map_eq_some_iff, Prod.mk.injEq] at h
    obtain ⟨⟨v, d, s1⟩, e, h, -⟩ := h
    have k1 := hE.poisson (max v 0) size.prod s1 (le_max_right _ _)
    rw [← h]
    refine ⟨conv_shape _ _ _ (by simpa using k1), fun w hw => ?_⟩
    obtain ⟨u, hu, rfl⟩ := conv_mem hw
    obtain ⟨n, hn, rfl⟩ := List.mem_map.mp hu
    have := hb _ _ _ n hn
    refine ⟨n, ?_⟩
    have := astype_int i32 n (by rw [i32_lo]; omega) (by rw [i32_hi]; omega)
    exact_mod_cast this
  exact ⟨fun size s r s' h => (key size s r s' h).2, fun size s r s' h => (key size s r s' h).1⟩

/-- C57: `Beta` produces numbers between 0 and 1. -/
theorem beta_range (E : Env σ) (hE : E.Ok) (a b : Param σ) (eps : ℚ) (he : 0 < eps) : Yields (beta E a b eps) (between 0 1) ∧ Shaped (beta E a b eps) := by
  have key : ∀ size s r s', (beta E a b eps).draw size s = some (r, s') →
      (r.shape = size ∧ r.vals.length = size.prod) ∧ ∀ v ∈ r.vals, v ∈ between 0 1 := by
    intro size s r s' h
    simp only [beta, Option.bind_eq_some_iff, Option.map_eq_some_iff, Prod.mk.injEq] at h
    obtain ⟨⟨va, da, sa⟩, ea, ⟨vb, db, sb⟩, eb, h, -⟩ := h
    obtain ⟨k1, k2⟩ := hE.beta (max va eps) (max vb eps) size.prod sb (lt_of_lt_of_le he (le_max_right _ _)) (lt_of_lt_of_le he (le_max_right _ _))
    rw [← h]
    refine ⟨conv_shape _ _ _ k1, fun v hv => ?_⟩
    obtain ⟨w, hw, e⟩ := conv_mem hv
    rw [e]
    exact k2 w hw
  exact ⟨fun size s r s' h => (key size s r s' h).2, fun size s r s' h => (key size s r s' h).1⟩

/-- C57: `Normal` with a scale of zero is constant. -/
theorem normal_constant (E : Env σ) (loc scale : Param σ) (S : Set ℚ) (hl : Yields loc S) (hs : Yields scale {0}) :
    Yields (normal E loc scale) S ∧ Shaped (normal E loc scale) := by
  have key : ∀ size s r s', (normal E loc scale).draw size s = some (r, s') → (r.shape = size ∧ r.vals.length = size.prod) ∧ ∀ v ∈ r.vals, v ∈ S := by
    intro size s r s' h
    simp only [normal, Option.bind_eq_some_iff] at h
    obtain ⟨⟨va, da, sa⟩, ea, ⟨vb, db, sb⟩, eb, h⟩ := h
    have h0 : vb = 0 := hs.sample eb
    simp only [h0, lt_irrefl, if_false, if_true, Option.some.injEq, Prod.mk.injEq] at h
    rw [← h.1]
    refine ⟨full_shape _ _ _, fun v hv => ?_⟩
    rw [full_mem hv]
    exact hl.sample ea
  exact ⟨fun size s r s' h => (key size s r s' h).2, fun size s r s' h => (key size s r s' h).1⟩

/-- C57: `TruncatedNormal` produces numbers between its bounds, if its scale is positive. -/
theorem truncated_normal_range_partial (E : Env σ) (hE : E.Ok) (loc scale low high : Param σ) (la ha lb hb : ℚ) (hs : Yields scale {v | 0 < v})
    (pa : Yields low (between la ha)) (pb : Yields high (between lb hb)) :
    Yields (truncatedNormal E loc scale low high) (between (min la lb) (max ha hb)) ∧ Shaped (truncatedNormal E loc scale low high) := by
  have key : ∀ size s r s', (truncatedNormal E loc scale low high).draw size s = some (r, s') →
      (r.shape = size ∧ r.vals.length = size.prod) ∧ ∀ v ∈ r.vals, v ∈ between (min la lb) (max ha hb) := by
    intro size s r s' h
    simp only [truncatedNormal, Option.bind_eq_some_iff] at h
    obtain ⟨⟨vl, dl, sl⟩, el, ⟨vs, ds, ss⟩, es, ⟨va, da, sa⟩, ea, ⟨vb, db, sb⟩, eb, h⟩ := h
    obtain ⟨ia1, ia2⟩ := pa.sample ea
    obtain ⟨ib1, ib2⟩ := pb.sample eb
    have hpos : 0 < vs := hs.sample es
    have m1 := min_le_left la lb
    have m2 := min_le_right la lb
    have m3 := le_max_left ha hb
    have m4 := le_max_right ha hb
    simp only [if_neg (not_lt.mpr hpos.le), if_neg hpos.ne', Option.some.injEq, Prod.mk.injEq] at h
    rw [← h.1]
    have hle : (if va > vb then vb else va) ≤ (if va > vb then va else vb) := by split_ifs <;> linarith
    obtain ⟨k1, k2⟩ := hE.truncnorm vl vs _ _ size.prod sb hpos hle
    refine ⟨conv_shape _ _ _ k1, fun v hv => ?_⟩
    obtain ⟨w, hw, e⟩ := conv_mem hv
    obtain ⟨c1, c2⟩ := k2 w hw
    rw [e, astype_f32]
    split_ifs at c1 c2 <;> exact ⟨by linarith, by linarith⟩
  exact ⟨fun size s r s' h => (key size s r s' h).2, fun size s r s' h => (key size s r s' h).1⟩

/-- C57: with a scale of zero `TruncatedNormal` ignores its bounds: here it produces 10 although the bounds are 0 and 1. -/
theorem truncated_normal_ignores_bounds (E : Env σ) (s : σ) :
    ((truncatedNormal E (deterministic false 10) (deterministic false 0) (deterministic false 0) (deterministic false 1)).draw [2] s).map (fun r => r.1.vals)
      = some [10, 10] := by
  simp [truncatedNormal, drawSample, drawSamples, deterministic, full, astype, f32]

/-- C57: `Clip` produces numbers between its bounds and does not change those that are already between them. -/
theorem clip_range (E : Env σ) (p : Param σ) (a b : ℚ) (hab : a ≤ b) :
    Yields (clip E p (some a) (some b)) (between a b) ∧ (Shaped p → Shaped (clip E p (some a) (some b))) ∧
    ∀ size s r s', (clip E p (some a) (some b)).draw size s = some (r, s') → ∃ r0 s0, p.draw size s = some (r0, s0) ∧
      r.vals.length = r0.vals.length ∧ ∀ (i : Nat) (v : ℚ), r0.vals[i]? = some v → v ∈ between a b → r.vals[i]? = some v := by
  have key : ∀ size s r s', (clip E p (some a) (some b)).draw size s = some (r, s') →
      ∃ r0 s0, p.draw size s = some (r0, s0) ∧ r = { r0 with vals := r0.vals.map (clipTo (some a) (some b)) } := by
    intro size s r s' h
    simp only [clip, Option.map_eq_some_iff, Prod.mk.injEq] at h
    obtain ⟨⟨r0, s0⟩, e, h, -⟩ := h
    obtain ⟨s1, e1, -⟩ := drawSamples_some e
    exact ⟨r0, s1, e1, h.symm⟩
  refine ⟨?_, ?_, ?_⟩
  · intro size s r s' h v hv
    obtain ⟨r0, s0, -, rfl⟩ := key _ _ _ _ h
    obtain ⟨w, -, rfl⟩ := List.mem_map.mp hv
    simp only [clipTo]
    exact ⟨le_min (le_max_right _ _) hab, min_le_right _ _⟩
  · intro hp size s r s' h
    obtain ⟨r0, s0, e, rfl⟩ := key _ _ _ _ h
    obtain ⟨h1, h2⟩ := hp _ _ _ _ e
    exact ⟨h1, by simpa using h2⟩
  · intro size s r s' h
    obtain ⟨r0, s0, e, rfl⟩ := key _ _ _ _ h
    refine ⟨r0, s0, e, by simp, ?_⟩
    intro i v hi hv
    simp only [List.getElem?_map, hi, Option.map_some, clipTo]
    rw [max_eq_left hv.1, min_eq_left hv.2]

/-- C57: the same with one bound or none. -/
theorem clip_one_sided (E : Env σ) (p : Param σ) (a : ℚ) :
    Yields (clip E p (some a) none) {v | a ≤ v} ∧ Yields (clip E p none (some a)) {v | v ≤ a} ∧
    ∀ S, Yields p S → Yields (clip E p none none) S := by
  have key : ∀ mn mx size s r s', (clip E p mn mx).draw size s = some (r, s') →
      ∃ r0 s0, p.draw size s = some (r0, s0) ∧ r.vals = r0.vals.map (clipTo mn mx) := by
    intro mn mx size s r s' h
    simp only [clip, Option.map_eq_some_iff, Prod.mk.injEq] at h
    obtain ⟨⟨r0, s0⟩, e, h, -⟩ := h
    obtain ⟨s1, e1, -⟩ := drawSamples_some e
    exact ⟨r0, s1, e1, by rw [← h]⟩
  refine ⟨?_, ?_, ?_⟩
  · intro size s r s' h v hv
    obtain ⟨r0, s0, -, e⟩ := key _ _ _ _ _ _ h
    rw [e] at hv
    obtain ⟨w, -, rfl⟩ := List.mem_map.mp hv
    exact le_max_right w a
  · intro size s r s' h v hv
    obtain ⟨r0, s0, -, e⟩ := key _ _ _ _ _ _ h
    rw [e] at hv
    obtain ⟨w, -, rfl⟩ := List.mem_map.mp hv
    exact min_le_right w a
  · intro S hS size s r s' h v hv
    obtain ⟨r0, s0, e0, e⟩ := key _ _ _ _ _ _ h
    rw [e] at hv
    obtain ⟨w, hw, rfl⟩ := List.mem_map.mp hv
    exact hS _ _ _ _ e0 w hw

/-- C57: `Discretize` of float32 samples produces the samples, rounded or cut off to integers, if they are between -32768 and 32767. -/
theorem discretize_float32_partial (E : Env σ) (p : Param σ) (round : Bool) (hd : HasDt p {f32}) (hp : Yields p (between (-32768) 32767)) :
    ∀ size s r s', (discretize E p round).draw size s = some (r, s') → ∃ r0 s0, p.draw size s = some (r0, s0) ∧ r.shape = r0.shape ∧
      r.dt = ⟨.i, 2⟩ ∧ r.vals = r0.vals.map (fun v => if round then (npRound v : ℚ) else (pyInt v : ℚ)) := by
  intro size s r s' h
  simp only [discretize, Option.map_eq_some_iff] at h
  obtain ⟨⟨r0, s0⟩, e, h⟩ := h
  obtain ⟨s1, e1, -⟩ := drawSamples_some e
  have hdt : r0.dt = f32 := hd _ _ _ _ e1
  simp only [hdt, f32, ne_eq, not_true, if_false, Prod.mk.injEq] at h
  refine ⟨r0, s1, e1, by rw [← h.1], by rw [← h.1]; rfl, ?_⟩
  rw [← h.1]
  refine List.map_congr_left (fun v hv => ?_)
  obtain ⟨h1, h2⟩ := hp _ _ _ _ e1 v hv
  have hlo : lo (⟨.i, 2⟩ : DType) = -32768 := by decide
  have hhi : hi (⟨.i, 2⟩ : DType) = 32767 := by decide
  have a1 : ((lo (⟨.i, 2⟩ : DType) : Int) : ℚ) ≤ v := by rw [hlo]; push_cast; linarith
  have a2 : v ≤ ((hi (⟨.i, 2⟩ : DType) : Int) : ℚ) := by rw [hhi]; push_cast; linarith
  cases round
  · show ((wrap (⟨.i, 2⟩ : DType) (pyInt v) : Int) : ℚ) = _
    rw [wrap_id]
    · simp
    · rw [hlo, pyInt]
      split_ifs with hneg
      · have : ⌊-v⌋ ≤ 32768 := by have := Int.floor_le (-v); exact_mod_cast (by linarith : ((⌊-v⌋ : Int) : ℚ) ≤ 32768)
        omega
      · have := Int.floor_nonneg.mpr (not_lt.mp hneg); omega
    · rw [hhi, pyInt]
      split_ifs with hneg
      · have := Int.floor_nonneg.mpr (show 0 ≤ -v by linarith); omega
      · have : ⌊v⌋ ≤ 32767 := by have := Int.floor_le v; exact_mod_cast (by linarith : ((⌊v⌋ : Int) : ℚ) ≤ 32767)
        omega
  · obtain ⟨c1, c2⟩ := npRound_holds (⟨.i, 2⟩ : DType) v a1 a2
    exact astype_int _ _ c1 c2

/-- C57: `Discretize` of integer samples does not change them. -/
theorem discretize_ints (E : Env σ) (p : Param σ) (round : Bool) (S : Set ℚ) (hd : HasDt p {d | d.kind ≠ .f}) (hp : Yields p S) :
    Yields (discretize E p round) S := by
  intro size s r s' h v hv
  simp only [discretize, Option.map_eq_some_iff] at h
  obtain ⟨⟨r0, s0⟩, e, h⟩ := h
  obtain ⟨s1, e1, -⟩ := drawSamples_some e
  have hdt : r0.dt.kind ≠ .f := hd _ _ _ _ e1
  simp only [if_pos hdt, Prod.mk.injEq] at h
  rw [← h.1] at hv
  exact hp _ _ _ _ e1 v hv

/-- C57: `Discretize(Deterministic(40000.0))` produces -25536: larger numbers do not survive. -/
theorem discretize_wraps (E : Env σ) (s : σ) :
    ((discretize E (deterministic false 40000) true).draw [1] s).map (fun r => r.1.vals) = some [-25536] := by
  have h : astype ⟨.i, 2⟩ (npRound 40000 : ℚ) = -25536 := by decide +kernel
  simp [discretize, drawSamples, deterministic, full, f32, show astype ⟨.f, 4⟩ (40000 : ℚ) = 40000 from rfl, h]

/-- C57: `//` on parameters rounds instead of rounding down: `Deterministic(3) // 2` produces 2. -/
theorem floordiv_rounds (E : Env σ) (s : σ) :
    ((floordiv E (deterministic true 3) (deterministic true 2)).draw [1] s).map (fun r => r.1.vals) = some [2] := by
  have h1 : astype ⟨.i, 4⟩ (3 : ℚ) = 3 := by decide +kernel
  have h2 : astype ⟨.i, 4⟩ (2 : ℚ) = 2 := by decide +kernel
  have h3 : astype ⟨.i, 4⟩ (npRound (safeDiv 3 2) : ℚ) = 2 := by decide +kernel
  simp [floordiv, divide, arith, discretize, drawSample, drawSamples, deterministic, full, i32, f64, h1, h2, h3]

/-- C57: `Absolute` produces the absolute values. -/
theorem absolute_range (E : Env σ) (p : Param σ) (S : Set ℚ) (hp : Yields p S) :
    Yields (absolute E p) {v | 0 ≤ v ∧ ∃ w ∈ S, v = |w|} ∧ (Shaped p → Shaped (absolute E p)) := by
  have key : ∀ size s r s', (absolute E p).draw size s = some (r, s') →
      ∃ r0 s0, p.draw size s = some (r0, s0) ∧ r = { r0 with vals := r0.vals.map (fun v => |v|) } := by
    intro size s r s' h
    simp only [absolute, Option.map_eq_some_iff, Prod.mk.injEq] at h
    obtain ⟨⟨r0, s0⟩, e, h, -⟩ := h
    obtain ⟨s1, e1, -⟩ := drawSamples_some e
    exact ⟨r0, s1, e1, h.symm⟩
  constructor
  · intro size s r s' h v hv
    obtain ⟨r0, s0, e, rfl⟩ := key _ _ _ _ h
    obtain ⟨w, hw, rfl⟩ := List.mem_map.mp hv
    exact ⟨abs_nonneg w, w, hp _ _ _ _ e w hw, rfl⟩
  · intro hs size s r s' h
    obtain ⟨r0, s0, e, rfl⟩ := key _ _ _ _ h
    obtain ⟨h1, h2⟩ := hs _ _ _ _ e
    exact ⟨h1, by simpa using h2⟩

/-- C57: `RandomSign` produces the samples or their negatives. -/
theorem random_sign_range (E : Env σ) (hE : E.Ok) (p : Param σ) (pp : ℚ) (h0 : 0 ≤ pp) (h1 : pp ≤ 1) (S : Set ℚ) (hp : Yields p S) (hs : Shaped p) :
    Yields (randomSign E p pp) {v | v ∈ S ∨ -v ∈ S} ∧ Shaped (randomSign E p pp) := by
  have key : ∀ size s r s', (randomSign E p pp).draw size s = some (r, s') →
      (r.shape = size ∧ r.vals.length = size.prod) ∧ ∀ v ∈ r.vals, v ∈ S ∨ -v ∈ S := by
    intro size s r s' h
    simp only [randomSign, Option.bind_eq_some_iff] at h
    obtain ⟨⟨r0, s0⟩, e, h⟩ := h
    obtain ⟨s1, e1, -⟩ := drawSamples_some e
    obtain ⟨hs1, hs2⟩ := hs _ _ _ _ e1
    simp only at h
    split_ifs at h with hk
    simp only [Option.some.injEq, Prod.mk.injEq] at h
    obtain ⟨k1, k2⟩ := hE.binomial pp size.prod s0 h0 h1
    rw [← h.1]
    refine ⟨⟨hs1, by simp only [List.length_zipWith, hs2, k1, Nat.min_self]⟩, ?_⟩
    intro v hv
    simp only at hv
    obtain ⟨i, hi⟩ := List.mem_iff_getElem?.mp hv
    rw [List.getElem?_zipWith_eq_some] at hi
    obtain ⟨w, c, hw, hc, rfl⟩ := hi
    have hwS := hp _ _ _ _ e1 w (List.mem_of_getElem? hw)
    have hc1 := k2 c (List.mem_of_getElem? hc)
    rcases (by omega : c = 0 ∨ c = 1) with rfl | rfl
    · rcases abs_cases w with ⟨ha, _⟩ | ⟨ha, _⟩
      · right; rw [ha]; push_cast; simpa using hwS
      · left; rw [ha]; push_cast; simpa using hwS
    · rcases abs_cases w with ⟨ha, _⟩ | ⟨ha, _⟩
      · left; rw [ha]; push_cast; norm_num; exact hwS
      · right; rw [ha]; push_cast; norm_num; exact hwS
  exact ⟨fun size s r s' h => (key size s r s' h).2, fun size s r s' h => (key size s r s' h).1⟩

/-- C57: `ForceSign` (`Positive`, `Negative`) in the mode "invert" produces samples with the right sign and the same absolute value. -/
theorem force_sign_invert (E : Env σ) (p : Param σ) (positive : Bool) (S : Set ℚ) (hp : Yields p S) :
    Yields (forceSign E p positive none) {v | v ∈ signed positive ∧ (v ∈ S ∨ -v ∈ S)} ∧ (Shaped p → Shaped (forceSign E p positive none)) := by
  have key : ∀ size s r s', (forceSign E p positive none).draw size s = some (r, s') →
      ∃ r0 s0, p.draw size s = some (r0, s0) ∧ r = { r0 with vals := r0.vals.map (fun v => if wrong positive v then v * -1 else v) } := by
    intro size s r s' h
    simp only [forceSign, Option.bind_eq_some_iff, Option.some.injEq, Prod.mk.injEq] at h
    obtain ⟨⟨r0, s0⟩, e, h, -⟩ := h
    obtain ⟨s1, e1, -⟩ := drawSamples_some e
    exact ⟨r0, s1, e1, h.symm⟩
  constructor
  · intro size s r s' h v hv
    obtain ⟨r0, s0, e, rfl⟩ := key _ _ _ _ h
    obtain ⟨w, hw, rfl⟩ := List.mem_map.mp hv
    have := hp _ _ _ _ e w hw
    split_ifs with hc
    · exact ⟨wrong_neg _ _ hc, Or.inr (by simpa using this)⟩
    · exact ⟨(wrong_iff _ _).mp (by simpa using hc), Or.inl this⟩
  · intro hs size s r s' h
    obtain ⟨r0, s0, e, rfl⟩ := key _ _ _ _ h
    obtain ⟨h1, h2⟩ := hs _ _ _ _ e
    exact ⟨h1, by simpa using h2⟩

/-- C57: `ForceSign` in the mode "reroll" produces samples with the right sign when asked for a list of samples. For other shapes
this fails, see `force_sign_reroll_wrong`. -/
theorem force_sign_reroll_partial (E : Env σ) (p : Param σ) (hs : Shaped p) (positive : Bool) (n : Nat) :
    (∀ k s r s', (forceSign E p positive (some n)).draw [k] s = some (r, s') → ∀ v ∈ r.vals, v ∈ signed positive) ∧
    Shaped (forceSign E p positive (some n)) := by
  constructor
  · intro k s r s' h
    simp only [forceSign, Option.bind_eq_some_iff] at h
    obtain ⟨⟨r0, s0⟩, e, h⟩ := h
    obtain ⟨s1, e1, -⟩ := drawSamples_some e
    exact reroll_signed E p positive k n r0 s0 r s' (hs _ _ _ _ e1).1 h
  · intro size s r s' h
    simp only [forceSign, Option.bind_eq_some_iff] at h
    obtain ⟨⟨r0, s0⟩, e, h⟩ := h
    obtain ⟨s1, e1, -⟩ := drawSamples_some e
    obtain ⟨k1, k2⟩ := reroll_shape E p positive size n r0 s0 r s' h
    obtain ⟨h1, h2⟩ := hs _ _ _ _ e1
    exact ⟨k1.trans h1, k2.trans h2⟩

/-- C57: `Positive(DeterministicList([1, -2]), mode="reroll")` asked for one row of two samples produces -1 and 2: the whole row is negated. -/
theorem force_sign_reroll_wrong (E : Env σ) (s : σ) :
    ((forceSign E (deterministicList i32 [1, -2]) true (some 2)).draw [1, 2] s).map (fun r => r.1.vals) = some [-1, 2] := by
  have e : ∀ (s : σ), (deterministicList i32 [1, -2]).draw [1, 2] s = some (⟨i32, [1, 2], [1, -2]⟩, s) := by
    intro s
    have : listSamples ([1, -2].map (astype i32)) 2 = some [1, -2] := by decide +kernel
    simp only [deterministicList]
    rw [show [1, 2].prod = 2 from rfl, this]; rfl
  have h1 : (⟨i32, [1, 2], [1, -2]⟩ : Arr).vals.any (wrong true) = true := by decide +kernel
  have h2 : inBadRows true ⟨i32, [1, 2], [1, -2]⟩ (fun i v => ([1, -2] : List ℚ).getD i v) = ⟨i32, [1, 2], [1, -2]⟩ := by decide +kernel
  simp only [forceSign, drawSamples, e, Option.map_some, Option.bind_some, reroll, h1, if_true, h2]
  decide +kernel

/-- C57: arithmetic on parameters: with `elementwise` both operands are drawn for every sample, otherwise the second one only once. -/
theorem arithmetic (E : Env σ) (op : ℚ → ℚ → ℚ) (p val : Param σ) (elementwise : Bool) (S T : Set ℚ) (hp : Yields p S) (hv : Yields val T) :
    Yields (arith E op p val elementwise) {v | ∃ a ∈ S, ∃ b ∈ T, v = op a b} ∧ (Shaped p → Shaped val → Shaped (arith E op p val elementwise)) ∧
    ((elementwise = false ∨ val.isDet = true) → ∀ size s r s', (arith E op p val elementwise).draw size s = some (r, s') →
      ∃ b ∈ T, ∃ r0 s0, p.draw size s = some (r0, s0) ∧ r.vals = r0.vals.map (fun a => op a b)) := by
  refine ⟨?_, ?_, ?_⟩
  · intro size s r s' h v hvr
    simp only [arith, Option.bind_eq_some_iff] at h
    obtain ⟨⟨r0, s0⟩, e, h⟩ := h
    obtain ⟨s1, e1, -⟩ := drawSamples_some e
    simp only at h
    split_ifs at h with hc
    · rw [Option.map_eq_some_iff] at h
      obtain ⟨⟨q, s2⟩, e2, h⟩ := h
      obtain ⟨s3, e3, -⟩ := drawSamples_some e2
      simp only [Prod.mk.injEq] at h
      rw [← h.1] at hvr
      obtain ⟨i, hi⟩ := List.mem_iff_getElem?.mp hvr
      rw [List.getElem?_zipWith_eq_some] at hi
      obtain ⟨x, y, hx, hy, rfl⟩ := hi
      exact ⟨x, hp _ _ _ _ e1 x (List.mem_of_getElem? hx), y, hv _ _ _ _ e3 y (List.mem_of_getElem? hy), rfl⟩
    · rw [Option.map_eq_some_iff] at h
      obtain ⟨⟨y, d, s2⟩, e2, h⟩ := h
      simp only [Prod.mk.injEq] at h
      rw [← h.1] at hvr
      obtain ⟨x, hx, rfl⟩ := List.mem_map.mp hvr
      exact ⟨x, hp _ _ _ _ e1 x hx, y, hv.sample e2, rfl⟩
  · intro hs1 hs2 size s r s' h
    simp only [arith, Option.bind_eq_some_iff] at h
    obtain ⟨⟨r0, s0⟩, e, h⟩ := h
    obtain ⟨s1, e1, -⟩ := drawSamples_some e
    have k := hs1 _ _ _ _ e1
    simp only at h
    split_ifs at h with hc
    · rw [Option.map_eq_some_iff] at h
      obtain ⟨⟨q, s2⟩, e2, h⟩ := h
      obtain ⟨s3, e3, -⟩ := drawSamples_some e2
      have k' := hs2 _ _ _ _ e3
      simp only [Prod.mk.injEq] at h
      rw [← h.1]
      exact ⟨rfl, by simp only [List.length_zipWith, k.2, k'.2, Nat.min_self]⟩
    · rw [Option.map_eq_some_iff] at h
      obtain ⟨⟨y, d, s2⟩, e2, h⟩ := h
      simp only [Prod.mk.injEq] at h
      rw [← h.1]
      exact ⟨rfl, by simpa using k.2⟩
  · intro hcase size s r s' h
    simp only [arith, Option.bind_eq_some_iff] at h
    obtain ⟨⟨r0, s0⟩, e, h⟩ := h
    obtain ⟨s1, e1, -⟩ := drawSamples_some e
    have hb : (elementwise && !val.isDet) = false := by rcases hcase with h | h <;> simp [h]
    simp only [hb, Bool.false_eq_true, if_false, Option.map_eq_some_iff, Prod.mk.injEq] at h
    obtain ⟨⟨y, d, s2⟩, e2, h, -⟩ := h
    exact ⟨y, hv.sample e2, r0, s1, e1, by rw [← h]⟩

/-- C57: division never divides by zero: a zero divisor leaves the samples as they are. -/
theorem divide_range (E : Env σ) (p val : Param σ) (elementwise : Bool) (S T : Set ℚ) (hp : Yields p S) (hv : Yields val T) :
    Yields (divide E p val elementwise) {v | ∃ a ∈ S, (∃ b ∈ T, b ≠ 0 ∧ v * b = a) ∨ (0 ∈ T ∧ v = a)} := by
  intro size s r s' h v hvr
  obtain ⟨a, ha, b, hb, rfl⟩ := (arithmetic _ safeDiv p val elementwise S T hp hv).1 size s r s' h v hvr
  refine ⟨a, ha, ?_⟩
  by_cases h0 : b = 0
  · subst h0; right; exact ⟨hb, by simp [safeDiv]⟩
  · left; exact ⟨b, hb, h0, by rw [safeDiv, if_neg h0, div_mul_cancel₀ _ h0]⟩

/-- C57: a `Choice` of floats produces only listed values, and so does a `Choice` of signed integers of 32 bits. -/
theorem choice_kinds (E : Env σ) (dt : DType) (a : List ℚ) (replace : Bool) (p : Option (List ℚ))
    (h : dt.kind = .f ∨ (dt.kind = .i ∧ 4 ≤ dt.bytes ∧ ∀ v ∈ a, v ∈ intsBetween (-2 ^ 31) (2 ^ 31 - 1))) :
    Yields (choice E dt a replace p) {v | v ∈ a} := by
  intro size s r s' hr v hv
  simp only [choice, Option.bind_eq_some_iff, Option.map_eq_some_iff, Prod.mk.injEq] at hr
  obtain ⟨⟨idx, s1⟩, h1, l, h2, h3, -⟩ := hr
  obtain ⟨k1, k2⟩ := mapM_index a idx l h2
  rw [← h3] at hv
  obtain ⟨w, hw, rfl⟩ := conv_mem hv
  have hwa := k2 w hw
  suffices he : astype (to32 dt) w = w by rw [he]; exact hwa
  rcases h with h | ⟨h1, h2, h3⟩
  · have hk : (to32 dt).kind = .f := by unfold to32; split <;> simp [h]
    rw [astype, hk]
  · have hk : to32 dt = ⟨.i, 4⟩ := by
      unfold to32
      split
      · rw [h1]
      · rename_i hc
        rw [h1] at hc
        have : dt.bytes = 4 := by
          by_contra hb
          exact hc ⟨by omega, by simp⟩
        cases dt
        simp_all
    obtain ⟨n, rfl, n1, n2⟩ := h3 w hwa
    rw [hk]
    exact astype_int _ n (by rw [show lo ⟨.i, 4⟩ = -2 ^ 31 by decide]; exact n1) (by rw [show hi ⟨.i, 4⟩ = 2 ^ 31 - 1 by decide]; exact n2)

/-- C57: the operators `+`, `-` and `*`. -/
theorem operators (E : Env σ) (p val : Param σ) (elementwise : Bool) (S T : Set ℚ) (hp : Yields p S) (hv : Yields val T) :
    Yields (add E p val elementwise) {v | ∃ a ∈ S, ∃ b ∈ T, v = a + b} ∧
    Yields (subtract E p val elementwise) {v | ∃ a ∈ S, ∃ b ∈ T, v = a - b} ∧
    Yields (multiply E p val elementwise) {v | ∃ a ∈ S, ∃ b ∈ T, v = a * b} :=
  ⟨(arithmetic E _ p val elementwise S T hp hv).1, (arithmetic E _ p val elementwise S T hp hv).1, (arithmetic E _ p val elementwise S T hp hv).1⟩

/-- C57: `//` draws its divisor only once for all samples and rounds the quotients, if they are between -2**15 and 2**15 - 1. -/
theorem floordiv_once (E : Env σ) (p val : Param σ) (T : Set ℚ) (hv : Yields val T)
    (hr : ∀ size s r0 s0, p.draw size s = some (r0, s0) → ∀ a ∈ r0.vals, ∀ b ∈ T, -32768 ≤ safeDiv a b ∧ safeDiv a b ≤ 32767)
    (hd : HasDt p {d | d.kind = .f → d.bytes = 4 ∨ d.bytes = 8}) :
    ∀ size s r s', (floordiv E p val).draw size s = some (r, s') →
      ∃ b ∈ T, ∃ r0 s0, p.draw size s = some (r0, s0) ∧ r.vals = r0.vals.map (fun a => (npRound (if b = 0 then a else a / b) : ℚ)) := by
  intro size s r s' h
  simp only [floordiv, discretize, Option.map_eq_some_iff] at h
  obtain ⟨⟨r1, s1⟩, e, h⟩ := h
  obtain ⟨s2, e1, -⟩ := drawSamples_some e
  have e2 := e1
  simp only [divide, arith, Bool.false_and, Bool.false_eq_true, if_false, Option.bind_eq_some_iff, Option.map_eq_some_iff, Prod.mk.injEq] at e2
  obtain ⟨⟨r0, s0⟩, e3, ⟨b, d, s3⟩, e4, e5, -⟩ := e2
  obtain ⟨s4, e6, -⟩ := drawSamples_some e3
  have hb := hv.sample e4
  refine ⟨b, hb, r0, s4, e6, ?_⟩
  have hdt : r1.dt = if r0.dt.kind = .f then r0.dt else f64 := by rw [← e5]
  have hk : r1.dt.kind = .f := by rw [hdt]; split <;> simp_all [f64]
  have hby : r1.dt.bytes = 4 ∨ r1.dt.bytes = 8 := by
    rw [hdt]
    split
    · rename_i hf; exact hd _ _ _ _ e6 hf
    · right; rfl
  simp only [hk, ne_eq, not_true, if_false, if_true, Prod.mk.injEq] at h
  rw [← h.1]
  have hvals : r1.vals = r0.vals.map (fun a => safeDiv a b) := by rw [← e5]
  simp only [hvals, List.map_map]
  refine List.map_congr_left (fun a ha => ?_)
  simp only [Function.comp_apply]
  have hq : safeDiv a b = if b = 0 then a else a / b := by unfold safeDiv; split <;> simp
  rw [← hq]
  obtain ⟨q1, q2⟩ := hr _ _ _ _ e6 a ha b hb
  have hlo : lo (⟨.i, 2⟩ : DType) = -32768 := by decide
  have hhi : hi (⟨.i, 2⟩ : DType) = 32767 := by decide
  have hlo' : lo (⟨.i, 4⟩ : DType) = -2147483648 := by decide
  have hhi' : hi (⟨.i, 4⟩ : DType) = 2147483647 := by decide
  have n1 : -32768 ≤ npRound (safeDiv a b) := Props.le_npRound (by push_cast; exact q1)
  have n2 : npRound (safeDiv a b) ≤ 32767 := Props.npRound_le (by push_cast; exact q2)
  rcases hby with hby | hby
  · simp only [hby]
    exact astype_int ⟨.i, 2⟩ _ (by omega) (by omega)
  · simp only [hby]
    exact astype_int ⟨.i, 4⟩ _ (by omega) (by omega)

/-- C57: `ForceSign` in the mode "reroll": rows of samples (all samples with the same first index) that have the right sign are kept. -/
theorem force_sign_reroll_rows (E : Env σ) (p : Param σ) (positive : Bool) (n k : Nat) (rest : List Nat) (s s' : σ) (r : Arr)
    (hs : Shaped p) (h : (forceSign E p positive (some n)).draw (k :: rest) s = some (r, s')) :
    ∃ r0 s0, p.draw (k :: rest) s = some (r0, s0) ∧
      ∀ i, (∀ j, j < rest.prod → ∀ v, r0.vals[i * rest.prod + j]? = some v → v ∈ signed positive) →
        ∀ j, j < rest.prod → r.vals[i * rest.prod + j]? = r0.vals[i * rest.prod + j]? := by
  simp only [forceSign, Option.bind_eq_some_iff] at h
  obtain ⟨⟨r0, s0⟩, e, h⟩ := h
  obtain ⟨s1, e1, -⟩ := drawSamples_some e
  refine ⟨r0, s1, e1, fun i hi j hj => ?_⟩
  exact reroll_row E p positive (k :: rest) n r0 s0 r s' rest.prod (by rw [(hs _ _ _ _ e1).1]; rfl) h i
    (fun j hj v hv => (wrong_iff _ _).mpr (hi j hj v hv)) j hj

end Imgaug.Params
