import Verif.Spec.NoiseMask
import Verif.Props.Noise
/-! C138: masks of noise for blending. -/
namespace Imgaug.NoiseMask.Props
open Imgaug Imgaug.Noise Imgaug.NoiseMask Imgaug.NoiseMask.Spec

/-- C138: exactly the following is rejected: iterations outside of 1 to 10000 and methods that are no texts, unless one iteration is requested, and
probabilities of a sigmoid above 1. -/
theorem mask_accepts (it : Iters) (m : Methods) (s : Sig) :
    create it m s = none ↔ (it ≠ .int 1 ∧ (itersOk it = false ∨ methodsOk m = false)) ∨ ∃ q, s = .num q ∧ 1 < q := by
  have hp : (useSigmoid s = true ∧ probParam s = none) ↔ ∃ q, s = .num q ∧ 1 < q := by
    cases s with
    | bool b => simp [probParam]
    | other => simp [useSigmoid]
    | num q =>
      simp only [useSigmoid, probParam, decide_eq_true_eq, Sig.num.injEq, exists_eq_left']
      constructor
      · rintro ⟨h1, h2⟩
        split_ifs at h2 with ha hb
        have : ¬ q ≤ 1 := fun h => hb ⟨by linarith, h⟩
        linarith
      · intro h
        rw [if_neg (by rintro (h | h) <;> linarith), if_neg (by rintro ⟨_, h⟩; linarith)]
        exact ⟨by linarith, rfl⟩
  rw [← hp]
  unfold create
  by_cases hi : it = .int 1
  · rw [if_neg (not_not.2 hi)]
    simp only [hi, ne_eq, not_true_eq_false, false_and, false_or, Option.bind_some]
    by_cases hu : useSigmoid s = true
    · rw [if_pos hu, Option.map_eq_none_iff]; simp [hu]
    · rw [if_neg hu]; simp [hu]
  · rw [if_pos hi]
    by_cases hk : (itersOk it && methodsOk m) = true
    · rw [if_pos hk, Option.bind_some]
      have hk' : itersOk it = true ∧ methodsOk m = true := by simpa using hk
      by_cases hu : useSigmoid s = true
      · rw [if_pos hu, Option.map_eq_none_iff]; simp [hu, hk']
      · rw [if_neg hu]; simp [hu, hk']
    · rw [if_neg hk]
      have : itersOk it = false ∨ methodsOk m = false := by
        rw [Bool.and_eq_true, not_and_or] at hk; simpa using hk
      simp [hi, this]

example : create (.iterable [1, 3]) (.text "max") (.bool true) = some ⟨some (.iterable [1, 3], .text "max"), some (.const 1)⟩ ∧
    create (.int 0) (.text "max") (.bool true) = none ∧ create (.int 1) .other (.num (1 / 2)) = some ⟨none, some (.binomial (1 / 2))⟩ ∧
    create (.int 1) .other (.num 2) = none := by decide +kernel

theorem create_eq (it : Iters) (m : Methods) (s : Sig) (c : Config) (h : create it m s = some c) :
    ((it = .int 1 ∧ c.combined = none) ∨ (it ≠ .int 1 ∧ itersOk it = true ∧ c.combined = some (it, m))) ∧
    ((useSigmoid s = false ∧ c.act = none) ∨ (useSigmoid s = true ∧ ∃ a, probParam s = some a ∧ c.act = some a)) := by
  unfold create at h
  obtain ⟨o, h1, h2⟩ := Option.bind_eq_some_iff.1 h
  have ho : (it = .int 1 ∧ o = none) ∨ (it ≠ .int 1 ∧ itersOk it = true ∧ o = some (it, m)) := by
    by_cases hi : it = .int 1
    · rw [if_neg (not_not.2 hi), Option.some.injEq] at h1; exact Or.inl ⟨hi, h1.symm⟩
    · rw [if_pos hi] at h1
      split_ifs at h1 with hk
      rw [Option.some.injEq] at h1
      rw [Bool.and_eq_true] at hk
      exact Or.inr ⟨hi, hk.1, h1.symm⟩
  by_cases hu : useSigmoid s = true
  · rw [if_pos hu] at h2
    obtain ⟨a, ha, rfl⟩ := Option.map_eq_some_iff.1 h2
    exact ⟨ho, Or.inr ⟨hu, a, ha, rfl⟩⟩
  · rw [if_neg hu, Option.some.injEq] at h2
    subst h2
    exact ⟨ho, Or.inl ⟨by simpa using hu, rfl⟩⟩

/-- C138: masks: whenever the constructor accepts its arguments and a number of iterations in accordance with them is drawn, there is a value in [0, 1]
for each component, for every noise with values in [0, 1], every method, every threshold, with or without sigmoid. -/
theorem mask_unit (it : Iters) (m : Methods) (s : Sig) (c : Config) (hc : create it m s = some c) (method : String) (k : Int)
    (hk : itersCan it k) (hp : it = .param → 0 < k) (n : Nat) (draw : Nat → List ℚ)
    (hd : ∀ i : Nat, (i : Int) < k → (draw i).length = n ∧ ∀ v ∈ draw i, 0 ≤ v ∧ v ≤ 1) (a t : ℝ) :
    ∃ r, mask c method k n draw a t = some r ∧ r.length = n ∧ ∀ v ∈ r, 0 ≤ v ∧ v ≤ 1 := by
  obtain ⟨h1, _⟩ := create_eq it m s c hc
  have base : ∃ l : List ℚ, noise c method k n draw = some l ∧ l.length = n ∧ ∀ v ∈ l, 0 ≤ v ∧ v ≤ 1 := by
    rcases h1 with ⟨hi, hn⟩ | ⟨hi, hok, hs⟩
    · rw [noise, hn]
      subst hi
      simp only [itersCan] at hk
      obtain ⟨h2, h3⟩ := hd 0 (by rw [hk]; decide)
      exact ⟨_, rfl, h2, h3⟩
    · rw [noise, hs]
      have hpos : 0 < k := by
        by_cases hpar : it = .param
        · exact hp hpar
        · have := (Imgaug.Noise.iterations_bounds it hok hpar k hk).1; omega
      obtain ⟨r, hr, hl⟩ := (Imgaug.Noise.aggregate_iff method k n draw).1 hpos
      exact ⟨r, hr, hl, Imgaug.Noise.aggregate_range method k n draw 0 1 hd r hr⟩
  obtain ⟨l, hl, hn, hv⟩ := base
  refine ⟨_, by unfold mask; rw [hl]; rfl, by simpa using hn, fun v hm => ?_⟩
  obtain ⟨q, hq, rfl⟩ := List.mem_map.1 hm
  have h01 : (0 : ℝ) ≤ q ∧ (q : ℝ) ≤ 1 := ⟨by exact_mod_cast (hv q hq).1, by exact_mod_cast (hv q hq).2⟩
  cases c.act with
  | none => exact h01
  | some x =>
    dsimp only
    by_cases ha : a > 1 / 2
    · have := Imgaug.Noise.sigmoid_range a t 20 (-10) q ha; exact ⟨this.1.le, this.2.le⟩
    · rw [Imgaug.Noise.sigmoid_off a t 20 (-10) q (not_lt.1 ha)]; exact h01

example : ∃ r, mask ⟨some (.iterable [1, 3], .text "max"), some (.const 1)⟩ "max" 2 1 (fun i => [(i : ℚ) / 2]) 1 0 = some r ∧ r.length = 1 ∧
    ∀ v ∈ r, 0 ≤ v ∧ v ≤ 1 := by
  refine mask_unit (.iterable [1, 3]) (.text "max") (.bool true) _ (by decide +kernel) "max" 2 ⟨1, 3, rfl, by decide, by decide⟩ (by simp) 1 _ ?_ 1 0
  intro i hi
  have hi' : i = 0 ∨ i = 1 := by omega
  rcases hi' with rfl | rfl <;> simp <;> norm_num

/-- C138: requesting one iteration as a list of one number, which is drawn, gives the same mask as requesting it as a number. -/
theorem one_iteration (m : Methods) (s : Sig) (c c' : Config) (h : create (.int 1) m s = some c)
    (h' : create (.list [1]) m s = some c') (method : String) (n : Nat) (draw : Nat → List ℚ) (hd : (draw 0).length = n) (a t : ℝ) :
    mask c method 1 n draw a t = mask c' method 1 n draw a t := by
  obtain ⟨h1, h2⟩ := create_eq _ _ _ _ h
  obtain ⟨h3, h4⟩ := create_eq _ _ _ _ h'
  have ha : c.act = c'.act := by
    rcases h2 with ⟨u, x⟩ | ⟨u, b, p, x⟩ <;> rcases h4 with ⟨u', x'⟩ | ⟨u', b', p', x'⟩
    · rw [x, x']
    · rw [u] at u'; cases u'
    · rw [u] at u'; cases u'
    · rw [p] at p'; cases p'; rw [x, x']
  rcases h1 with ⟨_, hn⟩ | ⟨hne, _⟩
  · rcases h3 with ⟨hx, _⟩ | ⟨_, _, hs⟩
    · cases hx
    · unfold mask noise
      rw [hn, hs, ha]
      simp only [Imgaug.Noise.aggregate_one method n draw hd]
  · exact absurd rfl hne

example : (create (.int 1) (.text "avg") (.bool true)).isSome = true ∧ (create (.list [1]) (.text "avg") (.bool true)).isSome = true := by decide +kernel

/-- C138 (partial): the sigmoid is never applied where its probability is 0, always where it is 1, and else it can be applied or not.
Missing: probabilities between 0 and 0.01, which count as 0, and those within 0.000001 of 1, which count as 1. -/
theorem sigmoid_probability_partial (it : Iters) (m : Methods) (s : Sig) (c : Config) (hc : create it m s = some c) (p : ℚ)
    (hp : probability s = some p) :
    (p = 0 → c.act = none) ∧
    (p = 1 → ∃ x, c.act = some x ∧ ∀ a, actCan x a → a > 1 / 2) ∧
    (1 / 100 ≤ p → p ≤ 1 - 1 / 1000000 → ∃ x, c.act = some x ∧ (∃ a, actCan x a ∧ a > 1 / 2) ∧ ∃ a, actCan x a ∧ ¬ a > 1 / 2) := by
  obtain ⟨_, h2⟩ := create_eq it m s c hc
  cases s with
  | other => simp [probability] at hp
  | bool b =>
    cases b with
    | true =>
      simp only [probability, Option.some.injEq] at hp
      subst hp
      rcases h2 with ⟨u, _⟩ | ⟨_, x, hx, hcx⟩
      · simp [useSigmoid] at u
      · simp only [probParam, Option.some.injEq, if_true] at hx
        subst hx
        refine ⟨fun h => (by norm_num at h), fun _ => ⟨_, hcx, fun a ha => ?_⟩, fun _ h => (by norm_num at h)⟩
        simp only [actCan] at ha
        rw [ha]; norm_num
    | false =>
      simp only [probability, Option.some.injEq] at hp
      subst hp
      rcases h2 with ⟨_, hn⟩ | ⟨u, _⟩
      · exact ⟨fun _ => hn, fun h => (by norm_num at h), fun h => (by norm_num at h)⟩
      · simp [useSigmoid] at u
  | num q =>
    simp only [probability] at hp
    split_ifs at hp with hq
    rw [Option.some.injEq] at hp
    subst hp
    rcases h2 with ⟨u, hn⟩ | ⟨u, x, hx, hcx⟩
    · simp only [useSigmoid, decide_eq_false_iff_not, not_le, ge_iff_le] at u
      exact ⟨fun _ => hn, fun h => (by rw [h] at u; norm_num at u), fun h => absurd h (not_le.2 u)⟩
    · simp only [useSigmoid, decide_eq_true_eq, ge_iff_le] at u
      refine ⟨fun h => (by rw [h] at u; norm_num at u), fun h => ⟨x, hcx, fun a ha => ?_⟩, fun _ h => ⟨x, hcx, ?_⟩⟩
      · subst h
        simp only [probParam, or_true, if_true, Option.some.injEq] at hx
        subst hx
        simp only [actCan] at ha
        rw [ha]; norm_num
      · have hx' : x = .binomial q := by
          simp only [probParam] at hx
          rw [if_neg (by rintro (h0 | h0) <;> linarith), if_pos hq, if_neg (by linarith), if_neg (by linarith),
            Option.some.injEq] at hx
          exact hx.symm
        subst hx'
        exact ⟨⟨1, Or.inr rfl, by norm_num⟩, ⟨0, Or.inl rfl, by norm_num⟩⟩

/-- C138 is false for probabilities below one percent: the sigmoid is never applied. Neither is it for numbers below 0, which are no probabilities. -/
theorem small_probability (it : Iters) (m : Methods) (q : ℚ) (hq : q < 1 / 100) (c : Config) (hc : create it m (.num q) = some c) : c.act = none := by
  obtain ⟨_, h2⟩ := create_eq it m _ c hc
  rcases h2 with ⟨_, hn⟩ | ⟨u, _⟩
  · exact hn
  · simp only [useSigmoid, decide_eq_true_eq, ge_iff_le] at u; exact absurd u (not_le.2 hq)

example : create (.int 1) (.text "max") (.num (9 / 1000)) = some ⟨none, none⟩ ∧ probability (.num (9 / 1000)) = some (9 / 1000) ∧
    create (.int 1) (.text "max") (.num (-3)) = some ⟨none, none⟩ := by decide +kernel

/-- C138: without a sigmoid, or where it is not activated, the mask is the noise. -/
theorem plain_mask (c : Config) (method : String) (k : Int) (n : Nat) (draw : Nat → List ℚ) (a t : ℝ) (h : c.act = none ∨ a ≤ 1 / 2) :
    mask c method k n draw a t = (noise c method k n draw).map (fun l => l.map (fun (v : ℚ) => (v : ℝ))) := by
  unfold mask
  congr 1
  funext l
  refine List.map_congr_left (fun v _ => ?_)
  rcases h with h | h
  · rw [h]
  · cases c.act with
    | none => rfl
    | some x => exact Imgaug.Noise.sigmoid_off a t 20 (-10) v h

example : mask ⟨none, none⟩ "max" 1 2 (fun _ => [1 / 2, 1]) 1 3 = some [((1 / 2 : ℚ) : ℝ), ((1 : ℚ) : ℝ)] := by
  rw [plain_mask _ _ _ _ _ _ _ (Or.inl rfl)]; rfl

/-- C138: the threshold: an activated sigmoid gives more than one half exactly for noise above (threshold + 10) / 20. Thresholds from 10 on keep the mask at
or below one half everywhere, thresholds up to −10 at or above it; higher thresholds give lower masks. -/
theorem threshold_half (a : ℝ) (ha : a > 1 / 2) (t v : ℝ) :
    (1 / 2 < sigmoid a t 20 (-10) v ↔ (t + 10) / 20 < v) ∧
    (10 ≤ t → v ≤ 1 → sigmoid a t 20 (-10) v ≤ 1 / 2) ∧ (t ≤ -10 → 0 ≤ v → 1 / 2 ≤ sigmoid a t 20 (-10) v) ∧
    ∀ t', t < t' → sigmoid a t' 20 (-10) v < sigmoid a t 20 (-10) v := by
  obtain ⟨m1, m2, m3⟩ := Imgaug.Noise.sigmoid_monotone a 20 (by norm_num) ha
  have hmid : sigmoid a t 20 (-10) ((t + 10) / 20) = 1 / 2 := m3 t (-10) _ (by ring)
  have key : 1 / 2 < sigmoid a t 20 (-10) v ↔ (t + 10) / 20 < v := by
    constructor
    · intro h
      by_contra hn
      rcases lt_or_eq_of_le (not_lt.1 hn) with h1 | h1
      · have := m1 t (-10) _ _ h1; rw [hmid] at this; linarith
      · rw [h1, hmid] at h; exact lt_irrefl _ h
    · intro h
      have := m1 t (-10) _ _ h
      rwa [hmid] at this
  refine ⟨key, fun h1 h2 => ?_, fun h1 h2 => ?_, fun t' h => m2 t t' (-10) v h⟩
  · by_contra hn
    have := key.1 (not_le.1 hn)
    linarith
  · rcases lt_or_eq_of_le (show (t + 10) / 20 ≤ v by linarith) with h3 | h3
    · exact (key.2 h3).le
    · rw [← h3, hmid]

example : 1 / 2 < sigmoid 1 5 20 (-10) 1 := (threshold_half 1 (by norm_num) 5 1).1.2 (by norm_num)

/-- C138: where the sigmoid is activated, each component of the mask is the sigmoid of 20 times the noise, minus 10, minus the threshold; it exceeds one half
exactly for noise above (threshold + 10) / 20. -/
theorem activated_mask (c : Config) (x : Act) (hx : c.act = some x) (method : String) (k : Int) (n : Nat) (draw : Nat → List ℚ) (a t : ℝ) (ha : a > 1 / 2)
    (l : List ℚ) (hl : noise c method k n draw = some l) :
    ∃ r, mask c method k n draw a t = some r ∧ r.length = l.length ∧ ∀ (i : Nat) (v : ℚ), l[i]? = some v →
      ∃ u, r[i]? = some u ∧ u = 1 / (1 + Real.exp (-(20 * v - 10 - t))) ∧ (1 / 2 < u ↔ (t + 10) / 20 < v) := by
  refine ⟨_, by unfold mask; rw [hl, hx]; rfl, by simp, fun i v hv => ⟨sigmoid a t 20 (-10) v, by simp [hv], ?_, (threshold_half a ha t v).1⟩⟩
  rw [sigmoid, if_pos ha]
  congr 4
  ring

example : noise ⟨none, some (.const 1)⟩ "max" 1 2 (fun _ => [1 / 2, 1]) = some [1 / 2, 1] := rfl

/-- C138: as many samples of noise as iterations were drawn are combined: each component of the noise is the largest (for "max"), the smallest ("min") or the
mean ("avg") of those. -/
theorem noise_combined (it : Iters) (m : Methods) (s : Sig) (c : Config) (hc : create it m s = some c) (k : Int) (hk : itersCan it k) (hp : it = .param → 0 < k)
    (n : Nat) (draw : Nat → List ℚ) (hd : ∀ i : Nat, (i : Int) < k → (draw i).length = n) (method : String) (j : Nat) (hj : j < n) :
    ∃ l v, noise c method k n draw = some l ∧ l[j]? = some v ∧
      (method = "max" → (∃ i : Nat, (i : Int) < k ∧ (draw i)[j]? = some v) ∧ ∀ (i : Nat) u, (i : Int) < k → (draw i)[j]? = some u → u ≤ v) ∧
      (method = "min" → (∃ i : Nat, (i : Int) < k ∧ (draw i)[j]? = some v) ∧ ∀ (i : Nat) u, (i : Int) < k → (draw i)[j]? = some u → v ≤ u) ∧
      (method = "avg" → v = (∑ i ∈ Finset.range k.toNat, (draw i).getD j 0) / k) := by
  have hpos : 0 < k := by
    rcases (create_eq it m s c hc).1 with ⟨hi, _⟩ | ⟨_, hok, _⟩
    · subst hi; simp only [itersCan] at hk; omega
    · by_cases hpar : it = .param
      · exact hp hpar
      · have := (Imgaug.Noise.iterations_bounds it hok hpar k hk).1; omega
  have agg : noise c method k n draw = aggregate method k n draw := by
    rcases (create_eq it m s c hc).1 with ⟨hi, hn⟩ | ⟨_, _, hs⟩
    · subst hi
      simp only [itersCan] at hk
      subst hk
      rw [noise, hn]
      exact (Imgaug.Noise.aggregate_one method n draw (hd 0 (by decide))).symm
    · rw [noise, hs]
  obtain ⟨l, hl, hlen⟩ := (Imgaug.Noise.aggregate_iff method k n draw).1 hpos
  have hjl : j < l.length := by omega
  refine ⟨l, l[j], agg.trans hl, List.getElem?_eq_getElem hjl, ?_, ?_, ?_⟩
  · rintro rfl
    obtain ⟨v, h1, h2, h3⟩ := Imgaug.Noise.aggregate_max k n draw hd l hl j hj
    rw [List.getElem?_eq_getElem hjl, Option.some.injEq] at h1
    rw [h1]; exact ⟨h2, h3⟩
  · rintro rfl
    obtain ⟨v, h1, h2, h3⟩ := Imgaug.Noise.aggregate_min k n draw hd l hl j hj
    rw [List.getElem?_eq_getElem hjl, Option.some.injEq] at h1
    rw [h1]; exact ⟨h2, h3⟩
  · rintro rfl
    have h1 := Imgaug.Noise.aggregate_avg k n draw l hl j hj
    rw [List.getElem?_eq_getElem hjl, Option.some.injEq] at h1
    exact h1

example : noise ⟨some (.int 2, .text "max"), none⟩ "max" 2 1 (fun i => [(i : ℚ) / 2]) = some [1 / 2] ∧
    create (.int 2) (.text "max") (.bool false) = some ⟨some (.int 2, .text "max"), none⟩ := by decide +kernel

end Imgaug.NoiseMask.Props
