import Verif.Proofs.Params2
/-! `Choice` of parameters, and the memory of `DeterministicList`. -/
namespace Imgaug.Params
open Imgaug Imgaug.Dtypes
variable {σ : Type}

/-- C57: what is drawn from a `Choice` of numbers and parameters: an alternative is chosen for every sample; if it is a number, that is the
sample; if it is a parameter, the sample is drawn from it. This requires that no two different parameters among the alternatives have
the same string, see `choice_items_confused`. -/
theorem choice_items_partial (E : Env σ) (hE : E.Ok) (a : List (Item σ)) (replace : Bool) (p : Option (List ℚ))
    (hkey : ∀ q q' : Param σ, .par q ∈ a → .par q' ∈ a → q.key = q'.key → q = q') (size : List Nat) (s s' : σ) (r : Arr)
    (h : (choiceItems E a replace p).draw size s = some (r, s')) :
    r.shape = size ∧ r.vals.length = size.prod ∧ ∃ idx s1, E.choice a.length size.prod replace p s = some (idx, s1) ∧
      ∀ i, i < size.prod → ∃ k it v, idx[i]? = some k ∧ a[k]? = some it ∧ r.vals[i]? = some v ∧
        (match it with | .val _ w => v = w | .par q => ∃ n s2 r2 s3, q.draw [n] s2 = some (r2, s3) ∧ v ∈ r2.vals) := by
  simp only [choiceItems, Option.bind_eq_some_iff, Option.map_eq_some_iff, Prod.mk.injEq] at h
  obtain ⟨⟨idx, s1⟩, e1, samples, e2, ⟨d, s2⟩, e3, l, e4, rfl, -⟩ := h
  obtain ⟨r1, r2⟩ := readItems_spec d samples [] l e4
  have hlen := mapM_len _ _ _ e2
  have hidx := (hE.choice _ _ _ _ _ _ _ e1).1
  simp only at hlen
  refine ⟨rfl, by simp only; rw [r1, hlen, hidx], idx, s1, e1, fun i hi => ?_⟩
  have hi1 : i < idx.length := by rw [hidx]; exact hi
  obtain ⟨it, h1, h2⟩ := mapM_nth _ _ _ e2 i idx[i] (List.getElem?_eq_getElem hi1)
  obtain ⟨v, h3, h4⟩ := r2 i it h1
  refine ⟨idx[i], it, v, List.getElem?_eq_getElem hi1, h2, h3, ?_⟩
  cases it with
  | val k w => exact h4
  | par q =>
    simp only at h4 ⊢
    have hqa : Item.par q ∈ a := List.mem_of_getElem? h2
    have hcount : samples.countP (Item.isPar q.key) ≠ 0 := by
      have : 0 < samples.countP (Item.isPar q.key) := List.countP_pos_iff.mpr ⟨_, List.mem_of_getElem? h1, by simp [Item.isPar]⟩
      omega
    rcases drawItems_spec E _ _ _ _ _ _ e3 q.key with ⟨-, k2⟩ | ⟨p', hp', k1, s0, r0, s4, k2, k3⟩
    · exact absurd (k2 q hqa rfl) hcount
    · have := hkey p' q hp' hqa k1
      subst this
      exact ⟨_, s0, r0, s4, k2, by rw [← k3]; exact h4⟩

/-- C57: such a choice does not fail, if numpy's choice and the parameters do not, and no number has the string of a parameter. -/
theorem choice_items_total (E : Env σ) (hE : E.Ok) (a : List (Item σ)) (replace : Bool) (p : Option (List ℚ))
    (hp : ∀ q : Param σ, .par q ∈ a → Shaped q ∧ ∀ n s, ∃ r s', q.draw [n] s = some (r, s'))
    (hv : ∀ k v (q : Param σ), .val k v ∈ a → .par q ∈ a → q.key ≠ k)
    (size : List Nat) (s : σ) (hc : E.choice a.length size.prod replace p s ≠ none) : (choiceItems E a replace p).draw size s ≠ none := by
  obtain ⟨⟨idx, s1⟩, e1⟩ := Option.ne_none_iff_exists'.mp hc
  have hidx := (hE.choice _ _ _ _ _ _ _ e1).2
  obtain ⟨samples, e2⟩ : ∃ l, idx.mapM (fun i => a[i]?) = some l := by
    have hg : ∀ i ∈ idx, ∃ v, a[i]? = some v := fun i hi => ⟨a[i]'(hidx i hi), List.getElem?_eq_getElem (hidx i hi)⟩
    clear e1 hidx hc
    induction idx with
    | nil => exact ⟨[], rfl⟩
    | cons x l ih =>
      obtain ⟨v, hv⟩ := hg x List.mem_cons_self
      obtain ⟨r, hr⟩ := ih (fun i hi => hg i (List.mem_cons_of_mem _ hi))
      exact ⟨v :: r, by rw [List.mapM_cons, hv, hr]; rfl⟩
  have hmem := (mapM_index a idx samples e2).2
  obtain ⟨d, s2, e3⟩ := drawItems_total E (fun k => samples.countP (Item.isPar k)) a (fun _ => []) s1 (fun q hq => (hp q hq).2) (by
    intro k v hk
    by_contra hne
    obtain ⟨q, hq, rfl⟩ := count_par samples k hne
    exact hv _ v q hk (hmem _ hq) rfl)
  obtain ⟨l, e4⟩ := readItems_total d samples [] (by
    intro q hq
    rw [List.nil_append]
    rcases drawItems_spec E _ _ _ _ _ _ e3 q.key with ⟨-, k2⟩ | ⟨p', hp', k1, s0, r0, s4, k2, k3⟩
    · rw [k2 q (hmem _ hq) rfl]; omega
    · rw [k3, ((hp p' hp').1 _ _ _ _ k2).2]; simp)
  simp only [choiceItems, e1, Option.bind_some]
  rw [e2]
  simp [e3, e4]

/-- C57: two parameters with the same string are confused. `Deterministic(0.000000001)` and `Deterministic(0.000000002)` both have the
string `Deterministic(float 0.00000000)`; whenever the first is chosen, the sample is that of the second. -/
theorem choice_items_confused (E : Env σ) (s s1 s' : σ) (r : Arr) (p : Option (List ℚ)) (hc : E.choice 2 1 true p s = some ([0], s1))
    (h : (choiceItems E [.par (deterministic false (1 / 1000000000)), .par (deterministic false (2 / 1000000000))] true p).draw [1] s = some (r, s')) :
    r.vals = [2 / 1000000000] := by
  simp [choiceItems, hc, drawItems, readItems, Item.key, Item.isPar, deterministic, drawSamples, full, astype, f32] at h
  exact h.1 ▸ rfl

/-- C57: draws from `Clip(DeterministicList(...))`, `Positive(...)` and the like, which write into the samples in place, are nevertheless
what they would be without sharing memory, because clipping twice is clipping once. -/
theorem in_place_consistent (f : ℚ → ℚ) (hf : ∀ v, f (f v) = f v) (vals : List ℚ) (hv : vals ≠ []) (ns : List Nat) :
    ∃ out vals', drawsInPlace f vals ns = some (out, vals') ∧ vals'.map f = vals.map f ∧
      out = ns.map (fun n => (List.range n).filterMap (fun i => (vals.map f)[i % vals.length]?)) := by
  induction ns generalizing vals with
  | nil => exact ⟨[], vals, rfl, rfl, rfl⟩
  | cons n ns ih =>
    obtain ⟨l, h1, h2, h3⟩ := listSamples_spec vals hv n
    have hl : 0 < vals.length := List.length_pos_of_ne_nil hv
    have hout : l.map f = (List.range n).filterMap (fun i => (vals.map f)[i % vals.length]?) := by
      have : (List.range n).filterMap (fun i => (vals.map f)[i % vals.length]?) = (List.range n).map (fun i => f (vals.getD (i % vals.length) 0)) := by
        rw [← List.filterMap_eq_map (f := fun i => f (vals.getD (i % vals.length) 0))]
        refine List.filterMap_congr (fun i _ => ?_)
        have : i % vals.length < vals.length := Nat.mod_lt _ hl
        simp [List.getElem?_eq_getElem this]
      rw [this]
      apply List.ext_getElem?
      intro i
      rw [List.getElem?_map, List.getElem?_map]
      by_cases hi : i < n
      · have hm : i % vals.length < vals.length := Nat.mod_lt _ hl
        rw [h3 i hi, List.getElem?_range hi, List.getElem?_eq_getElem hm]
        simp [List.getElem?_eq_getElem hm]
      · rw [List.getElem?_eq_none (by omega), List.getElem?_eq_none (by simp; omega)]; rfl
    set vals1 := if n > vals.length then vals else l.map f ++ vals.drop n with hv1
    have hmap : vals1.map f = vals.map f := by
      rw [hv1]
      split_ifs with hn
      · rfl
      · have hl' : l = vals.take n := by
          apply List.ext_getElem?
          intro i
          by_cases hi : i < n
          · rw [h3 i hi, List.getElem?_take_of_lt hi, Nat.mod_eq_of_lt (by omega)]
          · rw [List.getElem?_eq_none (by omega), List.getElem?_eq_none (by simp; omega)]
        rw [hl', List.map_append, List.map_map]
        have : f ∘ f = f := funext hf
        rw [this, ← List.map_append, List.take_append_drop]
    have hlen1 : vals1.length = vals.length := by simpa using congrArg List.length hmap
    have hne1 : vals1 ≠ [] := by rw [← List.length_pos_iff]; omega
    obtain ⟨out, vals', k1, k2, k3⟩ := ih vals1 hne1
    refine ⟨l.map f :: out, vals', ?_, k2.trans hmap, ?_⟩
    · rw [drawsInPlace, drawInPlace, h1, Option.map_some, Option.bind_some]
      simp only
      rw [← hv1, k1, Option.map_some]
    · rw [k3, List.map_cons, hout, hmap, hlen1]

/-- C57: but the list parameter itself is changed. After drawing two samples from `Clip(l, maxval=4)` with `l = DeterministicList([1, 5, 10])`,
the parameter `l` produces 1, 4, 10. -/
theorem in_place_corrupts :
    (drawsInPlace (clipTo none (some 4)) [1, 5, 10] [2]).map (fun r => (r.1, listSamples r.2 3)) = some ([[1, 4]], some [1, 4, 10]) := by
  decide +kernel

/-- C57: it is not changed if more samples than it has values are requested. -/
theorem in_place_tiled (f : ℚ → ℚ) (vals : List ℚ) (ns : List Nat) (hn : ∀ n ∈ ns, vals.length < n) (out : List (List ℚ)) (vals' : List ℚ)
    (h : drawsInPlace f vals ns = some (out, vals')) : vals' = vals := by
  induction ns generalizing out with
  | nil => simp only [drawsInPlace, Option.some.injEq, Prod.mk.injEq] at h; exact h.2.symm
  | cons n ns ih =>
    simp only [drawsInPlace, drawInPlace, Option.bind_eq_some_iff, Option.map_eq_some_iff, Prod.mk.injEq] at h
    obtain ⟨r, ⟨l, h1, rfl⟩, q, h2, h3, h4⟩ := h
    simp only [if_pos (hn n List.mem_cons_self)] at h2
    obtain ⟨q1, q2⟩ := q
    simp only at h4
    subst h4
    exact ih (fun m hm => hn m (List.mem_cons_of_mem _ hm)) q1 h2

/-- Clipping twice is clipping once. -/
example (mn mx : Option ℚ) (h : ∀ a b, mn = some a → mx = some b → a ≤ b) (v : ℚ) : clipTo mn mx (clipTo mn mx v) = clipTo mn mx v := by
  cases mn with
  | none => cases mx with
    | none => rfl
    | some b => simp [clipTo]
  | some a => cases mx with
    | none => simp [clipTo]
    | some b =>
      have := h a b rfl rfl
      simp only [clipTo]
      rw [max_eq_left (le_min (le_max_right _ _) this), min_eq_left (min_le_right _ _)]

/-- A generator that always yields the smallest value: the assumptions about the environment can be met. -/
def least : Env Nat where
  advance := (· + 1)
  integers a _ n s := (List.replicate n a, s + n)
  choice k n _ _ s := if k = 0 then none else some (List.replicate n 0, s + n)
  binomial _ n s := (List.replicate n 0, s + n)
  poisson _ n s := (List.replicate n 0, s + n)
  uniform a _ n s := (List.replicate n a, s + n)
  normal m _ n s := (List.replicate n m, s + n)
  truncnorm _ _ a _ n s := (List.replicate n a, s + n)
  beta _ _ n s := (List.replicate n 0, s + n)
  promote a _ := a

/-- C57: the example environment meets the assumptions. -/
theorem least_ok : least.Ok where
  integers a b n s h := ⟨by simp [least], fun v hv => by rw [List.eq_of_mem_replicate hv]; omega⟩
  choice k n r p s l s' h := by
    simp only [least] at h
    split_ifs at h with hk
    simp only [Option.some.injEq, Prod.mk.injEq] at h
    rw [← h.1]
    exact ⟨by simp, fun i hi => by rw [List.eq_of_mem_replicate hi]; omega⟩
  binomial p n s _ _ := ⟨by simp [least], fun v hv => by rw [List.eq_of_mem_replicate hv]; omega⟩
  poisson l n s _ := by simp [least]
  uniform a b n s h := ⟨by simp [least], fun v hv => by rw [List.eq_of_mem_replicate hv]; exact ⟨le_rfl, h.le⟩⟩
  normal m d n s _ := by simp [least]
  truncnorm m d a b n s _ h := ⟨by simp [least], fun v hv => by rw [List.eq_of_mem_replicate hv]; exact ⟨le_rfl, h⟩⟩
  beta a b n s _ _ := ⟨by simp [least], fun v hv => by rw [List.eq_of_mem_replicate hv]; norm_num⟩

/-- `DiscreteUniform(5, 2)` in this environment. -/
example : ((discreteUniform least (deterministic true 5) (deterministic true 2)).draw [2, 2] 0).map (fun r => r.1) = some ⟨i32, [2, 2], [2, 2, 2, 2]⟩ := by
  decide +kernel

end Imgaug.Params
