import Verif.Proofs.WrapPrefetch
/-! C78: which parameters are prefetched. -/
namespace Imgaug.Wrap

/-- For the examples: `Normal(Uniform(0, 1), 3)`. -/
def demoNormal : V := .param true true [.param true true [.const, .const], .param false false [.const]]

/-- For the examples: `Normal(RandomSign(Deterministic(20)), 3)`. -/
def demoSign : V := .param true true [.param true false [.param false false [.const], .const], .param false false [.const]]

/-- C78: wrapping only adds prefetchers: apart from them, the parameter is the same. -/
theorem only_prefetchers_added (en : Bool) (v : V) : bare (wrap en v) = bare v := wrapRec_bare en v

/-- C78: while prefetching is disabled, parameters are not changed. -/
theorem disabled_unchanged (v : V) : wrap false v = v := wrapRec_off v

/-- C78: wrapping a parameter that was wrapped already changes nothing, whether prefetching is still enabled or not. -/
theorem wrapped_once (en : Bool) (v : V) : wrap en (wrap true v) = wrap true v := by
  simp only [wrap, wrapRec_again]

/-- C78: prefetchers are not nested, if they were not before. -/
theorem not_nested (en : Bool) (v : V) (h : Inside (fun p => ¬ HasAuto p) v) : Inside (fun p => ¬ HasAuto p) (wrap en v) := by
  refine inside_keep _ en ?_ v h
  intro rd attrs _ hf
  simp only [HasAuto]
  have := flagAll_iff en attrs
  rw [flag_unchanged en attrs hf, hf] at this
  simpa using this

example : Inside (fun p => ¬ HasAuto p) demoNormal ∧ HasAuto (wrap true demoNormal) := by
  constructor
  · simp [demoNormal, Inside, InsideAll]
  · simp [demoNormal, wrap, wrapRec, wrapAll, HasAuto, HasAutoAny]

/-- C78: with prefetching enabled, every prefetchable parameter is prefetched itself or has a prefetched parameter in its attributes, through which
it draws. -/
theorem all_prefetched (v : V) : Covered (wrap true v) := covered_wrap v

/-- C78 (partial): a parameter that is prefetched has no prefetchable parameters in its attributes, so that these are still drawn anew in every
call. Missing: random parameters that are not prefetchable, such as `RandomSign` (`random_inside_prefetched`). -/
theorem prefetched_are_leaves_partial (en : Bool) (v : V) (h : Inside (fun p => ¬ BelowHas (fun _ pf => pf = true) p) v) :
    Inside (fun p => ¬ BelowHas (fun _ pf => pf = true) p) (wrap en v) := by
  refine inside_keep _ en ?_ v h
  intro rd attrs he hf
  subst he
  simp only [BelowHas]
  exact none_prefetchable_all attrs hf

example : Inside (fun p => ¬ BelowHas (fun _ pf => pf = true) p) demoNormal := by simp [demoNormal, Inside, InsideAll]
example : wrap true demoNormal = .param true true [.auto (.param true true [.const, .const]), .param false false [.const]] := by
  simp [demoNormal, wrap, wrapRec, wrapAll]

/-- C78: only prefetchable parameters are put into prefetchers. -/
theorem only_prefetchable (en : Bool) (v : V) (h : Inside (fun p => ∃ rd attrs, p = .param rd true attrs) v) :
    Inside (fun p => ∃ rd attrs, p = .param rd true attrs) (wrap en v) :=
  inside_keep _ en (fun rd attrs _ _ => ⟨rd, attrs, rfl⟩) v h

example : Inside (fun p => ∃ rd attrs, p = .param rd true attrs) demoSign := by simp [demoSign, Inside, InsideAll]

/-- C78 is false of random parameters that are not prefetchable: `Normal(RandomSign(Deterministic(20)), 3)` is prefetched as a whole. -/
theorem random_inside_prefetched :
    wrap true demoSign = .auto demoSign ∧ BelowHas (fun rd _ => rd = true) demoSign := by
  constructor
  · simp [demoSign, wrap, wrapRec, wrapAll]
  · simp [demoSign, BelowHas, HasAny, Has]

/-- C78: what that means, with a parameter that draws one number per call (here the number of the call) and returns it for all samples of the
call: without prefetching every call has its own number, with prefetching all calls until the buffer is empty have the same one. -/
theorem prefetched_draws_frozen (P n m k : Nat) (hP : n + m < P) :
    let p : Param Nat Nat := ⟨fun n s => (List.replicate n s, s + 1)⟩
    (PF.run P p [(false, 0, k), (false, 0, n), (false, 0, m)] PF.fresh (fun _ => 0)).1 =
      [List.replicate k 0, List.replicate n 1, List.replicate m 2] ∧
    (PF.run P p [(true, 0, k), (true, 0, n), (true, 0, m)] PF.fresh (fun _ => 0)).1 =
      [List.replicate k 0, List.replicate n 1, List.replicate m 1] := by
  intro p
  constructor
  · simp [PF.run, PF.drawSamples, p]
  · have h1 : ¬ (n ≥ P) := by omega
    have h2 : ¬ (m ≥ P) := by omega
    have h3 : ¬ ((P : Int) - n ≤ 0) := by omega
    have h4 : ¬ ((P : Int) - n - m ≤ 0) := by omega
    have h5 : min n P = n := by omega
    have h6 : min m (P - n) = m := by omega
    simp [PF.run, PF.drawSamples, PF.prefetch, PF.take, PF.fresh, p, h1, h2, h3, h4, h5, h6]

example : (3 : Nat) + 4 < 10000 := by decide

end Imgaug.Wrap
