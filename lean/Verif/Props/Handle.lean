import Verif.Proofs.Handle
import Verif.Props.Params
import Verif.Props.Params2
/-! Which arguments are accepted, and into which parameters they are turned. -/
namespace Imgaug.Params
open Imgaug Imgaug.Dtypes
variable {σ : Type}

/-- C58: exactly the values of the value range pass the check. -/
theorem range_check (v : ℚ) (vr : VR) : checkValueRange v vr = true ↔ v ∈ vr.allowed := by
  rcases vr with _ | ⟨lo, hi⟩ | ok | _
  · simp [checkValueRange, VR.allowed]
  · cases lo <;> cases hi <;> simp [checkValueRange, VR.allowed]
  · rfl
  · simp [checkValueRange, VR.allowed]

/-- C58: `handle_continuous_param` accepts exactly stochastic parameters, and numbers, pairs and lists of numbers that all are in the value range. -/
theorem continuous_accepts (param : Val) (vr : VR) (t l : Bool) :
    (handleContinuous param vr t l).isSome = true ↔
      (∃ i, param = .atom (.par i)) ∨ (NumericArg t l true param ∧ AllAllowed vr param) := by
  have all : ∀ ns : List Num, ns.all (fun n => checkValueRange n.q vr) = true ↔ ∀ n ∈ ns, n.q ∈ vr.allowed := by
    intro ns; simp [List.all_eq_true, range_check]
  have allN : ∀ l : List Atom, (∀ a ∈ l, ∃ n : Num, a = .num n ∧ (True ∨ n.isInt = true)) ↔ ∃ ns : List Num, l = ns.map Atom.num := by
    intro l
    have := allNum_iff true l
    simpa using this
  rcases param with a | as | as
  · cases a with
    | num n => simp [handleContinuous, NumericArg, AllAllowed, numbers, ← range_check]
    | bool b => simp [handleContinuous, NumericArg, numbers]
    | par i => simp [handleContinuous]
    | other => simp [handleContinuous, NumericArg, numbers]
  · simp only [handleContinuous, NumericArg, AllAllowed, numbers, reduceCtorEq, exists_false, false_or, allN]
    cases t
    · simp
    cases e : as.mapM asNum with
    | none =>
      simp only [if_true, Option.isSome_none, Bool.false_eq_true, false_iff]
      rintro ⟨⟨⟨ns, h⟩, -⟩, -⟩
      rw [(mapM_num as ns).mpr h] at e
      cases e
    | some ns =>
      have h := (mapM_num as ns).mp e
      subst h
      simp only [mem_numbers_map]
      rcases ns with _ | ⟨a, _ | ⟨b, _ | ⟨c, ns⟩⟩⟩
      · simp
      · simp
      · simp only [if_true, List.map_cons, List.map_nil, List.length_cons, List.length_nil, ← range_check]
        split_ifs with c
        · simp only [Bool.and_eq_true] at c
          simp only [Option.isSome_some, true_iff, and_true]
          refine ⟨⟨[a, b], rfl⟩, ?_⟩
          simpa using c
        · simp only [Option.isSome_none, Bool.false_eq_true, false_iff]
          rintro ⟨-, h⟩
          exact c (by simp [h a (by simp), h b (by simp)])
      · simp
  · simp only [handleContinuous, NumericArg, AllAllowed, numbers, reduceCtorEq, exists_false, false_or, allN]
    cases l
    · simp
    cases e : as.mapM asNum with
    | none =>
      simp only [if_true, Option.isSome_none, Bool.false_eq_true, false_iff]
      rintro ⟨⟨⟨ns, h⟩, -⟩, -⟩
      rw [(mapM_num as ns).mpr h] at e
      cases e
    | some ns =>
      have h := (mapM_num as ns).mp e
      subst h
      simp only [mem_numbers_map, if_true]
      split_ifs with c
      · simp only [Option.isSome_some, true_iff, and_true]
        exact ⟨⟨ns, rfl⟩, (all ns).mp c⟩
      · simp only [Option.isSome_none, Bool.false_eq_true, false_iff]
        rintro ⟨-, h⟩
        exact c ((all ns).mpr h)

/-- C58: what `handle_continuous_param` turns accepted arguments into. -/
theorem continuous_result (param : Val) (vr : VR) (t l : Bool) (r : Handled) (h : handleContinuous param vr t l = some r) :
    (∀ n, param = .atom (.num n) → r = .det n) ∧ (∀ a b, param = .tuple [.num a, .num b] → r = .uniform a b) ∧
    (∀ ns : List Num, param = .iter (ns.map .num) → r = .choice ns) ∧ (∀ i, param = .atom (.par i) → r = .par i) := by
  refine ⟨?_, ?_, ?_, ?_⟩
  · rintro n rfl
    simp only [handleContinuous] at h
    split_ifs at h
    exact (Option.some.inj h).symm
  · rintro a b rfl
    simp only [handleContinuous, (mapM_num [.num a, .num b] [a, b]).mpr rfl] at h
    split_ifs at h
    exact (Option.some.inj h).symm
  · rintro ns rfl
    simp only [handleContinuous, (mapM_num (ns.map .num) ns).mpr rfl] at h
    split_ifs at h
    exact (Option.some.inj h).symm
  · rintro i rfl
    exact (Option.some.inj h).symm

/-- C58: `handle_discrete_param` accepts exactly stochastic parameters, and numbers (integers, if floats are not allowed), pairs and lists of numbers that
all are in the value range. -/
theorem discrete_accepts (param : Val) (vr : VR) (t l fl : Bool) :
    (handleDiscrete param vr t l fl).isSome = true ↔
      (∃ i, param = .atom (.par i)) ∨ (NumericArg t l fl param ∧ AllAllowed vr param) := by
  have all : ∀ ns : List Num, ns.all (fun n => checkValueRange n.q vr) = true ↔ ∀ n ∈ ns, n.q ∈ vr.allowed := by
    intro ns; simp [List.all_eq_true, range_check]
  rcases param with a | as | as
  · cases a with
    | num n =>
      simp only [handleDiscrete, NumericArg, AllAllowed, numbers, ← range_check]
      cases fl <;> cases hn : n.isInt <;> simp [hn]
    | bool b => simp [handleDiscrete, NumericArg, numbers]
    | par i => simp [handleDiscrete]
    | other => simp [handleDiscrete, NumericArg, numbers]
  · simp only [handleDiscrete, NumericArg, AllAllowed, numbers, reduceCtorEq, exists_false, false_or, allNum_iff]
    cases t
    · simp
    cases e : as.mapM (asNumOrInt fl) with
    | none =>
      simp only [if_true, Option.isSome_none, Bool.false_eq_true, false_iff]
      rintro ⟨⟨⟨ns, h, h2⟩, -⟩, -⟩
      rw [(mapM_asNum fl as ns).mpr ⟨h, h2⟩] at e
      cases e
    | some ns =>
      obtain ⟨h, hf⟩ := (mapM_asNum fl as ns).mp e
      subst h
      simp only [mem_numbers_map]
      rcases ns with _ | ⟨a, _ | ⟨b, _ | ⟨c, ns⟩⟩⟩
      · simp
      · simp
      · simp only [if_true, List.map_cons, List.map_nil, List.length_cons, List.length_nil, ← range_check]
        split_ifs with c
        · simp only [Bool.and_eq_true] at c
          simp only [Option.isSome_some, true_iff, and_true]
          refine ⟨⟨[a, b], rfl, hf⟩, ?_⟩
          simpa using c
        · simp only [Option.isSome_none, Bool.false_eq_true, false_iff]
          rintro ⟨-, h⟩
          exact c (by simp [h a (by simp), h b (by simp)])
      · simp
  · simp only [handleDiscrete, NumericArg, AllAllowed, numbers, reduceCtorEq, exists_false, false_or, allNum_iff]
    cases l
    · simp
    cases e : as.mapM (asNumOrInt fl) with
    | none =>
      simp only [if_true, Option.isSome_none, Bool.false_eq_true, false_iff]
      rintro ⟨⟨⟨ns, h, h2⟩, -⟩, -⟩
      rw [(mapM_asNum fl as ns).mpr ⟨h, h2⟩] at e
      cases e
    | some ns =>
      obtain ⟨h, hf⟩ := (mapM_asNum fl as ns).mp e
      subst h
      simp only [mem_numbers_map, if_true]
      split_ifs with c
      · simp only [Option.isSome_some, true_iff, and_true]
        exact ⟨⟨ns, rfl, hf⟩, (all ns).mp c⟩
      · simp only [Option.isSome_none, Bool.false_eq_true, false_iff]
        rintro ⟨-, h⟩
        exact c ((all ns).mpr h)

/-- C58: what `handle_discrete_param` turns accepted arguments into: numbers are cut off to integers. -/
theorem discrete_result (param : Val) (vr : VR) (t l fl : Bool) (r : Handled) (h : handleDiscrete param vr t l fl = some r) :
    (∀ n, param = .atom (.num n) → r = .det ⟨true, pyInt n.q⟩) ∧
    (∀ a b, param = .tuple [.num a, .num b] → r = .discreteUniform (pyInt a.q) (pyInt b.q)) ∧
    (∀ ns : List Num, param = .iter (ns.map .num) → r = .choiceInt (ns.map (fun n => pyInt n.q))) ∧ (∀ i, param = .atom (.par i) → r = .par i) := by
  refine ⟨?_, ?_, ?_, ?_⟩
  · rintro n rfl
    simp only [handleDiscrete] at h
    split_ifs at h
    exact (Option.some.inj h).symm
  · rintro a b rfl
    simp only [handleDiscrete] at h
    split_ifs at h
    cases e : [Atom.num a, .num b].mapM (asNumOrInt fl) with
    | none => rw [e] at h; cases h
    | some ns =>
      obtain ⟨h1, -⟩ := (mapM_asNum fl _ ns).mp e
      rw [e] at h
      match ns, h1 with
      | [x, y], h1 =>
        simp only [List.map_cons, List.map_nil, List.cons.injEq, Atom.num.injEq, and_true] at h1
        obtain ⟨rfl, rfl⟩ := h1
        simp only at h
        split_ifs at h
        exact (Option.some.inj h).symm
  · rintro ns rfl
    simp only [handleDiscrete] at h
    split_ifs at h
    cases e : (ns.map Atom.num).mapM (asNumOrInt fl) with
    | none => rw [e] at h; cases h
    | some ms =>
      obtain ⟨h1, -⟩ := (mapM_asNum fl _ ms).mp e
      have : ns = ms := List.map_injective_iff.mpr (fun a b h => by cases h; rfl) h1
      subst this
      rw [e] at h
      simp only at h
      split_ifs at h
      exact (Option.some.inj h).symm
  · rintro i rfl
    exact (Option.some.inj h).symm

/-- C58: everything sampled from an accepted argument of numbers is in the value range (an interval), if the numbers fit into 32 bits. -/
theorem continuous_samples (E : Env σ) (hE : E.Ok) (pars : Nat → Param σ) (param : Val) (lo hi : Option ℚ) (t l : Bool) (r : Handled)
    (h : handleContinuous param (.interval lo hi) t l = some r) (hp : ∀ i, param ≠ .atom (.par i))
    (hf : ∀ n : Num, .num n ∈ numbers param → n.Fits) : Yields (r.toParam E pars) (VR.interval lo hi).allowed := by
  have ha := (continuous_accepts param (.interval lo hi) t l).mp (by rw [h]; rfl)
  obtain ⟨r1, r2, r3, -⟩ := continuous_result param (.interval lo hi) t l r h
  rcases ha with ⟨i, hi⟩ | ⟨⟨hn, hk⟩, hall⟩
  · exact absurd hi (hp i)
  rcases param with a | as | as
  · obtain ⟨n, rfl, -⟩ := hn a (by simp [numbers])
    rw [r1 n rfl]
    intro size s q s' hd v hv
    rw [deterministic_yields n (hf n (by simp [numbers])) size s q s' hd v hv]
    exact hall n (by simp [numbers])
  · obtain ⟨ns, e, -⟩ := (allNum_iff true as).mp hn
    subst e
    match ns, hk.2 with
    | [a, b], _ =>
      rw [r2 a b rfl]
      have ma : Atom.num a ∈ numbers (.tuple ([a, b].map Atom.num)) := by simp [numbers]
      have mb : Atom.num b ∈ numbers (.tuple ([a, b].map Atom.num)) := by simp [numbers]
      have ya : ∀ n : Num, n.Fits → Yields (deterministic n.isInt n.q : Param σ) (between n.q n.q) := fun n hn size s q s' hd v hv => by
        rw [deterministic_yields n hn size s q s' hd v hv]; exact ⟨le_rfl, le_rfl⟩
      have hu := (uniform_range E hE _ _ a.q a.q b.q b.q (ya a (hf a ma)) (ya b (hf b mb))).1
      intro size s q s' hd v hv
      obtain ⟨v1, v2⟩ := hu size s q s' hd v hv
      obtain ⟨a1, a2⟩ := hall a ma
      obtain ⟨b1, b2⟩ := hall b mb
      exact ⟨fun l hl => (le_min (a1 l hl) (b1 l hl)).trans v1, fun k hk => v2.trans (max_le (a2 k hk) (b2 k hk))⟩
  · obtain ⟨ns, e, -⟩ := (allNum_iff true as).mp hn
    subst e
    rw [r3 ns rfl]
    have hc := (choice_listed_partial E hE (numsDt ns) (ns.map (·.q)) true none
      (fits_to32 ns (fun n hn => hf n ((mem_numbers_map n ns).mpr hn)))).1
    intro size s q s' hd v hv
    obtain ⟨n, hn, rfl⟩ := List.mem_map.mp (hc size s q s' hd v hv)
    exact hall n ((mem_numbers_map n ns).mpr hn)

/-- C58: everything sampled from an accepted argument of numbers is an integer in the value range, if the bounds of the range are integers and the
numbers fit into 32 bits. -/
theorem discrete_samples_partial (E : Env σ) (hE : E.Ok) (pars : Nat → Param σ) (param : Val) (lo hi : Option ℚ) (t l fl : Bool) (r : Handled)
    (h : handleDiscrete param (.interval lo hi) t l fl = some r) (hp : ∀ i, param ≠ .atom (.par i)) (hb : (VR.interval lo hi).Integral)
    (hf : ∀ n : Num, .num n ∈ numbers param → Holds i32 (pyInt n.q)) :
    Yields (r.toParam E pars) {v | v ∈ (VR.interval lo hi).allowed ∧ ∃ n : Int, v = n} := by
  have ha := (discrete_accepts param (.interval lo hi) t l fl).mp (by rw [h]; rfl)
  obtain ⟨r1, r2, r3, -⟩ := discrete_result param (.interval lo hi) t l fl r h
  have cut : ∀ q : ℚ, q ∈ (VR.interval lo hi).allowed → ((pyInt q : Int) : ℚ) ∈ (VR.interval lo hi).allowed := by
    rintro q ⟨h1, h2⟩
    refine ⟨fun l hl => ?_, fun k hk => ?_⟩
    · obtain ⟨n, rfl⟩ := hb.1 l hl
      exact_mod_cast le_pyInt (h1 _ hl)
    · obtain ⟨n, rfl⟩ := hb.2 k hk
      exact_mod_cast pyInt_le (h2 _ hk)
  rcases ha with ⟨i, hi⟩ | ⟨⟨hn, hk⟩, hall⟩
  · exact absurd hi (hp i)
  rcases param with a | as | as
  · obtain ⟨n, rfl, -⟩ := hn a (by simp [numbers])
    rw [r1 n rfl]
    intro size s q s' hd v hv
    rw [deterministic_yields ⟨true, pyInt n.q⟩ (hf n (by simp [numbers])) size s q s' hd v hv]
    exact ⟨cut _ (hall n (by simp [numbers])), _, rfl⟩
  · obtain ⟨ns, e, -⟩ := (allNum_iff fl as).mp hn
    subst e
    match ns, hk.2 with
    | [a, b], _ =>
      rw [r2 a b rfl]
      have ma : Atom.num a ∈ numbers (.tuple ([a, b].map Atom.num)) := by simp [numbers]
      have mb : Atom.num b ∈ numbers (.tuple ([a, b].map Atom.num)) := by simp [numbers]
      have ya : ∀ n : Int, Holds i32 n → Yields (deterministic true n : Param σ) (intsBetween n n) := fun n hn size s q s' hd v hv => by
        rw [deterministic_yields ⟨true, n⟩ hn size s q s' hd v hv]; exact ⟨n, rfl, le_rfl, le_rfl⟩
      have fa := hf a ma
      have fb := hf b mb
      have fa1 : Dtypes.lo i32 ≤ pyInt a.q := by exact_mod_cast fa.1
      have fb1 : Dtypes.lo i32 ≤ pyInt b.q := by exact_mod_cast fb.1
      have fa2 : pyInt a.q ≤ Dtypes.hi i32 := by exact_mod_cast fa.2.1
      have fb2 : pyInt b.q ≤ Dtypes.hi i32 := by exact_mod_cast fb.2.1
      have hu := (discrete_uniform_range E hE _ _ (pyInt a.q) (pyInt a.q) (pyInt b.q) (pyInt b.q) (ya _ fa) (ya _ fb)
        (le_min fa1 fb1) (max_le fa2 fb2)).1
      intro size s q s' hd v hv
      obtain ⟨n, rfl, v1, v2⟩ := hu size s q s' hd v hv
      obtain ⟨a1, a2⟩ := cut _ (hall a ma)
      obtain ⟨b1, b2⟩ := cut _ (hall b mb)
      have v1' : ((min (pyInt a.q) (pyInt b.q) : Int) : ℚ) ≤ n := by exact_mod_cast v1
      have v2' : (n : ℚ) ≤ ((max (pyInt a.q) (pyInt b.q) : Int) : ℚ) := by exact_mod_cast v2
      push_cast at v1' v2'
      exact ⟨⟨fun l hl => (le_min (a1 l hl) (b1 l hl)).trans v1', fun k hk => v2'.trans (max_le (a2 k hk) (b2 k hk))⟩, n, rfl⟩
  · obtain ⟨ns, e, -⟩ := (allNum_iff fl as).mp hn
    subst e
    rw [r3 ns rfl]
    have hc := (choice_listed_partial E hE ⟨.i, 8⟩ ((ns.map (fun n => pyInt n.q)).map (fun n : Int => (n : ℚ))) true none (by
      intro v hv
      simp only [List.map_map, List.mem_map, Function.comp] at hv
      obtain ⟨n, hn, rfl⟩ := hv
      exact hf n ((mem_numbers_map n ns).mpr hn))).1
    intro size s q s' hd v hv
    have := hc size s q s' hd v hv
    simp only [List.map_map, Set.mem_ofPred_eq, List.mem_map, Function.comp] at this
    obtain ⟨n, hn, rfl⟩ := this
    exact ⟨cut _ (hall n ((mem_numbers_map n ns).mpr hn)), _, rfl⟩

/-- C58: the value range is checked before numbers are cut off to integers: with the range (0.5, None) the number 0.7 is accepted and becomes 0. -/
theorem discrete_out_of_range :
    handleDiscrete (.atom (.num ⟨false, 7 / 10⟩)) (.interval (some (1 / 2)) none) true true true = some (.det ⟨true, 0⟩) := by
  decide +kernel

/-- C58: accepted kernel sizes: what is not a tuple, but accepted as a discrete parameter, and tuples of two values that are so accepted. -/
theorem kernel_accepts (param : KVal) (vr : VR) (fl : Bool) :
    (handleKernelSize param vr fl).isSome = true ↔
      (∃ v, param = .one v ∧ (∀ l, v ≠ .tuple l) ∧ (handleDiscrete v vr false true fl).isSome = true) ∨
      (∃ a b, param = .tuple [a, b] ∧ (handleDiscrete a vr true true fl).isSome = true ∧ (handleDiscrete b vr true true fl).isSome = true) := by
  rcases param with v | as
  · rcases v with a | l | l <;> simp [handleKernelSize]
  · rcases as with _ | ⟨a, _ | ⟨b, _ | ⟨c, as⟩⟩⟩
    · simp [handleKernelSize]
    · simp [handleKernelSize]
    · simp only [reduceCtorEq, false_and, exists_false, false_or]
      have e : (∃ a' b', KVal.tuple [a, b] = .tuple [a', b'] ∧ (handleDiscrete a' vr true true fl).isSome = true ∧
          (handleDiscrete b' vr true true fl).isSome = true) ↔
          ((handleDiscrete a vr true true fl).isSome = true ∧ (handleDiscrete b vr true true fl).isSome = true) := by
        constructor
        · rintro ⟨a', b', h, h1, h2⟩
          simp only [KVal.tuple.injEq, List.cons.injEq, and_true] at h
          obtain ⟨rfl, rfl⟩ := h
          exact ⟨h1, h2⟩
        · rintro ⟨h1, h2⟩
          exact ⟨a, b, rfl, h1, h2⟩
      rw [e]
      have gen : ((handleDiscrete a vr true true fl).bind (fun x =>
          (handleDiscrete b vr true true fl).map (fun y => (x, some y)))).isSome = true ↔
          ((handleDiscrete a vr true true fl).isSome = true ∧ (handleDiscrete b vr true true fl).isSome = true) := by
        cases handleDiscrete a vr true true fl <;> cases handleDiscrete b vr true true fl <;> simp
      have ints : ∀ x y : Num, a = .atom (.num x) → b = .atom (.num y) → (fl = true ∨ x.isInt = true) → (fl = true ∨ y.isInt = true) →
          ((if checkValueRange x.q vr && checkValueRange y.q vr then
            some (Handled.discreteUniform (pyInt x.q) (pyInt y.q), (none : Option Handled)) else none).isSome = true ↔
          ((handleDiscrete a vr true true fl).isSome = true ∧ (handleDiscrete b vr true true fl).isSome = true)) := by
        rintro x y rfl rfl hx hy
        simp only [handleDiscrete, Bool.or_eq_true, if_pos hx, if_pos hy]
        cases checkValueRange x.q vr <;> cases checkValueRange y.q vr <;> simp
      have pars : ∀ i j, a = .atom (.par i) → b = .atom (.par j) →
          ((handleDiscrete a vr true true fl).isSome = true ∧ (handleDiscrete b vr true true fl).isSome = true) := by
        rintro i j rfl rfl
        simp [handleDiscrete]
      simp only [handleKernelSize]
      split
      · rename_i x y hxy
        have hx : a = .atom (.num x) ∧ b = .atom (.num y) ∧ (fl = true ∨ x.isInt = true) ∧ (fl = true ∨ y.isInt = true) := by
          rcases a with ⟨x' | _ | _ | _⟩ | _ | _ <;> rcases b with ⟨y' | _ | _ | _⟩ | _ | _ <;>
            simp [intOf, floatOf] at hxy
          cases hx : x'.isInt <;> cases hy : y'.isInt <;> cases fl <;> simp_all
        exact ints x y hx.1 hx.2.1 hx.2.2.1 hx.2.2.2
      · split
        · rename_i i j hi hj
          have ha : a = .atom (.par i) := by
            rcases a with ⟨_ | _ | _ | _⟩ | _ | _ <;> simp_all [parOf]
          have hb : b = .atom (.par j) := by
            rcases b with ⟨_ | _ | _ | _⟩ | _ | _ <;> simp_all [parOf]
          simp [pars i j ha hb]
        · exact gen
    · simp [handleKernelSize]

/-- C58: a tuple of two integers, or of two floats, is the range from which the kernel size of both axes is drawn. -/
theorem kernel_range (a b : Num) (vr : VR) (fl : Bool) (h : a.isInt = b.isInt) (hf : fl = true ∨ a.isInt = true)
    (ha : a.q ∈ vr.allowed) (hb : b.q ∈ vr.allowed) :
    handleKernelSize (.tuple [.atom (.num a), .atom (.num b)]) vr fl = some (.discreteUniform (pyInt a.q) (pyInt b.q), none) := by
  rw [← range_check] at ha hb
  simp only [handleKernelSize, intOf, floatOf]
  cases h1 : a.isInt
  · rw [h1] at h
    rcases hf with rfl | hf
    · simp [← h, ha, hb]
    · rw [h1] at hf; cases hf
  · rw [h1] at h
    simp [← h, ha, hb]

/-- C58: a tuple of an integer and a float however is a pair of the kernel height and the kernel width, so that (3, 5.0) and (3, 5) have different meanings. -/
theorem kernel_mixed (a b : Num) (vr : VR) (h : a.isInt ≠ b.isInt) (ha : a.q ∈ vr.allowed) (hb : b.q ∈ vr.allowed) :
    handleKernelSize (.tuple [.atom (.num a), .atom (.num b)]) vr true = some (.det ⟨true, pyInt a.q⟩, some (.det ⟨true, pyInt b.q⟩)) := by
  rw [← range_check] at ha hb
  cases h1 : a.isInt <;> cases h2 : b.isInt <;> simp_all [handleKernelSize, intOf, floatOf, parOf, handleDiscrete]

/-- C58: `handle_probability_param` accepts exactly booleans, stochastic parameters, and numbers, pairs and lists of numbers between 0 and 1. Where
lists are permitted, but pairs are not, a tuple is treated as a list. -/
theorem probability_accepts (param : Val) (t l : Bool) :
    (handleProbability param t l).isSome = true ↔
      (∃ b, param = .atom (.bool b)) ∨ (∃ i, param = .atom (.par i)) ∨
      (∃ ns : List Num, ((∃ n, ns = [n] ∧ param = .atom (.num n)) ∨ (param = .iter (ns.map .num) ∧ l = true) ∨
        (param = .tuple (ns.map .num) ∧ (t = true ∧ ns.length = 2 ∨ t = false ∧ l = true))) ∧ ∀ n ∈ ns, 0 ≤ n.q ∧ n.q ≤ 1) := by
  have key : ∀ as : List Atom, (probabilityList as).isSome = true ↔ ∃ ns : List Num, as = ns.map .num ∧ ∀ n ∈ ns, 0 ≤ n.q ∧ n.q ≤ 1 := by
    intro as
    rw [probabilityList]
    cases e : as.mapM asNum with
    | none =>
      simp only [Option.isSome_none, Bool.false_eq_true, false_iff]
      rintro ⟨ns, h, -⟩
      rw [(mapM_num as ns).mpr h] at e; cases e
    | some ns =>
      have h := (mapM_num as ns).mp e
      subst h
      have inj : ∀ ms : List Num, ns.map Atom.num = ms.map Atom.num ↔ ns = ms :=
        fun ms => ⟨fun h => List.map_injective_iff.mpr (fun a b h => by cases h; rfl) h, fun h => by rw [h]⟩
      simp only [inj]
      split_ifs with c
      · simp only [Option.isSome_some, true_iff]
        exact ⟨ns, rfl, by simpa [List.all_eq_true] using c⟩
      · simp only [Option.isSome_none, Bool.false_eq_true, false_iff]
        rintro ⟨ms, rfl, h⟩
        exact c (by simpa [List.all_eq_true] using h)
  rcases param with a | as | as
  · cases a with
    | num n =>
      simp only [handleProbability, Val.atom.injEq, reduceCtorEq, exists_false, false_or, Atom.num.injEq, false_and, or_false]
      constructor
      · intro h
        refine ⟨[n], ⟨n, rfl, rfl⟩, ?_⟩
        intro m hm
        rw [List.mem_singleton.mp hm]
        split_ifs at h with c1 c2 c3 <;> first | (rcases c1 with c | c <;> rw [c] <;> norm_num) | exact c2 | simp at h
      · rintro ⟨ns, ⟨m, rfl, rfl⟩, h⟩
        have := h n (by simp)
        rw [if_pos this]
        split_ifs <;> rfl
    | bool b => simp [handleProbability]
    | par i => simp [handleProbability]
    | other => simp [handleProbability]
  · simp only [handleProbability, reduceCtorEq, exists_false, false_or, false_and, and_false, Val.tuple.injEq]
    cases t
    · cases l
      · simp
      · simpa using key as
    · simp only [if_true, true_and, Bool.true_eq_false, false_and, or_false]
      cases e : as.mapM asNum with
      | none =>
        simp only [Option.isSome_none, Bool.false_eq_true, false_iff]
        rintro ⟨ns, ⟨h, -⟩, -⟩
        rw [(mapM_num as ns).mpr h] at e; cases e
      | some ns =>
        have h := (mapM_num as ns).mp e
        subst h
        have inj : ∀ ms : List Num, ns.map Atom.num = ms.map Atom.num ↔ ns = ms :=
          fun ms => ⟨fun h => List.map_injective_iff.mpr (fun a b h => by cases h; rfl) h, fun h => by rw [h]⟩
        simp only [inj]
        rcases ns with _ | ⟨a, _ | ⟨b, _ | ⟨c, ns⟩⟩⟩
        · simp only [Option.isSome_none, Bool.false_eq_true, false_iff]
          rintro ⟨ms, ⟨rfl, h⟩, -⟩
          simp at h
        · simp only [Option.isSome_none, Bool.false_eq_true, false_iff]
          rintro ⟨ms, ⟨rfl, h⟩, -⟩
          simp at h
        · simp only
          split_ifs with c
          · simp only [Option.isSome_some, true_iff]
            exact ⟨[a, b], ⟨rfl, rfl⟩, by simpa [and_assoc] using c⟩
          · simp only [Option.isSome_none, Bool.false_eq_true, false_iff]
            rintro ⟨ms, ⟨rfl, -⟩, h⟩
            exact c (by simpa [and_assoc] using h)
        · simp only [Option.isSome_none, Bool.false_eq_true, false_iff]
          rintro ⟨ms, ⟨rfl, h⟩, -⟩
          simp at h
  · simp only [handleProbability, reduceCtorEq, exists_false, false_or, false_and, and_false, or_false, Val.iter.injEq]
    cases l
    · simp
    · simpa using key as

/-- C58: what is made of an accepted probability (other than a stochastic parameter) produces only 0 and 1. -/
theorem probability_samples (E : Env σ) (hE : E.Ok) (pars : Nat → Param σ) (param : Val) (t l : Bool) (r : Handled)
    (h : handleProbability param t l = some r) (hp : ∀ i, param ≠ .atom (.par i)) : Yields (r.toParam E pars) {0, 1} := by
  have hdet : ∀ n : Int, (n = 0 ∨ n = 1) → Yields ((Handled.det ⟨true, n⟩).toParam E pars) {0, 1} := by
    intro n hn size s q s' hd v hv
    rw [deterministic_yields ⟨true, n⟩ (by
      simp only [Num.Fits, if_true, Holds, i32_lo, i32_hi]
      exact ⟨by rcases hn with rfl | rfl <;> norm_num, by rcases hn with rfl | rfl <;> norm_num, fun _ => ⟨n, rfl⟩⟩) size s q s' hd v hv]
    rcases hn with rfl | rfl <;> simp
  have rnd : ∀ n : Num, 0 ≤ n.q ∧ n.q ≤ 1 → npRound n.q = 0 ∨ npRound n.q = 1 := by
    intro n hn
    have h1 : 0 ≤ npRound n.q := Props.npRound_nonneg hn.1
    have h2 : npRound n.q ≤ 1 := Props.npRound_le (by exact_mod_cast hn.2)
    omega
  rcases param with a | as | as
  · cases a with
    | num n =>
      simp only [handleProbability] at h
      split_ifs at h with c1 c2 c3
      · rw [← Option.some.inj h]
        rcases c1 with c | c <;> rw [c]
        · exact_mod_cast hdet 0 (Or.inl rfl)
        · exact_mod_cast hdet 1 (Or.inr rfl)
      · rw [← Option.some.inj h]
        exact hdet _ (rnd n c2)
      · rw [← Option.some.inj h]
        exact (binomial_range E hE _).1
    | bool b =>
      rw [← Option.some.inj h]
      cases b
      · exact_mod_cast hdet 0 (Or.inl rfl)
      · exact_mod_cast hdet 1 (Or.inr rfl)
    | par i => exact absurd rfl (hp i)
    | other => cases h
  · simp only [handleProbability] at h
    split_ifs at h
    · split at h
      · split_ifs at h
        rw [← Option.some.inj h]
        exact (binomial_range E hE _).1
      · cases h
    · rw [probabilityList] at h
      split at h
      · split_ifs at h
        rw [← Option.some.inj h]
        exact (binomial_range E hE _).1
      · cases h
  · simp only [handleProbability] at h
    split_ifs at h
    rw [probabilityList] at h
    split at h
    · split_ifs at h
      rw [← Option.some.inj h]
      exact (binomial_range E hE _).1
    · cases h

/-- C58: a probability other than 0 and 1 keeps its value, unless it is within 10^-6 of 0 or 1, and then it becomes 0 or 1. -/
theorem probability_value (n : Num) (t l : Bool) (h : 0 ≤ n.q ∧ n.q ≤ 1) :
    (probEps ≤ n.q → n.q ≤ 1 - probEps → handleProbability (.atom (.num n)) t l = some (.binomial n)) ∧
    (n.q < probEps → handleProbability (.atom (.num n)) t l = some (.det ⟨true, 0⟩)) ∧
    (1 - probEps < n.q → handleProbability (.atom (.num n)) t l = some (.det ⟨true, 1⟩)) := by
  have e : probEps = 1 / 1000000 := rfl
  refine ⟨fun h1 h2 => ?_, fun h1 => ?_, fun h1 => ?_⟩
  · simp only [handleProbability]
    rw [e] at *
    rw [if_neg (by rintro (c | c) <;> linarith), if_pos h,
      if_neg (by rintro (⟨-, c⟩ | ⟨c, -⟩) <;> linarith)]
  · simp only [handleProbability]
    rw [e] at *
    have hr : npRound n.q = 0 := Props.npRound_unique _ 0 (by push_cast; rw [abs_lt]; constructor <;> linarith [h.1])
    split_ifs with c1 c2
    · rcases c1 with c | c
      · rw [c]
      · rw [c] at h1; norm_num at h1
    · rw [hr]; norm_num
    · exact absurd (Or.inl ⟨by linarith [h.1], by linarith⟩) c2
  · simp only [handleProbability]
    rw [e] at *
    have hr : npRound n.q = 1 := Props.npRound_unique _ 1 (by push_cast; rw [abs_lt]; constructor <;> linarith [h.2])
    split_ifs with c1 c2
    · rcases c1 with c | c
      · rw [c] at h1; norm_num at h1
      · rw [c]
    · rw [hr]; norm_num
    · exact absurd (Or.inr ⟨by linarith, by linarith [h.2]⟩) c2

/-! The hypotheses can be met. -/

example : handleContinuous (.tuple [.num ⟨false, 1 / 2⟩, .num ⟨true, 3⟩]) (.interval (some 0) none) true true
    = some (.uniform ⟨false, 1 / 2⟩ ⟨true, 3⟩) := by decide +kernel

example : (∀ n : Num, .num n ∈ numbers (.tuple [.num ⟨false, 1 / 2⟩, .num ⟨true, 3⟩]) → n.Fits) ∧
    ((Handled.uniform ⟨false, 1 / 2⟩ ⟨true, 3⟩).toParam least (fun _ => deterministic true 0)).draw [2] 0 ≠ none := by
  constructor
  · intro n hn
    simp only [numbers, List.mem_cons, Atom.num.injEq, List.not_mem_nil, or_false] at hn
    rcases hn with rfl | rfl
    · exact ⟨by decide +kernel, by decide +kernel, fun h => absurd rfl h⟩
    · exact ⟨by decide +kernel, by decide +kernel, fun _ => ⟨3, by norm_num⟩⟩
  · decide +kernel

example : handleDiscrete (.iter [.num ⟨false, 3 / 2⟩, .num ⟨true, 3⟩]) (.interval (some 0) (some 5)) true true true = some (.choiceInt [1, 3]) := by
  decide +kernel

example : handleProbability (.tuple [.num ⟨false, 1 / 4⟩, .num ⟨false, 3 / 4⟩]) true false = some (.binomialUniform ⟨false, 1 / 4⟩ ⟨false, 3 / 4⟩) := by
  decide +kernel

example : handleContinuous (.tuple [.num ⟨true, 1⟩, .num ⟨true, 2⟩, .num ⟨true, 3⟩]) .none true true = none := by decide +kernel

/-- C58: a pair of values that is not a range is taken apart: the first is the parameter of the kernel height and the second that of the width. -/
theorem kernel_pair (a b : Val) (vr : VR) (fl : Bool) (hnum : ∀ x y : Num, ¬ (a = .atom (.num x) ∧ b = .atom (.num y))) :
    handleKernelSize (.tuple [a, b]) vr fl = (handleDiscrete a vr true true fl).bind (fun x =>
      (handleDiscrete b vr true true fl).map (fun y => (x, some y))) := by
  rcases a with ⟨x | _ | i | _⟩ | _ | _ <;> rcases b with ⟨y | _ | j | _⟩ | _ | _ <;>
    first
    | exact absurd ⟨rfl, rfl⟩ (hnum _ _)
    | (cases fl <;> simp [handleKernelSize, intOf, floatOf, parOf, handleDiscrete])

end Imgaug.Params
