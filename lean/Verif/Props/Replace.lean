import Verif.Proofs.Replace
namespace Imgaug.Replace
open Imgaug Imgaug.Dtypes

variable {d rd : DType}

/-- C86: `replace_elementwise_` replaces exactly the components that the mask marks. They take the replacements one after the other, each as the
closest value that the image can store; all other components, the shape and the dtype are kept. -/
theorem replaced (im mask : Arr) (repl : List ℚ) (him : im.Ok) (hm : mask.Ok) (hh : mask.h = im.h) (hw : mask.w = im.w)
    (hc : mask.c.getD 1 = 1 ∨ mask.c.getD 1 = im.c.getD 1) (hd : d ∈ all) (hrej : d ≠ ⟨.u, 8⟩ ∧ d ≠ ⟨.i, 8⟩ ∧ d ≠ ⟨.f, 16⟩)
    (hrd : clippable rd = true) (hf : BoundFits rd d) (hv : ∀ v ∈ repl, Holds rd v)
    (hn : repl.length = before mask (im.c.getD 1) im.v.length) :
    ∃ r, replaceElementwise d im mask rd repl = some r ∧ r.h = im.h ∧ r.w = im.w ∧ r.c = im.c ∧ r.v.length = im.v.length ∧
      ∀ i : Nat, i < im.v.length → r.v[i]? = some (if Marked mask (im.c.getD 1) i
        then closest rd d (repl.getD (before mask (im.c.getD 1) i) 0) else im.v.getD i 0) := by
  obtain ⟨px, e1, e2, e3⟩ := put_get im mask (im.c.getD 1) hm hc (by rw [him, hh, hw]) repl hn (closest rd d)
  refine ⟨{ im with v := px }, ?_, rfl, rfl, rfl, e2, e3⟩
  have hr : rejected d = false := by simp [rejected, hrej]
  have e1' : put im.v (thresh mask im.channels) (repl.map (closest rd d)) = some px := e1
  rw [replaceElementwise, if_neg (by simp [hr]), if_neg (by simp [hrd]), mapM_convert hd hrd hf repl hv, Option.bind_some, if_pos ⟨hh, hw, hc⟩, e1']
  rfl

example : replaceElementwise ⟨.u, 1⟩ ⟨1, 2, some 2, [1, 2, 3, 4]⟩ ⟨1, 2, none, [0, 7/10]⟩ ⟨.f, 4⟩ [3/2, 900] = some ⟨1, 2, some 2, [1, 2, 2, 255]⟩ := by
  decide +kernel

/-- C86: `replace_elementwise_` gives a result exactly if the dtypes are supported, the mask has the image's shape (or one channel), and there are
as many replacements as marked components, or just one replacement. -/
theorem result_iff (im mask : Arr) (repl : List ℚ) (hm : mask.Ok) (hd : d ∈ all) (hf : BoundFits rd d) (hv : ∀ v ∈ repl, Holds rd v) :
    (replaceElementwise d im mask rd repl).isSome ↔
      (d ≠ ⟨.u, 8⟩ ∧ d ≠ ⟨.i, 8⟩ ∧ d ≠ ⟨.f, 16⟩) ∧ (rd ≠ ⟨.u, 8⟩ ∧ rd ≠ ⟨.i, 8⟩) ∧ mask.h = im.h ∧ mask.w = im.w ∧
      (mask.c.getD 1 = 1 ∨ mask.c.getD 1 = im.c.getD 1) ∧
      (repl.length = before mask (im.c.getD 1) (im.h * im.w * im.c.getD 1) ∨ repl.length = 1) := by
  have hcl : clippable rd = true ↔ (rd ≠ ⟨.u, 8⟩ ∧ rd ≠ ⟨.i, 8⟩) := by
    obtain ⟨k, b⟩ := rd
    cases k <;> simp [clippable]
  have hr : rejected d = false ↔ (d ≠ ⟨.u, 8⟩ ∧ d ≠ ⟨.i, 8⟩ ∧ d ≠ ⟨.f, 16⟩) := by simp [rejected, and_assoc]
  by_cases h1 : rejected d
  · have : ¬ (d ≠ ⟨.u, 8⟩ ∧ d ≠ ⟨.i, 8⟩ ∧ d ≠ ⟨.f, 16⟩) := fun h => by rw [hr.2 h] at h1; cases h1
    rw [replaceElementwise, if_pos h1]
    simp [this]
  · have h1' : rejected d = false := by simpa using h1
    by_cases h2 : clippable rd = false
    · have : ¬ (rd ≠ ⟨.u, 8⟩ ∧ rd ≠ ⟨.i, 8⟩) := fun h => by rw [hcl.2 h] at h2; cases h2
      rw [replaceElementwise, if_neg h1, if_pos h2]
      simp only [Option.isSome_none, Bool.false_eq_true, false_iff]
      exact fun h => this h.2.1
    · have h2' : clippable rd = true := by simpa using h2
      rw [replaceElementwise, if_neg h1, if_neg h2, mapM_convert hd h2' hf repl hv, Option.bind_some]
      by_cases h3 : mask.h = im.h ∧ mask.w = im.w ∧ (mask.channels = 1 ∨ mask.channels = im.channels)
      · obtain ⟨a1, a2, a3⟩ := h3
        have hcnt : (thresh mask im.channels).count true = before mask (im.c.getD 1) (im.h * im.w * im.c.getD 1) := by
          rw [count_all mask im.channels hm a3, a1, a2]; rfl
        rw [if_pos ⟨a1, a2, a3⟩, Option.isSome_map, put, hcnt, List.length_map]
        constructor
        · intro h
          refine ⟨hr.1 h1', hcl.1 h2', a1, a2, a3, ?_⟩
          by_cases g1 : repl.length = before mask (im.c.getD 1) (im.h * im.w * im.c.getD 1)
          · exact Or.inl g1
          · by_cases g2 : repl.length = 1
            · exact Or.inr g2
            · rw [if_neg g1, if_neg g2] at h; cases h
        · rintro ⟨_, _, _, _, _, h⟩
          by_cases g1 : repl.length = before mask (im.c.getD 1) (im.h * im.w * im.c.getD 1)
          · rw [if_pos g1]; rfl
          · rw [if_neg g1, if_pos (h.resolve_left g1)]; rfl
      · rw [if_neg h3]
        simp only [Option.isSome_none, Bool.false_eq_true, false_iff]
        exact fun h => h3 ⟨h.2.2.1, h.2.2.2.1, h.2.2.2.2.1⟩

example : BoundFits ⟨.f, 4⟩ ⟨.u, 1⟩ ∧ BoundFits ⟨.i, 4⟩ ⟨.u, 1⟩ ∧ ¬ BoundFits ⟨.f, 4⟩ ⟨.i, 4⟩ := by decide +kernel
example : replaceElementwise ⟨.u, 1⟩ ⟨1, 2, none, [1, 2]⟩ ⟨1, 2, none, [1, 0]⟩ ⟨.f, 4⟩ [3, 4] = none := by decide +kernel

/-- C86: a single replacement is used for all marked components. -/
theorem one_replacement (im mask : Arr) (v : ℚ) (him : im.Ok) (hm : mask.Ok) (hh : mask.h = im.h) (hw : mask.w = im.w)
    (hc : mask.c.getD 1 = 1 ∨ mask.c.getD 1 = im.c.getD 1) (hd : d ∈ all) (hrej : d ≠ ⟨.u, 8⟩ ∧ d ≠ ⟨.i, 8⟩ ∧ d ≠ ⟨.f, 16⟩)
    (hrd : clippable rd = true) (hf : BoundFits rd d) (hv : Holds rd v) :
    ∃ r, replaceElementwise d im mask rd [v] = some r ∧ r.h = im.h ∧ r.w = im.w ∧ r.c = im.c ∧ r.v.length = im.v.length ∧
      ∀ i : Nat, i < im.v.length → r.v[i]? = some (if Marked mask (im.c.getD 1) i then closest rd d v else im.v.getD i 0) := by
  obtain ⟨N, hN⟩ : ∃ N, N = before mask (im.c.getD 1) im.v.length := ⟨_, rfl⟩
  obtain ⟨px, e1, e2, e3⟩ := put_get im mask (im.c.getD 1) hm hc (by rw [him, hh, hw]) (List.replicate N v) (by simp [hN]) (closest rd d)
  have hcnt : (thresh mask im.channels).count true = N := by
    rw [count_all mask im.channels hm hc, hN, him, hh, hw]; rfl
  refine ⟨{ im with v := px }, ?_, rfl, rfl, rfl, e2, ?_⟩
  · have hr : rejected d = false := by simp [rejected, hrej]
    have e1' : put im.v (thresh mask im.channels) ((List.replicate N v).map (closest rd d)) = some px := e1
    rw [replaceElementwise, if_neg (by simp [hr]), if_neg (by simp [hrd]), mapM_convert hd hrd hf [v] (by simpa using hv), Option.bind_some, if_pos ⟨hh, hw, hc⟩]
    have : put im.v (thresh mask im.channels) ([v].map (closest rd d)) = some px := by
      rw [← e1']
      rw [put, put, if_pos (by simp [hcnt] : ((List.replicate N v).map (closest rd d)).length = _), hcnt]
      by_cases h1 : ([v].map (closest rd d)).length = N
      · have : N = 1 := by simpa using h1.symm
        rw [if_pos h1, this]; rfl
      · rw [if_neg h1, if_pos (by simp)]
        simp
    rw [this]; rfl
  · intro i hi'
    rw [e3 i hi']
    by_cases h : Marked mask (im.c.getD 1) i
    · simp only [if_pos h]
      have hlt : before mask (im.c.getD 1) i < N := by
        obtain ⟨px', f1, _, f3⟩ := put_get im mask (im.c.getD 1) hm hc (by rw [him, hh, hw]) (List.replicate N v) (by simp [hN]) id
        rw [hN]
        have hs : before mask (im.c.getD 1) (i + 1) = before mask (im.c.getD 1) i + 1 := by
          simp [before, List.range_succ, h]
        have hmono : ∀ a b : Nat, a ≤ b → before mask (im.c.getD 1) a ≤ before mask (im.c.getD 1) b := by
          intro a b hab
          have hl : im.c.getD 1 = im.c.getD 1 := rfl
          simp only [before]
          obtain ⟨t, rfl⟩ := Nat.exists_eq_add_of_le hab
          rw [List.range_add, List.filter_append, List.length_append]
          omega
        have := hmono (i + 1) im.v.length hi'
        omega
      rw [List.getD_eq_getElem?_getD, List.getElem?_replicate, if_pos hlt]
      rfl
    · simp only [if_neg h]

example : replaceElementwise ⟨.u, 1⟩ ⟨1, 3, none, [1, 2, 3]⟩ ⟨1, 3, none, [1, 0, 1]⟩ ⟨.i, 4⟩ [-5] = some ⟨1, 3, none, [0, 2, 0]⟩ := by decide +kernel

/-- C86 (partial): with `per_channel=False` and a mask of zeros and ones, all channels of a marked pixel take the same drawn value, every marked pixel its
own one, and all other pixels are kept. -/
theorem shared_partial (im : Arr) (s : Draws) (c : Nat) (him : im.Ok) (hc : im.c = some c) (hs : Fits s) (hpc : s.perChannel ≤ 1 / 2)
    (hb : Binary (s.mask im.h im.w 1)) (hd : d ∈ all) (hrej : d ≠ ⟨.u, 8⟩ ∧ d ≠ ⟨.i, 8⟩ ∧ d ≠ ⟨.f, 16⟩) (hrd : clippable s.rd = true)
    (hf : BoundFits s.rd d) :
    ∃ (r : Arr) (drawn : List ℚ), replaceOne d im s = some r ∧ r.h = im.h ∧ r.w = im.w ∧ r.c = im.c ∧ r.v.length = im.v.length ∧
      drawn = s.repl drawn.length ∧
      drawn.length = ((List.range (im.h * im.w)).filter (fun j => decide ((s.mask im.h im.w 1).getD j 0 = 1))).length ∧
      ∀ n k : Nat, n < im.h * im.w → k < c → r.v[n * c + k]? = some (if (s.mask im.h im.w 1).getD n 0 = 1
        then closest s.rd d (drawn.getD ((List.range n).filter (fun j => decide ((s.mask im.h im.w 1).getD j 0 = 1))).length 0)
        else im.v.getD (n * c + k) 0) := by
  obtain ⟨s1, s2, s3⟩ := hs
  obtain ⟨m, hmdef⟩ : ∃ m, m = s.mask im.h im.w 1 := ⟨_, rfl⟩
  have hml : m.length = im.h * im.w := by rw [hmdef, s1, Nat.mul_one]
  rw [← hmdef] at hb ⊢
  have hhalf : ∀ j, (1 / 2 < m.getD j 0) ↔ m.getD j 0 = 1 := by
    intro j
    by_cases hj : j < m.length
    · have hmem : m.getD j 0 ∈ m := by
        rw [List.getD_eq_getElem?_getD, List.getElem?_eq_getElem hj]; exact List.getElem_mem hj
      rcases hb _ hmem with h | h <;> rw [h] <;> norm_num
    · rw [List.getD_eq_getElem?_getD, List.getElem?_eq_none (Nat.le_of_not_lt hj)]; norm_num
  obtain ⟨N, hN⟩ : ∃ N, N = (m.map (fun p => decide (p > 1 / 2))).count true := ⟨_, rfl⟩
  have hsum : pyInt m.sum = N := by rw [sum_binary m hb, ← hN, pyInt_nat]
  have hlen : im.v.length = im.h * im.w * c := by rw [him, hc]; rfl
  have hcount : ∀ n, n ≤ im.h * im.w → ((m.map (fun p => decide (p > 1 / 2))).take n).count true =
      ((List.range n).filter (fun j => decide (m.getD j 0 = 1))).length := by
    intro n hn
    rw [count_take _ _ (by rw [List.length_map, hml]; exact hn)]
    congr 1
    apply List.filter_congr
    intro j hj
    rw [List.mem_range] at hj
    have hjm : j < m.length := by omega
    have h2 : decide (1 / 2 < m.getD j 0) = decide (m.getD j 0 = 1) := decide_eq_decide.2 (hhalf j)
    rw [← h2]
    simp [List.getD_eq_getElem?_getD, List.getElem?_eq_getElem hjm]
  have hNc : N = ((List.range (im.h * im.w)).filter (fun j => decide (m.getD j 0 = 1))).length := by
    rw [← hcount _ (Nat.le_refl _), ← hml, hN]
    congr 1
    rw [List.take_of_length_le (by simp)]
  have hmask : (⟨im.h, im.w, some 1, m⟩ : Arr).Ok := by simp [Arr.Ok, hml]
  have hbf : before ⟨im.h, im.w, some 1, m⟩ c im.v.length = N * c := by
    have := count_all ⟨im.h, im.w, some 1, m⟩ c hmask (Or.inl rfl)
    simp only at this
    rw [hlen, ← this, thresh]
    simp only [Arr.channels, Option.getD_some, if_true]
    rw [rep_count, hN]
  obtain ⟨r, e1, e2, e3, e4, e5, e6⟩ := replaced (d := d) (rd := s.rd) im ⟨im.h, im.w, some 1, m⟩ ((s.repl N).flatMap (fun v => List.replicate c v))
    him hmask rfl rfl (Or.inl rfl) hd hrej hrd hf (by
      intro v hv
      rw [List.mem_flatMap] at hv
      obtain ⟨u, hu, hv⟩ := hv
      rw [(List.mem_replicate.1 hv).2]
      exact s3 N u hu) (by rw [rep_len, s2, hc, Option.getD_some, hbf])
  refine ⟨r, s.repl N, ?_, e2, e3, e4, e5, by rw [s2], by rw [s2]; exact hNc, ?_⟩
  · have hneg : ¬ (pyInt m.sum < 0) := by rw [hsum]; omega
    simp only [replaceOne, hc]
    rw [if_neg (not_lt.2 hpc), ← hmdef, if_neg hneg, hsum]
    exact e1
  · intro n k hn hk
    have hlt : n * c + k < im.v.length := by
      rw [hlen]
      calc n * c + k < n * c + c := by omega
        _ = (n + 1) * c := by ring
        _ ≤ im.h * im.w * c := Nat.mul_le_mul_right _ hn
    rw [e6 _ hlt]
    have hc0 : 0 < c := by omega
    have hdiv : (n * c + k) / c = n := by rw [Nat.mul_comm, Nat.mul_add_div hc0, Nat.div_eq_of_lt hk, Nat.add_zero]
    have hM : Marked ⟨im.h, im.w, some 1, m⟩ (im.c.getD 1) (n * c + k) ↔ m.getD n 0 = 1 := by
      rw [hc]
      simp only [Marked, Option.getD_some, if_true, hdiv]
      exact hhalf n
    by_cases h : m.getD n 0 = 1
    · rw [if_pos (hM.2 h), if_pos h, hc, Option.getD_some, before_shared im.h im.w c m hml n k hn hk, if_pos ((hhalf n).2 h)]
      have hfil : ((List.range n).filter (fun j => decide (1 / 2 < m.getD j 0))) = ((List.range n).filter (fun j => decide (m.getD j 0 = 1))) :=
        List.filter_congr (fun j _ => decide_eq_decide.2 (hhalf j))
      rw [hfil]
      set b := ((List.range n).filter (fun j => decide (m.getD j 0 = 1))).length with hbdef
      have hlt2 : b < N := by
        rw [hNc]
        have h1 : ((List.range (n + 1)).filter (fun j => decide (m.getD j 0 = 1))).length = b + 1 := by
          rw [List.range_succ, List.filter_append, List.length_append, ← hbdef, List.filter_cons, if_pos (by simpa using h)]
          rfl
        obtain ⟨t, ht⟩ := Nat.exists_eq_add_of_le (show n + 1 ≤ im.h * im.w from hn)
        rw [ht, List.range_add, List.filter_append, List.length_append, h1]
        omega
      have hlt3 : b * c + k < (s.repl N).length * c := by
        rw [s2]
        calc b * c + k < b * c + c := by omega
          _ = (b + 1) * c := by ring
          _ ≤ N * c := Nat.mul_le_mul_right _ hlt2
      have hdiv2 : (b * c + k) / c = b := by rw [Nat.mul_comm, Nat.mul_add_div hc0, Nat.div_eq_of_lt hk, Nat.add_zero]
      have hg : ((s.repl N).flatMap (fun v => List.replicate c v)).getD (b * c + k) 0 = (s.repl N).getD b 0 := by
        rw [List.getD_eq_getElem?_getD, rep_get c _ _ hlt3, hdiv2, List.getD_eq_getElem?_getD]
      rw [hg]
    · rw [if_neg (fun h' => h (hM.1 h')), if_neg h]

example : replaceOne ⟨.u, 1⟩ ⟨1, 2, some 2, [1, 2, 3, 4]⟩ ⟨0, fun _ _ _ => [0, 1], ⟨.i, 4⟩, fun n => List.replicate n 9⟩ =
    some ⟨1, 2, some 2, [1, 2, 9, 9]⟩ := by decide +kernel

/-- C86 (partial): with `per_channel=True` and a mask of zeros and ones, every marked component takes a drawn value of its own, all others are kept. -/
theorem per_channel_partial (im : Arr) (s : Draws) (c : Nat) (him : im.Ok) (hc : im.c = some c) (hs : Fits s) (hpc : 1 / 2 < s.perChannel)
    (hb : Binary (s.mask im.h im.w c)) (hd : d ∈ all) (hrej : d ≠ ⟨.u, 8⟩ ∧ d ≠ ⟨.i, 8⟩ ∧ d ≠ ⟨.f, 16⟩) (hrd : clippable s.rd = true)
    (hf : BoundFits s.rd d) :
    ∃ (r : Arr) (drawn : List ℚ), replaceOne d im s = some r ∧ r.h = im.h ∧ r.w = im.w ∧ r.c = im.c ∧ r.v.length = im.v.length ∧
      drawn = s.repl drawn.length ∧
      drawn.length = ((List.range im.v.length).filter (fun j => decide ((s.mask im.h im.w c).getD j 0 = 1))).length ∧
      ∀ i : Nat, i < im.v.length → r.v[i]? = some (if (s.mask im.h im.w c).getD i 0 = 1
        then closest s.rd d (drawn.getD ((List.range i).filter (fun j => decide ((s.mask im.h im.w c).getD j 0 = 1))).length 0)
        else im.v.getD i 0) := by
  obtain ⟨s1, s2, s3⟩ := hs
  obtain ⟨m, hmdef⟩ : ∃ m, m = s.mask im.h im.w c := ⟨_, rfl⟩
  have hml : m.length = im.h * im.w * c := by rw [hmdef, s1]
  rw [← hmdef] at hb ⊢
  have hlen : im.v.length = im.h * im.w * c := by rw [him, hc]; rfl
  have hhalf : ∀ j, (1 / 2 < m.getD j 0) ↔ m.getD j 0 = 1 := by
    intro j
    by_cases hj : j < m.length
    · have hmem : m.getD j 0 ∈ m := by
        rw [List.getD_eq_getElem?_getD, List.getElem?_eq_getElem hj]; exact List.getElem_mem hj
      rcases hb _ hmem with h | h <;> rw [h] <;> norm_num
    · rw [List.getD_eq_getElem?_getD, List.getElem?_eq_none (Nat.le_of_not_lt hj)]; norm_num
  obtain ⟨N, hN⟩ : ∃ N, N = (m.map (fun p => decide (p > 1 / 2))).count true := ⟨_, rfl⟩
  have hsum : pyInt m.sum = N := by rw [sum_binary m hb, ← hN, pyInt_nat]
  have hmask : (⟨im.h, im.w, some c, m⟩ : Arr).Ok := by simp [Arr.Ok, hml]
  have hM : ∀ i, i < im.v.length → (Marked ⟨im.h, im.w, some c, m⟩ c i ↔ m.getD i 0 = 1) := by
    intro i _
    have : (if c = 1 then i / c else i) = i := by
      split_ifs with h
      · rw [h, Nat.div_one]
      · rfl
    simp only [Marked, Option.getD_some, this]
    exact hhalf i
  have hbef : ∀ i, i ≤ im.v.length → before ⟨im.h, im.w, some c, m⟩ c i = ((List.range i).filter (fun j => decide (m.getD j 0 = 1))).length := by
    intro i hi'
    simp only [before]
    congr 1
    apply List.filter_congr
    intro j hj
    rw [List.mem_range] at hj
    exact decide_eq_decide.2 (hM j (by omega))
  have hNc : N = before ⟨im.h, im.w, some c, m⟩ c im.v.length := by
    rw [hbef _ (Nat.le_refl _), hN]
    have hct := count_take (m.map (fun p => decide (p > 1 / 2))) im.v.length (by rw [List.length_map, hml, hlen])
    rw [List.take_of_length_le (by rw [List.length_map, hml, hlen])] at hct
    rw [hct]
    congr 1
    apply List.filter_congr
    intro j hj
    rw [List.mem_range] at hj
    have hjm : j < m.length := by omega
    have h2 : decide (1 / 2 < m.getD j 0) = decide (m.getD j 0 = 1) := decide_eq_decide.2 (hhalf j)
    rw [← h2]
    simp [List.getD_eq_getElem?_getD, List.getElem?_eq_getElem hjm]
  obtain ⟨r, e1, e2, e3, e4, e5, e6⟩ := replaced (d := d) (rd := s.rd) im ⟨im.h, im.w, some c, m⟩ (s.repl N)
    him hmask rfl rfl (Or.inr (by rw [hc])) hd hrej hrd hf (s3 N) (by rw [s2, hc, Option.getD_some, hNc])
  refine ⟨r, s.repl N, ?_, e2, e3, e4, e5, by rw [s2], by rw [s2, hNc, hbef _ (Nat.le_refl _)], ?_⟩
  · have hneg : ¬ (pyInt m.sum < 0) := by rw [hsum]; omega
    simp only [replaceOne, hc]
    rw [if_pos hpc, ← hmdef, if_neg hneg, hsum]
    exact e1
  · intro i hi'
    rw [e6 i hi', hc, Option.getD_some, hbef i (by omega)]
    by_cases h : m.getD i 0 = 1
    · rw [if_pos ((hM i hi').2 h), if_pos h]
    · rw [if_neg (fun h' => h ((hM i hi').1 h')), if_neg h]

example : replaceOne ⟨.u, 1⟩ ⟨1, 2, some 2, [1, 2, 3, 4]⟩ ⟨1, fun _ _ _ => [0, 1, 1, 0], ⟨.i, 4⟩, fun n => (List.range n).map (fun (i : Nat) => (i : ℚ))⟩ =
    some ⟨1, 2, some 2, [1, 0, 1, 4]⟩ := by decide +kernel
example : Fits ⟨1, fun h w c => List.replicate (h * w * c) 1, ⟨.i, 4⟩, fun n => List.replicate n 9⟩ := by
  refine ⟨fun _ _ _ => by simp, fun _ => by simp, fun n v hv => ?_⟩
  rw [(List.mem_replicate.1 hv).2]
  have e1 : lo ⟨.i, 4⟩ = -2147483648 := by decide +kernel
  have e2 : hi ⟨.i, 4⟩ = 2147483647 := by decide +kernel
  exact ⟨by rw [e1]; norm_num, by rw [e2]; norm_num, fun _ => ⟨9, by norm_num⟩⟩

/-- C86: for any other mask the number of replacements is the sum of the mask and not the number of marked pixels: with `per_channel=False` there
is a result exactly if the two agree, or if the sum says one value (and the image has one channel), or if there are no channels. -/
theorem works_iff (im : Arr) (s : Draws) (c : Nat) (hc : im.c = some c) (hs : Fits s) (hpc : s.perChannel ≤ 1 / 2)
    (hd : d ∈ all) (hrej : d ≠ ⟨.u, 8⟩ ∧ d ≠ ⟨.i, 8⟩ ∧ d ≠ ⟨.f, 16⟩) (hrd : clippable s.rd = true) (hf : BoundFits s.rd d) :
    (replaceOne d im s).isSome ↔ 0 ≤ pyInt (s.mask im.h im.w 1).sum ∧
      (c = 0 ∨ pyInt (s.mask im.h im.w 1).sum = (((s.mask im.h im.w 1).filter (fun p => decide (1 / 2 < p))).length : Int) ∨
        (c = 1 ∧ pyInt (s.mask im.h im.w 1).sum = 1)) := by
  obtain ⟨s1, s2, s3⟩ := hs
  obtain ⟨m, hmdef⟩ : ∃ m, m = s.mask im.h im.w 1 := ⟨_, rfl⟩
  have hml : m.length = im.h * im.w := by rw [hmdef, s1, Nat.mul_one]
  rw [← hmdef]
  have hmask : (⟨im.h, im.w, some 1, m⟩ : Arr).Ok := by simp [Arr.Ok, hml]
  have hbf : before ⟨im.h, im.w, some 1, m⟩ c (im.h * im.w * c) = (m.filter (fun p => decide (1 / 2 < p))).length * c := by
    have := count_all ⟨im.h, im.w, some 1, m⟩ c hmask (Or.inl rfl)
    simp only at this
    rw [← this, thresh]
    simp only [Arr.channels, Option.getD_some, if_true]
    rw [rep_count, List.count_eq_countP, List.countP_map, List.countP_eq_length_filter]
    congr 3
    funext p
    simp
  have hclip : s.rd ≠ ⟨.u, 8⟩ ∧ s.rd ≠ ⟨.i, 8⟩ := by
    constructor <;> intro h <;> rw [h] at hrd <;> exact absurd hrd (by decide)
  simp only [replaceOne, hc]
  rw [if_neg (not_lt.2 hpc), ← hmdef]
  by_cases hneg : pyInt m.sum < 0
  · rw [if_pos hneg]
    simp only [Option.isSome_none, Bool.false_eq_true, false_iff]
    intro h; omega
  · rw [if_neg hneg, result_iff (d := d) (rd := s.rd) im _ _ hmask hd hf (by
      intro v hv
      rw [List.mem_flatMap] at hv
      obtain ⟨u, hu, hv⟩ := hv
      rw [(List.mem_replicate.1 hv).2]
      exact s3 _ u hu), rep_len, s2, hc]
    simp only [Option.getD_some]
    rw [hbf]
    obtain ⟨N, hN⟩ : ∃ N : Nat, pyInt m.sum = N := ⟨(pyInt m.sum).toNat, by omega⟩
    rw [hN, Int.toNat_natCast]
    set M := (m.filter (fun p => decide (1 / 2 < p))).length
    constructor
    · rintro ⟨_, _, _, _, _, h⟩
      refine ⟨by omega, ?_⟩
      rcases Nat.eq_zero_or_pos c with h0 | h0
      · exact Or.inl h0
      · rcases h with h | h
        · exact Or.inr (Or.inl (by exact_mod_cast Nat.eq_of_mul_eq_mul_right h0 h))
        · have hc1 : c = 1 := Nat.dvd_one.1 ⟨N, by rw [Nat.mul_comm]; exact h.symm⟩
          exact Or.inr (Or.inr ⟨hc1, by rw [hc1] at h; omega⟩)
    · rintro ⟨_, h⟩
      refine ⟨hrej, hclip, trivial, trivial, Or.inl trivial, ?_⟩
      rcases h with h | h | ⟨h, h'⟩
      · left; rw [h, Nat.mul_zero, Nat.mul_zero]
      · left; rw [show N = M by omega]
      · right; rw [h]; omega

/-- C86 is false for masks that are not zeros and ones, which the documentation allows ("any value above 0.5 will be replaced"): if all samples are
0.6, then all 4 pixels are marked, but only 2 replacements are drawn, and an exception is raised; if all samples are 0.2, then nothing is marked and
it is raised too. -/
theorem other_masks_raise :
    replaceOne ⟨.u, 1⟩ ⟨2, 2, some 1, [1, 2, 3, 4]⟩ ⟨0, fun h w c => List.replicate (h * w * c) (6 / 10), ⟨.f, 4⟩, fun n => List.replicate n 9⟩ = none ∧
    replaceOne ⟨.u, 1⟩ ⟨4, 4, some 1, List.replicate 16 5⟩ ⟨0, fun h w c => List.replicate (h * w * c) (2 / 10), ⟨.f, 4⟩, fun n => List.replicate n 9⟩ = none := by
  decide +kernel

/-- C86 is false for such masks also in another way: if the sum of the mask is one, then all marked pixels take the same value. -/
theorem other_masks_repeat (v : ℚ) (hv : Holds ⟨.f, 4⟩ v) :
    replaceOne ⟨.f, 4⟩ ⟨1, 2, some 1, [1, 2]⟩ ⟨0, fun h w c => List.replicate (h * w * c) (6 / 10), ⟨.f, 4⟩, fun n => List.replicate n v⟩ =
      some ⟨1, 2, some 1, [v, v]⟩ := by
  have hsum : pyInt (List.replicate (1 * 2 * 1) (6 / 10 : ℚ)).sum = 1 := by decide +kernel
  obtain ⟨r, e1, e2, e3, e4, e5, e6⟩ := one_replacement (d := ⟨.f, 4⟩) (rd := ⟨.f, 4⟩) ⟨1, 2, some 1, [1, 2]⟩
    ⟨1, 2, some 1, List.replicate (1 * 2 * 1) (6 / 10)⟩ v rfl (by simp [Arr.Ok]) rfl rfl (Or.inl rfl) (by decide)
    ⟨by decide, by decide, by decide⟩ (by decide) (by decide +kernel) hv
  have hcl : closest ⟨.f, 4⟩ ⟨.f, 4⟩ v = v := by
    simp only [closest]
    rw [if_neg (by simp), clamp, max_eq_left hv.1, min_eq_left hv.2.1]
  have hflat : ((fun n => List.replicate n v) (1 : Int).toNat).flatMap (fun u => List.replicate 1 u) = [v] := by simp
  simp only [replaceOne]
  rw [if_neg (by norm_num), if_neg (by rw [hsum]; norm_num), hsum, hflat, e1]
  obtain ⟨h, w, c, l⟩ := r
  simp only at e2 e3 e4 e5
  have g0 := e6 0 (by simp)
  have g1 := e6 1 (by simp)
  have m0 : Marked ⟨1, 2, some 1, List.replicate (1 * 2 * 1) (6 / 10)⟩ ((some 1).getD 1) 0 := by decide +kernel
  have m1 : Marked ⟨1, 2, some 1, List.replicate (1 * 2 * 1) (6 / 10)⟩ ((some 1).getD 1) 1 := by decide +kernel
  rw [if_pos m0, hcl] at g0
  rw [if_pos m1, hcl] at g1
  match l, e5, g0, g1 with
  | [a, b], _, g0, g1 =>
    simp only [List.getElem?_cons_zero, List.getElem?_cons_succ, Option.some.injEq] at g0 g1
    rw [e2, e3, e4, g0, g1]

/-- C86: whether a batch gives a result depends on each of its images alone, and so does each result. -/
theorem batch (images : List (DType × Arr)) (draws : List Draws) (hl : draws.length = images.length) (r : List (DType × Arr))
    (hr : replaceBatch images draws = some r) : r.length = images.length ∧
      ∀ (i : Nat) (d : DType) (im : Arr) (s : Draws), images[i]? = some (d, im) → draws[i]? = some s →
        ∃ o, replaceOne d im s = some o ∧ r[i]? = some (d, o) := by
  unfold replaceBatch at hr
  refine ⟨?_, ?_⟩
  · have := mapM_len _ _ _ hr
    rw [this, List.length_zip, hl, Nat.min_self]
  · intro i d im s h1 h2
    have hz : (images.zip draws)[i]? = some ((d, im), s) := (List.getElem?_zip_eq_some (z := ((d, im), s))).2 ⟨h1, h2⟩
    obtain ⟨o, e2, e1⟩ := mapM_nth _ _ _ hr i _ hz
    simp only [Option.map_eq_some_iff] at e1
    obtain ⟨o', e3, e4⟩ := e1
    exact ⟨o', e3, by rw [e2, ← e4]⟩

example : replaceBatch [(⟨.u, 1⟩, ⟨1, 1, some 1, [3]⟩), (⟨.u, 1⟩, ⟨1, 1, some 1, [4]⟩)]
    [⟨0, fun _ _ _ => [1], ⟨.i, 4⟩, fun n => List.replicate n 9⟩, ⟨0, fun _ _ _ => [0], ⟨.i, 4⟩, fun n => List.replicate n 9⟩] =
    some [(⟨.u, 1⟩, ⟨1, 1, some 1, [9]⟩), (⟨.u, 1⟩, ⟨1, 1, some 1, [4]⟩)] := by decide +kernel

/-- C86 (partial): with any mask of zeros and ones, `Salt` leaves each component of a uint8 image as it is or sets it to at least 128, `Pepper` leaves it or
sets it to at most 128; both keep shape and dtype. (`b n` are `n` samples of a Beta distribution, so from 0 to 1.) -/
theorem salt_pepper_partial (positive : Bool) (im : Arr) (c : Nat) (pc : ℚ) (mask : Nat → Nat → Nat → List ℚ) (beta : Nat → List ℚ) (him : im.Ok)
    (hc : im.c = some c) (hmask : ∀ h w c, (mask h w c).length = h * w * c) (hbin : ∀ h w c, Binary (mask h w c))
    (hbl : ∀ n, (beta n).length = n) (hb : ∀ n, ∀ v ∈ beta n, 0 ≤ v ∧ v ≤ 1) :
    ∃ r, replaceOne ⟨.u, 1⟩ im (noise pc mask (if positive then salt else pepper) beta) = some r ∧ r.h = im.h ∧ r.w = im.w ∧ r.c = im.c ∧
      r.v.length = im.v.length ∧ ∀ (i : Nat) (x y : ℚ), im.v[i]? = some x → r.v[i]? = some y → y = x ∨
        (if positive then 128 ≤ y ∧ y ≤ 255 else 0 ≤ y ∧ y ≤ 128) := by
  have hrange : ∀ n, ∀ v ∈ beta n, 0 ≤ (if positive then salt else pepper) v ∧ (if positive then salt else pepper) v ≤ 255 ∧
      (if positive then 255 / 2 ≤ (if positive then salt else pepper) v else (if positive then salt else pepper) v ≤ 255 / 2) := by
    intro n v hv
    obtain ⟨h0, h1⟩ := hb n v hv
    cases positive
    · simp only [Bool.false_eq_true, if_false, pepper, forceSign]
      split_ifs <;> refine ⟨by linarith, by linarith, by linarith⟩
    · simp only [if_true, salt, forceSign]
      split_ifs <;> refine ⟨by linarith, by linarith, by linarith⟩
  have e1 : (lo ⟨.f, 4⟩ : ℚ) ≤ 0 := by
    have : lo ⟨.f, 4⟩ ≤ 0 := by decide +kernel
    exact_mod_cast this
  have e2 : (255 : ℚ) ≤ hi ⟨.f, 4⟩ := by
    have : 255 ≤ hi ⟨.f, 4⟩ := by decide +kernel
    exact_mod_cast this
  have hfits : Fits (noise pc mask (if positive then salt else pepper) beta) := by
    refine ⟨hmask, fun n => by simp [noise, hbl], ?_⟩
    intro n v hv
    simp only [noise, List.mem_map] at hv
    obtain ⟨u, hu, rfl⟩ := hv
    obtain ⟨g1, g2, _⟩ := hrange n u hu
    exact ⟨le_trans e1 g1, le_trans g2 e2, fun h => absurd rfl h⟩
  have hval : ∀ n (k : Nat), (((noise pc mask (if positive then salt else pepper) beta).repl n)[k]?).isSome →
      (if positive then 128 ≤ closest ⟨.f, 4⟩ ⟨.u, 1⟩ (((noise pc mask (if positive then salt else pepper) beta).repl n).getD k 0) ∧
          closest ⟨.f, 4⟩ ⟨.u, 1⟩ (((noise pc mask (if positive then salt else pepper) beta).repl n).getD k 0) ≤ 255
        else 0 ≤ closest ⟨.f, 4⟩ ⟨.u, 1⟩ (((noise pc mask (if positive then salt else pepper) beta).repl n).getD k 0) ∧
          closest ⟨.f, 4⟩ ⟨.u, 1⟩ (((noise pc mask (if positive then salt else pepper) beta).repl n).getD k 0) ≤ 128) := by
    intro n k hk
    obtain ⟨v, hv⟩ := Option.isSome_iff_exists.1 hk
    rw [List.getD_eq_getElem?_getD, hv, Option.getD_some]
    have hmem := List.mem_of_getElem? hv
    simp only [noise, List.mem_map] at hmem
    obtain ⟨u, hu, rfl⟩ := hmem
    obtain ⟨g1, g2, g3⟩ := hrange n u hu
    obtain ⟨z, hz⟩ : ∃ z, z = (if positive then salt else pepper) u := ⟨_, rfl⟩
    rw [← hz] at g1 g2 g3 ⊢
    have l1 : lo ⟨.u, 1⟩ = 0 := by decide +kernel
    have l2 : hi ⟨.u, 1⟩ = 255 := by decide +kernel
    have hcl : closest ⟨.f, 4⟩ ⟨.u, 1⟩ z = npRound z := by
      have r1 : 0 ≤ npRound z := Props.le_npRound (by exact_mod_cast g1)
      have r2 : npRound z ≤ 255 := Props.npRound_le (by exact_mod_cast g2)
      simp only [closest]
      rw [if_pos (by decide), clamp_int, l1, l2, max_eq_left r1, min_eq_left r2]
    have hmid : npRound (255 / 2) = 128 := by decide +kernel
    rw [hcl]
    cases positive
    · simp only [Bool.false_eq_true, if_false] at g3 ⊢
      have := Props.npRound_mono g3
      rw [hmid] at this
      exact ⟨by exact_mod_cast Props.le_npRound (by exact_mod_cast g1), by exact_mod_cast this⟩
    · simp only [if_true] at g3 ⊢
      have := Props.npRound_mono g3
      rw [hmid] at this
      exact ⟨by exact_mod_cast this, by exact_mod_cast Props.npRound_le (by exact_mod_cast g2)⟩
  have hfit : BoundFits ⟨.f, 4⟩ ⟨.u, 1⟩ := by decide +kernel
  have hcount : ∀ (l : List ℚ) (a N : Nat), l.getD a 0 = 1 → a < N →
      ((List.range a).filter (fun j => decide (l.getD j 0 = 1))).length < ((List.range N).filter (fun j => decide (l.getD j 0 = 1))).length := by
    intro l a N ha hN
    have h1 : ((List.range (a + 1)).filter (fun j => decide (l.getD j 0 = 1))).length =
        ((List.range a).filter (fun j => decide (l.getD j 0 = 1))).length + 1 := by
      rw [List.range_succ, List.filter_append, List.length_append, List.filter_cons, if_pos (by simpa using ha)]
      rfl
    obtain ⟨t, ht⟩ := Nat.exists_eq_add_of_le (show a + 1 ≤ N from hN)
    rw [ht, List.range_add, List.filter_append, List.length_append, h1]
    omega
  have hlen : im.v.length = im.h * im.w * c := by rw [him, hc]; rfl
  by_cases hpc : pc ≤ 1 / 2
  · obtain ⟨r, drawn, f1, f2, f3, f4, f5, f6, f7, f8⟩ := shared_partial (d := ⟨.u, 1⟩) im (noise pc mask (if positive then salt else pepper) beta) c him hc
      hfits hpc (hbin _ _ _) (by decide) ⟨by decide, by decide, by decide⟩ (rfl) hfit
    refine ⟨r, f1, f2, f3, f4, f5, ?_⟩
    intro i x y hx hy
    have hi' : i < im.v.length := by
      by_contra h
      rw [List.getElem?_eq_none (Nat.le_of_not_lt h)] at hx; cases hx
    have hc0 : 0 < c := by
      rcases Nat.eq_zero_or_pos c with h0 | h0
      · rw [hlen, h0, Nat.mul_zero] at hi'; omega
      · exact h0
    have hn : i / c < im.h * im.w := Nat.div_lt_of_lt_mul (by rw [Nat.mul_comm, ← hlen]; exact hi')
    have hik : i / c * c + i % c = i := by rw [Nat.mul_comm]; exact Nat.div_add_mod i c
    have := f8 (i / c) (i % c) hn (Nat.mod_lt _ hc0)
    rw [hik, hy, Option.some.injEq] at this
    by_cases hm1 : ((noise pc mask (if positive then salt else pepper) beta).mask im.h im.w 1).getD (i / c) 0 = 1
    · rw [if_pos hm1] at this
      right
      rw [this, f6]
      refine hval _ _ ?_
      have hlt := hcount _ _ _ hm1 hn
      rw [← f7] at hlt
      rw [← f6, List.getElem?_eq_getElem hlt]
      rfl
    · rw [if_neg hm1, List.getD_eq_getElem?_getD, hx] at this
      exact Or.inl this
  · obtain ⟨r, drawn, f1, f2, f3, f4, f5, f6, f7, f8⟩ := per_channel_partial (d := ⟨.u, 1⟩) im (noise pc mask (if positive then salt else pepper) beta) c him
      hc hfits (not_le.1 hpc) (hbin _ _ _) (by decide) ⟨by decide, by decide, by decide⟩ (rfl) hfit
    refine ⟨r, f1, f2, f3, f4, f5, ?_⟩
    intro i x y hx hy
    have hi' : i < im.v.length := by
      by_contra h
      rw [List.getElem?_eq_none (Nat.le_of_not_lt h)] at hx; cases hx
    have := f8 i hi'
    rw [hy, Option.some.injEq] at this
    by_cases hm1 : ((noise pc mask (if positive then salt else pepper) beta).mask im.h im.w c).getD i 0 = 1
    · rw [if_pos hm1] at this
      right
      rw [this, f6]
      refine hval _ _ ?_
      have hlt := hcount _ _ _ hm1 hi'
      rw [← f7] at hlt
      rw [← f6, List.getElem?_eq_getElem hlt]
      rfl
    · rw [if_neg hm1, List.getD_eq_getElem?_getD, hx] at this
      exact Or.inl this

example : replaceOne ⟨.u, 1⟩ ⟨1, 2, some 1, [100, 150]⟩ (noise 0 (fun _ _ _ => [1, 1]) salt (fun n => List.replicate n (1 / 10))) =
    some ⟨1, 2, some 1, [230, 230]⟩ := by decide +kernel
example : replaceOne ⟨.u, 1⟩ ⟨1, 2, some 1, [100, 150]⟩ (noise 0 (fun _ _ _ => [1, 1]) pepper (fun n => List.replicate n (9 / 10))) =
    some ⟨1, 2, some 1, [26, 26]⟩ := by decide +kernel

/-- C86 is false for other dtypes: the values are those of uint8 images, so that `Salt` darkens a uint16 image, and `Pepper` sets the components of
a boolean image to `True`. -/
theorem noise_other_dtypes :
    replaceOne ⟨.u, 2⟩ ⟨1, 1, some 1, [60000]⟩ (noise 0 (fun _ _ _ => [1]) salt (fun n => List.replicate n 1)) = some ⟨1, 1, some 1, [255]⟩ ∧
    replaceOne ⟨.b, 1⟩ ⟨1, 1, some 1, [0]⟩ (noise 0 (fun _ _ _ => [1]) pepper (fun n => List.replicate n (1 / 10))) = some ⟨1, 1, some 1, [1]⟩ := by
  decide +kernel

/-- C86: the values of `SaltAndPepper` lie in the range of uint8 images. -/
theorem salt_and_pepper_range (b : ℚ) (h0 : 0 ≤ b) (h1 : b ≤ 1) : 0 ≤ saltAndPepper b ∧ saltAndPepper b ≤ 255 := by
  unfold saltAndPepper
  constructor <;> linarith

example : saltAndPepper (1 / 2) = 255 / 2 := by decide +kernel

/-- C86: the masks of the `Coarse...` augmenters have the requested size, and are made of zeros and ones if the drawn mask is; pixels get the value
of the cell of the coarse mask in which they lie. -/
theorem coarse (cv : Resize.Cv) (hcv : Resize.PicksPixels cv) (minSize : Int) (hmin : 1 ≤ minSize) (hw : Int × Int)
    (draw : Nat → Nat → Nat → Resize.Im) (hdraw : MulElem.MaskDraw draw) (h w c : Nat) (hh : 0 < h) (hw0 : 0 < w) (hc : 0 < c) :
    ∃ l, coarseMask cv minSize hw draw h w c = some l ∧ l.length = h * w * c ∧ Binary l ∧
      ∃ sy sx : Nat → Nat, (∀ y < h, (sy y : Int) < max hw.1 minSize) ∧ (∀ x < w, (sx x : Int) < max hw.2 minSize) ∧
        ∀ y x k : Nat, y < h → x < w → k < c →
          l[(y * w + x) * c + k]? = some ((draw (max hw.1 minSize).toNat (max hw.2 minSize).toNat c).px (sy y) (sx x) k) := by
  obtain ⟨m, q1, q2, q3, q4, sy, sx, b1, b2, hpx⟩ := coarse_low cv hcv minSize hmin hw draw hdraw h w c hh hw0 hc
  have hcc : m.c.getD 1 = c := by rw [q4]; rfl
  refine ⟨flat m, by rw [coarseMask, q1]; rfl, ?_, ?_, sy, sx, b1, b2, ?_⟩
  · rw [flat_len, q2, q3, hcc]
  · intro v hv
    obtain ⟨y, x, k, rfl⟩ := flat_mem m v hv
    rw [hpx]
    exact (hdraw _ _ _).2.2.2.2 _ _ _
  · intro y x k hy hx hk
    have := flat_get m y x k (by omega) (by omega) (by omega)
    rw [q3, hcc] at this
    rw [this, hpx]

example : coarseMask Resize.demoCv 1 (2, 2) Dropout.demoDraw 4 2 1 = some [0, 0, 0, 0, 1, 1, 1, 1] := by decide +kernel

end Imgaug.Replace
