import Verif.Spec.Params
import Verif.Proofs.Dtypes
import Mathlib.Tactic.Linarith
/-! Helpers for Props/Params.lean. -/
namespace Imgaug.Params
open Imgaug Imgaug.Dtypes
variable {σ : Type}

theorem drawSamples_some {E : Env σ} {p : Param σ} {size : List Nat} {s s' : σ} {r : Arr} (h : drawSamples E p size s = some (r, s')) :
    ∃ s'', p.draw size s = some (r, s'') ∧ s' = E.advance s'' := by
  rw [drawSamples, Option.map_eq_some_iff] at h
  obtain ⟨⟨r', s''⟩, h1, h2⟩ := h
  rw [Prod.mk.injEq] at h2
  obtain ⟨rfl, rfl⟩ := h2
  exact ⟨s'', h1, rfl⟩

theorem drawSample_some {E : Env σ} {p : Param σ} {s s' : σ} {v : ℚ} {dt : DType} (h : drawSample E p s = some (v, dt, s')) :
    ∃ r s'', p.draw [1] s = some (r, s'') ∧ v ∈ r.vals ∧ dt = r.dt := by
  rw [drawSample, Option.bind_eq_some_iff] at h
  obtain ⟨⟨r, s1⟩, h1, h2⟩ := h
  rw [Option.map_eq_some_iff] at h2
  obtain ⟨v', h3, h4⟩ := h2
  simp only [Prod.mk.injEq] at h4
  obtain ⟨rfl, rfl, rfl⟩ := h4
  obtain ⟨s2, h5, -⟩ := drawSamples_some h1
  exact ⟨r, s2, h5, List.mem_of_getElem? h3, rfl⟩

theorem Yields.sample {p : Param σ} {S : Set ℚ} (hp : Yields p S) {E : Env σ} {s s' : σ} {v : ℚ} {dt : DType}
    (h : drawSample E p s = some (v, dt, s')) : v ∈ S := by
  obtain ⟨r, s'', h1, h2, -⟩ := drawSample_some h
  exact hp _ _ _ _ h1 v h2

theorem full_mem {dt : DType} {size : List Nat} {v w : ℚ} (h : w ∈ (full dt size v).vals) : w = astype dt v := List.eq_of_mem_replicate h

theorem full_shape (dt : DType) (size : List Nat) (v : ℚ) : (full dt size v).shape = size ∧ (full dt size v).vals.length = size.prod :=
  ⟨rfl, List.length_replicate⟩

theorem conv_mem {dt : DType} {size : List Nat} {l : List ℚ} {w : ℚ} (h : w ∈ (conv dt size l).vals) : ∃ v ∈ l, w = astype dt v := by
  obtain ⟨v, h1, h2⟩ := List.mem_map.mp h
  exact ⟨v, h1, h2.symm⟩

theorem conv_shape (dt : DType) (size : List Nat) (l : List ℚ) (h : l.length = size.prod) :
    (conv dt size l).shape = size ∧ (conv dt size l).vals.length = size.prod := ⟨rfl, by rw [conv]; simp [h]⟩

theorem astype_f32 (v : ℚ) : astype f32 v = v := rfl

theorem i32_lo : lo i32 = -2147483648 := by decide
theorem i32_hi : hi i32 = 2147483647 := by decide

theorem astype_holds {dt : DType} (v : ℚ) (h : Holds dt v) : astype dt v = v := by
  obtain ⟨h1, h2, h3⟩ := h
  by_cases hk : dt.kind = .f
  · rw [astype, hk]
  · obtain ⟨n, rfl⟩ := h3 hk
    exact astype_int dt n (by exact_mod_cast h1) (by exact_mod_cast h2)

/-- Elements of `n` copies of a list. -/
theorem flatten_replicate_get (l : List ℚ) (m i : Nat) (hi : i < m * l.length) :
    (List.replicate m l).flatten[i]? = l[i % l.length]? := by
  induction m generalizing i with
  | zero => simp at hi
  | succ m ih =>
    rw [List.replicate_succ, List.flatten_cons]
    by_cases h : i < l.length
    · rw [List.getElem?_append_left h, Nat.mod_eq_of_lt h]
    · have := Nat.add_mul m 1 l.length
      rw [List.getElem?_append_right (by omega), ih (i - l.length) (by omega)]
      congr 1
      rw [Nat.mod_eq_sub_mod (a := i) (by omega)]

theorem listSamples_spec (vals : List ℚ) (hv : vals ≠ []) (n : Nat) :
    ∃ l, listSamples vals n = some l ∧ l.length = n ∧ ∀ i, i < n → l[i]? = vals[i % vals.length]? := by
  have hl : 0 < vals.length := List.length_pos_of_ne_nil hv
  rw [listSamples, if_neg (by omega)]
  simp only
  split_ifs with hn
  · have hlen : n ≤ (n + vals.length - 1) / vals.length * vals.length := by
      have h1 := Nat.div_add_mod (n + vals.length - 1) vals.length
      have h2 := Nat.mod_lt (n + vals.length - 1) hl
      rw [mul_comm] at h1
      omega
    refine ⟨_, rfl, ?_, ?_⟩
    · rw [List.length_take, List.length_flatten]
      simp only [List.map_replicate, List.sum_replicate, nsmul_eq_mul, Nat.cast_id]
      omega
    · intro i hi
      rw [List.getElem?_take_of_lt hi, flatten_replicate_get vals _ _ (by omega)]
  · refine ⟨_, rfl, by rw [List.length_take]; omega, ?_⟩
    intro i hi
    rw [List.getElem?_take_of_lt hi, Nat.mod_eq_of_lt (by omega)]

theorem mapM_index {α : Type} (a : List α) : ∀ (idx : List Nat) (l : List α), idx.mapM (fun i => a[i]?) = some l →
    l.length = idx.length ∧ ∀ v ∈ l, v ∈ a := by
  intro idx l h
  refine ⟨mapM_len _ idx l h, ?_⟩
  intro v hv
  obtain ⟨k, hk⟩ := List.mem_iff_getElem?.mp hv
  have hlen := mapM_len _ idx l h
  have hk' : k < idx.length := by rw [← hlen]; exact (List.getElem?_eq_some_iff.mp hk).1
  obtain ⟨b, h1, h2⟩ := mapM_nth _ idx l h k idx[k] (List.getElem?_eq_getElem hk')
  rw [hk] at h1
  obtain rfl := Option.some.inj h1
  exact List.mem_of_getElem? h2

theorem wrong_iff (positive : Bool) (v : ℚ) : wrong positive v = false ↔ v ∈ signed positive := by
  cases positive <;> simp [wrong, signed]

theorem wrong_neg (positive : Bool) (v : ℚ) (h : wrong positive v = true) : v * -1 ∈ signed positive := by
  cases positive <;> simp [wrong, signed] at h ⊢ <;> linarith

/-- Along one axis the rows are the samples. -/
theorem inBadRows_vals (positive : Bool) (a : Arr) (n : Nat) (hs : a.shape = [n]) (f : Nat → ℚ → ℚ) :
    (inBadRows positive a f).vals = a.vals.mapIdx (fun i v => if wrong positive v then f i v else v) := by
  have hrow : a.shape.tail.prod = 1 := by rw [hs]; rfl
  simp only [inBadRows, hrow]
  apply List.ext_getElem?
  intro i
  rw [List.getElem?_mapIdx, List.getElem?_mapIdx]
  cases hi : a.vals[i]? with
  | none => rfl
  | some v =>
    simp only [Option.map_some, Nat.div_one, Nat.mul_one]
    have : (a.vals.drop i).take 1 = [v] := by
      obtain ⟨hlt, rfl⟩ := List.getElem?_eq_some_iff.mp hi
      rw [List.drop_eq_getElem_cons hlt, List.take_succ_cons, List.take_zero]
    rw [this]
    simp

theorem inBadRows_shape (positive : Bool) (a : Arr) (f : Nat → ℚ → ℚ) :
    (inBadRows positive a f).shape = a.shape ∧ (inBadRows positive a f).vals.length = a.vals.length := ⟨rfl, by simp [inBadRows]⟩

theorem reroll_shape (E : Env σ) (p : Param σ) (positive : Bool) (size : List Nat) : ∀ (n : Nat) (a : Arr) (s : σ) (r : Arr) (s' : σ),
    reroll E p positive size n a s = some (r, s') → r.shape = a.shape ∧ r.vals.length = a.vals.length := by
  intro n
  induction n with
  | zero =>
    intro a s r s' h
    simp only [reroll, Option.some.injEq, Prod.mk.injEq] at h
    rw [← h.1]; exact inBadRows_shape _ _ _
  | succ n ih =>
    intro a s r s' h
    rw [reroll] at h
    split_ifs at h with hc
    · rw [Option.bind_eq_some_iff] at h
      obtain ⟨q, -, h2⟩ := h
      have := ih _ _ _ _ h2
      have h3 := inBadRows_shape positive a (fun i v => q.1.vals.getD i v)
      exact ⟨this.1.trans h3.1, this.2.trans h3.2⟩
    · simp only [Option.some.injEq, Prod.mk.injEq] at h
      rw [← h.1]; exact ⟨rfl, rfl⟩

theorem reroll_signed (E : Env σ) (p : Param σ) (positive : Bool) (k : Nat) : ∀ (n : Nat) (a : Arr) (s : σ) (r : Arr) (s' : σ),
    a.shape = [k] → reroll E p positive [k] n a s = some (r, s') → ∀ v ∈ r.vals, v ∈ signed positive := by
  intro n
  induction n with
  | zero =>
    intro a s r s' hs h v hv
    simp only [reroll, Option.some.injEq, Prod.mk.injEq] at h
    rw [← h.1, inBadRows_vals _ _ k hs, List.mem_mapIdx] at hv
    obtain ⟨i, hi, rfl⟩ := hv
    split_ifs with hw
    · exact wrong_neg _ _ hw
    · exact (wrong_iff _ _).mp (by simpa using hw)
  | succ n ih =>
    intro a s r s' hs h v hv
    rw [reroll] at h
    split_ifs at h with hc
    · rw [Option.bind_eq_some_iff] at h
      obtain ⟨q, -, h2⟩ := h
      exact ih _ _ _ _ (by rw [(inBadRows_shape _ _ _).1]; exact hs) h2 v hv
    · simp only [Option.some.injEq, Prod.mk.injEq] at h
      rw [← h.1] at hv
      refine (wrong_iff _ _).mp ?_
      by_contra hw
      exact hc (List.any_eq_true.mpr ⟨v, hv, by simpa using hw⟩)

theorem inBadRows_row (positive : Bool) (a : Arr) (m : Nat) (hm : a.shape.tail.prod = m) (f : Nat → ℚ → ℚ) (i : Nat)
    (hi : ∀ j, j < m → ∀ v, a.vals[i * m + j]? = some v → wrong positive v = false) (j : Nat) (hj : j < m) :
    (inBadRows positive a f).vals[i * m + j]? = a.vals[i * m + j]? := by
  simp only [inBadRows, hm, List.getElem?_mapIdx]
  have hd : (i * m + j) / m = i := by
    rw [Nat.mul_comm, Nat.mul_add_div (by omega), Nat.div_eq_of_lt hj, Nat.add_zero]
  have hb : ((a.vals.drop (i * m)).take m).any (wrong positive) = false := by
    rw [List.any_eq_false]
    intro v hv
    obtain ⟨k, hk⟩ := List.mem_iff_getElem?.mp hv
    rw [List.getElem?_take] at hk
    split_ifs at hk with hkm
    rw [List.getElem?_drop] at hk
    rw [hi k hkm v hk]
    simp
  cases hv : a.vals[i * m + j]? with
  | none => rfl
  | some v => simp only [Option.map_some, hd, hb, Bool.false_eq_true, if_false]

theorem reroll_row (E : Env σ) (p : Param σ) (positive : Bool) (size : List Nat) : ∀ (n : Nat) (a : Arr) (s : σ) (r : Arr) (s' : σ) (m : Nat),
    a.shape.tail.prod = m → reroll E p positive size n a s = some (r, s') → ∀ i,
    (∀ j, j < m → ∀ v, a.vals[i * m + j]? = some v → wrong positive v = false) → ∀ j, j < m → r.vals[i * m + j]? = a.vals[i * m + j]? := by
  intro n
  induction n with
  | zero =>
    intro a s r s' m hm h i hi j hj
    simp only [reroll, Option.some.injEq, Prod.mk.injEq] at h
    rw [← h.1]
    exact inBadRows_row positive a m hm _ i hi j hj
  | succ n ih =>
    intro a s r s' m hm h i hi j hj
    rw [reroll] at h
    split_ifs at h with hc
    · rw [Option.bind_eq_some_iff] at h
      obtain ⟨q, -, h2⟩ := h
      have key := inBadRows_row positive a m hm (fun i v => q.1.vals.getD i v) i hi
      rw [← key j hj]
      refine ih _ _ _ _ m (by rw [(inBadRows_shape _ _ _).1]; exact hm) h2 i (fun k hk v hv => ?_) j hj
      rw [key k hk] at hv
      exact hi k hk v hv
    · simp only [Option.some.injEq, Prod.mk.injEq] at h
      rw [← h.1]

end Imgaug.Params
