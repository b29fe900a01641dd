import Verif.Model.Pooling
import Verif.Props.Size2
import Mathlib.Algebra.Order.BigOperators.Group.Multiset
/-! Helpers for Props/Pooling.lean. -/
namespace Imgaug.Pooling
open Imgaug Imgaug.Size Finset
variable {α β : Type}

theorem ceil_mul (n b m : Nat) (hb : 1 ≤ b) (h1 : n ≤ m * b) (h2 : m * b < n + b) : m = (n + b - 1) / b := by
  symm
  rw [Nat.div_eq_iff (by omega)]
  omega

/-- What padding to multiples does. -/
theorem padded (border : Nat → Nat → α) (a : Img α) (bh bw : Nat) (hh : 1 ≤ a.h) (hw : 1 ≤ a.w) (h1 : 1 ≤ bh) (w1 : 1 ≤ bw) :
    ∃ (p : Img α) (t l : Nat), padToMultiplesOf border a bh bw = some p ∧
      p.h = (a.h + bh - 1) / bh * bh ∧ p.w = (a.w + bw - 1) / bw * bw ∧ t = (p.h - a.h) / 2 ∧ l = (p.w - a.w) / 2 ∧
      a.h ≤ p.h ∧ p.h < a.h + bh ∧ a.w ≤ p.w ∧ p.w < a.w + bw ∧
      ∀ y x, p.px y x = if t ≤ y ∧ y < t + a.h ∧ l ≤ x ∧ x < l + a.w then a.px (y - t) (x - l) else border y x := by
  obtain ⟨q, e, ⟨a1, a2, a3, a4⟩, ⟨b1, b2, b3, b4⟩⟩ := paddings_multiples ⟨a.h, a.w⟩ (some bh) (some bw) (by simp; omega) (by simp; omega)
  simp only [sizesOf] at a4 b4
  have key : ∀ (n b : Nat) (u v : Int), 1 ≤ n → 1 ≤ b → 0 ≤ u → 0 ≤ v → (v = u ∨ v = u + 1) →
      IsLeast {k | k ∈ posMultiples b ∧ (n : Int) ≤ k} (n + u + v) →
      n + u.toNat + v.toNat = (n + b - 1) / b * b ∧ u.toNat = (n + u.toNat + v.toNat - n) / 2 ∧ n + u.toNat + v.toNat < n + b := by
    intro n b u v hn hb hu hv huv ⟨⟨⟨hp, ⟨m, hm⟩⟩, hle⟩, hmin⟩
    have hm0 : 0 < m := by
      by_contra hc
      have : (b : Int) * m ≤ 0 := mul_nonpos_of_nonneg_of_nonpos (by omega) (by omega)
      omega
    obtain ⟨M, rfl⟩ := Int.eq_ofNat_of_zero_le hm0.le
    have e1 : n + u.toNat + v.toNat = M * b := by
      have : ((n + u.toNat + v.toNat : Nat) : Int) = ((M * b : Nat) : Int) := by push_cast; rw [mul_comm (M : Int)]; omega
      exact_mod_cast this
    have hlt : M * b < n + b := by
      by_contra hc
      have hM2 : 2 ≤ M := by
        by_contra h
        have : M = 1 := by omega
        subst this; omega
      have := hmin (show ((b : Int) * ((M - 1 : Nat) : Int)) ∈ _ from ⟨⟨by
          have : (0 : Int) < ((M - 1 : Nat) : Int) := by omega
          have hb' : (0 : Int) < b := by omega
          exact mul_pos hb' this, ⟨_, rfl⟩⟩, by
          have e2 : b * (M - 1) = M * b - b := by rw [Nat.mul_sub, mul_one, mul_comm]
          have : n ≤ b * (M - 1) := by omega
          exact_mod_cast this⟩)
      have e2 : b * (M - 1) = M * b - b := by rw [Nat.mul_sub, mul_one, mul_comm]
      have e3 : (b : Int) * ((M - 1 : Nat) : Int) = ((M * b - b : Nat) : Int) := by rw [← e2]; push_cast; rfl
      omega
    have := ceil_mul n b M hb (by omega) hlt
    rw [← this]
    omega
  obtain ⟨k1, k2, k3⟩ := key a.h bh q.top q.bottom hh h1 a1 a2 a3 a4
  obtain ⟨l1, l2, l3⟩ := key a.w bw q.left q.right hw w1 b1 b2 b3 b4
  refine ⟨_, q.top.toNat, q.left.toNat, by rw [padToMultiplesOf, e, Option.bind_some, Size.pad, if_pos ⟨a1, b2, a2, b1⟩], k1, l1, k2, l2,
    by simp only; omega, k3, by simp only; omega, l3, fun y x => rfl⟩

theorem sum_reflect (n : Nat) (f : Nat → Multiset α) : ∑ i ∈ range n, f (n - 1 - i) = ∑ i ∈ range n, f i :=
  Finset.sum_range_reflect f n

theorem every_size (m b : Nat) (hb : 1 ≤ b) : (m * b - (b - 1) / 2 + b - 1) / b = m := by
  rcases Nat.eq_zero_or_pos m with rfl | hm
  · rw [Nat.zero_mul, Nat.zero_sub, Nat.zero_add, Nat.div_eq_of_lt (by omega)]
  · rw [Nat.div_eq_iff (by omega)]
    have : b ≤ m * b := Nat.le_mul_of_pos_left b hm
    omega

theorem row_lt (m b Y : Nat) (h : Y < m) : Y * b + b ≤ m * b := by
  have := Nat.mul_le_mul_right b (show Y + 1 ≤ m from h)
  rw [Nat.add_mul, one_mul] at this; exact this

/-- `pad_to_multiples_of` may be skipped when the sizes are multiples already. -/
theorem padded_or (border : Nat → Nat → α) (a : Img α) (bh bw : Nat) (hh : 1 ≤ a.h) (hw : 1 ≤ a.w) (h1 : 1 ≤ bh) (w1 : 1 ≤ bw) :
    ∃ (p p' : Img α), padToMultiplesOf border a bh bw = some p ∧
      (if a.h % bh ≠ 0 ∨ a.w % bw ≠ 0 then padToMultiplesOf border a bh bw else some a) = some p' ∧
      (∀ y x, y < p.h → x < p.w → p'.px y x = p.px y x) ∧ p'.h = p.h ∧ p'.w = p.w ∧ p.h / bh * bh = p.h ∧ p.w / bw * bw = p.w := by
  obtain ⟨p, t, l, e, e1, e2, e3, e4, g1, g2, g3, g4, g5⟩ := padded border a bh bw hh hw h1 w1
  have d1 : p.h / bh * bh = p.h := by rw [e1, Nat.mul_div_cancel _ (by omega)]
  have d2 : p.w / bw * bw = p.w := by rw [e2, Nat.mul_div_cancel _ (by omega)]
  by_cases hc : a.h % bh ≠ 0 ∨ a.w % bw ≠ 0
  · exact ⟨p, p, e, by rw [if_pos hc, e], fun _ _ _ _ => rfl, rfl, rfl, d1, d2⟩
  · refine ⟨p, a, e, by rw [if_neg hc], ?_⟩
    push Not at hc
    have k1 : a.h = a.h / bh * bh := by have := Nat.div_add_mod a.h bh; rw [hc.1, add_zero, mul_comm] at this; omega
    have k2 : a.w = a.w / bw * bw := by have := Nat.div_add_mod a.w bw; rw [hc.2, add_zero, mul_comm] at this; omega
    have l1 := ceil_mul a.h bh (a.h / bh) h1 (by omega) (by omega)
    have l2 := ceil_mul a.w bw (a.w / bw) w1 (by omega) (by omega)
    have m1 : p.h = a.h := by rw [e1, ← l1, ← k1]
    have m2 : p.w = a.w := by rw [e2, ← l2, ← k2]
    have t0 : t = 0 := by rw [e3, m1]; simp
    have l0 : l = 0 := by rw [e4, m2]; simp
    refine ⟨?_, m1.symm, m2.symm, d1, d2⟩
    intro y x hy hx
    rw [g5, if_pos (by omega), t0, l0]; rfl

theorem mem_sum2 (n m : Nat) (g : Nat → Nat → α) (v : α) :
    v ∈ (∑ i ∈ range n, ∑ j ∈ range m, ({g i j} : Multiset α)) ↔ ∃ i j, i < n ∧ j < m ∧ g i j = v := by
  simp only [Multiset.mem_sum, Finset.mem_range, Multiset.mem_singleton]
  constructor
  · rintro ⟨i, hi, j, hj, h⟩; exact ⟨i, j, hi, hj, h.symm⟩
  · rintro ⟨i, j, hi, hj, h⟩; exact ⟨i, hi, j, hj, h.symm⟩

theorem card_sum2 (n m : Nat) (g : Nat → Nat → α) : (∑ i ∈ range n, ∑ j ∈ range m, ({g i j} : Multiset α)).card = n * m := by
  simp

theorem average_between (s : Multiset ℚ) (hs : s ≠ 0) (lo hi : ℚ) (h1 : ∀ v ∈ s, lo ≤ v) (h2 : ∀ v ∈ s, v ≤ hi) :
    lo ≤ average s ∧ average s ≤ hi := by
  have hc : (0 : ℚ) < s.card := by exact_mod_cast Multiset.card_pos.mpr hs
  constructor
  · rw [average, le_div_iff₀ hc]
    have := Multiset.card_nsmul_le_sum h1
    rw [nsmul_eq_mul, mul_comm] at this; exact this
  · rw [average, div_le_iff₀ hc]
    have := Multiset.sum_le_card_nsmul s hi h2
    rw [nsmul_eq_mul, mul_comm] at this; exact this

end Imgaug.Pooling
