import Verif.Spec.Equalize
import Verif.Proofs.Float
import Verif.Props.Lut
import Mathlib.Tactic.Linarith
import Mathlib.Tactic.Positivity
import Mathlib.Tactic.FieldSimp
import Mathlib.Tactic.Ring
/-! Helper lemmas on equalisation and autocontrast. -/
namespace Imgaug.Equalize
open Imgaug

theorem first_some {p : Nat → Bool} {n i : Nat} : first p n = some i ↔ i < n ∧ p i = true ∧ ∀ j < i, p j = false := by
  rw [first, List.find?_eq_some_iff_getElem]
  constructor
  · rintro ⟨hp, j, hj, he, hk⟩
    rw [List.getElem_range] at he
    subst he
    rw [List.length_range] at hj
    refine ⟨hj, hp, fun k hk' => ?_⟩
    have := hk k hk'
    simpa using this
  · rintro ⟨hi, hp, hk⟩
    refine ⟨hp, i, by simpa using hi, by simp, fun j hj => ?_⟩
    simp [hk j hj]

theorem first_none {p : Nat → Bool} {n : Nat} : first p n = none ↔ ∀ j < n, p j = false := by
  rw [first, List.find?_eq_none]
  simp

/-- The sum of the first `n` values. -/
def S (h : Nat → Int) (n : Nat) : Int := ((List.range n).map h).sum

theorem S_zero (h : Nat → Int) : S h 0 = 0 := rfl

theorem S_succ (h : Nat → Int) (n : Nat) : S h (n + 1) = S h n + h n := by
  simp [S, List.range_succ]

theorem S_mono {h : Nat → Int} (h0 : ∀ v, 0 ≤ h v) {m n : Nat} (hmn : m ≤ n) : S h m ≤ S h n := by
  induction n, hmn using Nat.le_induction with
  | base => exact le_refl _
  | succ n _ ih => rw [S_succ]; have := h0 n; omega

theorem S_nonneg {h : Nat → Int} (h0 : ∀ v, 0 ≤ h v) (n : Nat) : 0 ≤ S h n := by
  have := S_mono h0 (Nat.zero_le n)
  rwa [S_zero] at this

theorem revSum_eq (h : Nat → Int) (u : Nat) (hu : u ≤ 255) : revSum h u = S h 256 - S h (255 - u) := by
  induction u with
  | zero =>
    have : S h 256 = S h 255 + h 255 := S_succ h 255
    simp only [revSum, List.range_succ, List.range_zero, List.nil_append, List.map_cons, List.map_nil, List.sum_cons, List.sum_nil]
    simp only [Nat.sub_zero]
    omega
  | succ u ih =>
    have e : revSum h (u + 1) = revSum h u + h (255 - (u + 1)) := by
      rw [revSum, revSum, List.range_succ, List.map_append, List.sum_append]
      simp
    have := S_succ h (255 - (u + 1))
    rw [show 255 - (u + 1) + 1 = 255 - u by omega] at this
    rw [e, ih (by omega)]
    omega

theorem ends_eq {h : Nat → Int} {lo hi : Nat} (h1 : lo < 256) (h2 : h lo ≠ 0) (h3 : ∀ v < lo, h v = 0) (h4 : hi < 256) (h5 : h hi ≠ 0)
    (h6 : ∀ v < 256, hi < v → h v = 0) : ends h = (lo, hi) := by
  have e1 : first (fun v => h v != 0) 256 = some lo :=
    first_some.2 ⟨h1, by simpa using h2, fun j hj => by simpa using h3 j hj⟩
  have e2 : first (fun u => h (255 - u) != 0) 256 = some (255 - hi) := by
    refine first_some.2 ⟨by omega, ?_, fun j hj => ?_⟩
    · rw [show 255 - (255 - hi) = hi by omega]; simpa using h5
    · simpa using h6 (255 - j) (by omega) (by omega)
  rw [ends, e1, e2]
  simp only [Option.getD_some]
  rw [show 255 - (255 - hi) = hi by omega]

theorem ends_few {h : Nat → Int} (m : Nat) (hm : ∀ v < 256, v ≠ m → h v = 0) : (ends h).2 ≤ (ends h).1 := by
  rw [ends]
  cases e1 : first (fun v => h v != 0) 256 with
  | none =>
    simp only [Option.getD_none]
    split <;> omega
  | some a =>
    obtain ⟨a1, a2, a3⟩ := first_some.1 e1
    simp only [Option.getD_some]
    cases e2 : first (fun u => h (255 - u) != 0) 256 with
    | none => simp
    | some b =>
      obtain ⟨b1, b2, b3⟩ := first_some.1 e2
      simp only
      have ha : a = m := by
        by_contra hne
        simp [hm a a1 hne] at a2
      have hb : 255 - b = m := by
        by_contra hne
        simp [hm (255 - b) (by omega) hne] at b2
      omega

/-- The sums of the histogram without its low end. -/
theorem S_withoutLow (cut : Int) (h : Nat → Int) (v : Nat) :
    S (withoutLow cut h) v =
      if v ≤ cutLo cut h then 0 else cut - S h (cutLo cut h + 1) + (S h v - S h (cutLo cut h + 1)) := by
  generalize hl : cutLo cut h = l
  induction v with
  | zero => simp [S_zero]
  | succ v ih =>
    rw [S_succ, ih, S_succ h v, withoutLow, hl]
    rcases Nat.lt_trichotomy v l with hv | hv | hv
    · rw [if_pos (by omega), if_pos hv, if_pos (by omega)]; rfl
    · subst hv
      rw [if_pos (le_refl _), if_neg (by omega), if_pos rfl, if_neg (by omega)]
      have := S_succ h v
      change 0 + (cut - S h (v + 1)) = _
      omega
    · rw [if_neg (by omega), if_neg (by omega), if_neg (by omega), if_neg (by omega)]
      omega

theorem cutLo_cases (cut : Int) (h : Nat → Int) :
    (cutLo cut h < 256 ∧ cut ≤ S h (cutLo cut h + 1) ∧ ∀ v < cutLo cut h, S h (v + 1) < cut) ∨
    (cutLo cut h = 255 ∧ ∀ v < 256, S h (v + 1) < cut) := by
  rw [cutLo]
  cases e : first (fun v => decide (cut - ((List.range (v + 1)).map h).sum ≤ 0)) 256 with
  | none =>
    refine Or.inr ⟨rfl, fun v hv => ?_⟩
    have := first_none.1 e v hv
    simp only [decide_eq_false_iff_not, not_le] at this
    change _ < cut
    rw [S]
    omega
  | some l =>
    obtain ⟨a, b, c⟩ := first_some.1 e
    refine Or.inl ⟨a, ?_, fun v hv => ?_⟩
    · simp only [decide_eq_true_eq] at b
      simp only [S]
      omega
    · have := c v hv
      simp only [decide_eq_false_iff_not, not_le] at this
      rw [S]
      omega

/-- The sums from the right of the histogram without its low end. -/
theorem rev_low (cut : Int) (h : Nat → Int) (v : Nat) (hv : v < 256) (hl : cutLo cut h < 256) :
    revSum (withoutLow cut h) (255 - v) =
      if cutLo cut h < v then S h 256 - S h v else cut - S h (cutLo cut h + 1) + (S h 256 - S h (cutLo cut h + 1)) := by
  rw [revSum_eq _ _ (by omega), show 255 - (255 - v) = v by omega, S_withoutLow, S_withoutLow]
  rw [if_neg (by omega)]
  by_cases hc : cutLo cut h < v
  · rw [if_neg (by omega), if_pos hc]; ring
  · rw [if_pos (by omega), if_neg hc]; ring

theorem cutLo_lt (cut : Int) (h : Nat → Int) : cutLo cut h < 256 := by
  rcases cutLo_cases cut h with h | h <;> omega

theorem cutLo_le {h : Nat → Int} {cut : Int} {lo : Nat} (hlo : IsLow h cut lo) : cutLo cut h ≤ lo := by
  obtain ⟨l1, l2, -⟩ := hlo
  change cut < S h (lo + 1) at l2
  rcases cutLo_cases cut h with ⟨a, b, c⟩ | ⟨a, b⟩
  · by_contra hne
    have := c lo (by omega)
    omega
  · have := b lo l1; omega

/-- Below the percentile nothing is left. -/
theorem low_zero {h : Nat → Int} (h0 : ∀ v, 0 ≤ h v) {cut : Int} {lo : Nat} (hlo : IsLow h cut lo) (v : Nat) (hv : v < lo) :
    withoutLow cut h v = 0 := by
  obtain ⟨l1, l2, l3⟩ := hlo
  change cut < S h (lo + 1) at l2
  change ∀ v < lo, S h (v + 1) ≤ cut at l3
  rw [withoutLow]
  split
  · rfl
  · rename_i hq
    have b := l3 v hv
    split
    · rename_i hq2
      rw [← hq2]
      change cut - S h (v + 1) = 0
      rcases cutLo_cases cut h with ⟨a, b', c⟩ | ⟨a, b'⟩
      · rw [← hq2] at b'; omega
      · omega
    · -- v is between the cut and lo
      have a := S_succ h v
      have c := h0 v
      have d : cut ≤ S h v := by
        rcases cutLo_cases cut h with ⟨a, b', c⟩ | ⟨a, b'⟩
        · exact le_trans b' (S_mono h0 (by omega))
        · omega
      omega

/-- Both ends cut off, by percentiles. -/
theorem cut_ends {h : Nat → Int} (h0 : ∀ v, 0 ≤ h v) {cut : Int} {lo hi : Nat} (hlo : IsLow h cut lo) (hhi : IsHigh h cut hi)
    (hlt : lo < hi) : ends (withoutHigh cut (withoutLow cut h)) = (lo, hi) := by
  have hle := cutLo_le hlo
  have hz := low_zero h0 hlo
  obtain ⟨l1, l2, l3⟩ := hlo
  obtain ⟨r1, r2, r3⟩ := hhi
  change cut < S h (lo + 1) at l2
  change ∀ v < lo, S h (v + 1) ≤ cut at l3
  change cut < S h 256 - S h hi at r2
  change ∀ v < 256, hi < v → S h 256 - S h v ≤ cut at r3
  have hcl := cutLo_lt cut h
  have hr : ∀ v, v < 256 → _ := fun v hv => rev_low cut h v hv hcl
  have e : first (fun u => decide (revSum (withoutLow cut h) u - cut > 0)) 256 = some (255 - hi) := by
    refine first_some.2 ⟨by omega, ?_, fun j hj => ?_⟩
    · rw [decide_eq_true_eq, hr hi r1, if_pos (by omega)]
      omega
    · rw [decide_eq_false_iff_not]
      have := hr (255 - j) (by omega)
      rw [show 255 - (255 - j) = j by omega] at this
      rw [this, if_pos (by omega)]
      have := r3 (255 - j) (by omega) (by omega)
      omega
  have hw : ∀ v, withoutHigh cut (withoutLow cut h) v =
      if v > hi then 0 else if v = hi then revSum (withoutLow cut h) (255 - hi) - cut else withoutLow cut h v := by
    intro v
    simp only [withoutHigh, e]
    rw [show 255 - (255 - hi) = hi by omega]
  refine ends_eq l1 ?_ ?_ r1 ?_ ?_
  · rw [hw, if_neg (by omega), if_neg (by omega), withoutLow, if_neg (by omega)]
    split
    · rename_i hq
      rw [← hq]
      change cut - S h (lo + 1) ≠ 0
      omega
    · have a := S_succ h lo
      have b := l3 (lo - 1) (by omega)
      rw [show lo - 1 + 1 = lo by omega] at b
      omega
  · intro v hv
    rw [hw, if_neg (by omega), if_neg (by omega), hz v hv]
  · rw [hw, if_neg (by omega), if_pos rfl, hr hi r1, if_pos (by omega)]
    omega
  · intro v _ hv
    rw [hw, if_pos hv]

theorem low_or (h : Nat → Int) (cut : Int) : (∃ lo, IsLow h cut lo) ∨ S h 256 ≤ cut := by
  by_cases hc : S h 256 ≤ cut
  · exact Or.inr hc
  · left
    have h255 : cut < S h (255 + 1) := not_le.1 hc
    have : ∃ l, cut < S h (l + 1) := ⟨255, h255⟩
    classical
    refine ⟨Nat.find this, ?_, Nat.find_spec this, fun u hu => ?_⟩
    · have : Nat.find this ≤ 255 := Nat.find_min' this h255
      omega
    · have := Nat.find_min this hu
      change S h (u + 1) ≤ cut
      omega

theorem high_above {h : Nat → Int} {cut : Int} {v : Nat} (hv : v < 256) (n1 : cut < S h 256 - S h v) : ∃ hi, IsHigh h cut hi ∧ v ≤ hi := by
  have : ∃ u, u ≤ 255 ∧ cut < S h 256 - S h (255 - u) := ⟨255 - v, by omega, by rw [show 255 - (255 - v) = v by omega]; exact n1⟩
  classical
  have fle : Nat.find this ≤ 255 - v := Nat.find_min' this ⟨by omega, by rw [show 255 - (255 - v) = v by omega]; exact n1⟩
  refine ⟨255 - Nat.find this, ⟨by omega, (Nat.find_spec this).2, fun u hu hlu => ?_⟩, by omega⟩
  have := Nat.find_min this (m := 255 - u) (by omega)
  rw [show 255 - (255 - u) = u by omega] at this
  change S h 256 - S h u ≤ cut
  by_contra hq
  exact this ⟨by omega, by omega⟩

/-- Nothing is left between the ends. -/
theorem cut_nothing {h : Nat → Int} (h0 : ∀ v, 0 ≤ h v) {cut : Int} (hc : 0 ≤ cut)
    (hn : ∀ lo hi, IsLow h cut lo → IsHigh h cut hi → hi ≤ lo) :
    (ends (withoutHigh cut (withoutLow cut h))).2 ≤ (ends (withoutHigh cut (withoutLow cut h))).1 := by
  have hcl := cutLo_lt cut h
  cases e : first (fun u => decide (revSum (withoutLow cut h) u - cut > 0)) 256 with
  | none =>
    refine ends_few 0 (fun v _ _ => ?_)
    simp only [withoutHigh, e]
  | some u =>
    obtain ⟨e1, e2, -⟩ := first_some.1 e
    rw [decide_eq_true_eq] at e2
    have hr := rev_low cut h (255 - u) (by omega) hcl
    rw [show 255 - (255 - u) = u by omega] at hr
    rcases low_or h cut with ⟨lo, hlo⟩ | hT
    · have hz := low_zero h0 hlo
      have hle := cutLo_le hlo
      have hu : 255 - u ≤ lo := by
        by_contra hq
        rw [if_pos (by omega)] at hr
        obtain ⟨hi, hhi, hvi⟩ := high_above (h := h) (cut := cut) (v := 255 - u) (by omega) (by omega)
        have := hn lo hi hlo hhi
        omega
      refine ends_few (255 - u) (fun v hv hne => ?_)
      simp only [withoutHigh, e]
      split
      · rfl
      · exact hz v (by omega)
    · exfalso
      split at hr
      · have := S_nonneg h0 (255 - u)
        omega
      · rcases cutLo_cases cut h with ⟨a, b, c⟩ | ⟨a, b⟩
        · have := S_mono h0 (show cutLo cut h + 1 ≤ 256 by omega)
          omega
        · rw [a] at hr
          have := S_nonneg h0 256
          norm_num at hr
          omega

theorem getD_get (l : List Int) (i : Nat) (hi : i < l.length) : l.getD i 0 = l[i] := by
  rw [List.getD_eq_getElem?_getD, List.getElem?_eq_getElem hi, Option.getD_some]

/-- The entries after PIL's loop, by the sums. -/
theorem pilCut_get (l : List Int) (h0 : ∀ x ∈ l, 0 ≤ x) (cut : Int) (hc : 0 ≤ cut) (i : Nat) (hi : i < l.length) :
    (pilCut cut l).getD i 0 = max ((l.take (i + 1)).sum) cut - max ((l.take i).sum) cut := by
  induction l generalizing cut i with
  | nil => simp at hi
  | cons x l ih =>
    have hx := h0 x (by simp)
    have hl : ∀ y ∈ l, 0 ≤ y := fun y hy => h0 y (by simp [hy])
    rw [pilCut]
    split
    · rename_i hgt
      cases i with
      | zero => simp; omega
      | succ i =>
        rw [List.getD_cons_succ, ih hl (cut - x) (by omega) i (by simpa using hi)]
        simp only [List.take_succ_cons, List.sum_cons]
        omega
    · rename_i hle
      cases i with
      | zero => simp; omega
      | succ i =>
        have hi' : i < l.length := by simpa using hi
        simp only [List.getD_cons_succ, List.take_succ_cons, List.sum_cons]
        have e := List.sum_take_succ l i hi'
        have h1 : 0 ≤ (l.take i).sum := List.sum_nonneg (fun y hy => hl y (List.mem_of_mem_take hy))
        have h2 := hl l[i] (List.getElem_mem hi')
        rw [getD_get _ _ hi', e]
        omega

theorem pilCut_length (cut : Int) (l : List Int) : (pilCut cut l).length = l.length := by
  induction l generalizing cut with
  | nil => rfl
  | cons x l ih =>
    rw [pilCut]
    split <;> simp [ih]

theorem pilCut_nonneg (l : List Int) (h0 : ∀ x ∈ l, 0 ≤ x) (cut : Int) (hc : 0 ≤ cut) : ∀ x ∈ pilCut cut l, 0 ≤ x := by
  induction l generalizing cut with
  | nil => simp [pilCut]
  | cons x l ih =>
    rw [pilCut]
    have hl : ∀ y ∈ l, 0 ≤ y := fun y hy => h0 y (by simp [hy])
    split
    · intro y hy
      rcases List.mem_cons.1 hy with rfl | hy
      · exact le_refl _
      · exact ih hl _ (by omega) y hy
    · intro y hy
      rcases List.mem_cons.1 hy with rfl | hy
      · omega
      · exact hl y hy

theorem pilCut_sum (l : List Int) (h0 : ∀ x ∈ l, 0 ≤ x) (cut : Int) (hc : 0 ≤ cut) (i : Nat) (hi : i ≤ l.length) :
    ((pilCut cut l).take i).sum = max ((l.take i).sum) cut - cut := by
  induction i with
  | zero => simp; omega
  | succ i ih =>
    have hi' : i < (pilCut cut l).length := by rw [pilCut_length]; omega
    rw [List.sum_take_succ _ _ hi', ih (by omega), ← getD_get _ _ hi', pilCut_get l h0 cut hc i (by omega)]
    omega

theorem take_range (h : Nat → Int) (n v : Nat) (hv : v ≤ n) : (((List.range n).map h).take v).sum = S h v := by
  rw [← List.map_take, List.take_range, Nat.min_eq_left hv, S]

theorem rev_take_sum (A : List Int) (k : Nat) : (A.reverse.take k).sum = A.sum - (A.take (A.length - k)).sum := by
  have h1 := List.sum_take_add_sum_drop A (A.length - k)
  rw [List.take_reverse, List.sum_reverse]
  omega

/-- Sums from the right after PIL removed the low end. -/
def R (h : Nat → Int) (cut : Int) (v : Nat) : Int := max (S h 256) cut - max (S h v) cut

/-- The entries after PIL removed both ends. -/
theorem pil_get {h : Nat → Int} (h0 : ∀ v, 0 ≤ h v) {cut : Int} (hc : 0 ≤ cut) (v : Nat) (hv : v < 256) :
    ((pilCut cut (pilCut cut ((List.range 256).map h)).reverse).reverse).getD v 0 = max (R h cut v) cut - max (R h cut (v + 1)) cut := by
  have n0 : ∀ x ∈ (List.range 256).map h, 0 ≤ x := by
    intro x hx
    obtain ⟨u, -, rfl⟩ := List.mem_map.1 hx
    exact h0 u
  have hlen : ((List.range 256).map h).length = 256 := by simp
  generalize hl : (List.range 256).map h = l at n0 hlen
  have hA : (pilCut cut l).length = 256 := by rw [pilCut_length, hlen]
  have nA := pilCut_nonneg l n0 cut hc
  have sA : ∀ i ≤ 256, ((pilCut cut l).take i).sum = max (S h i) cut - cut := by
    intro i hi
    rw [pilCut_sum l n0 cut hc i (by omega), ← hl, take_range h 256 i hi]
  have tA : (pilCut cut l).sum = max (S h 256) cut - cut := by
    rw [← sA 256 (le_refl _), List.take_of_length_le (by omega)]
  generalize pilCut cut l = A at hA nA sA tA ⊢
  have nR : ∀ x ∈ A.reverse, 0 ≤ x := fun x hx => nA x (by simpa using hx)
  have hlen2 : (pilCut cut A.reverse).length = 256 := by rw [pilCut_length, List.length_reverse, hA]
  have e : (pilCut cut A.reverse).reverse.getD v 0 = (pilCut cut A.reverse).getD (255 - v) 0 := by
    rw [getD_get _ _ (by rw [List.length_reverse]; omega), getD_get _ _ (by omega), List.getElem_reverse]
    congr 1
    omega
  rw [e, pilCut_get _ nR cut hc _ (by rw [List.length_reverse]; omega), rev_take_sum A, rev_take_sum A, hA, tA,
    sA _ (by omega), sA _ (by omega), show 256 - (255 - v + 1) = v by omega, show 256 - (255 - v) = v + 1 by omega, R, R]
  congr 2 <;> ring

theorem R_anti {h : Nat → Int} (h0 : ∀ v, 0 ≤ h v) (cut : Int) {a b : Nat} (hab : a ≤ b) : R h cut b ≤ R h cut a := by
  have := S_mono h0 hab
  simp only [R]
  omega

theorem pil_ends {h : Nat → Int} (h0 : ∀ v, 0 ≤ h v) {cut : Int} (hc : 0 ≤ cut) {lo hi : Nat} (hlo : IsLow h cut lo) (hhi : IsHigh h cut hi)
    (hlt : lo < hi) :
    ends (fun v => ((pilCut cut (pilCut cut ((List.range 256).map h)).reverse).reverse).getD v 0) = (lo, hi) := by
  obtain ⟨l1, l2, l3⟩ := hlo
  obtain ⟨r1, r2, r3⟩ := hhi
  change cut < S h (lo + 1) at l2
  change ∀ v < lo, S h (v + 1) ≤ cut at l3
  change cut < S h 256 - S h hi at r2
  change ∀ v < 256, hi < v → S h 256 - S h v ≤ cut at r3
  have hm := S_mono h0 (show lo + 1 ≤ hi by omega)
  have hT := S_mono h0 (show hi ≤ 256 by omega)
  have hR : R h cut hi = S h 256 - S h hi := by simp only [R]; omega
  have above : ∀ v, hi < v → v ≤ 256 → R h cut v ≤ cut := by
    intro v hv hle
    rcases Nat.lt_or_ge v 256 with h1 | h1
    · have := r3 v h1 hv
      have := S_mono h0 hv.le
      simp only [R]
      omega
    · have : v = 256 := by omega
      subst this
      simp only [R]
      omega
  have below : ∀ v ≤ lo, S h v ≤ cut := by
    intro v hv
    rcases Nat.eq_zero_or_pos v with rfl | h1
    · rw [S_zero]; exact hc
    · have := l3 (v - 1) (by omega)
      rwa [show v - 1 + 1 = v by omega] at this
  refine ends_eq l1 ?_ ?_ r1 ?_ ?_
  · rw [pil_get h0 hc lo l1]
    have a := below lo (le_refl _)
    have b := R_anti h0 cut (show lo + 1 ≤ hi by omega)
    have c : R h cut lo = S h 256 - cut := by simp only [R]; omega
    have d : R h cut (lo + 1) = S h 256 - S h (lo + 1) := by simp only [R]; omega
    omega
  · intro v hv
    rw [pil_get h0 hc v (by omega)]
    have a := below v hv.le
    have b := l3 v hv
    simp only [R]
    omega
  · rw [pil_get h0 hc hi r1]
    have := above (hi + 1) (by omega) (by omega)
    omega
  · intro v hv1 hv
    rw [pil_get h0 hc v hv1]
    have := above v hv (by omega)
    have := above (v + 1) (by omega) (by omega)
    omega

theorem pil_nothing {h : Nat → Int} (h0 : ∀ v, 0 ≤ h v) {cut : Int} (hc : 0 ≤ cut)
    (hn : ∀ lo hi, IsLow h cut lo → IsHigh h cut hi → hi ≤ lo) :
    (ends (fun v => ((pilCut cut (pilCut cut ((List.range 256).map h)).reverse).reverse).getD v 0)).2 ≤
      (ends (fun v => ((pilCut cut (pilCut cut ((List.range 256).map h)).reverse).reverse).getD v 0)).1 := by
  rcases low_or h cut with ⟨lo, hlo⟩ | hT
  · refine ends_few lo (fun v hv hne => ?_)
    rw [pil_get h0 hc v hv]
    rcases Nat.lt_or_gt_of_ne hne with h1 | h1
    · have b := hlo.2.2 v h1
      change S h (v + 1) ≤ cut at b
      have := S_mono h0 (show v ≤ v + 1 by omega)
      simp only [R]
      omega
    · have key : R h cut v ≤ cut := by
        by_contra hq
        have hlo2 : cut < S h (lo + 1) := hlo.2.1
        have := S_mono h0 (show lo + 1 ≤ v by omega)
        have hT := S_mono h0 (show v ≤ 256 by omega)
        obtain ⟨hi, hhi, hle⟩ := high_above (h := h) (cut := cut) hv (by simp only [R] at hq; omega)
        have := hn lo hi hlo hhi
        omega
      have := R_anti h0 cut (show v ≤ v + 1 by omega)
      omega
  · refine ends_few 0 (fun v hv _ => ?_)
    rw [pil_get h0 hc v hv]
    have := S_nonneg h0 v
    have := S_nonneg h0 (v + 1)
    simp only [R]
    omega

/-- The error of the stretching before the truncation. -/
theorem stretch_err (lo hi v : Nat) (h1 : lo < hi) (h2 : hi ≤ 255) (hv : v ≤ 255) :
    |min (max (f64 (f64 (v * f64 (255 / ((hi : ℚ) - lo))) - f64 (lo * f64 (255 / ((hi : ℚ) - lo))))) 0) 255 - exact lo hi v| ≤ 1 / 1000 := by
  have hq : (1 : ℚ) ≤ (hi : ℚ) - lo := by
    have : ((lo + 1 : Nat) : ℚ) ≤ hi := by exact_mod_cast h1
    push_cast at this; linarith
  have hv' : (v : ℚ) ≤ 255 := by exact_mod_cast hv
  have hl' : (lo : ℚ) ≤ 255 := by exact_mod_cast (by omega : lo ≤ 255)
  have v0 : (0 : ℚ) ≤ v := Nat.cast_nonneg v
  have l0 : (0 : ℚ) ≤ lo := Nat.cast_nonneg lo
  set s0 : ℚ := 255 / ((hi : ℚ) - lo) with hs0
  have s0pos : 0 ≤ s0 := by positivity
  have s0le : s0 ≤ 255 := by
    rw [hs0, div_le_iff₀ (by linarith)]
    nlinarith
  have eps : (2 : ℚ) ^ (-((53 : Nat) : Int)) ≤ 1 / 10 ^ 15 := by norm_num
  have epos : (0 : ℚ) < (2 : ℚ) ^ (-((53 : Nat) : Int)) := zpow_pos (by norm_num) _
  have err : ∀ x : ℚ, 0 ≤ x → |f64 x - x| ≤ x * (1 / 10 ^ 15) := fun x hx =>
    le_trans (flt_err 53 hx) (mul_le_mul_of_nonneg_left eps hx)
  have nn : ∀ x : ℚ, 0 ≤ f64 x := fun x => flt_nonneg 53 x
  have es := abs_le.1 (err s0 s0pos)
  have sn := nn s0
  generalize f64 s0 = s at es sn ⊢
  have sle : s ≤ 256 := by nlinarith [es.2]
  have ev := abs_le.1 (err (v * s) (mul_nonneg v0 sn))
  have el := abs_le.1 (err (lo * s) (mul_nonneg l0 sn))
  have vs : (v : ℚ) * s ≤ 255 * 256 := mul_le_mul hv' sle sn (by norm_num)
  have ls : (lo : ℚ) * s ≤ 255 * 256 := mul_le_mul hl' sle sn (by norm_num)
  have an := nn (v * s)
  generalize f64 (v * s) = a at ev an ⊢
  generalize f64 (lo * s) = b at el ⊢
  -- the difference before its rounding
  have d1 : |(a - b) - (v - lo) * s0| ≤ 1 / 10000 := by
    have p1 : (v : ℚ) * (s - s0) ≤ 255 * (255 * (1 / 10 ^ 15)) := by
      calc (v : ℚ) * (s - s0) ≤ v * (s0 * (1 / 10 ^ 15)) := mul_le_mul_of_nonneg_left es.2 v0
        _ ≤ 255 * (255 * (1 / 10 ^ 15)) := mul_le_mul hv' (mul_le_mul_of_nonneg_right s0le (by norm_num)) (by positivity) (by norm_num)
    have p2 : -((v : ℚ) * (s - s0)) ≤ 255 * (255 * (1 / 10 ^ 15)) := by
      calc -((v : ℚ) * (s - s0)) = v * (-(s - s0)) := by ring
        _ ≤ v * (s0 * (1 / 10 ^ 15)) := mul_le_mul_of_nonneg_left (by linarith [es.1]) v0
        _ ≤ 255 * (255 * (1 / 10 ^ 15)) := mul_le_mul hv' (mul_le_mul_of_nonneg_right s0le (by norm_num)) (by positivity) (by norm_num)
    have p3 : (lo : ℚ) * (s - s0) ≤ 255 * (255 * (1 / 10 ^ 15)) := by
      calc (lo : ℚ) * (s - s0) ≤ lo * (s0 * (1 / 10 ^ 15)) := mul_le_mul_of_nonneg_left es.2 l0
        _ ≤ 255 * (255 * (1 / 10 ^ 15)) := mul_le_mul hl' (mul_le_mul_of_nonneg_right s0le (by norm_num)) (by positivity) (by norm_num)
    have p4 : -((lo : ℚ) * (s - s0)) ≤ 255 * (255 * (1 / 10 ^ 15)) := by
      calc -((lo : ℚ) * (s - s0)) = lo * (-(s - s0)) := by ring
        _ ≤ lo * (s0 * (1 / 10 ^ 15)) := mul_le_mul_of_nonneg_left (by linarith [es.1]) l0
        _ ≤ 255 * (255 * (1 / 10 ^ 15)) := mul_le_mul hl' (mul_le_mul_of_nonneg_right s0le (by norm_num)) (by positivity) (by norm_num)
    rw [abs_le]
    constructor <;> linarith [ev.1, ev.2, el.1, el.2]
  have hE : 255 * ((v : ℚ) - lo) / ((hi : ℚ) - lo) = (v - lo) * s0 := by rw [hs0]; ring
  rw [exact, hE]
  have d1' := abs_le.1 d1
  have d2 : |max (f64 (a - b)) 0 - max (a - b) 0| ≤ 1 / 10000 := by
    by_cases hab : a - b ≤ 0
    · rw [f64, flt, if_pos hab, max_eq_right hab]; norm_num
    · have hab := (not_le.1 hab).le
      rw [max_eq_left (nn _), max_eq_left hab]
      refine le_trans (err _ hab) ?_
      have : a - b ≤ 70000 := by
        have hb : 0 ≤ b := by nlinarith [el.1, mul_nonneg l0 sn]
        linarith [ev.2]
      linarith
  have d2' := abs_le.1 d2
  rw [abs_le]
  grind

/-- The truncation of a number that is close to a fraction with a small denominator. -/
theorem floor_near {x : ℚ} {m q : Nat} (hq : 0 < q) (hq2 : q ≤ 255) (h : |x - (m : ℚ) / q| ≤ 1 / 1000) (hx : 0 ≤ x) :
    ⌊x⌋.toNat = m / q ∨ (m % q = 0 ∧ ⌊x⌋.toNat + 1 = m / q) := by
  have hd := Nat.div_add_mod m q
  have hr := Nat.mod_lt m hq
  have hq' : (0 : ℚ) < q := by exact_mod_cast hq
  have hq2' : (q : ℚ) ≤ 255 := by exact_mod_cast hq2
  have e : (m : ℚ) / q = (m / q : Nat) + ((m % q : Nat) : ℚ) / q := by
    have : (m : ℚ) = q * (m / q : Nat) + (m % q : Nat) := by exact_mod_cast hd.symm
    rw [this]
    field_simp
  generalize m / q = d at *
  generalize m % q = r at *
  rw [e] at h
  have h' := abs_le.1 h
  by_cases h0 : r = 0
  · subst h0
    simp only [Nat.cast_zero, zero_div, add_zero] at h'
    by_cases hge : (d : ℚ) ≤ x
    · left
      have : ⌊x⌋ = (d : Int) := Int.floor_eq_iff.2 ⟨by exact_mod_cast hge, by push_cast; linarith [h'.2]⟩
      omega
    · right
      refine ⟨rfl, ?_⟩
      have : ⌊x⌋ = (d : Int) - 1 := Int.floor_eq_iff.2 ⟨by push_cast; linarith [h'.1], by push_cast; linarith⟩
      have := Int.floor_nonneg.2 hx
      omega
  · left
    have r1 : (1 : ℚ) ≤ r := by exact_mod_cast Nat.one_le_iff_ne_zero.2 h0
    have r2 : (r : ℚ) ≤ q - 1 := by
      have : ((r + 1 : Nat) : ℚ) ≤ q := by exact_mod_cast hr
      push_cast at this; linarith
    have f1 : 1 / 255 ≤ (r : ℚ) / q := by
      rw [div_le_div_iff₀ (by norm_num) hq']; linarith
    have f2 : (r : ℚ) / q ≤ 1 - 1 / 255 := by
      rw [div_le_iff₀ hq']; linarith
    have : ⌊x⌋ = (d : Int) := Int.floor_eq_iff.2 ⟨by push_cast; linarith [h'.1], by push_cast; linarith [h'.2]⟩
    omega

theorem stretch_low {lo hi v : Nat} (hv : v ≤ lo) : stretch lo hi v = 0 := by
  have hs : (0 : ℚ) ≤ f64 (255 / ((hi : ℚ) - lo)) := flt_nonneg 53 _
  rw [stretch]
  have : f64 (v * f64 (255 / ((hi : ℚ) - lo))) ≤ f64 (lo * f64 (255 / ((hi : ℚ) - lo))) :=
    flt_mono (by norm_num) (mul_le_mul_of_nonneg_right (by exact_mod_cast hv) hs)
  rw [show f64 (f64 (v * f64 (255 / ((hi : ℚ) - lo))) - f64 (lo * f64 (255 / ((hi : ℚ) - lo)))) = 0 by
    rw [f64, flt, if_pos (by linarith)]]
  simp

theorem stretch_mono (lo hi : Nat) {u v : Nat} (h : u ≤ v) : stretch lo hi u ≤ stretch lo hi v := by
  have hs : (0 : ℚ) ≤ f64 (255 / ((hi : ℚ) - lo)) := flt_nonneg 53 _
  rw [stretch, stretch]
  have h1 : f64 (u * f64 (255 / ((hi : ℚ) - lo))) ≤ f64 (v * f64 (255 / ((hi : ℚ) - lo))) :=
    flt_mono (by norm_num) (mul_le_mul_of_nonneg_right (by exact_mod_cast h) hs)
  have h2 : f64 (f64 (u * f64 (255 / ((hi : ℚ) - lo))) - f64 (lo * f64 (255 / ((hi : ℚ) - lo)))) ≤
      f64 (f64 (v * f64 (255 / ((hi : ℚ) - lo))) - f64 (lo * f64 (255 / ((hi : ℚ) - lo)))) :=
    flt_mono (by norm_num) (by linarith)
  have := Int.floor_le_floor (min_le_min_right 255 (max_le_max_right 0 h2))
  omega

theorem stretch_le (lo hi v : Nat) : stretch lo hi v ≤ 255 := by
  rw [stretch]
  generalize f64 (f64 (v * f64 (255 / ((hi : ℚ) - lo))) - f64 (lo * f64 (255 / ((hi : ℚ) - lo)))) = x
  have : ⌊min (max x 0) 255⌋ ≤ ⌊(255 : ℚ)⌋ := Int.floor_le_floor (min_le_right _ _)
  rw [show (255 : ℚ) = ((255 : Int) : ℚ) by norm_num, Int.floor_intCast] at this
  push_cast at this
  omega

/-- The sums of natural numbers. -/
theorem below_succ (h : Hist) (n : Nat) : below h (n + 1) = below h n + h n := by
  simp [below, List.range_succ]

theorem below_mono (h : Hist) {m n : Nat} (hmn : m ≤ n) : below h m ≤ below h n := by
  induction n, hmn using Nat.le_induction with
  | base => exact le_refl _
  | succ n _ ih => rw [below_succ]; omega

theorem sum_filter_ne (l : List Nat) : (l.filter (· ≠ 0)).sum = l.sum := by
  induction l with
  | nil => rfl
  | cons x l ih =>
    by_cases hx : x = 0
    · subst hx; simpa using ih
    · rw [List.filter_cons_of_pos (by simpa using hx), List.sum_cons, List.sum_cons, ih]

theorem occurring_eq (h : Hist) : occurring h = (((List.range 256).map h).filter (· ≠ 0)).length := by
  rw [occurring, List.filter_map, List.length_map]
  congr 1
  apply List.filter_congr
  intro v _
  by_cases hz : h v = 0 <;> simp [hz]

/-- If the value 255 occurs, the code divides by what PIL divides by. -/
theorem last_filter (h : Hist) (h255 : h 255 ≠ 0) :
    (((List.range 256).map h).filter (· ≠ 0)).sum - (((List.range 256).map h).filter (· ≠ 0)).getLastD 0 = below h 255 := by
  rw [sum_filter_ne]
  have e : (List.range 256).map h = (List.range 255).map h ++ [h 255] := by
    rw [List.range_succ, List.map_append]; rfl
  rw [e, List.filter_append, List.filter_cons_of_pos (by simpa using h255), List.filter_nil, List.getLastD_concat, List.sum_append, below]
  simp

theorem first_congr (f1 f2 : Nat → Bool) (n : Nat) (hf : ∀ u < n, f1 u = f2 u) : first f1 n = first f2 n := by
  cases e : first f2 n with
  | none => exact first_none.2 (fun j hj => by rw [hf j hj]; exact first_none.1 e j hj)
  | some i =>
    obtain ⟨a, b, c⟩ := first_some.1 e
    exact first_some.2 ⟨a, by rw [hf i a]; exact b, fun j hj => by rw [hf j (by omega)]; exact c j hj⟩

theorem ends_congr (g g' : Nat → Int) (hg : ∀ u < 256, g u = g' u) : ends g = ends g' := by
  rw [ends, ends, first_congr (fun v => g v != 0) (fun v => g' v != 0) 256 (fun u hu => by rw [hg u hu]),
    first_congr (fun u => g (255 - u) != 0) (fun u => g' (255 - u) != 0) 256 (fun u hu => by rw [hg (255 - u) (by omega)])]

end Imgaug.Equalize
