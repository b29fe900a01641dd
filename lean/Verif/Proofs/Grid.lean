import Verif.Spec.Grid
import Mathlib.Tactic.Ring
import Mathlib.Tactic.Linarith
/-! Helpers for Props/Grid.lean. -/
namespace Imgaug.Grid
open Imgaug
variable {α : Type}

/-- The state of the loops after `idx` cells. -/
def Done (zero : α) (imgs : List (Img α)) (ch cw cols h w idx : Nat) (g : Img α) : Prop :=
  g.h = h ∧ g.w = w ∧ ∀ Y X, X < cols * cw → 0 < ch → g.px Y X =
    match imgs[Y / ch * cols + X / cw]? with
    | some i => if Y / ch * cols + X / cw < idx ∧ Y % ch < i.h ∧ X % cw < i.w then i.px (Y % ch) (X % cw) else zero
    | none => zero

theorem cell_eq (cols a b r c : Nat) (hb : b < cols) (hc : c < cols) (h : a * cols + b = r * cols + c) : a = r ∧ b = c := by
  have h1 : (a * cols + b) / cols = a := by rw [mul_comm, Nat.mul_add_div (by omega), Nat.div_eq_of_lt hb, add_zero]
  have h2 : (r * cols + c) / cols = r := by rw [mul_comm, Nat.mul_add_div (by omega), Nat.div_eq_of_lt hc, add_zero]
  rw [h, h2] at h1
  subst h1
  exact ⟨rfl, by omega⟩

theorem in_cell (Y n r k : Nat) (hk : k ≤ n) (hn : 0 < n) : (n * r ≤ Y ∧ Y < n * r + k) ↔ Y / n = r ∧ Y % n < k := by
  have h1 := Nat.div_add_mod Y n
  have h2 := Nat.mod_lt Y hn
  constructor
  · rintro ⟨a, b⟩
    have : Y / n = r := by
      rw [Nat.div_eq_iff hn]
      rw [mul_comm] at a b
      omega
    subst this; omega
  · rintro ⟨rfl, b⟩; omega

theorem cell_step (zero : α) (imgs : List (Img α)) (ch cw cols h w row col : Nat) (hf : ∀ i ∈ imgs, i.h ≤ ch ∧ i.w ≤ cw) (hc : col < cols)
    (g : Img α) (hg : Done zero imgs ch cw cols h w (row * cols + col) g) :
    Done zero imgs ch cw cols h w (row * cols + col + 1) (cell imgs ch cw row (g, row * cols + col) col).1 := by
  obtain ⟨g1, g2, g3⟩ := hg
  simp only [cell]
  cases hi : imgs[row * cols + col]? with
  | none =>
    simp only
    refine ⟨g1, g2, fun Y X hX hch => ?_⟩
    rw [g3 Y X hX hch]
    cases hj : imgs[Y / ch * cols + X / cw]? with
    | none => rfl
    | some j =>
      simp only
      have l1 := (List.getElem?_eq_some_iff.mp hj).1
      have l2 := List.getElem?_eq_none_iff.mp hi
      congr 1
      simp only [eq_iff_iff]
      constructor <;> rintro ⟨a, b⟩ <;> exact ⟨by omega, b⟩
  | some i =>
    simp only
    refine ⟨g1, g2, fun Y X hX hch => ?_⟩
    have hcw : 0 < cw := by
      rcases Nat.eq_zero_or_pos cw with rfl | h0
      · simp at hX
      · exact h0
    obtain ⟨f1, f2⟩ := hf i (List.mem_of_getElem? hi)
    have hXc : X / cw < cols := by rw [Nat.div_lt_iff_lt_mul hcw]; exact hX
    have e1 := in_cell Y ch row i.h f1 hch
    have e2 := in_cell X cw col i.w f2 hcw
    simp only [assign]
    by_cases hin : ch * row ≤ Y ∧ Y < ch * row + i.h ∧ cw * col ≤ X ∧ X < cw * col + i.w
    · rw [if_pos hin]
      obtain ⟨a1, a2⟩ := e1.mp ⟨hin.1, hin.2.1⟩
      obtain ⟨b1, b2⟩ := e2.mp hin.2.2
      rw [a1, b1, hi]
      simp only
      rw [if_pos ⟨by omega, a2, b2⟩]
      have m1 := Nat.div_add_mod Y ch
      have m2 := Nat.div_add_mod X cw
      rw [a1] at m1
      rw [b1] at m2
      congr 1 <;> omega
    · rw [if_neg hin, g3 Y X hX hch]
      cases hj : imgs[Y / ch * cols + X / cw]? with
      | none => rfl
      | some j =>
        simp only
        by_cases hlt : Y / ch * cols + X / cw < row * cols + col
        · congr 1
          simp only [eq_iff_iff]
          constructor <;> rintro ⟨a, b⟩ <;> exact ⟨by omega, b⟩
        · rw [if_neg (fun h => hlt h.1), if_neg]
          rintro ⟨k1, k2, k3⟩
          have heq : Y / ch * cols + X / cw = row * cols + col := by omega
          obtain ⟨d1, d2⟩ := cell_eq cols _ _ _ _ hXc hc heq
          rw [heq, hi] at hj
          obtain rfl := Option.some.inj hj
          have m1 := e1.mpr ⟨d1, k2⟩
          have m2 := e2.mpr ⟨d2, k3⟩
          exact hin ⟨m1.1, m1.2, m2⟩

theorem cols_step (zero : α) (imgs : List (Img α)) (ch cw cols h w row : Nat) (hf : ∀ i ∈ imgs, i.h ≤ ch ∧ i.w ≤ cw) (n : Nat) (hn : n ≤ cols)
    (st : Img α × Nat) (h2 : st.2 = row * cols) (hg : Done zero imgs ch cw cols h w (row * cols) st.1) :
    ((List.range n).foldl (cell imgs ch cw row) st).2 = row * cols + n ∧
    Done zero imgs ch cw cols h w (row * cols + n) ((List.range n).foldl (cell imgs ch cw row) st).1 := by
  induction n with
  | zero => exact ⟨h2, hg⟩
  | succ n ih =>
    obtain ⟨i1, i2⟩ := ih (by omega)
    rw [List.range_succ, List.foldl_append, List.foldl_cons, List.foldl_nil]
    generalize hs : (List.range n).foldl (cell imgs ch cw row) st = s at i1 i2
    obtain ⟨s1, s2⟩ := s
    simp only at i1 i2
    subst i1
    exact ⟨by simp [cell, Nat.add_assoc], cell_step zero imgs ch cw cols h w row n hf (by omega) s1 i2⟩

theorem rows_step (zero : α) (imgs : List (Img α)) (ch cw cols h w : Nat) (hf : ∀ i ∈ imgs, i.h ≤ ch ∧ i.w ≤ cw) (rows : Nat)
    (g : Img α) (hg : Done zero imgs ch cw cols h w 0 g) :
    (loop imgs ch cw rows cols g).2 = rows * cols ∧ Done zero imgs ch cw cols h w (rows * cols) (loop imgs ch cw rows cols g).1 := by
  induction rows with
  | zero => simp only [loop, List.range_zero, List.foldl_nil]; exact ⟨by simp, by simpa using hg⟩
  | succ n ih =>
    obtain ⟨i1, i2⟩ := ih
    simp only [loop] at i1 i2 ⊢
    rw [List.range_succ, List.foldl_append, List.foldl_cons, List.foldl_nil, Nat.add_mul, Nat.one_mul]
    exact cols_step zero imgs ch cw cols h w n hf cols le_rfl _ i1 i2

theorem allSame_iff (l : List Nat) (hl : l ≠ []) : allSame l = true ↔ ∀ i ∈ l, ∀ j ∈ l, i = j := by
  cases l with
  | nil => exact absurd rfl hl
  | cons x l =>
    simp only [allSame, List.all_eq_true, beq_iff_eq]
    constructor
    · intro h i hi j hj
      have : ∀ i ∈ x :: l, i = x := by
        intro i hi
        rcases List.mem_cons.mp hi with rfl | h'
        · rfl
        · exact h i h'
      rw [this i hi, this j hj]
    · intro h i hi
      exact h i (List.mem_cons_of_mem _ hi) x List.mem_cons_self

theorem compatible_iff (images : List (Pic α)) (hn : images ≠ []) :
    (images.all (fun i => i.ndim == 3) && allSame (images.map (·.dtype)) && allSame (images.map (·.channels))) = true ↔ Compatible images := by
  rw [Bool.and_eq_true, Bool.and_eq_true, allSame_iff _ (by simpa using hn), allSame_iff _ (by simpa using hn), List.all_eq_true]
  simp only [beq_iff_eq, List.mem_map, forall_exists_index, and_imp, forall_apply_eq_imp_iff₂, Compatible]
  constructor
  · rintro ⟨⟨a, b⟩, c⟩; exact ⟨a, fun i hi j hj => ⟨b i hi j hj, c i hi j hj⟩⟩
  · rintro ⟨a, b⟩; exact ⟨⟨a, fun i hi j hj => (b i hi j hj).1⟩, fun i hi j hj => (b i hi j hj).2⟩

theorem foldl_max (l : List Nat) (a : Nat) : (a ≤ l.foldl max a ∧ ∀ x ∈ l, x ≤ l.foldl max a) ∧ (l.foldl max a = a ∨ l.foldl max a ∈ l) := by
  induction l generalizing a with
  | nil => simp
  | cons x l ih =>
    rw [List.foldl_cons]
    obtain ⟨⟨h1, h2⟩, h3⟩ := ih (max a x)
    refine ⟨⟨by omega, ?_⟩, ?_⟩
    · intro y hy
      rcases List.mem_cons.mp hy with rfl | h'
      · omega
      · exact h2 y h'
    · rcases h3 with h3 | h3
      · rcases max_choice a x with h | h
        · left; omega
        · right; rw [h3, h]; exact List.mem_cons_self
      · right; exact List.mem_cons_of_mem _ h3

theorem foldl_max_mem (l : List Nat) (hl : l ≠ []) : l.foldl max 0 ∈ l := by
  obtain ⟨⟨h1, h2⟩, h3 | h3⟩ := foldl_max l 0
  · obtain ⟨x, hx⟩ := List.exists_mem_of_ne_nil l hl
    have := h2 x hx
    rw [h3] at this ⊢
    have : x = 0 := by omega
    exact this ▸ hx
  · exact h3

theorem ceilSqrt_least (n : Nat) : IsLeast {k : Nat | n ≤ k * k} (ceilSqrt n) := by
  have h1 := Nat.sqrt_le n
  have h2 := Nat.lt_succ_sqrt n
  rw [ceilSqrt]
  split_ifs with h
  · refine ⟨h.ge, fun k hk => ?_⟩
    by_contra hc
    have : k * k < Nat.sqrt n * Nat.sqrt n := Nat.mul_self_lt_mul_self (by omega)
    simp only [Set.mem_ofPred_eq] at hk
    omega
  · refine ⟨by simp only [Set.mem_ofPred_eq]; exact h2.le, fun k hk => ?_⟩
    by_contra hc
    have : k * k ≤ Nat.sqrt n * Nat.sqrt n := Nat.mul_self_le_mul_self (by omega)
    simp only [Set.mem_ofPred_eq] at hk
    omega

theorem ceil_least (n r : Nat) (hr : 0 < r) : ∃ c : Nat, ⌈(n : ℚ) / ((r : Int) : ℚ)⌉ = (c : Int) ∧ IsLeast {k : Nat | n ≤ r * k} c := by
  have hr' : (0 : ℚ) < r := by exact_mod_cast hr
  have h0 : 0 ≤ ⌈(n : ℚ) / ((r : Int) : ℚ)⌉ := Int.ceil_nonneg (by push_cast; positivity)
  obtain ⟨c, hc⟩ := Int.eq_ofNat_of_zero_le h0
  refine ⟨c, hc, ?_, fun k hk => ?_⟩
  · have := Int.le_ceil ((n : ℚ) / ((r : Int) : ℚ))
    rw [hc] at this
    push_cast at this
    rw [div_le_iff₀ hr', mul_comm] at this
    exact_mod_cast this
  · have : ⌈(n : ℚ) / ((r : Int) : ℚ)⌉ ≤ (k : Int) := by
      rw [Int.ceil_le]
      push_cast
      rw [div_le_iff₀ hr', mul_comm]
      exact_mod_cast hk
    rw [hc] at this
    exact_mod_cast this

/-- The grid for given numbers of rows and columns. -/
theorem isGrid (zero : α) (imgs : List (Img α)) (hn : imgs ≠ []) (rows cols : Nat) (hrc : imgs.length ≤ rows * cols) :
    IsGrid zero imgs rows cols ((imgs.map (·.h)).foldl max 0) ((imgs.map (·.w)).foldl max 0)
      (loop imgs ((imgs.map (·.h)).foldl max 0) ((imgs.map (·.w)).foldl max 0) rows cols
        ⟨(imgs.map (·.h)).foldl max 0 * rows, (imgs.map (·.w)).foldl max 0 * cols, fun _ _ => zero⟩).1 := by
  set ch := (imgs.map (·.h)).foldl max 0 with hch
  set cw := (imgs.map (·.w)).foldl max 0 with hcw
  have hf : ∀ i ∈ imgs, i.h ≤ ch ∧ i.w ≤ cw := fun i hi =>
    ⟨(foldl_max _ 0).1.2 _ (List.mem_map_of_mem hi), (foldl_max _ 0).1.2 _ (List.mem_map_of_mem hi)⟩
  obtain ⟨-, d1, d2, d3⟩ := rows_step zero imgs ch cw cols (ch * rows) (cw * cols) hf rows ⟨ch * rows, cw * cols, fun _ _ => zero⟩
    ⟨rfl, rfl, fun Y X _ _ => by cases imgs[Y / ch * cols + X / cw]? <;> simp⟩
  refine ⟨by rw [d1, mul_comm], by rw [d2, mul_comm], hrc, hf, ⟨?_, ?_⟩, ?_, ?_⟩
  · have := foldl_max_mem (imgs.map (·.h)) (by simpa using hn)
    obtain ⟨i, hi, h⟩ := List.mem_map.mp this
    exact ⟨i, hi, h⟩
  · have := foldl_max_mem (imgs.map (·.w)) (by simpa using hn)
    obtain ⟨i, hi, h⟩ := List.mem_map.mp this
    exact ⟨i, hi, h⟩
  · intro k hk y x hy hx
    obtain ⟨f1, f2⟩ := hf _ (List.getElem_mem hk)
    have hc0 : 0 < cols := by
      rcases Nat.eq_zero_or_pos cols with rfl | h
      · simp at hrc; exact absurd hrc hn
      · exact h
    have a1 : (k / cols * ch + y) / ch = k / cols := by
      rw [mul_comm, Nat.mul_add_div (by omega), Nat.div_eq_of_lt (show y < ch by omega), add_zero]
    have a2 : (k % cols * cw + x) / cw = k % cols := by
      rw [mul_comm, Nat.mul_add_div (by omega), Nat.div_eq_of_lt (show x < cw by omega), add_zero]
    have a3 : (k / cols * ch + y) % ch = y := by rw [mul_comm, Nat.mul_add_mod, Nat.mod_eq_of_lt (by omega)]
    have a4 : (k % cols * cw + x) % cw = x := by rw [mul_comm, Nat.mul_add_mod, Nat.mod_eq_of_lt (by omega)]
    have a5 : k / cols * cols + k % cols = k := by rw [mul_comm]; exact Nat.div_add_mod k cols
    have hlt := Nat.mod_lt k hc0
    have := Nat.mul_le_mul_right cw (show k % cols + 1 ≤ cols from hlt)
    rw [Nat.add_mul, Nat.one_mul] at this
    rw [d3 _ _ (by omega) (by omega), a1, a2, a3, a4, a5, List.getElem?_eq_getElem hk]
    simp only
    rw [if_pos ⟨by omega, hy, hx⟩]
  · intro Y X hY hX hno
    rw [d1] at hY
    rw [d2] at hX
    have hch0 : 0 < ch := Nat.pos_of_ne_zero (by rintro h; rw [h] at hY; simp at hY)
    have hcw0 : 0 < cw := Nat.pos_of_ne_zero (by rintro h; rw [h] at hX; simp at hX)
    have hc0 : 0 < cols := Nat.pos_of_ne_zero (by rintro h; rw [h] at hX; simp at hX)
    have hXc : X / cw < cols := by rw [Nat.div_lt_iff_lt_mul hcw0, mul_comm]; exact hX
    rw [d3 Y X (by rw [mul_comm]; exact hX) hch0]
    cases hj : imgs[Y / ch * cols + X / cw]? with
    | none => rfl
    | some j =>
      simp only
      rw [if_neg]
      rintro ⟨-, k2, k3⟩
      obtain ⟨hlt, hj'⟩ := List.getElem?_eq_some_iff.mp hj
      refine hno _ hlt (Y % ch) (X % cw) (by rw [hj']; exact k2) (by rw [hj']; exact k3) ?_
      have b1 : (Y / ch * cols + X / cw) / cols = Y / ch := by
        rw [mul_comm, Nat.mul_add_div hc0, Nat.div_eq_of_lt hXc, add_zero]
      have b2 : (Y / ch * cols + X / cw) % cols = X / cw := by
        rw [mul_comm, Nat.mul_add_mod, Nat.mod_eq_of_lt hXc]
      rw [b1, b2, mul_comm, Nat.div_add_mod, mul_comm, Nat.div_add_mod]

end Imgaug.Grid
