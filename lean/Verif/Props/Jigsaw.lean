import Verif.Proofs.Jigsaw
import Mathlib.Tactic.FinCases
import Mathlib.Algebra.Order.Floor.Semifield
import Mathlib.Data.Fintype.Basic
/-! C45: jigsaw. -/
namespace Imgaug.Jigsaw
open Imgaug
variable {α : Type}

/-- C45: for all grids, step limits, random steps and random directions, the generated destinations are a permutation of the
cells. -/
theorem destinations_permute (rows cols maxSteps : Nat) (steps : Nat → Nat → Nat) (dirs : Nat → Nat → Nat → Fin 8) :
    IsShuffle (rows * cols) (generate rows cols maxSteps steps dirs) :=
  generate_shuffle rows cols maxSteps steps dirs

example : generate 2 2 1 (fun _ _ => 1) (fun _ y _ => if y = 0 then 2 else 1) = [2, 3, 0, 1] := by decide

/-- C45: with `max_steps=1` (so that all random steps are at most 1) and `connectivity=8`, no cell moves further than to one of
its eight neighbours. With `connectivity=4` no cell moves further than to one of its four neighbours. -/
theorem one_step_partial (rows cols maxSteps : Nat) (steps : Nat → Nat → Nat) (dirs : Nat → Nat → Nat → Fin 8)
    (hs : ∀ y x, steps y x ≤ 1) (i d : Nat) (hi : (generate rows cols maxSteps steps dirs)[i]? = some d) :
    dist8 cols i d ≤ 1 ∧ ((∀ k y x, dirs k y x < 4) → dist4 cols i d ≤ 1) := by
  have hlen : i < rows * cols := (shuffle_lt (generate_shuffle rows cols maxSteps steps dirs) hi).1
  have hcols : 0 < cols := by rcases Nat.eq_zero_or_pos cols with h | h; · subst h; omega
                              · exact h
  have hmem : ∃ c ∈ cells rows cols, i = c.1 * cols + c.2 ∧
      (run rows cols dirs maxSteps ⟨fun c => steps c.1 c.2, fun c => c.1 * cols + c.2⟩).dest c = d := by
    have hx : (i / cols, i % cols) ∈ cells rows cols :=
      mem_cells.2 ⟨by rw [Nat.div_lt_iff_lt_mul hcols]; exact hlen, Nat.mod_lt _ hcols⟩
    refine ⟨_, hx, by rw [Nat.mul_comm, Nat.div_add_mod], ?_⟩
    have hg := cells_get rows cols i hlen
    rw [generate, List.getElem?_map, hg] at hi
    simpa using hi
  obtain ⟨c, hc, rfl, hd⟩ := hmem
  constructor
  · obtain ⟨t, ht, hN, e⟩ := one_step rows cols maxSteps steps dirs hs
      (fun a b => max (Nat.dist a.1 b.1) (Nat.dist a.2 b.2) ≤ 1) (by intro c; simp)
      (by intro a b h; rwa [Nat.dist_comm b.1, Nat.dist_comm b.2])
      (by
        intro k c hc
        rw [mem_cells] at hc
        generalize dirs k c.1 c.2 = dd
        simp only [target, Nat.dist, clamp]
        fin_cases dd <;> simp [step] <;> omega) c hc
    rw [hd] at e
    rw [e, dist8, idx_div hc, idx_mod hc, idx_div ht, idx_mod ht]
    exact hN
  · intro h4
    obtain ⟨t, ht, hN, e⟩ := one_step rows cols maxSteps steps dirs hs
      (fun a b => Nat.dist a.1 b.1 + Nat.dist a.2 b.2 ≤ 1) (by intro c; simp)
      (by intro a b h; rwa [Nat.dist_comm b.1, Nat.dist_comm b.2])
      (by
        intro k c hc
        rw [mem_cells] at hc
        have := h4 k c.1 c.2
        generalize dirs k c.1 c.2 = dd at *
        simp only [target, Nat.dist, clamp]
        fin_cases dd <;> simp [step] <;> first | omega | (exfalso; revert this; decide)) c hc
    rw [hd] at e
    rw [e, dist4, idx_div hc, idx_mod hc, idx_div ht, idx_mod ht]
    exact hN

/-- C45: for larger `max_steps` the documented bound ("maximum number of cells that each cell may be moved") is false: already
with `max_steps=2` a cell can be moved over any distance, because a content that was passed on in an exchange can be passed on
again in the same sweep. Here the grid has a single row, all cells draw two steps and all directions are "right"; the last cell
moves to the very first place. -/
theorem two_steps_move_any_distance (n : Nat) (hn : 2 ≤ n) :
    ∃ (steps : Nat → Nat → Nat) (dirs : Nat → Nat → Nat → Fin 8), (∀ y x, steps y x ≤ 2) ∧ (∀ k y x, dirs k y x < 4) ∧
      ∃ i d : Nat, (generate 1 (n + 1) 2 steps dirs)[i]? = some d ∧ dist4 (n + 1) i d = n ∧ dist8 (n + 1) i d = n := by
  refine ⟨fun _ _ => 2, fun _ _ _ => 1, by simp, fun _ _ _ => (by decide : (1 : Fin 8) < 4), n, 0, ?_, ?_, ?_⟩
  · rw [generate, List.getElem?_map, cells_get 1 (n + 1) n (by omega)]
    rw [Nat.div_eq_of_lt (by omega), Nat.mod_eq_of_lt (by omega)]
    simp only [Option.map_some, Option.some.injEq]
    exact sweep_right n hn
  · rw [dist4, Nat.div_eq_of_lt (by omega), Nat.mod_eq_of_lt (by omega)]
    simp [Nat.dist]
  · rw [dist8, Nat.div_eq_of_lt (by omega), Nat.mod_eq_of_lt (by omega)]
    simp [Nat.dist]

example : generate 1 6 2 (fun _ _ => 2) (fun _ _ _ => 1) = [1, 2, 3, 4, 5, 0] := by decide

/-- C45: the content of every cell ends up, unchanged, in its destination cell, whenever the image size is divisible by the grid. -/
theorem jigsaw_moves_cells (zero : α) (rows cols : Nat) (dest : List Nat) (hd : IsShuffle (rows * cols) dest) (a : Img α)
    (hr : 0 < rows) (hc : 0 < cols) (hh : a.h % rows = 0) (hw : a.w % cols = 0) :
    ∃ b, apply zero rows cols dest a = some b ∧ CellsMoved rows cols dest a b :=
  apply_shuffle zero rows cols dest hd a hr hc hh hw

/-- C45: images whose size is not divisible by the grid are rejected. -/
theorem jigsaw_rejects (zero : α) (rows cols : Nat) (dest : List Nat) (a : Img α) (h : a.h % rows ≠ 0 ∨ a.w % cols ≠ 0) :
    apply zero rows cols dest a = none := by
  simp only [apply]
  rw [if_neg]
  rintro ⟨_, _, h1, h2, _⟩
  rcases h with h | h
  · exact h h1
  · exact h h2

/-- C45: no pixel is lost and none is duplicated: the pixels of the result are those of the input, rearranged. -/
theorem jigsaw_keeps_pixels (zero : α) (rows cols : Nat) (dest : List Nat) (hd : IsShuffle (rows * cols) dest) (a b : Img α)
    (hb : apply zero rows cols dest a = some b) : b.toList.flatten.Perm a.toList.flatten := by
  by_cases hc : 0 < rows ∧ 0 < cols ∧ a.h % rows = 0 ∧ a.w % cols = 0
  · obtain ⟨b', h1, h2⟩ := apply_shuffle zero rows cols dest hd a hc.1 hc.2.1 hc.2.2.1 hc.2.2.2
    rw [hb] at h1
    injection h1 with h1
    subst h1
    exact moved_perm rows cols dest hd a b hc.2.1 hc.2.2.1 hc.2.2.2 h2
  · simp only [apply] at hb
    rw [if_neg (by tauto)] at hb
    cases hb

/-- C45: applying the inverse permutation restores the image. -/
theorem jigsaw_inverse (zero : α) (rows cols : Nat) (dest dest' : List Nat) (hd : IsShuffle (rows * cols) dest)
    (hd' : IsShuffle (rows * cols) dest') (hinv : ∀ i d : Nat, dest[i]? = some d → dest'[d]? = some i) (a b : Img α)
    (hb : apply zero rows cols dest a = some b) : ∃ c, apply zero rows cols dest' b = some c ∧ c.Same a := by
  by_cases hc : 0 < rows ∧ 0 < cols ∧ a.h % rows = 0 ∧ a.w % cols = 0
  · obtain ⟨b', h1, h2⟩ := apply_shuffle zero rows cols dest hd a hc.1 hc.2.1 hc.2.2.1 hc.2.2.2
    rw [hb] at h1
    injection h1 with h1
    subst h1
    obtain ⟨m1, m2, m3⟩ := h2
    obtain ⟨c, h3, n1, n2, n3⟩ := apply_shuffle zero rows cols dest' hd' b hc.1 hc.2.1 (by rw [m1]; exact hc.2.2.1)
      (by rw [m2]; exact hc.2.2.2)
    refine ⟨c, h3, by rw [n1, m1], by rw [n2, m2], ?_⟩
    intro y x hy hx
    obtain ⟨i, u, v, hi, hu, hv, e1, e2, -⟩ := pixel_cell hc.2.2.1 hc.2.2.2 hy hx
    obtain ⟨d, hid⟩ := shuffle_get hd hi
    have := n3 d i (hinv i d hid) u v (by rw [m1]; exact hu) (by rw [m2]; exact hv)
    rw [m1, m2] at this
    rw [e1, e2, this, m3 i d hid u v hu hv]
  · simp only [apply] at hb
    rw [if_neg (by tauto)] at hb
    cases hb

example : IsShuffle (1 * 3) [1, 2, 0] ∧ IsShuffle (1 * 3) [2, 0, 1] ∧
    (∀ i d : Nat, [1, 2, 0][i]? = some d → [2, 0, 1][d]? = some i) ∧
    (apply 0 1 3 [1, 2, 0] (⟨1, 6, fun _ x => x⟩ : Img Nat)).map Img.toList = some [[4, 5, 0, 1, 2, 3]] := by
  refine ⟨by unfold IsShuffle; decide, by unfold IsShuffle; decide, ?_, by decide⟩
  intro i d h
  match i with
  | 0 => simp at h; subst h; rfl
  | 1 => simp at h; subst h; rfl
  | 2 => simp at h; subst h; rfl
  | n + 3 => simp at h

/-- C45: coordinates outside the image are not changed. -/
theorem jigsaw_outside (rows cols : Nat) (dest : List Nat) (s : Shape) (p : Pt)
    (h : p.x < 0 ∨ p.x ≥ s.w ∨ p.y < 0 ∨ p.y ≥ s.h) : applyPt rows cols dest s p = some p := by
  rw [applyPt, if_pos h]

/-- C45: a point in the image moves with the pixel that contains it: if it is at offset `(fx, fy)` in pixel `(y, x)`, then
afterwards it is at the same offset in the pixel `(y', x')` that holds the content of `(y, x)`, in every image of this size. -/
theorem jigsaw_aligned (zero : α) (rows cols : Nat) (dest : List Nat) (hd : IsShuffle (rows * cols) dest) (s : Shape) (p : Pt)
    (hr : 0 < rows) (hc : 0 < cols) (hh : s.h % rows = 0) (hw : s.w % cols = 0)
    (h0 : 0 ≤ p.x) (h1 : p.x < s.w) (h2 : 0 ≤ p.y) (h3 : p.y < s.h) :
    ∃ (y x y' x' : Nat) (fx fy : ℚ), 0 ≤ fx ∧ fx < 1 ∧ 0 ≤ fy ∧ fy < 1 ∧ p = ⟨x + fx, y + fy⟩ ∧ y' < s.h ∧ x' < s.w ∧
      applyPt rows cols dest s p = some ⟨x' + fx, y' + fy⟩ ∧
      ∀ a b : Img α, a.h = s.h → a.w = s.w → apply zero rows cols dest a = some b → b.px y' x' = a.px y x := by
  have by1 : ⌊p.y⌋₊ < s.h := (Nat.floor_lt h2).2 h3
  have bx1 : ⌊p.x⌋₊ < s.w := (Nat.floor_lt h0).2 h1
  obtain ⟨i, u, v, hi, hu, hv, e1, e2, e3, e4, -⟩ := pixel_cell hh hw by1 bx1
  obtain ⟨d, hid⟩ := shuffle_get hd hi
  obtain ⟨c1, c2⟩ := cell_in (h := s.h) (w := s.w) hc (shuffle_lt hd hid).2 hu hv
  refine ⟨⌊p.y⌋₊, ⌊p.x⌋₊, _, _, p.x - ⌊p.x⌋₊, p.y - ⌊p.y⌋₊, ?_, ?_, ?_, ?_, ?_, c1, c2, ?_, ?_⟩
  · linarith [Nat.floor_le h0]
  · linarith [Nat.lt_floor_add_one p.x]
  · linarith [Nat.floor_le h2]
  · linarith [Nat.lt_floor_add_one p.y]
  · simp
  · rw [applyPt, if_neg (by push Not; exact ⟨h0, h1, h2, h3⟩)]
    simp only
    rw [if_neg (by omega)]
    have f1 : ⌊p.y / ((s.h / rows : Nat) : ℚ)⌋.toNat = i / cols := by
      rw [Int.floor_toNat, Nat.floor_div_natCast, e3]
    have f2 : ⌊p.x / ((s.w / cols : Nat) : ℚ)⌋.toNat = i % cols := by
      rw [Int.floor_toNat, Nat.floor_div_natCast, e4]
    rw [f1, f2, show i / cols * cols + i % cols = i by rw [Nat.mul_comm, Nat.div_add_mod], hid]
    have g1 : ((⌊p.y⌋₊ : Nat) : ℚ) = ((i / cols * (s.h / rows) : Nat) : ℚ) + (u : ℚ) := by
      rw [← Nat.cast_add, ← e1]
    have g2 : ((⌊p.x⌋₊ : Nat) : ℚ) = ((i % cols * (s.w / cols) : Nat) : ℚ) + (v : ℚ) := by
      rw [← Nat.cast_add, ← e2]
    simp only [Option.map_some, Option.some.injEq]
    rw [g1, g2, Nat.cast_add, Nat.cast_add]
    congr 1 <;> ring
  · intro a b ha1 ha2 hb
    obtain ⟨b', h1, -, -, m⟩ := apply_shuffle zero rows cols dest hd a hr hc (by rw [ha1]; exact hh) (by rw [ha2]; exact hw)
    rw [hb] at h1
    injection h1 with h1
    subst h1
    have := m i d hid u v (by rw [ha1]; exact hu) (by rw [ha2]; exact hv)
    rw [ha1, ha2] at this
    rw [this, e1, e2]

/-- C45: all the points of a list are moved, each by the rule for one point. -/
theorem jigsaw_coords (rows cols : Nat) (dest : List Nat) (hd : IsShuffle (rows * cols) dest) (s : Shape) (ps : List Pt)
    (hr : 0 < rows) (hc : 0 < cols) (hh : s.h % rows = 0) (hw : s.w % cols = 0) :
    ∃ qs, applyCoords rows cols dest s ps = some qs ∧ List.Forall₂ (fun p q => applyPt rows cols dest s p = some q) ps qs := by
  rw [applyCoords, if_pos ⟨hr, hc, shuffle_all hd⟩]
  induction ps with
  | nil => exact ⟨[], rfl, .nil⟩
  | cons p ps ih =>
    obtain ⟨qs, h1, h2⟩ := ih
    have : ∃ q, applyPt rows cols dest s p = some q := by
      by_cases h : p.x < 0 ∨ p.x ≥ s.w ∨ p.y < 0 ∨ p.y ≥ s.h
      · exact ⟨p, jigsaw_outside rows cols dest s p h⟩
      · push Not at h
        obtain ⟨_, _, _, _, _, _, _, _, _, _, _, _, _, hq, _⟩ :=
          jigsaw_aligned (0 : Nat) rows cols dest hd s p hr hc hh hw h.1 h.2.1 h.2.2.1 h.2.2.2
        exact ⟨_, hq⟩
    obtain ⟨q, hq⟩ := this
    exact ⟨q :: qs, by simp [List.mapM_cons, hq, h1], .cons hq h2⟩

example : applyCoords 1 3 [1, 2, 0] ⟨1, 6⟩ [⟨5 / 2, 1 / 2⟩, ⟨11 / 2, 0⟩, ⟨6, 0⟩] = some [⟨9 / 2, 1 / 2⟩, ⟨3 / 2, 0⟩, ⟨6, 0⟩] := by
  decide +kernel

end Imgaug.Jigsaw
