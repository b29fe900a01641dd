import Verif.Spec.Jigsaw
import Mathlib.Data.List.Perm.Basic
import Mathlib.Data.List.Perm.Subperm
import Mathlib.Data.List.Nodup
import Mathlib.Data.List.ProdSigma
import Mathlib.Tactic.Push
/-! Helper lemmas for Props/Jigsaw.lean. -/
namespace Imgaug.Jigsaw
open Imgaug
variable {α : Type}

theorem mem_cells {rows cols : Nat} {c : Nat × Nat} : c ∈ cells rows cols ↔ c.1 < rows ∧ c.2 < cols := by
  simp only [cells, List.mem_flatMap, List.mem_range, List.mem_map]
  constructor
  · rintro ⟨y, hy, x, hx, rfl⟩; exact ⟨hy, hx⟩
  · rintro ⟨hy, hx⟩; exact ⟨c.1, hy, c.2, hx, rfl⟩

theorem cells_nodup (rows cols : Nat) : (cells rows cols).Nodup := by
  have : cells rows cols = (List.range rows).product (List.range cols) := rfl
  rw [this]
  exact List.Nodup.product List.nodup_range List.nodup_range

theorem length_cells (rows cols : Nat) : (cells rows cols).length = rows * cols := by
  have : cells rows cols = List.range rows ×ˢ List.range cols := rfl
  rw [this, List.length_product]
  simp

theorem clamp_lt (t : Int) (n : Nat) (h : 0 < n) : clamp t n < n := by
  simp only [clamp]; omega

theorem target_mem {rows cols : Nat} (d : Fin 8) (c : Nat × Nat) (h : c ∈ cells rows cols) :
    target rows cols d c.1 c.2 ∈ cells rows cols := by
  rw [mem_cells] at h ⊢
  exact ⟨clamp_lt _ _ (by omega), clamp_lt _ _ (by omega)⟩

theorem idx_lt {rows cols : Nat} {c : Nat × Nat} (h : c ∈ cells rows cols) : c.1 * cols + c.2 < rows * cols := by
  rw [mem_cells] at h
  have : (c.1 + 1) * cols ≤ rows * cols := Nat.mul_le_mul_right _ h.1
  rw [Nat.add_mul] at this
  omega

theorem idx_div {rows cols : Nat} {c : Nat × Nat} (h : c ∈ cells rows cols) : (c.1 * cols + c.2) / cols = c.1 := by
  rw [mem_cells] at h
  rw [Nat.mul_comm, Nat.mul_add_div (by omega), Nat.div_eq_of_lt h.2, Nat.add_zero]

theorem idx_mod {rows cols : Nat} {c : Nat × Nat} (h : c ∈ cells rows cols) : (c.1 * cols + c.2) % cols = c.2 := by
  rw [mem_cells] at h
  rw [Nat.mul_comm, Nat.mul_add_mod, Nat.mod_eq_of_lt h.2]

/-- An invariant of one pass is one of the whole loop. -/
theorem run_inv (rows cols : Nat) (dirs : Nat → Nat → Nat → Fin 8) (n : Nat) (I : St → Prop) (s : St) (h : I s)
    (hv : ∀ s k c, c ∈ cells rows cols → I s → I (visit rows cols (dirs k) s c)) : I (run rows cols dirs n s) := by
  have inner : ∀ (l : List (Nat × Nat)) (k : Nat) (s : St), (∀ c ∈ l, c ∈ cells rows cols) → I s →
      I (l.foldl (visit rows cols (dirs k)) s) := by
    intro l k
    induction l with
    | nil => intro s _ h; exact h
    | cons c l ih => intro s hl h; exact ih _ (fun x hx => hl x (by simp [hx])) (hv _ _ _ (hl c (by simp)) h)
  have outer : ∀ (l : List Nat) (s : St), I s →
      I (l.foldl (fun s k => (cells rows cols).foldl (visit rows cols (dirs k)) s) s) := by
    intro l
    induction l with
    | nil => intro s h; exact h
    | cons k l ih => intro s h; exact ih _ (inner _ _ _ (fun _ h => h) h)
  exact outer _ _ h

/-- What a visit does to the destinations: nothing, or it exchanges those of two cells of the grid. -/
theorem visit_cases (rows cols : Nat) (dir : Nat → Nat → Fin 8) (s : St) (c : Nat × Nat) :
    visit rows cols dir s c = s ∨
    (0 < s.steps c ∧ 0 < s.steps (target rows cols (dir c.1 c.2) c.1 c.2) ∧ c ≠ target rows cols (dir c.1 c.2) c.1 c.2 ∧
     (visit rows cols dir s c).dest = (fun j => if j = target rows cols (dir c.1 c.2) c.1 c.2 then s.dest c else
        if j = c then s.dest (target rows cols (dir c.1 c.2) c.1 c.2) else s.dest j) ∧
     (visit rows cols dir s c).steps = (fun j => if j = target rows cols (dir c.1 c.2) c.1 c.2 then s.steps j - 1 else
        if j = c then s.steps j - 1 else s.steps j)) := by
  simp only [visit]
  by_cases h1 : s.steps c > 0
  · rw [if_pos h1]
    by_cases h2 : c ≠ target rows cols (dir c.1 c.2) c.1 c.2 ∧ s.steps (target rows cols (dir c.1 c.2) c.1 c.2) ≥ 1
    · rw [if_pos h2]
      right
      refine ⟨h1, h2.2, h2.1, rfl, ?_⟩
      funext j
      simp only [upd]
      have := h2.1
      split
      · rename_i h; subst h; rw [if_neg (Ne.symm this)]
      · split
        · rename_i h; subst h; rfl
        · rfl
    · rw [if_neg h2]; exact Or.inl rfl
  · rw [if_neg h1]; exact Or.inl rfl

theorem perm_of_inj {n : Nat} {l : List Nat} (h1 : l.Nodup) (h2 : l.length = n) (h3 : ∀ x ∈ l, x < n) : l.Perm (List.range n) := by
  have hs : l.Subperm (List.range n) := List.Nodup.subperm h1 (fun x hx => List.mem_range.2 (h3 x hx))
  exact hs.perm_of_length_le (by simp [h2])

theorem generate_shuffle (rows cols maxSteps : Nat) (steps : Nat → Nat → Nat) (dirs : Nat → Nat → Nat → Fin 8) :
    IsShuffle (rows * cols) (generate rows cols maxSteps steps dirs) := by
  have hinv := run_inv rows cols dirs maxSteps
    (fun s => (∀ c ∈ cells rows cols, ∀ c' ∈ cells rows cols, s.dest c = s.dest c' → c = c') ∧
      ∀ c ∈ cells rows cols, s.dest c < rows * cols)
    ⟨fun c => steps c.1 c.2, fun c => c.1 * cols + c.2⟩
    ⟨by
      intro c hc c' hc' e
      have e1 : (c.1 * cols + c.2) / cols = (c'.1 * cols + c'.2) / cols := by rw [show c.1 * cols + c.2 = _ from e]
      have e2 : (c.1 * cols + c.2) % cols = (c'.1 * cols + c'.2) % cols := by rw [show c.1 * cols + c.2 = _ from e]
      rw [idx_div hc, idx_div hc'] at e1
      rw [idx_mod hc, idx_mod hc'] at e2
      exact Prod.ext e1 e2,
     fun c hc => idx_lt hc⟩
    (by
      intro s k c hc ⟨i1, i2⟩
      have ht := target_mem (dirs k c.1 c.2) c hc
      rcases visit_cases rows cols (dirs k) s c with h | ⟨_, _, hne, hd, _⟩
      · rw [h]; exact ⟨i1, i2⟩
      · rw [hd]
        generalize target rows cols (dirs k c.1 c.2) c.1 c.2 = t at *
        refine ⟨?_, ?_⟩
        · intro a ha b hb e
          simp only at e
          by_cases a1 : a = t <;> by_cases b1 : b = t
          · rw [a1, b1]
          · rw [if_pos a1, if_neg b1] at e
            split at e
            · exact absurd (i1 _ hc _ ht e) hne
            · have := i1 _ hc _ hb e; exact absurd this.symm (by assumption)
          · rw [if_neg a1, if_pos b1] at e
            split at e
            · exact absurd (i1 _ ht _ hc e).symm hne
            · exact absurd (i1 _ ha _ hc e) (by assumption)
          · rw [if_neg a1, if_neg b1] at e
            split at e <;> split at e
            · rename_i h1 h2; rw [h1, h2]
            · exact absurd (i1 _ ht _ hb e).symm b1
            · exact absurd (i1 _ ha _ ht e) a1
            · exact i1 _ ha _ hb e
        · intro a ha
          simp only
          split
          · exact i2 _ hc
          · split
            · exact i2 _ ht
            · exact i2 _ ha)
  refine perm_of_inj ?_ (by simp [generate, length_cells]) ?_
  · rw [generate, List.nodup_map_iff_inj_on (cells_nodup _ _)]
    exact fun a ha b hb e => hinv.1 a ha b hb e
  · intro x hx
    obtain ⟨c, hc, rfl⟩ := List.mem_map.1 hx
    exact hinv.2 c hc

/-- If every cell may take part in one exchange only, all destinations are neighbours. -/
theorem one_step (rows cols maxSteps : Nat) (steps : Nat → Nat → Nat) (dirs : Nat → Nat → Nat → Fin 8) (hs : ∀ y x, steps y x ≤ 1)
    (N : Nat × Nat → Nat × Nat → Prop) (hr : ∀ c, N c c) (hsy : ∀ a b, N a b → N b a)
    (hN : ∀ k c, c ∈ cells rows cols → N c (target rows cols (dirs k c.1 c.2) c.1 c.2)) (c : Nat × Nat)
    (hc : c ∈ cells rows cols) :
    ∃ t ∈ cells rows cols, N c t ∧
      (run rows cols dirs maxSteps ⟨fun c => steps c.1 c.2, fun c => c.1 * cols + c.2⟩).dest c = t.1 * cols + t.2 := by
  have hinv := run_inv rows cols dirs maxSteps
    (fun s => ∀ c ∈ cells rows cols, (s.steps c ≤ 1 ∧ s.dest c = c.1 * cols + c.2) ∨
        (s.steps c = 0 ∧ ∃ t ∈ cells rows cols, N c t ∧ s.dest c = t.1 * cols + t.2))
    ⟨fun c => steps c.1 c.2, fun c => c.1 * cols + c.2⟩ (fun c _ => Or.inl ⟨hs _ _, rfl⟩)
    (by
      intro s k c hc hi
      have ht := target_mem (dirs k c.1 c.2) c hc
      have hn := hN k c hc
      rcases visit_cases rows cols (dirs k) s c with h | ⟨p1, p2, hne, hd, hst⟩
      · rw [h]; exact hi
      · rw [hd, hst]
        generalize target rows cols (dirs k c.1 c.2) c.1 c.2 = t at *
        have i1 : s.steps c ≤ 1 ∧ s.dest c = c.1 * cols + c.2 := by
          rcases hi c hc with h | h
          · exact h
          · omega
        have i2 : s.steps t ≤ 1 ∧ s.dest t = t.1 * cols + t.2 := by
          rcases hi t ht with h | h
          · exact h
          · omega
        intro j hj
        by_cases j1 : j = t
        · right
          subst j1
          simp only [if_true]
          exact ⟨by omega, c, hc, hsy _ _ hn, i1.2⟩
        · by_cases j2 : j = c
          · right
            subst j2
            simp only [if_true, if_neg j1]
            exact ⟨by omega, t, ht, hn, i2.2⟩
          · simp only [if_neg j1, if_neg j2]
            exact hi j hj)
  rcases hinv c hc with h | h
  · exact ⟨c, hc, hr c, h.2⟩
  · exact h.2

/-- The point `(y, x)` lies in cell `d`. -/
def Covers (cols ch cw d y x : Nat) : Prop :=
  d / cols * ch ≤ y ∧ y < d / cols * ch + ch ∧ d % cols * cw ≤ x ∧ x < d % cols * cw + cw

theorem mul_cell {a b c y : Nat} (h1 : a * c ≤ y) (h2 : y < a * c + c) (h3 : b * c ≤ y) (h4 : y < b * c + c) : a = b := by
  have e1 : a * c + c = (a + 1) * c := by ring
  have e2 : b * c + c = (b + 1) * c := by ring
  have l1 : a < b + 1 := lt_of_mul_lt_mul_right (lt_of_le_of_lt h1 (e2 ▸ h4)) (Nat.zero_le c)
  have l2 : b < a + 1 := lt_of_mul_lt_mul_right (lt_of_le_of_lt h3 (e1 ▸ h2)) (Nat.zero_le c)
  omega

theorem covers_unique {cols ch cw d d' y x : Nat} (h : Covers cols ch cw d y x) (h' : Covers cols ch cw d' y x) : d = d' := by
  have e1 := mul_cell h.1 h.2.1 h'.1 h'.2.1
  have e2 := mul_cell h.2.2.1 h.2.2.2 h'.2.2.1 h'.2.2.2
  rw [← Nat.div_add_mod d cols, ← Nat.div_add_mod d' cols, e1, e2]

theorem pasteAll_miss (cols ch cw : Nat) (arr : Img α) (l : List Nat) (i : Nat) (r : Nat → Nat → α) (y x : Nat)
    (h : ∀ d ∈ l, ¬ Covers cols ch cw d y x) : pasteAll cols ch cw arr l i r y x = r y x := by
  induction l generalizing i r with
  | nil => rfl
  | cons d l ih =>
    rw [pasteAll, ih _ _ (fun d' hd => h d' (by simp [hd]))]
    exact if_neg (h d (by simp))

theorem pasteAll_hit (cols ch cw : Nat) (arr : Img α) (l : List Nat) (hl : l.Nodup) (i : Nat) (r : Nat → Nat → α) (j d : Nat)
    (hj : l[j]? = some d) (u v : Nat) (hu : u < ch) (hv : v < cw) :
    pasteAll cols ch cw arr l i r (d / cols * ch + u) (d % cols * cw + v) =
      arr.px ((i + j) / cols * ch + u) ((i + j) % cols * cw + v) := by
  have hc : Covers cols ch cw d (d / cols * ch + u) (d % cols * cw + v) := ⟨by omega, by omega, by omega, by omega⟩
  induction l generalizing i r j with
  | nil => simp at hj
  | cons d' l ih =>
    rw [List.nodup_cons] at hl
    cases j with
    | zero =>
      simp at hj
      subst hj
      rw [pasteAll, pasteAll_miss]
      · simp only [paste]
        rw [if_pos (by exact hc)]
        simp
      · intro d2 hd2 hcov
        rw [covers_unique hc hcov] at hl
        exact hl.1 hd2
    | succ j =>
      simp at hj
      rw [pasteAll, ih hl.2 _ _ _ hj, show i + 1 + j = i + (j + 1) by omega]

theorem shuffle_lt {n : Nat} {dest : List Nat} (h : IsShuffle n dest) {i d : Nat} (hi : dest[i]? = some d) : i < n ∧ d < n := by
  have hlen : dest.length = n := by simpa using h.length_eq
  refine ⟨?_, ?_⟩
  · rw [← hlen]; exact (List.getElem?_eq_some_iff.1 hi).1
  · have := h.mem_iff.1 (List.mem_of_getElem? hi)
    simpa using this

theorem shuffle_get {n : Nat} {dest : List Nat} (h : IsShuffle n dest) {i : Nat} (hi : i < n) : ∃ d, dest[i]? = some d := by
  have hlen : dest.length = n := by simpa using h.length_eq
  exact ⟨dest[i]'(by omega), List.getElem?_eq_getElem _⟩

theorem shuffle_inj {n : Nat} {dest : List Nat} (h : IsShuffle n dest) {i j d : Nat} (hi : dest[i]? = some d)
    (hj : dest[j]? = some d) : i = j := by
  have hn : dest.Nodup := h.nodup_iff.2 List.nodup_range
  have h1 := (List.getElem?_eq_some_iff.1 hi).1
  exact (List.getElem?_inj h1 hn).1 (hi.trans hj.symm)

theorem shuffle_all {n : Nat} {dest : List Nat} (h : IsShuffle n dest) : dest.all (fun d => decide (d < n)) = true := by
  rw [List.all_eq_true]
  intro d hd
  have := h.mem_iff.1 hd
  simpa using this

theorem apply_shuffle (zero : α) (rows cols : Nat) (dest : List Nat) (hd : IsShuffle (rows * cols) dest) (a : Img α)
    (hr : 0 < rows) (hc : 0 < cols) (hh : a.h % rows = 0) (hw : a.w % cols = 0) :
    ∃ b, apply zero rows cols dest a = some b ∧ CellsMoved rows cols dest a b := by
  have hn : dest.Nodup := hd.nodup_iff.2 List.nodup_range
  refine ⟨_, if_pos ⟨hr, hc, hh, hw, shuffle_all hd⟩, rfl, rfl, ?_⟩
  intro i d hi u v hu hv
  have := pasteAll_hit cols (a.h / rows) (a.w / cols) a dest hn 0 (fun _ _ => zero) i d hi u v hu hv
  simpa using this

/-- The cell containing a pixel, the position in the cell. -/
theorem pixel_cell {rows cols h w y x : Nat} (hh : h % rows = 0) (hw : w % cols = 0)
    (hy : y < h) (hx : x < w) :
    ∃ i u v, i < rows * cols ∧ u < h / rows ∧ v < w / cols ∧ y = i / cols * (h / rows) + u ∧ x = i % cols * (w / cols) + v ∧
      i / cols = y / (h / rows) ∧ i % cols = x / (w / cols) ∧ u = y % (h / rows) ∧ v = x % (w / cols) := by
  have eh : h = rows * (h / rows) := by have := Nat.div_add_mod h rows; omega
  have ew : w = cols * (w / cols) := by have := Nat.div_add_mod w cols; omega
  generalize h / rows = ch at *
  generalize w / cols = cw at *
  have hch : 0 < ch := by rcases Nat.eq_zero_or_pos ch with h0 | h0; · subst h0; omega
                          · exact h0
  have hcw : 0 < cw := by rcases Nat.eq_zero_or_pos cw with h0 | h0; · subst h0; omega
                          · exact h0
  have l1 : y / ch < rows := by rw [Nat.div_lt_iff_lt_mul hch]; omega
  have l2 : x / cw < cols := by rw [Nat.div_lt_iff_lt_mul hcw]; omega
  have hm : ((y / ch, x / cw) : Nat × Nat) ∈ cells rows cols := mem_cells.2 ⟨l1, l2⟩
  refine ⟨y / ch * cols + x / cw, y % ch, x % cw, idx_lt hm, Nat.mod_lt _ hch, Nat.mod_lt _ hcw, ?_, ?_, idx_div hm, idx_mod hm,
    rfl, rfl⟩
  · have := idx_div hm; simp only at this; rw [this, Nat.mul_comm, Nat.div_add_mod]
  · have := idx_mod hm; simp only at this; rw [this, Nat.mul_comm, Nat.div_add_mod]

theorem cell_in {rows cols h w d u v : Nat} (hc : 0 < cols) (hd : d < rows * cols) (hu : u < h / rows) (hv : v < w / cols) :
    d / cols * (h / rows) + u < h ∧ d % cols * (w / cols) + v < w := by
  have l1 : d / cols < rows := by rw [Nat.div_lt_iff_lt_mul hc]; exact hd
  have l2 : d % cols < cols := Nat.mod_lt _ hc
  have e1 : rows * (h / rows) ≤ h := Nat.mul_div_le h rows
  have e2 : cols * (w / cols) ≤ w := Nat.mul_div_le w cols
  have m1 : (d / cols + 1) * (h / rows) ≤ rows * (h / rows) := Nat.mul_le_mul_right _ l1
  have m2 : (d % cols + 1) * (w / cols) ≤ cols * (w / cols) := Nat.mul_le_mul_right _ l2
  rw [Nat.add_mul] at m1 m2
  omega

theorem toList_flatten (a : Img α) : a.toList.flatten = (cells a.h a.w).map (fun c => a.px c.1 c.2) := by
  simp only [Img.toList, cells, List.flatMap_def, List.map_flatten, List.map_map, Function.comp_def]

/-- Where a pixel goes. -/
def moveIdx (cols ch cw : Nat) (dest : List Nat) (c : Nat × Nat) : Nat × Nat :=
  let d := (dest[c.1 / ch * cols + c.2 / cw]?).getD 0
  (d / cols * ch + c.1 % ch, d % cols * cw + c.2 % cw)

theorem moveIdx_spec {rows cols h w : Nat} (dest : List Nat) (hd : IsShuffle (rows * cols) dest)
    (hh : h % rows = 0) (hw : w % cols = 0) (c : Nat × Nat) (hy : c.1 < h) (hx : c.2 < w) :
    ∃ i d u v, dest[i]? = some d ∧ u < h / rows ∧ v < w / cols ∧
      c = (i / cols * (h / rows) + u, i % cols * (w / cols) + v) ∧
      moveIdx cols (h / rows) (w / cols) dest c = (d / cols * (h / rows) + u, d % cols * (w / cols) + v) := by
  obtain ⟨i, u, v, hi, hu, hv, e1, e2, e3, e4, e5, e6⟩ := pixel_cell hh hw hy hx
  obtain ⟨d, hd'⟩ := shuffle_get hd hi
  refine ⟨i, d, u, v, hd', hu, hv, Prod.ext e1 e2, ?_⟩
  have : c.1 / (h / rows) * cols + c.2 / (w / cols) = i := by
    rw [← e3, ← e4, Nat.mul_comm, Nat.div_add_mod]
  simp only [moveIdx, this, hd', Option.getD_some, ← e5, ← e6]

theorem moved_perm (rows cols : Nat) (dest : List Nat) (hd : IsShuffle (rows * cols) dest) (a b : Img α)
    (hc : 0 < cols) (hh : a.h % rows = 0) (hw : a.w % cols = 0) (hm : CellsMoved rows cols dest a b) :
    b.toList.flatten.Perm a.toList.flatten := by
  obtain ⟨m1, m2, m3⟩ := hm
  rw [toList_flatten, toList_flatten, m1, m2]
  have key : ((cells a.h a.w).map (moveIdx cols (a.h / rows) (a.w / cols) dest)).Perm (cells a.h a.w) := by
    refine (List.Nodup.subperm ?_ ?_).perm_of_length_le (by simp)
    · rw [List.nodup_map_iff_inj_on (cells_nodup _ _)]
      intro c hc1 c' hc2 e
      rw [mem_cells] at hc1 hc2
      obtain ⟨i, d, u, v, h1, h2, h3, h4, h5⟩ := moveIdx_spec dest hd hh hw c hc1.1 hc1.2
      obtain ⟨i', d', u', v', h1', h2', h3', h4', h5'⟩ := moveIdx_spec dest hd hh hw c' hc2.1 hc2.2
      rw [h5, h5', Prod.mk.injEq] at e
      have hdd : d = d' := by
        apply covers_unique (cols := cols) (ch := a.h / rows) (cw := a.w / cols) (y := d / cols * (a.h / rows) + u)
          (x := d % cols * (a.w / cols) + v)
        · exact ⟨by omega, by omega, by omega, by omega⟩
        · rw [e.1, e.2]; exact ⟨by omega, by omega, by omega, by omega⟩
      subst hdd
      have hii := shuffle_inj hd h1 h1'
      subst hii
      rw [h4, h4', Prod.mk.injEq]
      omega
    · intro x hx
      obtain ⟨c, hc1, rfl⟩ := List.mem_map.1 hx
      rw [mem_cells] at hc1
      obtain ⟨i, d, u, v, h1, h2, h3, h4, h5⟩ := moveIdx_spec dest hd hh hw c hc1.1 hc1.2
      rw [h5, mem_cells]
      exact cell_in hc (shuffle_lt hd h1).2 h2 h3
  have := key.map (fun c => b.px c.1 c.2)
  rw [List.map_map] at this
  refine this.symm.trans (List.Perm.of_eq (List.map_congr_left ?_))
  intro c hc1
  rw [mem_cells] at hc1
  obtain ⟨i, d, u, v, h1, h2, h3, h4, h5⟩ := moveIdx_spec dest hd hh hw c hc1.1 hc1.2
  simp only [Function.comp]
  rw [h5, h4]
  exact m3 i d h1 u v h2 h3

theorem cells_get (rows cols i : Nat) (h : i < rows * cols) : (cells rows cols)[i]? = some (i / cols, i % cols) := by
  have hc : 0 < cols := by rcases Nat.eq_zero_or_pos cols with h0 | h0; · subst h0; omega
                           · exact h0
  induction rows with
  | zero => simp at h
  | succ n ih =>
    have e : cells (n + 1) cols = cells n cols ++ (List.range cols).map (fun x => (n, x)) := by
      simp [cells, List.range_succ, List.flatMap_append]
    rw [e]
    by_cases hi : i < n * cols
    · rw [List.getElem?_append_left (by rw [length_cells]; exact hi), ih hi]
    · rw [List.getElem?_append_right (by rw [length_cells]; omega), length_cells]
      rw [Nat.add_mul] at h
      have h1 : i / cols = n := by
        apply Nat.div_eq_of_lt_le
        · omega
        · rw [Nat.add_mul]; omega
      have h2 : i % cols = i - n * cols := by
        have := Nat.div_add_mod i cols
        rw [h1, Nat.mul_comm] at this
        omega
      rw [h1, h2]
      have : i - n * cols < cols := by omega
      simp [this]

theorem target_right (n j : Nat) (h : j ≤ n) : target 1 (n + 1) 1 0 j = (0, if j < n then j + 1 else n) := by
  simp only [target, step, clamp]
  split <;> (congr 1; omega)

theorem cells_one (n : Nat) : cells 1 (n + 1) = (List.range (n + 1)).map (fun x => (0, x)) := by
  simp [cells]

/-- The state after the first `k` visits of the first sweep. -/
def Swept (n k : Nat) (s : St) : Prop :=
  s.dest (0, k) = 0 ∧ s.steps (0, k) = (if k = 0 then 2 else 1) ∧
  (∀ j, k < j → j ≤ n → s.steps (0, j) = 2) ∧ (∀ j, 0 < j → j < k → s.steps (0, j) = 0)

theorem sweep_first (n k : Nat) (hk : k ≤ n) (s : St) (h : Swept n 0 s) :
    Swept n k (((List.range k).map (fun x => (0, x))).foldl (visit 1 (n + 1) (fun _ _ => 1)) s) := by
  induction k with
  | zero => exact h
  | succ k ih =>
    rw [List.range_succ, List.map_append, List.foldl_append]
    obtain ⟨h1, h2, h3, h4⟩ := ih (by omega)
    generalize ((List.range k).map (fun x => (0, x))).foldl (visit 1 (n + 1) (fun _ _ => 1)) s = s' at *
    simp only [List.map_cons, List.map_nil, List.foldl_cons, List.foldl_nil]
    have ht : target 1 (n + 1) 1 0 k = (0, k + 1) := by rw [target_right n k (by omega), if_pos (by omega)]
    have p1 : 0 < s'.steps (0, k) := by rw [h2]; split <;> omega
    have p2 : s'.steps (0, k + 1) = 2 := h3 _ (by omega) hk
    rcases visit_cases 1 (n + 1) (fun _ _ => 1) s' (0, k) with h | ⟨_, _, _, hd, hs⟩
    · exfalso
      have : (visit 1 (n + 1) (fun _ _ => 1) s' (0, k)).steps (0, k) = s'.steps (0, k) - 1 := by
        simp [visit, p1, ht, p2, upd]
      rw [h] at this
      omega
    · simp only [ht] at hd hs
      refine ⟨by rw [hd]; simp [h1], by rw [hs]; simp [p2], ?_, ?_⟩
      · intro j hj hjn
        rw [hs]
        simp only [Prod.mk.injEq, true_and]
        rw [if_neg (by omega), if_neg (by omega)]
        exact h3 j (by omega) hjn
      · intro j hj0 hj
        rw [hs]
        simp only [Prod.mk.injEq, true_and]
        rw [if_neg (by omega)]
        split
        · rename_i e
          subst e
          rw [h2, if_neg (by omega)]
        · exact h4 j hj0 (by omega)

/-- A visit changes nothing if the cell or its target has no steps left, or if the cell is its own target. -/
theorem visit_idle (n : Nat) (s : St) (hs : ∀ j, 0 < j → j < n → s.steps (0, j) = 0) (hn : 2 ≤ n) (j : Nat) (hj : j ≤ n) 
    (hj0 : j = 0 ∨ (0 < j ∧ j < n) ∨ j = n) : visit 1 (n + 1) (fun _ _ => 1) s (0, j) = s := by
  rcases visit_cases 1 (n + 1) (fun _ _ => 1) s (0, j) with h | ⟨h1, h2, h3, _, _⟩
  · exact h
  · exfalso
    simp only [target_right n j hj] at h2 h3
    rcases hj0 with h | h | h
    · subst h
      rw [if_pos (by omega), hs _ (by omega) (by omega)] at h2
      omega
    · rw [hs j h.1 h.2] at h1
      omega
    · subst h
      simp at h3

theorem sweep_right (n : Nat) (hn : 2 ≤ n) :
    (run 1 (n + 1) (fun _ _ _ => 1) 2 ⟨fun _ => 2, fun c => c.1 * (n + 1) + c.2⟩).dest (0, n) = 0 := by
  simp only [run, List.range_succ, List.range_zero, List.nil_append, List.foldl_append, List.foldl_cons, List.foldl_nil]
  have idle : ∀ (l : List Nat) (s : St), (∀ j ∈ l, j ≤ n) → (∀ j, 0 < j → j < n → s.steps (0, j) = 0) →
      (l.map (fun x => (0, x))).foldl (visit 1 (n + 1) (fun _ _ => 1)) s = s := by
    intro l
    induction l with
    | nil => intro s _ _; rfl
    | cons j l ih =>
      intro s hl hs
      have hj := hl j (by simp)
      rw [List.map_cons, List.foldl_cons, visit_idle n s hs hn j hj (by omega)]
      exact ih s (fun k hk => hl k (by simp [hk])) hs
  rw [cells_one, List.range_succ]
  simp only [List.map_append, List.foldl_append, List.map_cons, List.map_nil, List.foldl_cons, List.foldl_nil]
  have h := sweep_first n n (le_refl n) ⟨fun _ => 2, fun c => c.1 * (n + 1) + c.2⟩
    ⟨by simp, by simp, by intros; rfl, by intros; omega⟩
  generalize ((List.range n).map (fun x => (0, x))).foldl (visit 1 (n + 1) (fun _ _ => 1))
    ⟨fun _ => 2, fun c => c.1 * (n + 1) + c.2⟩ = s at *
  obtain ⟨h1, h2, h3, h4⟩ := h
  rw [visit_idle n s h4 hn n (le_refl n) (by omega), idle _ s (fun j hj => by have := List.mem_range.1 hj; omega) h4,
    visit_idle n s h4 hn n (le_refl n) (by omega)]
  exact h1

end Imgaug.Jigsaw
