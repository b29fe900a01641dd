import Verif.Spec.Cutout
import Verif.Proofs.Dtypes
import Mathlib.Tactic.SplitIfs
/-! Helpers for Props/Cutout.lean. -/
namespace Imgaug.Cutout
open Imgaug Imgaug.Dtypes

theorem clamp_le (v : ℚ) (n x : Nat) (hx : x < n) : clampInt v n ≤ x ↔ ⌊v⌋ ≤ x := by
  have h : clampInt v n ≤ x ↔ pyInt v ≤ x := by rw [clampInt]; omega
  rw [h, pyInt]
  split
  · rename_i h
    have h1 : 0 ≤ ⌊-v⌋ := Int.floor_nonneg.mpr (by linarith)
    have h2 : ⌊v⌋ < 0 := by
      by_contra hc
      have := Int.floor_nonneg.mp (not_lt.mp hc)
      linarith
    constructor <;> intro _ <;> omega
  · rfl

theorem lt_clamp (v : ℚ) (n x : Nat) (hx : x < n) : x < clampInt v n ↔ (x : Int) < ⌊v⌋ := by
  have := clamp_le v n x hx
  omega

/-- Whether the rectangle after clamping contains a pixel of the image. -/
theorem inside_iff (img : Img) (x1 y1 x2 y2 : ℚ) (y x : Nat) (hy : y < img.h) (hx : x < img.w) :
    (clampInt y1 img.h ≤ y ∧ y < clampInt y2 img.h ∧ clampInt x1 img.w ≤ x ∧ x < clampInt x2 img.w) ↔ Inside x1 y1 x2 y2 y x := by
  rw [clamp_le y1 _ _ hy, clamp_le x1 _ _ hx, lt_clamp y2 _ _ hy, lt_clamp x2 _ _ hx, Inside]
  tauto

theorem cutout_shape (img r : Img) (x1 y1 x2 y2 : ℚ) (fill : Fill) (pc : Bool) (h : cutout img x1 y1 x2 y2 fill pc = some r) :
    SameShape r img := by
  simp only [cutout] at h
  split at h
  · cases fill with
    | number v =>
      simp only [fillConstant, Option.map_some, Option.some.injEq] at h
      subst h; exact ⟨rfl, rfl, rfl, rfl, rfl⟩
    | list l =>
      simp only [fillConstant, Option.map_eq_some_iff] at h
      obtain ⟨f, _, rfl⟩ := h
      exact ⟨rfl, rfl, rfl, rfl, rfl⟩
    | gaussian draw =>
      simp only [Option.some.injEq] at h
      subst h; exact ⟨rfl, rfl, rfl, rfl, rfl⟩
  · simp only [Option.some.injEq] at h
    subst h; exact ⟨rfl, rfl, rfl, rfl, rfl⟩

theorem cutout_out (img r : Img) (x1 y1 x2 y2 : ℚ) (fill : Fill) (pc : Bool) (h : cutout img x1 y1 x2 y2 fill pc = some r)
    (y x k : Nat) (hy : y < img.h) (hx : x < img.w) (hn : ¬ Inside x1 y1 x2 y2 y x) : r.px y x k = img.px y x k := by
  have hi := (inside_iff img x1 y1 x2 y2 y x hy hx).not.mpr hn
  simp only [cutout] at h
  split at h
  · cases fill with
    | number v =>
      simp only [fillConstant, Option.map_some, Option.some.injEq] at h
      subst h; simp only [assign, if_neg hi]
    | list l =>
      simp only [fillConstant, Option.map_eq_some_iff] at h
      obtain ⟨f, _, rfl⟩ := h
      simp only [assign, if_neg hi]
    | gaussian draw =>
      simp only [Option.some.injEq] at h
      subst h; simp only [fillGaussian, assign, if_neg hi]
  · simp only [Option.some.injEq] at h
    subst h; rfl

theorem inside_nonempty (img : Img) (x1 y1 x2 y2 : ℚ) :
    (clampInt x2 img.w > clampInt x1 img.w ∧ clampInt y2 img.h > clampInt y1 img.h) ↔
      ∃ y x, y < img.h ∧ x < img.w ∧ Inside x1 y1 x2 y2 y x := by
  have b1 : clampInt x2 img.w ≤ img.w := by rw [clampInt]; omega
  have b2 : clampInt y2 img.h ≤ img.h := by rw [clampInt]; omega
  constructor
  · rintro ⟨h1, h2⟩
    refine ⟨clampInt y1 img.h, clampInt x1 img.w, by omega, by omega, ?_⟩
    rw [← inside_iff img x1 y1 x2 y2 _ _ (by omega) (by omega)]
    omega
  · rintro ⟨y, x, hy, hx, hi⟩
    rw [← inside_iff img x1 y1 x2 y2 y x hy hx] at hi
    omega

theorem cyc_get (l : List ℚ) : ∀ (n k : Nat), k < n * l.length → (List.replicate n l).flatten[k]? = l[k % l.length]? := by
  intro n
  induction n with
  | zero => intro k hk; omega
  | succ n ih =>
    intro k hk
    rw [List.replicate_succ, List.flatten_cons]
    by_cases h : k < l.length
    · rw [List.getElem?_append_left h, Nat.mod_eq_of_lt h]
    · rw [List.getElem?_append_right (by omega), ih (k - l.length) (by rw [Nat.add_mul] at hk; omega)]
      congr 1
      rw [← Nat.mod_eq_sub_mod (by omega)]

theorem cvalAt_spec (flat : Bool) (c : Nat) (l : List ℚ) (pc : Bool) (hl : l ≠ []) :
    ∃ f, cvalAt flat c l pc = some f ∧ ∀ k, k < c → f k = if pc = true ∧ flat = false then l.getD (k % l.length) 0 else l.getD 0 0 := by
  have hl' : l.length ≠ 0 := by simpa using hl
  rw [cvalAt, if_neg hl']
  split
  · rename_i h
    simp only [Bool.and_eq_true, Bool.not_eq_true'] at h
    split
    · rename_i hc
      refine ⟨_, rfl, ?_⟩
      intro k hk
      rw [List.getD_eq_getElem?_getD, List.getD_eq_getElem?_getD, List.getElem?_take_of_lt hk, cyc_get l]
      have h1 := Nat.lt_div_mul_add (a := c + l.length - 1) (b := l.length) (by omega)
      omega
    · refine ⟨_, rfl, ?_⟩
      intro k hk
      rw [List.getD_eq_getElem?_getD, List.getD_eq_getElem?_getD, List.getElem?_take_of_lt hk, Nat.mod_eq_of_lt (by omega)]
  · rename_i h
    refine ⟨_, rfl, ?_⟩
    intro k _
    rw [if_neg (by simpa using h)]

theorem augmentImage_shape : ∀ (l : List Sample) (img r : Img), augmentImage img l = some r → SameShape r img := by
  intro l
  induction l with
  | nil => intro img r h; simp only [augmentImage, Option.some.injEq] at h; subst h; exact ⟨rfl, rfl, rfl, rfl, rfl⟩
  | cons s l ih =>
    intro img r h
    simp only [augmentImage, Option.bind_eq_some_iff] at h
    obtain ⟨m, h1, h2⟩ := h
    obtain ⟨a1, a2, a3, a4, a5⟩ := cutout_shape _ _ _ _ _ _ _ _ h1
    obtain ⟨b1, b2, b3, b4, b5⟩ := ih _ _ h2
    exact ⟨b1.trans a1, b2.trans a2, b3.trans a3, b4.trans a4, b5.trans a5⟩

theorem augmentImage_out : ∀ (l : List Sample) (img r : Img), augmentImage img l = some r →
    ∀ y x k, y < img.h → x < img.w → (∀ s ∈ l, ¬ Hit s img.h img.w y x) → r.px y x k = img.px y x k := by
  intro l
  induction l with
  | nil => intro img r h; simp only [augmentImage, Option.some.injEq] at h; subst h; intros; rfl
  | cons s l ih =>
    intro img r h y x k hy hx hn
    simp only [augmentImage, Option.bind_eq_some_iff] at h
    obtain ⟨m, h1, h2⟩ := h
    obtain ⟨a1, a2, a3, a4, a5⟩ := cutout_shape _ _ _ _ _ _ _ _ h1
    rw [ih m r h2 y x k (by omega) (by omega) (by rw [a2, a3]; exact fun s hs => hn s (List.mem_cons_of_mem _ hs))]
    exact cutout_out _ _ _ _ _ _ _ _ h1 y x k hy hx (hn s List.mem_cons_self)

theorem augmentImage_append : ∀ (l1 l2 : List Sample) (img : Img),
    augmentImage img (l1 ++ l2) = (augmentImage img l1).bind (fun r => augmentImage r l2) := by
  intro l1
  induction l1 with
  | nil => intro l2 img; rfl
  | cons s l ih =>
    intro l2 img
    simp only [List.cons_append, augmentImage]
    cases cutout img (corners s img.h img.w).1 (corners s img.h img.w).2.1 (corners s img.h img.w).2.2.1 (corners s img.h img.w).2.2.2 s.fill
      (decide (s.perChannel ≥ 1 / 2)) with
    | none => rfl
    | some r => simp only [Option.bind_some]; exact ih l2 r

/-- The number of set entries before entry `i`. -/
def rank (mask : List Bool) (i : Nat) : Nat := (mask.take i).count true

theorem scatter_length : ∀ (vs : List ℚ) (ms : List Bool) (rs : List ℚ), (scatter vs ms rs).length = vs.length := by
  intro vs
  induction vs with
  | nil => intro ms rs; cases ms <;> simp [scatter]
  | cons v vs ih =>
    intro ms rs
    cases ms with
    | nil => simp [scatter]
    | cons m ms =>
      cases m with
      | false => simp [scatter, ih]
      | true => cases rs <;> simp [scatter, ih]

theorem scatter_get : ∀ (vs : List ℚ) (ms : List Bool) (rs : List ℚ), ms.length = vs.length → ms.count true ≤ rs.length →
    ∀ (i : Nat) (v : ℚ), vs[i]? = some v → (scatter vs ms rs)[i]? = if ms.getD i false = true then rs[rank ms i]? else some v := by
  intro vs
  induction vs with
  | nil => intro ms rs _ _ i v h; simp at h
  | cons v vs ih =>
    intro ms rs hl hc i w hi
    cases ms with
    | nil => simp at hl
    | cons m ms =>
      simp only [List.length_cons, Nat.add_right_cancel_iff] at hl
      cases m with
      | false =>
        have hc' : ms.count true ≤ rs.length := by simpa using hc
        cases i with
        | zero => simpa [scatter] using hi
        | succ i =>
          simp only [List.getElem?_cons_succ] at hi
          have := ih ms rs hl hc' i w hi
          simp only [scatter, List.getElem?_cons_succ, this, rank, List.getD_cons_succ, List.take_succ_cons]
          simp
      | true =>
        cases rs with
        | nil => simp at hc
        | cons r rs =>
          have hc' : ms.count true ≤ rs.length := by simpa using hc
          cases i with
          | zero => simp [scatter, rank]
          | succ i =>
            simp only [List.getElem?_cons_succ] at hi
            have := ih ms rs hl hc' i w hi
            simp only [scatter, List.getElem?_cons_succ, this, rank, List.getD_cons_succ, List.take_succ_cons, List.count_cons_self]

theorem count_range (mask : List ℚ) (k n : Nat) : ((List.range n).map (maskAt mask k)).count true = setBefore mask k n := by
  rw [List.count_eq_length_filter, List.filter_map, List.length_map, setBefore]
  congr 1
  apply List.filter_congr
  intro x _
  simp

theorem setBefore_lt (mask : List ℚ) (k i n : Nat) (h : i < n) (hs : maskAt mask k i = true) : setBefore mask k i < setBefore mask k n := by
  have e : List.range n = List.range i ++ i :: List.range' (i + 1) (n - i - 1) := by
    rw [List.range_eq_range', List.range_eq_range']
    have : n = i + ((n - i - 1) + 1) := by omega
    conv_lhs => rw [this, ← List.range'_append_1, List.range'_succ]
    simp
  rw [setBefore, setBefore, e, List.filter_append, List.length_append, List.filter_cons_of_pos hs]
  simp

theorem flatten_replicate_get (k : Nat) : ∀ (l : List Bool) (i : Nat), (l.map (List.replicate k)).flatten[i]? = if i < l.length * k then l[i / k]? else none := by
  intro l
  induction l with
  | nil => intro i; simp
  | cons a t ih =>
    intro i
    rw [List.map_cons, List.flatten_cons]
    by_cases h : i < k
    · rw [List.getElem?_append_left (by simpa using h), if_pos (by rw [List.length_cons, Nat.add_mul]; omega), Nat.div_eq_of_lt h]
      simp [h]
    · rw [List.getElem?_append_right (by simpa using Nat.le_of_not_lt h), List.length_replicate, ih]
      have hk : (t.length + 1) * k = t.length * k + k := by rw [Nat.add_mul]; omega
      simp only [List.length_cons, hk]
      by_cases h0 : k = 0
      · subst h0; simp
      · have hd : i / k = (i - k) / k + 1 := by
          rw [← Nat.add_div_right _ (Nat.pos_of_ne_zero h0)]; congr 1; omega
        rw [hd, List.getElem?_cons_succ]
        by_cases h2 : i - k < t.length * k
        · rw [if_pos h2, if_pos (by omega)]
        · rw [if_neg h2, if_neg (by omega)]

theorem full_eq (c k n : Nat) (mask : List ℚ) (hk : k = 1 ∨ k = c) (hm : mask.length * k = n) :
    (if mask.length * c = n ∧ c ≠ 1 then ((mask.map (fun m => decide (m > 1 / 2))).map (List.replicate c)).flatten
      else mask.map (fun m => decide (m > 1 / 2))) = (List.range n).map (maskAt mask k) := by
  have general : ((mask.map (fun m => decide (m > 1 / 2))).map (List.replicate k)).flatten = (List.range n).map (maskAt mask k) := by
    apply List.ext_getElem?
    intro i
    rw [flatten_replicate_get, List.length_map, hm, List.getElem?_map, List.getElem?_map]
    split
    · rename_i h
      rw [List.getElem?_range h]
      have hk0 : 0 < k := by
        rcases Nat.eq_zero_or_pos k with h0 | h0
        · subst h0; omega
        · exact h0
      have hd : i / k < mask.length := by rw [Nat.div_lt_iff_lt_mul hk0]; omega
      rw [List.getElem?_eq_getElem hd]
      simp [maskAt, List.getD_eq_getElem?_getD, List.getElem?_eq_getElem hd]
    · rename_i h
      rw [List.getElem?_eq_none (by simpa using h)]
      rfl
  have one : ∀ l : List Bool, (l.map (List.replicate 1)).flatten = l := by
    intro l
    induction l with
    | nil => rfl
    | cons a t ih => simpa using ih
  by_cases hc : mask.length * c = n ∧ c ≠ 1
  · rw [if_pos hc]
    by_cases hkc : k = c
    · rw [← hkc]; exact general
    · have hk1 := hk.resolve_right hkc
      have h0 : mask.length * c = mask.length * 1 := by rw [hc.1, ← hm, hk1]
      have hl : mask.length = 0 := by
        by_contra hne
        exact hc.2 (Nat.eq_of_mul_eq_mul_left (Nat.pos_of_ne_zero hne) h0)
      rw [List.length_eq_zero_iff] at hl
      subst hl
      simp at hm
      subst hm; rfl
  · rw [if_neg hc]
    have hk1 : k = 1 := by
      rcases hk with h | h
      · exact h
      · by_contra hne
        exact hc ⟨by rw [← h]; exact hm, by rw [← h]; exact hne⟩
    rw [← general, hk1, one]

theorem bit_iff (v : ℚ) :
    ((if v > 1 / 2 then (1 : ℚ) else 0) = 1 ↔ 1 / 2 < v) ∧ ((if v > 1 / 2 then (1 : ℚ) else 0) = 0 ↔ v ≤ 1 / 2) := by
  by_cases h : v > 1 / 2
  · simp only [if_pos h, true_iff, one_ne_zero, false_iff, not_le]
    exact ⟨h, h⟩
  · simp only [if_neg h, zero_ne_one, false_iff, true_iff]
    exact ⟨h, not_lt.1 h⟩

end Imgaug.Cutout
