import Verif.Spec.Points
import Verif.Proofs.Num
import Verif.Proofs.Segments
import Mathlib.Tactic.SplitIfs
/-! Lemmas on samplers of points. -/
namespace Imgaug.Points
open Imgaug Imgaug.Segments

theorem clip_limited (n : Int) (size : Nat) : clipCount n size = (limited n size : Int) := by
  unfold clipCount limited
  split_ifs <;> omega

theorem limited_bounds (n : Int) (size : Nat) : 1 ≤ limited n size ∧ (limited n size ≤ size ∨ limited n size = 1) := by
  unfold limited
  split_ifs <;> omega

theorem atLeastOne_eq (n : Int) : (max n 1).toNat = atLeastOne n := by
  unfold atLeastOne
  split_ifs <;> omega

theorem atLeastOne_pos (n : Int) : 1 ≤ atLeastOne n := by
  unfold atLeastOne
  split_ifs <;> omega

theorem axis_eq (size n : Nat) (h1 : 1 ≤ n) (h2 : n ≤ size ∨ n = 1) :
    axis size n = (List.range n).map (fun (i : Nat) => ((i : ℚ) + 1 / 2) * ((size : ℚ) / n)) := by
  unfold axis
  simp only [Int.cast_natCast, Int.toNat_natCast]
  by_cases hn : n = 1
  · subst hn
    rw [if_pos]
    · simp; ring
    · constructor <;> push_cast <;> linarith
  · have hn2 : 2 ≤ n := by omega
    have hs : n ≤ size := by omega
    have hn0 : (0 : ℚ) < n := by exact_mod_cast (by omega : 0 < n)
    have hn2' : (2 : ℚ) ≤ n := by exact_mod_cast hn2
    have hs' : (n : ℚ) ≤ size := by exact_mod_cast hs
    have hsp : (size : ℚ) / n * n = size := by field_simp
    have hsp1 : 1 ≤ (size : ℚ) / n := by rw [le_div_iff₀ hn0]; linarith
    generalize (size : ℚ) / n = d at *
    have hd : (size : ℚ) - d ≥ 1 := by rw [← hsp]; nlinarith
    rw [if_neg (by rintro ⟨_, h⟩; linarith)]
    unfold linspace
    apply List.map_congr_left
    intro i _
    rw [if_neg hn]
    have hne : (n : ℚ) - 1 ≠ 0 := by linarith
    have : ((size : ℚ) - d / 2 - (0 + d / 2)) / ((n : ℚ) - 1) = d := by
      rw [div_eq_iff hne, ← hsp]; ring
    rw [this]; ring

theorem flatMap_get {α β γ : Type} (ys : List α) (xs : List β) (f : α → β → γ) (i j : Nat) (y : α) (x : β) (hy : ys[i]? = some y)
    (hx : xs[j]? = some x) : (ys.flatMap (fun y => xs.map (f y)))[i * xs.length + j]? = some (f y x) := by
  have hj : j < xs.length := by by_contra hc; rw [List.getElem?_eq_none (by omega)] at hx; cases hx
  induction ys generalizing i with
  | nil => simp at hy
  | cons a ys ih =>
    rw [List.flatMap_cons]
    cases i with
    | zero =>
      simp only [List.getElem?_cons_zero, Option.some.injEq] at hy
      rw [List.getElem?_append_left (by simp; omega), hy]
      simp [hx]
    | succ i =>
      rw [List.getElem?_append_right (by simp [Nat.add_mul]; omega)]
      have : (i + 1) * xs.length + j - (xs.map (f a)).length = i * xs.length + j := by
        rw [List.length_map, Nat.add_mul]; omega
      rw [this]
      exact ih i (by simpa using hy)

theorem flatMap_len {α β γ : Type} (ys : List α) (xs : List β) (f : α → β → γ) : (ys.flatMap (fun y => xs.map (f y))).length = ys.length * xs.length := by
  induction ys with
  | nil => simp
  | cons a ys ih => rw [List.flatMap_cons, List.length_append, ih]; simp; ring

theorem grid_len (s : Size) (rows cols : Nat) (hr : 1 ≤ rows) (hr' : rows ≤ s.1 ∨ rows = 1) (hc : 1 ≤ cols) (hc' : cols ≤ s.2 ∨ cols = 1) :
    (grid s rows cols).length = rows * cols := by
  unfold grid
  simp only
  rw [flatMap_len, axis_eq _ _ hr hr', axis_eq _ _ hc hc']
  simp

theorem grid_get (s : Size) (rows cols : Nat) (hr : 1 ≤ rows) (hr' : rows ≤ s.1 ∨ rows = 1) (hc : 1 ≤ cols) (hc' : cols ≤ s.2 ∨ cols = 1)
    (i j : Nat) (hi' : i < rows) (hj : j < cols) : (grid s rows cols)[i * cols + j]? = some (gridPoint s rows cols i j) := by
  unfold grid
  simp only
  have hlen : (axis s.2 cols).length = cols := by rw [axis_eq _ _ hc hc']; simp
  have := flatMap_get (axis s.1 rows) (axis s.2 cols) (fun y x => (x, y)) i j (((i : ℚ) + 1 / 2) * ((s.1 : ℚ) / rows))
    (((j : ℚ) + 1 / 2) * ((s.2 : ℚ) / cols)) (by rw [axis_eq _ _ hr hr']; simp [List.getElem?_range hi'])
    (by rw [axis_eq _ _ hc hc']; simp [List.getElem?_range hj])
  rw [hlen] at this
  exact this

theorem axis_inside (size n : Nat) (h1 : 1 ≤ n) (h2 : n ≤ size ∨ n = 1) (v : ℚ) (hv : v ∈ axis size n) : 0 ≤ v ∧ v ≤ size := by
  rw [axis_eq _ _ h1 h2] at hv
  obtain ⟨i, hi', rfl⟩ := List.mem_map.1 hv
  have hi' := List.mem_range.1 hi'
  have hn0 : (0 : ℚ) < n := by exact_mod_cast (by omega : 0 < n)
  have h0 : (0 : ℚ) ≤ (size : ℚ) / n := by positivity
  have hi2 : (i : ℚ) + 1 ≤ n := by exact_mod_cast hi'
  have hs : (n : ℚ) * ((size : ℚ) / n) = size := by field_simp
  refine ⟨by positivity, ?_⟩
  calc ((i : ℚ) + 1 / 2) * ((size : ℚ) / n) ≤ (n : ℚ) * ((size : ℚ) / n) := by
        apply mul_le_mul_of_nonneg_right _ h0; linarith
    _ = size := hs

theorem grid_inside (s : Size) (rows cols : Nat) (hr : 1 ≤ rows) (hr' : rows ≤ s.1 ∨ rows = 1) (hc : 1 ≤ cols) (hc' : cols ≤ s.2 ∨ cols = 1) :
    ∀ p ∈ grid s rows cols, Inside s p := by
  intro p hp
  unfold grid at hp
  simp only [List.mem_flatMap, List.mem_map] at hp
  obtain ⟨y, hy, x, hx, rfl⟩ := hp
  exact ⟨axis_inside s.2 cols hc hc' x hx, axis_inside s.1 rows hr hr' y hy⟩

theorem drop_sub (points : List Pt) (keep : List Bool) : (dropPoints points keep).Sublist points := by
  unfold dropPoints
  split
  · exact List.Sublist.refl _
  · next hz =>
    simp only
    generalize (if keep.any id = false then keep.set ((points.length - 1) / 2) true else keep) = k
    clear hz
    have h1 : (((points.zip k).filter (fun q => q.2)).map (·.1)).Sublist ((points.zip k).map (·.1)) := List.Sublist.map _ List.filter_sublist
    refine h1.trans ?_
    rw [← List.unzip_fst]
    clear h1
    induction points generalizing k with
    | nil => simp
    | cons a l ih =>
      cases k with
      | nil => simp
      | cons b k => simpa using ih k

theorem drop_nonempty (points : List Pt) (keep : List Bool) (hp : points ≠ []) (hk : keep.length = points.length) : dropPoints points keep ≠ [] := by
  have hpos : 0 < points.length := List.length_pos_iff.2 hp
  unfold dropPoints
  rw [if_neg (by omega)]
  simp only
  have : ∃ i : Nat, i < points.length ∧ (if keep.any id = false then keep.set ((points.length - 1) / 2) true else keep)[i]? = some true := by
    split
    · refine ⟨(points.length - 1) / 2, by omega, ?_⟩
      rw [List.getElem?_set_self (by omega)]
    · next h =>
      simp only [Bool.not_eq_false, List.any_eq_true, id] at h
      obtain ⟨b, hb, hb'⟩ := h
      obtain ⟨i, hi'⟩ := List.getElem?_of_mem hb
      refine ⟨i, ?_, by rw [hi', hb']⟩
      by_contra hc; rw [List.getElem?_eq_none (by omega)] at hi'; cases hi'
  obtain ⟨i, hi', hki⟩ := this
  apply List.ne_nil_of_mem (a := points[i])
  rw [List.mem_map]
  refine ⟨(points[i], true), ?_, rfl⟩
  rw [List.mem_filter]
  exact ⟨List.mem_of_getElem? ((List.getElem?_zip_eq_some (z := (points[i], true))).2 ⟨List.getElem?_eq_getElem hi', hki⟩), rfl⟩

theorem slice_len {α : Type} (l : List α) (m : Int) (h : 0 ≤ m) : (slice l m).length = min m.toNat l.length := by
  unfold slice; rw [if_pos h, List.length_take]

theorem slice_sub {α : Type} (l : List α) (m : Int) : (slice l m).Sublist l := by
  unfold slice; split <;> exact List.take_sublist _ _

theorem clip_inside (v : Int) (size : Nat) : (0 : ℚ) ≤ ((clipI v 0 size : Int) : ℚ) ∧ ((clipI v 0 size : Int) : ℚ) ≤ size := by
  have : 0 ≤ clipI v 0 size ∧ clipI v 0 size ≤ size := by unfold clipI; omega
  exact ⟨by exact_mod_cast this.1, by exact_mod_cast this.2⟩

/-- The point of an image for relative coordinates. -/
def scaled (s : Size) (c : Pt) : Pt := (((clipI (npRound (c.1 * s.2)) 0 s.2 : Int) : ℚ), ((clipI (npRound (c.2 * s.1)) 0 s.1 : Int) : ℚ))

theorem scaled_inside (s : Size) (c : Pt) : Inside s (scaled s c) := ⟨clip_inside _ _, clip_inside _ _⟩

theorem uniform_len (coords : List Pt) (i : Nat) (l : List (Size × Int)) : (uniformFrom coords i l).length = l.length := by
  induction l generalizing i with
  | nil => rfl
  | cons a l ih => obtain ⟨s, n⟩ := a; simp [uniformFrom, ih]

theorem uniform_get (coords : List Pt) (i : Nat) (l : List (Size × Int)) (k : Nat) (s : Size) (n : Int) (h : l[k]? = some (s, n)) :
    (uniformFrom coords i l)[k]? =
      some (((coords.drop (i + ((l.take k).map (fun q => q.2.toNat)).sum)).take n.toNat).map (scaled s)) := by
  induction l generalizing i k with
  | nil => simp at h
  | cons a l ih =>
    obtain ⟨s', n'⟩ := a
    cases k with
    | zero =>
      simp only [List.getElem?_cons_zero, Option.some.injEq, Prod.mk.injEq] at h
      obtain ⟨rfl, rfl⟩ := h
      simp only [uniformFrom, List.getElem?_cons_zero, List.take_zero, List.map_nil, List.sum_nil, Nat.add_zero]
      rfl
    | succ k =>
      simp only [List.getElem?_cons_succ] at h
      simp only [uniformFrom, List.getElem?_cons_succ, List.take_succ_cons, List.map_cons, List.sum_cons]
      rw [ih (i + n'.toNat) k h, Nat.add_assoc]

theorem round_clip (q : ℚ) (size : Nat) (h0 : 0 ≤ q) (h1 : q ≤ size) : clipI (npRound q) 0 size = npRound q := by
  have a := Imgaug.Props.npRound_nonneg h0
  have b : npRound q ≤ size := by
    have := Imgaug.Props.npRound_mono h1
    rwa [show ((size : ℚ)) = ((size : Int) : ℚ) by simp, Imgaug.Props.npRound_int] at this
  unfold clipI; omega

end Imgaug.Points
