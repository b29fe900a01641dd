import Verif.Proofs.Polygons
import Verif.Spec.Coords
import Verif.Spec.Boxes
import Verif.Props.Coords1
/-! Properties C15, C16: polygons. -/
namespace Imgaug.Props
open Imgaug Imgaug.Spec

/-- C16: the constructor drops exactly the last point of a ring that ends where it starts (and has more than one point). -/
theorem polygon_init_closed (p : Pt) (rest : List Pt) (l : Option String) :
    Polygon.init (p :: rest ++ [p]) l = ⟨p :: rest, l⟩ := by
  unfold Polygon.init
  rw [List.getLast?_concat]
  simp only [List.cons_append, List.head?_cons]
  rw [if_pos]
  · rw [← List.cons_append, List.dropLast_concat]
  · simp [ptClose_self]

/-- C16: for every input the constructor keeps the label, and keeps the points except for at most the last one, which is
dropped exactly if there are at least two points and the first and last are close. -/
theorem polygon_init_cases (e : List Pt) (l : Option String) :
    (Polygon.init e l).label = l ∧
    ((∃ p q, e.head? = some p ∧ e.getLast? = some q ∧ 2 ≤ e.length ∧ ptClose p q = true ∧
        (Polygon.init e l).exterior = e.dropLast) ∨
     ((∀ p q, e.head? = some p → e.getLast? = some q → 2 ≤ e.length → ptClose p q = false) ∧
        (Polygon.init e l).exterior = e)) := by
  by_cases h : ∀ p q, e.head? = some p → e.getLast? = some q → 2 ≤ e.length → ptClose p q = false
  · rw [init_of_not_close e l h]
    exact ⟨rfl, Or.inr ⟨h, rfl⟩⟩
  · push Not at h
    obtain ⟨p, q, hp, hq, h2, hc⟩ := h
    have hc : ptClose p q = true := by simpa using hc
    have : Polygon.init e l = ⟨e.dropLast, l⟩ := by
      unfold Polygon.init
      rw [hp, hq]
      simp [h2, hc]
    rw [this]
    exact ⟨rfl, Or.inl ⟨p, q, hp, hq, h2, hc, rfl⟩⟩

/-- C16: a closed line string has one more point than the polygon and ends where it starts; building a polygon from it
gives the polygon back. -/
theorem polygon_linestring_roundtrip (p : Polygon) (h2 : 2 ≤ p.exterior.length) :
    (p.toLineString true).length = p.exterior.length + 1 ∧
    (p.toLineString true).head? = (p.toLineString true).getLast? ∧
    Polygon.init (p.toLineString true) p.label = p := by
  obtain ⟨e, l⟩ := p
  match e, h2 with
  | a :: b :: rest, _ =>
    have : Polygon.toLineString ⟨a :: b :: rest, l⟩ true = a :: (b :: rest) ++ [a] := by
      simp [Polygon.toLineString]
    rw [this]
    refine ⟨by simp, ?_, polygon_init_closed _ _ _⟩
    rw [List.getLast?_concat]; rfl

/-- C16: the open line string is the exterior. -/
theorem polygon_linestring_open (p : Polygon) : p.toLineString false = p.exterior := by
  simp [Polygon.toLineString]

/-- C16: the bounding box of a non-empty point list is well formed, contains all points and lies in every box that
contains all points. -/
theorem coords_to_bb_tightest (coords : List Pt) (l : Option String) (hne : coords ≠ []) :
    ∃ b, Polygon.coordsToBB coords l = some b ∧ b.label = l ∧ WF b ∧ (∀ p ∈ coords, InBox b p.x p.y) ∧
      ∀ b', (∀ p ∈ coords, InBox b' p.x p.y) → ∀ x y, InBox b x y → InBox b' x y := by
  match coords, hne with
  | p :: ps, _ =>
    refine ⟨_, rfl, ?_⟩
    have hx := foldl_min_le p.x (ps.map Pt.x)
    have hX := le_foldl_max p.x (ps.map Pt.x)
    have hy := foldl_min_le p.y (ps.map Pt.y)
    have hY := le_foldl_max p.y (ps.map Pt.y)
    rw [init_sorted l (hx.1.trans hX.1) (hy.1.trans hY.1)]
    refine ⟨rfl, ⟨hx.1.trans hX.1, hy.1.trans hY.1⟩, ?_, ?_⟩
    · intro q hq
      rcases List.mem_cons.1 hq with rfl | hq
      · exact ⟨hx.1, hX.1, hy.1, hY.1⟩
      · exact ⟨hx.2 _ (List.mem_map_of_mem hq), hX.2 _ (List.mem_map_of_mem hq), hy.2 _ (List.mem_map_of_mem hq),
          hY.2 _ (List.mem_map_of_mem hq)⟩
    · intro b' hb' x y ⟨h1, h2, h3, h4⟩
      have mem : ∀ (f : Pt → ℚ) (v : ℚ), v = f p ∨ v ∈ ps.map f → ∃ q ∈ p :: ps, v = f q := by
        intro f v h
        rcases h with h | h
        · exact ⟨p, by simp, h⟩
        · obtain ⟨q, hq, rfl⟩ := List.mem_map.1 h; exact ⟨q, by simp [hq], rfl⟩
      obtain ⟨q1, hq1, e1⟩ := mem Pt.x _ (foldl_min_mem p.x (ps.map Pt.x))
      obtain ⟨q2, hq2, e2⟩ := mem Pt.x _ (foldl_max_mem p.x (ps.map Pt.x))
      obtain ⟨q3, hq3, e3⟩ := mem Pt.y _ (foldl_min_mem p.y (ps.map Pt.y))
      obtain ⟨q4, hq4, e4⟩ := mem Pt.y _ (foldl_max_mem p.y (ps.map Pt.y))
      simp only [e1, e2, e3, e4] at h1 h2 h3 h4
      exact ⟨(hb' q1 hq1).1.trans h1, h2.trans (hb' q2 hq2).2.1, (hb' q3 hq3).2.2.1.trans h3, h4.trans (hb' q4 hq4).2.2.2⟩

example : Polygon.coordsToBB [⟨3, 1⟩, ⟨0, 2⟩, ⟨5, -1⟩] none = some ⟨0, -1, 5, 2, none⟩ := by
  decide +kernel

/-- C16 is false for copies: `deepcopy` goes through the constructor, so copying a polygon whose ring contained its start
point twice at the end loses a point at each copy. -/
theorem polygon_deepcopy_shrinks :
    (Polygon.init [⟨0, 0⟩, ⟨1, 1⟩, ⟨0, 0⟩, ⟨0, 0⟩]).exterior = [⟨0, 0⟩, ⟨1, 1⟩, ⟨0, 0⟩] ∧
    (Polygon.init [⟨0, 0⟩, ⟨1, 1⟩, ⟨0, 0⟩, ⟨0, 0⟩]).deepcopy.exterior = [⟨0, 0⟩, ⟨1, 1⟩] := by
  constructor <;> decide +kernel

/-- C16: a copy is faithful exactly if the polygon has fewer than two points or its first and last point are not close. -/
theorem polygon_deepcopy_faithful_iff (p : Polygon) :
    p.deepcopy = p ↔ ∀ a b, p.exterior.head? = some a → p.exterior.getLast? = some b → 2 ≤ p.exterior.length →
      ptClose a b = false := by
  have := polygon_init_cases p.exterior p.label
  unfold Polygon.deepcopy
  simp only [Option.getD_none]
  obtain ⟨hl, ⟨a, b, ha, hb, h2, hc, he⟩ | ⟨h, he⟩⟩ := this
  · constructor
    · intro h
      rw [h] at he
      have := congrArg List.length he
      rw [List.length_dropLast] at this
      omega
    · intro h
      rw [h a b ha hb h2] at hc
      exact absurd hc (by simp)
  · constructor
    · intro _; exact h
    · intro _
      cases p; cases hq : Polygon.init _ _
      simp_all

/-! ### C15 -/

/-- C15 (partial): unless the ring closes up at `k`, changing the first point to point `k` succeeds and yields all points
in the same cyclic order, starting at point `k`. Missing: rings with (almost) equal consecutive points at `k`, for which
the claim is false, see `polygon_rotate_loses_point`. -/
theorem polygon_rotate_partial (p : Polygon) (k : Nat) (hk : k < p.exterior.length) (hc : ¬ ClosesAt p k) :
    ∃ q, p.changeFirstPointByIndex k = some q ∧ q.label = p.label ∧ q.exterior.length = p.exterior.length ∧
      ∀ i < p.exterior.length, q.exterior[i]? = p.exterior[(k + i) % p.exterior.length]? := by
  refine ⟨_, change_first_eq p k hk hc, rfl, by simp; omega, ?_⟩
  intro i hi
  exact rotate_get _ _ _ hk hi

/-- C15 (partial): rotating on by `(n - k) % n` undoes the change. -/
theorem polygon_rotate_undo_partial (p : Polygon) (k : Nat) (hk : k < p.exterior.length) (hc : ¬ ClosesAt p k)
    (hc0 : ¬ ClosesAt p 0) :
    ∃ q, p.changeFirstPointByIndex k = some q ∧
      q.changeFirstPointByIndex (((p.exterior.length - k) % p.exterior.length : Nat) : Int) = some p := by
  refine ⟨_, change_first_eq p k hk hc, ?_⟩
  have hl : (p.exterior.drop k ++ p.exterior.take k).length = p.exterior.length := by simp; omega
  have hm : (p.exterior.length - k) % p.exterior.length < p.exterior.length := Nat.mod_lt _ (by omega)
  have hback : (p.exterior.drop k ++ p.exterior.take k).drop ((p.exterior.length - k) % p.exterior.length) ++
      (p.exterior.drop k ++ p.exterior.take k).take ((p.exterior.length - k) % p.exterior.length) = p.exterior := by
    by_cases h0 : k = 0
    · subst h0; simp
    · rw [Nat.mod_eq_of_lt (by omega)]
      rw [List.drop_append_of_le_length (by simp), List.take_append_of_le_length (by simp)]
      rw [show p.exterior.length - k = (p.exterior.drop k).length by simp, List.drop_length, List.take_length]
      simp
  rw [change_first_eq _ _ (by simpa [hl] using hm)]
  · simp only [hback]
  · intro ⟨h2, a, b, ha, hb, hab⟩
    simp only [hl] at h2 ha hb
    apply hc0
    refine ⟨h2, a, b, ?_, ?_, hab⟩
    · rw [rotate_get _ _ _ hk hm] at ha
      rw [← ha]; congr 1
      rw [Nat.add_mod_mod, show k + (p.exterior.length - k) = p.exterior.length by omega, Nat.mod_self]
    · rw [rotate_get _ _ _ hk (Nat.mod_lt _ (by omega))] at hb
      rw [← hb]; congr 1
      rw [Nat.add_mod_mod]
      by_cases h0 : k = 0
      · subst h0
        simp
      · rw [Nat.mod_eq_of_lt (show p.exterior.length - k < p.exterior.length by omega),
          show k + (p.exterior.length - k + p.exterior.length - 1) = (0 + p.exterior.length - 1) + p.exterior.length by omega,
          Nat.add_mod_right]

/-- C15: indices outside of `0..n-1` are rejected. -/
theorem polygon_rotate_invalid (p : Polygon) (k : Int) (hk : k < 0 ∨ (p.exterior.length : Int) ≤ k) :
    p.changeFirstPointByIndex k = none := by
  unfold Polygon.changeFirstPointByIndex
  rw [if_neg]; omega

/-- C15: a square satisfies the hypotheses at all indices. -/
example : ∀ k < 4, ¬ ClosesAt ⟨[⟨0, 0⟩, ⟨10, 0⟩, ⟨10, 10⟩, ⟨0, 10⟩], none⟩ k := by
  intro k hk ⟨_, a, b, ha, hb, hab⟩
  obtain rfl | rfl | rfl | rfl : k = 0 ∨ k = 1 ∨ k = 2 ∨ k = 3 := by omega
  all_goals simp at ha hb; subst ha hb; revert hab; decide +kernel

/-- C15 is false for polygons with two equal consecutive points: one of them is lost. -/
theorem polygon_rotate_loses_point :
    Polygon.changeFirstPointByIndex (Polygon.init [⟨0, 0⟩, ⟨1, 0⟩, ⟨1, 0⟩, ⟨0, 1⟩]) 2 =
      some ⟨[⟨1, 0⟩, ⟨0, 1⟩, ⟨0, 0⟩], none⟩ := by
  decide +kernel

end Imgaug.Props
