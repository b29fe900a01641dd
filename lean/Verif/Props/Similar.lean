import Verif.Proofs.Similar
/-! C119: comparing annotations, and distances to line strings. -/
namespace Imgaug.Similar
open Imgaug Classical

/-- C119: Two line strings with points are almost equal if and only if every point of the one, and each of the given number of points that divide its
edges evenly, has a point of the other line string within less than the maximal distance, and vice versa. -/
theorem lines_compared {a b : List Pt} (ha : a ≠ []) (hb : b ≠ []) (d : ℝ) (n : Int) : linesAlmost a b d n = true ↔
    (∀ x y, Sample a n.toNat x y → Near b d x y) ∧ (∀ x y, Sample b n.toNat x y → Near a d x y) := lines_iff ha hb d n

/-- C119: Line strings without points are equal to each other and to no others. -/
theorem empty_lines (b : List Pt) (d : ℝ) (n : Int) : (linesAlmost [] b d n = true ↔ b = []) ∧ (linesAlmost b [] d n = true ↔ b = []) := by
  unfold linesAlmost
  constructor <;> by_cases h : b = [] <;> simp [h]

/-- C119: Line strings that are everywhere closer than the maximal distance are almost equal, however many points they have. -/
theorem close_lines_equal {a b : List Pt} (ha : a ≠ []) (hb : b ≠ []) (d : ℝ) (n : Int) (hab : ∀ x y, OnLine a x y → Near b d x y)
    (hba : ∀ x y, OnLine b x y → Near a d x y) : linesAlmost a b d n = true :=
  (lines_iff ha hb d n).2 ⟨fun x y h => hab x y (sample_on a _ x y h), fun x y h => hba x y (sample_on b _ x y h)⟩

/-- C119 (partial): If two line strings are almost equal, then every point of the one is close to the other: closer than the maximal distance plus
half of the distance of the points that are compared. Missing: the maximal distance itself, see `different_lines_equal`. -/
theorem lines_close_partial {a b : List Pt} (d L : ℝ) (n : Nat) (hL0 : 0 ≤ L) (hL : EdgesAtMost a L) (h : linesAlmost a b d n = true) (x y : ℝ)
    (hx : OnLine a x y) : Near b (d + L / (2 * (n + 1))) x y := by
  have ha : a ≠ [] := by
    rintro rfl
    rcases hx with ⟨a, h, _⟩ | ⟨i, a, b, t, h, _⟩
    · cases h
    · simp at h
  have hb : b ≠ [] := by
    rintro rfl
    exact ha ((empty_lines a d n).2.1 h)
  have hl := (lines_iff ha hb d n).1 h
  obtain ⟨u, v, hs, hd⟩ := near_sample a n L hL x y hx
  obtain ⟨p, q, hpq, hlt⟩ := hl.1 u v (by simpa using hs)
  refine ⟨p, q, hpq, ?_⟩
  have := eucl_triangle x y u v p q
  have h0 : 0 ≤ L / (2 * ((n : ℝ) + 1)) := by positivity
  rcases hd with hd | hd <;> linarith

/-- The hypotheses are met: two line strings of which one has a point more. -/
example : linesAlmost [⟨0, 0⟩, ⟨8, 0⟩] [⟨8, 0⟩, ⟨3, 0⟩, ⟨0, 0⟩] (1 / 10000) 8 = true := by
  have hsub : ∀ x y, OnLine [⟨0, 0⟩, ⟨8, 0⟩] x y → 0 ≤ x ∧ x ≤ 8 ∧ y = 0 := by
    rintro x y (⟨a, h, _⟩ | ⟨i, a, b, t, h1, h2, h0, ht, hx, hy⟩)
    · simp at h
    · match i, h1, h2 with
      | 0, h1, h2 =>
        simp at h1 h2
        subst h1 h2
        norm_num at hx hy
        exact ⟨by linarith, by linarith, hy⟩
      | i + 1, h1, h2 => simp at h2
  refine close_lines_equal (by simp) (by simp) _ _ ?_ ?_
  · intro x y h
    obtain ⟨h0, h8, rfl⟩ := hsub x y h
    refine ⟨x, 0, ?_, by rw [eucl_self]; norm_num⟩
    by_cases h3 : x ≤ 3
    · exact Or.inr ⟨1, ⟨3, 0⟩, ⟨0, 0⟩, 1 - x / 3, rfl, rfl, by linarith, by linarith, by norm_num; ring, by norm_num⟩
    · exact Or.inr ⟨0, ⟨8, 0⟩, ⟨3, 0⟩, (8 - x) / 5, rfl, rfl, by linarith, by linarith, by norm_num, by norm_num⟩
  · rintro x y (⟨a, h, _⟩ | ⟨i, a, b, t, h1, h2, h0, ht, hx, hy⟩)
    · simp at h
    · refine ⟨x, y, ?_, by rw [eucl_self]; norm_num⟩
      match i, h1, h2 with
      | 0, h1, h2 =>
        simp at h1 h2
        subst h1 h2
        norm_num at hx hy
        exact Or.inr ⟨0, ⟨0, 0⟩, ⟨8, 0⟩, x / 8, rfl, rfl, by linarith, by linarith, by norm_num, by norm_num [hy]⟩
      | 1, h1, h2 =>
        simp at h1 h2
        subst h1 h2
        norm_num at hx hy
        exact Or.inr ⟨0, ⟨0, 0⟩, ⟨8, 0⟩, x / 8, rfl, rfl, by linarith, by linarith, by norm_num, by norm_num [hy]⟩
      | i + 2, h1, h2 => simp at h2

/-- C119 is false in that the points in between are not looked at: with the default arguments, there are two line strings that are almost equal
although a point of the first is at least 1/2 away from all points of the second. (The documentation speaks of an approximate method.) -/
theorem different_lines_equal : ∃ (a b : List Pt) (x y : ℝ), linesAlmost a b (1 / 10000) 8 = true ∧ OnLine a x y ∧ ¬ Near b (1 / 2) x y :=
  ⟨rows, rows.map swap, 1 / 2, 1, rows_almost (1 / 10000) (by norm_num), rows_on, rows_far⟩

/-- C119: The order of the arguments does not matter. -/
theorem lines_symmetric (a b : List Pt) (d : ℝ) (n : Int) : linesAlmost a b d n = linesAlmost b a d n := by
  rw [Bool.eq_iff_iff]
  by_cases ha : a = []
  · subst ha; rw [(empty_lines b d n).1, (empty_lines b d n).2]
  · by_cases hb : b = []
    · subst hb; rw [(empty_lines a d n).1, (empty_lines a d n).2]
    · rw [lines_iff ha hb, lines_iff hb ha, and_comm]

/-- C119: A line string is almost equal to itself, if and only if the maximal distance is positive. -/
theorem line_itself {a : List Pt} (ha : a ≠ []) (d : ℝ) (n : Int) : linesAlmost a a d n = true ↔ 0 < d := by
  refine ⟨fun h => ?_, fun h => same_track ha rfl d h n⟩
  obtain ⟨p, hp⟩ := List.exists_mem_of_ne_nil a ha
  obtain ⟨u, v, _, hd⟩ := ((lines_iff ha ha d n).1 h).1 p.x p.y (Or.inl ⟨p, hp, rfl, rfl⟩)
  exact lt_of_le_of_lt (eucl_nonneg _ _ _ _) hd

/-- C119: Neither the direction of a line string nor points added on its edges matter. -/
theorem line_rewritten {a : List Pt} (ha : a ≠ []) (d : ℝ) (hd : 0 < d) (n m : Int) :
    linesAlmost a a.reverse d n = true ∧ linesAlmost a (Polygon.lsSubdivide a m) d n = true :=
  ⟨same_track ha (track_reverse a).symm d hd n, same_track ha (subdivide_track a m).symm d hd n⟩

/-- C119: The point at which a polygon starts does not matter. -/
theorem polygon_start (l r : List Pt) (label label' : Option String) (d : ℝ) (hd : 0 < d) (n : Int) (h : l ++ r ≠ []) :
    polysAlmost ⟨l ++ r, label⟩ ⟨r ++ l, label'⟩ d n = true := by
  match l, r with
  | [], r =>
    simp only [List.nil_append, List.append_nil] at *
    unfold polysAlmost
    refine same_track ?_ rfl d hd n
    unfold Polygon.toLineString
    split <;> simp_all
  | a :: l, [] =>
    simp only [List.nil_append, List.append_nil] at *
    unfold polysAlmost
    refine same_track ?_ rfl d hd n
    unfold Polygon.toLineString
    split <;> simp_all
  | a :: l, b :: r =>
    unfold polysAlmost
    refine same_track ?_ ?_ d hd n
    · unfold Polygon.toLineString
      split <;> simp
    · unfold Polygon.toLineString
      rw [if_neg (by simp), if_neg (by simp)]
      exact ring_turn l r a b

/-- C119: Polygons are compared by the closed lines around them: all points and the points dividing the edges, also the edge from the last point to
the first one, must be close to an edge of the other polygon. -/
theorem polygons_compared (p q : Polygon) (hp : 2 ≤ p.exterior.length) (hq : 2 ≤ q.exterior.length) (d : ℝ) (n : Int) : polysAlmost p q d n = true ↔
    (∀ x y, Sample (p.exterior ++ p.exterior.take 1) n.toNat x y → Near (q.exterior ++ q.exterior.take 1) d x y) ∧
    (∀ x y, Sample (q.exterior ++ q.exterior.take 1) n.toNat x y → Near (p.exterior ++ p.exterior.take 1) d x y) := by
  have h1 : p.exterior ≠ [] := by rintro h; simp [h] at hp
  have h2 : q.exterior ≠ [] := by rintro h; simp [h] at hq
  unfold polysAlmost Polygon.toLineString
  rw [if_neg (by simp; omega), if_neg (by simp; omega)]
  exact lines_iff (by simp [h1]) (by simp [h2]) d n

example : polysAlmost ⟨[⟨0, 0⟩, ⟨4, 0⟩, ⟨4, 4⟩], none⟩ ⟨[⟨4, 4⟩, ⟨0, 0⟩, ⟨4, 0⟩], none⟩ (1 / 10000) 8 = true :=
  polygon_start [⟨0, 0⟩, ⟨4, 0⟩] [⟨4, 4⟩] none none _ (by norm_num) 8 (by simp)

/-- C119: `almost_equals` additionally compares the labels, for line strings, polygons and bounding boxes. -/
theorem labels_compared (a b : Line) (p q : Polygon) (s t : BB) (d : ℝ) (e : ℚ) (n : Int) :
    (a.almost b d n = true ↔ a.label = b.label ∧ linesAlmost a.coords b.coords d n = true) ∧
    (polyAlmost p q d n = true ↔ p.label = q.label ∧ polysAlmost p q d n = true) ∧
    (boxAlmost s (.box t) e = some true ↔ s.label = t.label ∧ boxCoordsAlmost s [t.x1, t.y1, t.x2, t.y2] e = some true) := by
  refine ⟨?_, ?_, ?_⟩
  · unfold Line.almost; by_cases h : a.label = b.label <;> simp [h]
  · unfold polyAlmost; by_cases h : p.label = q.label <;> simp [h]
  · unfold boxAlmost boxCoords; by_cases h : s.label = t.label <;> simp [h]

/-- C119: Keypoints are almost equal if and only if they differ at most by the maximal distance on each axis. -/
theorem keypoints_compared (p q : Pt) (d : ℚ) : kpAlmost p [q.x, q.y] d = some (decide (|p.x - q.x| ≤ d ∧ |p.y - q.y| ≤ d)) := by
  simp [kpAlmost, allClose, kpCoords]

/-- C119: Bounding boxes have almost equal coordinates if and only if all four coordinates differ at most by the maximal distance. -/
theorem boxes_compared (s t : BB) (d : ℚ) : boxCoordsAlmost s [t.x1, t.y1, t.x2, t.y2] d =
    some (decide (|s.x1 - t.x1| ≤ d ∧ |s.y1 - t.y1| ≤ d ∧ |s.x2 - t.x2| ≤ d ∧ |s.y2 - t.y2| ≤ d)) := by
  simp [boxCoordsAlmost, allClose, boxCoords]

/-- C119 (partial): Keypoints whose euclidean distance is at most the maximal distance are almost equal, and almost equal keypoints are not farther
apart than the square root of two times the maximal distance. Missing: that almost equal keypoints are not farther apart than the maximal distance,
see `distant_keypoints_equal`. -/
theorem keypoints_distance_partial (p q : Pt) (d : ℚ) :
    (eucl p.x p.y q.x q.y ≤ d → kpAlmost p [q.x, q.y] d = some true) ∧
    (kpAlmost p [q.x, q.y] d = some true → eucl p.x p.y q.x q.y ≤ Real.sqrt 2 * d) := by
  rw [keypoints_compared]
  simp only [Option.some.injEq, decide_eq_true_eq]
  constructor
  · intro h
    have hx : |((p.x : ℝ) - q.x)| ≤ d := by
      refine le_trans ?_ h
      rw [← Real.sqrt_sq_eq_abs]
      exact Real.sqrt_le_sqrt (by nlinarith [sq_nonneg ((p.y : ℝ) - q.y)])
    have hy : |((p.y : ℝ) - q.y)| ≤ d := by
      refine le_trans ?_ h
      rw [← Real.sqrt_sq_eq_abs]
      exact Real.sqrt_le_sqrt (by nlinarith [sq_nonneg ((p.x : ℝ) - q.x)])
    exact ⟨by exact_mod_cast hx, by exact_mod_cast hy⟩
  · rintro ⟨hx, hy⟩
    have h0 : (0 : ℝ) ≤ d := by exact_mod_cast le_trans (abs_nonneg _) hx
    have hx' : |((p.x : ℝ) - q.x)| ≤ d := by exact_mod_cast hx
    have hy' : |((p.y : ℝ) - q.y)| ≤ d := by exact_mod_cast hy
    unfold eucl
    rw [← Real.sqrt_sq h0, ← Real.sqrt_mul (by norm_num)]
    apply Real.sqrt_le_sqrt
    have := sq_le_sq' (abs_le.1 hx').1 (abs_le.1 hx').2
    have := sq_le_sq' (abs_le.1 hy').1 (abs_le.1 hy').2
    linarith

example : kpAlmost ⟨1, 2⟩ [1 + 1 / 20000, 2] (1 / 10000) = some true := by
  rw [keypoints_compared ⟨1, 2⟩ ⟨1 + 1 / 20000, 2⟩]; norm_num [abs_le]

/-- C119 is false of the documented euclidean distance: two keypoints (and in the same way two bounding boxes) with a distance greater than the
maximal distance are almost equal. -/
theorem distant_keypoints_equal : kpAlmost ⟨0, 0⟩ [1, 1] 1 = some true ∧ (1 : ℝ) < eucl 0 0 1 1 ∧
    boxCoordsAlmost ⟨0, 0, 5, 5, none⟩ [1, 1, 6, 6] 1 = some true := by
  refine ⟨by decide +kernel, ?_, by decide +kernel⟩
  unfold eucl
  rw [Real.lt_sqrt (by norm_num)]
  norm_num

/-- C119 is false in that keypoints at exactly the maximal distance are almost equal, while line strings of one point each are not. -/
theorem border_differs : kpAlmost ⟨0, 0⟩ [1, 0] 1 = some true ∧ linesAlmost [⟨0, 0⟩] [⟨1, 0⟩] 1 8 = false := by
  refine ⟨by decide +kernel, ?_⟩
  rw [Bool.eq_false_iff]
  intro h
  obtain ⟨u, v, hon, hd⟩ := ((lines_iff (by simp) (by simp) 1 8).1 h).1 0 0 (Or.inl ⟨⟨0, 0⟩, by simp, by simp, by simp⟩)
  rcases hon with ⟨a, h, hx, hy⟩ | ⟨i, a, b, t, _, h2, _⟩
  · simp only [List.cons.injEq, and_true] at h
    subst h
    norm_num at hx hy
    subst hx hy
    norm_num [eucl] at hd
  · simp at h2

/-- C119: A keypoint is compared with two coordinates, a bounding box with four; other numbers of coordinates raise an error, except for one. -/
theorem wrong_length (p : Pt) (b : BB) (l : List ℚ) (d : ℚ) :
    (kpAlmost p l d = none ↔ l.length ≠ 2 ∧ l.length ≠ 1) ∧ (boxCoordsAlmost b l d = none ↔ l.length ≠ 4 ∧ l.length ≠ 1) := by
  unfold kpAlmost boxCoordsAlmost allClose kpCoords boxCoords
  match l with
  | [] => simp
  | [_] => simp
  | [_, _] => simp
  | [_, _, _] => simp
  | [_, _, _, _] => simp
  | _ :: _ :: _ :: _ :: _ :: l => simp

/-- C119 is false in that a single number is accepted in place of the coordinates: it is compared with each of them. -/
theorem one_number : kpAlmost ⟨3, 3⟩ [3] (1 / 10000) = some true ∧ boxCoordsAlmost ⟨3, 3, 3, 3, none⟩ [3] (1 / 10000) = some true := by
  decide +kernel

/-- C119 is false in that `almost_equals` of bounding boxes is documented to accept coordinates, but always fails for them. -/
theorem coordinates_fail (b : BB) (l : List ℚ) (d : ℚ) : boxAlmost b (.coords l) d = none := rfl

/-- C119: The distance of a line string to another object is the smallest of the distances of its points to the other object: no point of the line
string is closer to a point of the other object, and one has a point of the other object in every larger distance. It is the default value if and
only if one of both has no points. -/
theorem distance_of_points (a : List Pt) (o : Other) : (distance a o = none ↔ a = [] ∨ o.coords = []) ∧
    ∀ r, distance a o = some r → (∀ p ∈ a, ∀ x y, OnLine o.coords x y → r ≤ eucl p.x p.y x y) ∧ (∃ p ∈ a, ∀ r', r < r' → Near o.coords r' p.x p.y) := by
  unfold distance pointwise
  by_cases ho : o.coords = []
  · simp [ho]
  · simp only [if_neg ho, Option.getD_some]
    cases a with
    | nil => simp
    | cons q a =>
      simp only [List.map_cons, reduceCtorEq, ho, or_false, Option.some.injEq, true_and]
      rintro r rfl
      have hm := minOf_mem (Metric.infDist (toC q) (track o.coords)) (a.map (fun p => Metric.infDist (toC p) (track o.coords)))
      rw [← List.map_cons (f := fun p => Metric.infDist (toC p) (track o.coords))] at hm
      constructor
      · intro p hp x y hxy
        refine le_trans (hm.2 _ (List.mem_map.2 ⟨p, hp, rfl⟩)) ?_
        have := Metric.infDist_le_dist_of_mem (x := toC p) ((track_iff o.coords ⟨x, y⟩).2 hxy)
        rwa [dist_eucl] at this
      · obtain ⟨p, hp, he⟩ := List.mem_map.1 hm.1
        exact ⟨p, hp, fun r' hr => (inf_lt ho (toC p) r').1 (by simpa only [he] using hr)⟩

/-- C119 (partial): If `contains` says that a point is on a line string, then a point of the line string is closer than the maximal distance.
Missing: the converse, see `middle_not_contained`. -/
theorem contains_sound_partial (a : List Pt) (p : Pt) (d : ℝ) (h : contains a (.point p) d = true) : Near a d p.x p.y := by
  have := (contains_iff a p d).1 h
  obtain ⟨q, hq, hd⟩ := this
  have hon := vertex_track hq
  rw [track_iff] at hon
  refine ⟨_, _, hon, ?_⟩
  rw [← eucl_comm]
  exact hd

/-- C119: `contains` says that a point is on a line string if and only if one of the points that define the line string is closer than the maximal
distance. -/
theorem contains_vertices (a : List Pt) (p : Pt) (d : ℝ) : contains a (.point p) d = true ↔ ∃ q ∈ a, eucl q.x q.y p.x p.y < d := contains_iff a p d

/-- C119 is false of points inside of edges: a point in the middle of a line string is not contained in it, and its distance to the line string is
half of the length of the edge, while the point has the distance 0. -/
theorem middle_not_contained : OnLine [⟨0, 0⟩, ⟨10, 0⟩] 5 0 ∧ contains [⟨0, 0⟩, ⟨10, 0⟩] (.point ⟨5, 0⟩) (1 / 10000) = false ∧
    distance [⟨0, 0⟩, ⟨10, 0⟩] (.point ⟨5, 0⟩) = some 5 ∧ distance [⟨5, 0⟩] (.line [⟨0, 0⟩, ⟨10, 0⟩]) = some 0 := by
  refine ⟨Or.inr ⟨0, ⟨0, 0⟩, ⟨10, 0⟩, 1 / 2, rfl, rfl, by norm_num, by norm_num, by norm_num, by norm_num⟩, ?_, ?_, ?_⟩
  · rw [Bool.eq_false_iff]
    intro h
    obtain ⟨q, hq, hd⟩ := (contains_iff _ _ _).1 h
    simp only [List.mem_cons, List.not_mem_nil, or_false] at hq
    have h5 : √(25 : ℝ) = 5 := by rw [show (25 : ℝ) = 5 ^ 2 by norm_num, Real.sqrt_sq (by norm_num)]
    rcases hq with rfl | rfl <;> norm_num [eucl, h5] at hd
  · norm_num [distance, pointwise, Other.coords, track, minOf, Metric.infDist_singleton, dist_eucl, eucl, toC]
    rw [show (25 : ℝ) = 5 ^ 2 by norm_num, Real.sqrt_sq (by norm_num)]
  · simp only [distance, pointwise, Other.coords, List.map_cons, List.map_nil, minOf, List.foldr_nil, reduceCtorEq, if_false, Option.getD_some, Option.some.injEq]
    apply Metric.infDist_zero_of_mem
    rw [track_iff]
    exact Or.inr ⟨0, ⟨0, 0⟩, ⟨10, 0⟩, 1 / 2, rfl, rfl, by norm_num, by norm_num, by norm_num [toC], by norm_num [toC]⟩

end Imgaug.Similar
