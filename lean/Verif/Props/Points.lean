import Verif.Proofs.Points
/-! C85: sampling points on images. -/
namespace Imgaug.Points.Props
open Imgaug Imgaug.Segments Imgaug.Points

/-- C85: the regular grid of an image: its drawn numbers of rows and columns are limited to `[1..H]` and `[1..W]`, and its points are the
centres of that many rectangles, row by row. -/
theorem grid_points (rows cols : List Int) (sizes : List Size) (hr : rows.length = sizes.length) (hc : cols.length = sizes.length)
    (hne : sizes ≠ []) :
    ∃ ps, samplePoints (.grid rows cols) sizes = some ps ∧ ps.length = sizes.length ∧
      ∀ (k : Nat) s r c, sizes[k]? = some s → rows[k]? = some r → cols[k]? = some c →
        ∃ l, ps[k]? = some l ∧ l.length = limited r s.1 * limited c s.2 ∧
          ∀ i j, i < limited r s.1 → j < limited c s.2 →
            l[i * limited c s.2 + j]? = some (gridPoint s (limited r s.1) (limited c s.2) i j) := by
  have hl : sizes.length ≠ 0 := by simpa using hne
  refine ⟨_, by rw [samplePoints, if_neg hl], by simp [hr, hc], ?_⟩
  intro k s r c hs hrk hck
  have hz : (sizes.zip (rows.zip cols))[k]? = some (s, r, c) :=
    (List.getElem?_zip_eq_some (z := (s, r, c))).2 ⟨hs, (List.getElem?_zip_eq_some (z := (r, c))).2 ⟨hrk, hck⟩⟩
  refine ⟨_, by rw [List.getElem?_map, hz]; rfl, ?_⟩
  simp only [clip_limited]
  have h1 := limited_bounds r s.1
  have h2 := limited_bounds c s.2
  exact ⟨grid_len s _ _ h1.1 h1.2 h2.1 h2.2, fun i j hi' hj => grid_get s _ _ h1.1 h1.2 h2.1 h2.2 i j hi' hj⟩

example : samplePoints (.grid [2, 9] [2, -3]) [(4, 6), (2, 0)] =
    some [[(3 / 2, 1), (9 / 2, 1), (3 / 2, 3), (9 / 2, 3)], [(0, 1 / 2), (0, 3 / 2)]] := by decide +kernel

/-- C85: the relative grid of an image has `round(H·frac)` rows and `round(W·frac)` columns, limited to `[1..H]` and `[1..W]`. -/
theorem relative_points (rows cols : List ℚ) (sizes : List Size) (hr : rows.length = sizes.length) (hc : cols.length = sizes.length)
    (hne : sizes ≠ []) :
    ∃ ps, samplePoints (.relative rows cols) sizes = some ps ∧ ps.length = sizes.length ∧
      ∀ (k : Nat) s r c, sizes[k]? = some s → rows[k]? = some r → cols[k]? = some c →
        ∃ l, ps[k]? = some l ∧ l.length = limited (npRound (r * s.1)) s.1 * limited (npRound (c * s.2)) s.2 ∧
          ∀ i j, i < limited (npRound (r * s.1)) s.1 → j < limited (npRound (c * s.2)) s.2 →
            l[i * limited (npRound (c * s.2)) s.2 + j]? =
              some (gridPoint s (limited (npRound (r * s.1)) s.1) (limited (npRound (c * s.2)) s.2) i j) := by
  have hl : sizes.length ≠ 0 := by simpa using hne
  refine ⟨_, by rw [samplePoints, if_neg hl], by simp [hr, hc], ?_⟩
  intro k s r c hs hrk hck
  have hz : (sizes.zip (rows.zip cols))[k]? = some (s, r, c) :=
    (List.getElem?_zip_eq_some (z := (s, r, c))).2 ⟨hs, (List.getElem?_zip_eq_some (z := (r, c))).2 ⟨hrk, hck⟩⟩
  refine ⟨_, by rw [List.getElem?_map, hz]; rfl, ?_⟩
  simp only [relCount, clip_limited]
  have h1 := limited_bounds (npRound (r * s.1)) s.1
  have h2 := limited_bounds (npRound (c * s.2)) s.2
  exact ⟨grid_len s _ _ h1.1 h1.2 h2.1 h2.2, fun i j hi' hj => grid_get s _ _ h1.1 h1.2 h2.1 h2.2 i j hi' hj⟩

example : samplePoints (.relative [1 / 2] [1 / 3]) [(4, 6)] = some [[(3 / 2, 1), (9 / 2, 1), (3 / 2, 3), (9 / 2, 3)]] := by decide +kernel

/-- C85: of uniformly sampled points every image gets as many as were drawn for it, at least one, from relative coordinates that no other image
uses; in the image plane they are at most half a pixel away from the relative coordinates. -/
theorem uniform_points (counts : List Int) (coords : List Pt) (sizes : List Size) (hc : counts.length = sizes.length)
    (hlen : coords.length = (counts.map atLeastOne).sum) (hu : ∀ c ∈ coords, (0 ≤ c.1 ∧ c.1 ≤ 1) ∧ (0 ≤ c.2 ∧ c.2 ≤ 1)) (hne : sizes ≠ []) :
    ∃ ps, samplePoints (.uniform counts coords) sizes = some ps ∧ ps.length = sizes.length ∧
      ∀ (k : Nat) s n, sizes[k]? = some s → counts[k]? = some n → ∃ l, ps[k]? = some l ∧ l.length = atLeastOne n ∧
        ∀ j, j < atLeastOne n → ∃ c p, coords[((counts.take k).map atLeastOne).sum + j]? = some c ∧ l[j]? = some p ∧ Inside s p ∧
          |p.1 - c.1 * s.2| ≤ 1 / 2 ∧ |p.2 - c.2 * s.1| ≤ 1 / 2 := by
  have hl : sizes.length ≠ 0 := by simpa using hne
  refine ⟨_, by rw [samplePoints, if_neg hl], by rw [uniform_len]; simp [hc], ?_⟩
  intro k s n hs hn
  have hz : (sizes.zip (counts.map (fun n => max n 1)))[k]? = some (s, max n 1) :=
    (List.getElem?_zip_eq_some (z := (s, max n 1))).2 ⟨hs, by simp [hn]⟩
  refine ⟨_, uniform_get coords 0 _ k s _ hz, ?_⟩
  have hk : k < counts.length := by by_contra h; rw [List.getElem?_eq_none (by omega)] at hn; cases hn
  have hoff : (((sizes.zip (counts.map (fun n => max n 1))).take k).map (fun q => q.2.toNat)).sum = ((counts.take k).map atLeastOne).sum := by
    congr 1
    rw [List.map_take, List.map_take]
    congr 1
    rw [show (fun q : Size × Int => q.2.toNat) = Int.toNat ∘ Prod.snd from rfl, ← List.map_map, List.map_snd_zip (by simp [hc]), List.map_map]
    apply List.map_congr_left
    intro m _
    exact atLeastOne_eq m
  rw [hoff, Nat.zero_add, atLeastOne_eq]
  have hroom : ((counts.take k).map atLeastOne).sum + atLeastOne n ≤ coords.length := by
    rw [hlen]
    have e : counts = counts.take k ++ n :: counts.drop (k + 1) := by
      have h1 := List.take_append_drop k counts
      rw [List.drop_eq_getElem_cons hk] at h1
      rw [List.getElem?_eq_getElem hk, Option.some.injEq] at hn
      rw [hn] at h1
      exact h1.symm
    conv_rhs => rw [e]
    rw [List.map_append, List.sum_append, List.map_cons, List.sum_cons]
    omega
  generalize ((counts.take k).map atLeastOne).sum = o at *
  refine ⟨by rw [List.length_map, List.length_take, List.length_drop]; omega, ?_⟩
  intro j hj
  have hjl : o + j < coords.length := by omega
  have hcj := List.getElem?_eq_getElem hjl
  refine ⟨coords[o + j], scaled s coords[o + j], hcj, ?_, scaled_inside s _, ?_, ?_⟩
  · rw [List.getElem?_map, List.getElem?_take, if_pos hj, List.getElem?_drop, hcj]
    rfl
  · have h := (hu _ (List.mem_of_getElem? hcj)).1
    have h0 : (0 : ℚ) ≤ s.2 := by positivity
    simp only [scaled]
    rw [round_clip _ _ (by nlinarith) (by nlinarith)]
    exact Imgaug.Props.npRound_dist _
  · have h := (hu _ (List.mem_of_getElem? hcj)).2
    have h0 : (0 : ℚ) ≤ s.1 := by positivity
    simp only [scaled]
    rw [round_clip _ _ (by nlinarith) (by nlinarith)]
    exact Imgaug.Props.npRound_dist _

example : samplePoints (.uniform [1, 0] [(1 / 2, 1 / 3), (1, 0)]) [(6, 4), (3, 3)] = some [[(2, 2)], [(3, 0)]] := by decide +kernel

/-- C85: dropout keeps, in their order, the points whose sample is above 0.5, and if there are none the point in the middle. -/
theorem dropout_points (points : List Pt) (samples : List ℚ) (h : samples.length = points.length) (hne : points ≠ []) :
    ((∃ v ∈ samples, v > 1 / 2) →
      dropPoints points (samples.map (fun v => decide (v > 1 / 2))) = ((points.zip samples).filter (fun q => decide (q.2 > 1 / 2))).map (·.1)) ∧
    ((∀ v ∈ samples, v ≤ 1 / 2) →
      ∃ p, points[(points.length - 1) / 2]? = some p ∧ dropPoints points (samples.map (fun v => decide (v > 1 / 2))) = [p]) := by
  have hpos : 0 < points.length := List.length_pos_iff.2 hne
  constructor
  · rintro ⟨v, hv, hv'⟩
    unfold dropPoints
    rw [if_neg (by omega)]
    simp only
    rw [if_neg (by simpa using ⟨v, hv, by simpa using hv'⟩)]
    clear h hne hpos hv
    induction points generalizing samples with
    | nil => simp
    | cons a l ih =>
      cases samples with
      | nil => simp
      | cons w ws =>
        simp only [List.map_cons, List.zip_cons_cons, List.filter_cons]
        split
        · simp only [List.map_cons]; congr 1; exact ih ws
        · exact ih ws
  · intro hall
    have hlt : (points.length - 1) / 2 < points.length := by omega
    refine ⟨points[(points.length - 1) / 2], List.getElem?_eq_getElem hlt, ?_⟩
    have hrep : samples.map (fun v => decide (v > 1 / 2)) = List.replicate points.length false := by
      rw [List.eq_replicate_iff]
      refine ⟨by simp [h], ?_⟩
      intro b hb
      obtain ⟨v, hv, rfl⟩ := List.mem_map.1 hb
      simpa using hall v hv
    unfold dropPoints
    rw [if_neg (by omega), hrep]
    simp only
    rw [if_pos (by simp)]
    have aux : ∀ (l : List Pt) (m : Nat) (hm : m < l.length),
        ((l.zip ((List.replicate l.length false).set m true)).filter (fun q => q.2)).map (·.1) = [l[m]] := by
      intro l
      induction l with
      | nil => intro m hm; simp at hm
      | cons a l ih =>
        intro m hm
        cases m with
        | zero =>
          simp only [List.length_cons, List.replicate_succ, List.set_cons_zero, List.zip_cons_cons, List.filter_cons, ↓reduceIte, List.map_cons,
            List.getElem_cons_zero]
          congr 1
          rw [List.map_eq_nil_iff, List.filter_eq_nil_iff]
          rintro ⟨x, b⟩ hx
          have := (List.of_mem_zip hx).2
          simp only [List.mem_replicate] at this
          simp [this.2]
        | succ m =>
          simp only [List.length_cons, List.replicate_succ, List.set_cons_succ, List.zip_cons_cons, List.filter_cons, Bool.false_eq_true,
            ↓reduceIte, List.getElem_cons_succ]
          exact ih m (by simpa using hm)
    exact aux points _ hlt

example : dropPoints [(1, 1), (2, 2), (3, 3), (4, 4)] [false, false, false, false] = [(2, 2)] := by decide +kernel

/-- C85: subsampling keeps all points if there are at most `n_points_max`, and otherwise picks `n_points_max` different ones of them. -/
theorem subsample_points (points : List Pt) (nMax : Int) (h0 : 0 ≤ nMax) (permutation : List Nat)
    (hp : permutation.Perm (List.range points.length)) :
    ((subsample points (max nMax (-1)) permutation).length : Int) = min nMax points.length ∧
    ((points.length : Int) ≤ nMax → subsample points (max nMax (-1)) permutation = points) ∧
    ∃ idx : List Nat, idx.Nodup ∧ (∀ i ∈ idx, i < points.length) ∧
      (subsample points (max nMax (-1)) permutation).map some = idx.map (fun i => points[i]?) := by
  rw [max_eq_left (by omega)]
  unfold subsample
  by_cases h : (points.length : Int) ≤ nMax
  · rw [if_pos h]
    refine ⟨by omega, fun _ => rfl, List.range points.length, List.nodup_range, by simp, ?_⟩
    apply List.ext_getElem
    · simp
    · intro i h1 h2
      simp only [List.length_map] at h1
      simp [List.getElem?_eq_getElem h1]
  · rw [if_neg h]
    have hlen := hp.length_eq
    rw [List.length_range] at hlen
    have hmem : ∀ i ∈ slice permutation nMax, i < points.length := by
      intro i hi'
      have := (slice_sub permutation nMax).subset hi'
      have := hp.subset this
      simpa using this
    refine ⟨by rw [List.length_map, slice_len _ _ h0, hlen]; omega, fun h' => absurd h' h, slice permutation nMax,
      ((hp.nodup_iff.2 List.nodup_range).sublist (slice_sub permutation nMax)), hmem, ?_⟩
    rw [List.map_map]
    apply List.map_congr_left
    intro i hi'
    simp [List.getElem?_eq_getElem (hmem i hi')]

example : subsample [(1, 1), (2, 2), (3, 3)] 2 [2, 0, 1] = [(3, 3), (1, 1)] := by decide +kernel

/-- C85 is false for negative limits, which are all treated like -1: of `n` points `n - 1` are kept instead of none (or an error). -/
theorem subsample_negative (points : List Pt) (nMax : Int) (h0 : nMax < 0) (permutation : List Nat)
    (hp : permutation.Perm (List.range points.length)) :
    (subsample points (max nMax (-1)) permutation).length = points.length - 1 := by
  rw [max_eq_right (by omega)]
  unfold subsample
  rw [if_neg (by omega), List.length_map]
  unfold slice
  have hlen := hp.length_eq
  rw [List.length_range] at hlen
  rw [if_neg (by omega), List.length_take, hlen]
  omega

example : subsample [(1, 1), (2, 2), (3, 3)] (max (-7) (-1)) [2, 0, 1] = [(3, 3), (1, 1)] := by decide +kernel

/-- C85: all samplers, however they are combined, return for every image a list of points in its image plane, and at least one point unless a
limit forbids it. -/
theorem points_inside (s : Sampler) (sizes : List Size) (hd : s.Draws sizes.length) (hne : sizes ≠ []) :
    ∃ ps, samplePoints s sizes = some ps ∧ ps.length = sizes.length ∧
      ∀ (k : Nat) size l, sizes[k]? = some size → ps[k]? = some l → (∀ p ∈ l, Inside size p) ∧ (s.Positive → l ≠ []) := by
  have hl : sizes.length ≠ 0 := by simpa using hne
  induction s with
  | grid rows cols =>
    refine ⟨_, by rw [samplePoints, if_neg hl], by simp [hd.1, hd.2], ?_⟩
    intro k size l hs hk
    rw [List.getElem?_map, Option.map_eq_some_iff] at hk
    obtain ⟨⟨s', r, c⟩, hz, rfl⟩ := hk
    obtain ⟨h1, _⟩ := (List.getElem?_zip_eq_some (z := (s', r, c))).1 hz
    rw [hs, Option.some.injEq] at h1
    subst h1
    simp only [clip_limited]
    have h1 := limited_bounds r size.1
    have h2 := limited_bounds c size.2
    refine ⟨grid_inside size _ _ h1.1 h1.2 h2.1 h2.2, fun _ => ?_⟩
    have := grid_len size _ _ h1.1 h1.2 h2.1 h2.2
    have hpos := Nat.mul_pos h1.1 h2.1
    intro he
    rw [he, List.length_nil] at this
    omega
  | relative rows cols =>
    refine ⟨_, by rw [samplePoints, if_neg hl], by simp [hd.1, hd.2], ?_⟩
    intro k size l hs hk
    rw [List.getElem?_map, Option.map_eq_some_iff] at hk
    obtain ⟨⟨s', r, c⟩, hz, rfl⟩ := hk
    obtain ⟨h1, _⟩ := (List.getElem?_zip_eq_some (z := (s', r, c))).1 hz
    rw [hs, Option.some.injEq] at h1
    subst h1
    simp only [relCount, clip_limited]
    have h1 := limited_bounds (npRound (r * size.1)) size.1
    have h2 := limited_bounds (npRound (c * size.2)) size.2
    refine ⟨grid_inside size _ _ h1.1 h1.2 h2.1 h2.2, fun _ => ?_⟩
    have := grid_len size _ _ h1.1 h1.2 h2.1 h2.2
    have hpos := Nat.mul_pos h1.1 h2.1
    intro he
    rw [he, List.length_nil] at this
    omega
  | uniform counts coords =>
    refine ⟨_, by rw [samplePoints, if_neg hl], by rw [uniform_len]; simp [hd.1], ?_⟩
    intro k size l hs hk
    have hkl : k < counts.length := by
      rw [hd.1]; by_contra h; rw [List.getElem?_eq_none (by omega)] at hs; cases hs
    have hn := List.getElem?_eq_getElem hkl
    have hz : (sizes.zip (counts.map (fun n => max n 1)))[k]? = some (size, max counts[k] 1) :=
      (List.getElem?_zip_eq_some (z := (size, max counts[k] 1))).2 ⟨hs, by simp [hn]⟩
    rw [uniform_get coords 0 _ k size _ hz] at hk
    cases hk
    refine ⟨?_, fun _ => ?_⟩
    · intro p hp
      obtain ⟨c, _, rfl⟩ := List.mem_map.1 hp
      exact scaled_inside size c
    · have hoff : (((sizes.zip (counts.map (fun n => max n 1))).take k).map (fun q => q.2.toNat)).sum = ((counts.take k).map atLeastOne).sum := by
        congr 1
        rw [List.map_take, List.map_take]
        congr 1
        rw [show (fun q : Size × Int => q.2.toNat) = Int.toNat ∘ Prod.snd from rfl, ← List.map_map, List.map_snd_zip (by simp [hd.1]), List.map_map]
        apply List.map_congr_left
        intro m _
        exact atLeastOne_eq m
      have hroom : ((counts.take k).map atLeastOne).sum + atLeastOne counts[k] ≤ coords.length := by
        rw [hd.2]
        have h1 := List.take_append_drop k counts
        rw [List.drop_eq_getElem_cons hkl] at h1
        conv_rhs => rw [← h1]
        rw [List.map_append, List.sum_append, List.map_cons, List.sum_cons]
        omega
      have := atLeastOne_pos counts[k]
      rw [hoff, atLeastOne_eq]
      intro he
      have := congrArg List.length he
      rw [List.length_map, List.length_take, List.length_drop, List.length_nil] at this
      omega
  | dropout other draw ih =>
    obtain ⟨ps, h1, h2, h3⟩ := ih hd.1
    refine ⟨_, by rw [samplePoints, if_neg hl, h1]; rfl, by simp [h2], ?_⟩
    intro k size l hs hk
    rw [List.getElem?_map, Option.map_eq_some_iff] at hk
    obtain ⟨⟨l0, m⟩, hz, rfl⟩ := hk
    rw [List.getElem?_zipIdx] at hz
    obtain ⟨l1, hl1, he⟩ := Option.map_eq_some_iff.1 hz
    cases he
    obtain ⟨h4, h5⟩ := h3 k size l0 hs hl1
    exact ⟨fun p hp => h4 p ((drop_sub _ _).subset hp), fun hpos => drop_nonempty _ _ (h5 hpos) (by simp [hd.2])⟩
  | subsampling other nMax permutation ih =>
    obtain ⟨ps, h1, h2, h3⟩ := ih hd.1
    refine ⟨_, by rw [samplePoints, if_neg hl, h1]; rfl, by simp [h2], ?_⟩
    intro k size l hs hk
    rw [List.getElem?_map, Option.map_eq_some_iff] at hk
    obtain ⟨⟨l0, m⟩, hz, rfl⟩ := hk
    rw [List.getElem?_zipIdx] at hz
    obtain ⟨l1, hl1, he⟩ := Option.map_eq_some_iff.1 hz
    cases he
    obtain ⟨h4, h5⟩ := h3 k size l0 hs hl1
    refine ⟨?_, fun hpos => ?_⟩
    · intro p hp
      unfold subsample at hp
      split at hp
      · exact h4 p hp
      · obtain ⟨i, hi', rfl⟩ := List.mem_map.1 hp
        have := (hd.2 (0 + k) l0.length).subset ((slice_sub _ _).subset hi')
        simp only [List.mem_range] at this
        apply h4
        rw [List.getD_eq_getElem?_getD, List.getElem?_eq_getElem this]
        exact List.getElem_mem this
    · obtain ⟨h6, _, _⟩ := subsample_points l0 nMax (by have := hpos.2; omega) _ (hd.2 (0 + k) l0.length)
      have h7 := h5 hpos.1
      have h8 : 0 < l0.length := List.length_pos_iff.2 h7
      have := hpos.2
      intro he
      rw [he, List.length_nil] at h6
      omega

example : (Sampler.subsampling (.dropout (.grid [2] [2]) (fun _ n => List.replicate n 1)) 3 (fun _ n => List.range n)).Draws 1 ∧
    samplePoints (.subsampling (.dropout (.grid [2] [2]) (fun _ n => List.replicate n 1)) 3 (fun _ n => List.range n)) [(4, 6)] =
      some [[(3 / 2, 1), (9 / 2, 1), (3 / 2, 3)]] := by
  refine ⟨⟨⟨⟨rfl, rfl⟩, fun i n => by simp⟩, fun i n => List.Perm.refl _⟩, by decide +kernel⟩

/-- C85: the sampler with dropout treats the points of every image on their own: those with a sample above 0.5 are kept (see `dropout_points`). -/
theorem dropout_images (other : Sampler) (draw : Nat → Nat → List ℚ) (sizes : List Size) (ps : List (List Pt))
    (h : samplePoints (.dropout other draw) sizes = some ps) :
    ∃ qs, samplePoints other sizes = some qs ∧ ps.length = qs.length ∧ ∀ (i : Nat) (points : List Pt), qs[i]? = some points →
      ps[i]? = some (dropPoints points ((draw i points.length).map (fun v => decide (v > 1 / 2)))) := by
  rw [samplePoints] at h
  split at h
  · simp at h
  obtain ⟨qs, h1, rfl⟩ := Option.map_eq_some_iff.1 h
  refine ⟨qs, h1, by simp, fun i points hi' => ?_⟩
  rw [List.getElem?_map, List.getElem?_zipIdx, hi']
  simp

example : samplePoints (.dropout (.grid [2] [1]) (fun _ _ => [1 / 2, 1])) [(4, 2)] = some [[(1, 3)]] := by decide +kernel

/-- C85: without images every sampler fails. -/
theorem no_images (s : Sampler) : samplePoints s [] = none := by cases s <;> rfl

/-- C85: the probability with which points are dropped: a number `p` or an interval `(a, b)` of numbers in [0,1] with `a < b`; points are then
kept with probability `1 - p`. A parameter decides directly which points are kept. -/
theorem p_drop {σ : Type} (p a b : ℚ) (s : σ) :
    convertPDrop (.number p : PDrop σ) = some (.binomial (1 - p)) ∧ convertPDrop (.param s) = some (.param s) ∧
    (convertPDrop (.iterable [a, b] : PDrop σ) = some (.binomialUniform (1 - b) (1 - a)) ↔ 0 ≤ a ∧ a < b ∧ b ≤ 1) ∧
    (convertPDrop (.iterable [a, b] : PDrop σ) = none ↔ ¬ (0 ≤ a ∧ a < b ∧ b ≤ 1)) ∧
    ∀ l : List ℚ, l.length ≠ 2 → convertPDrop (.iterable l : PDrop σ) = none := by
  have h : ∀ (P : Prop), (0 ≤ a ∧ a < b ∧ b ≤ 1 ↔ ¬ ¬ a < b ∧ ¬ ¬ ((0 ≤ a ∧ a ≤ 1) ∧ (0 ≤ b ∧ b ≤ 1))) := by
    intro _
    simp only [not_not]
    constructor
    · rintro ⟨h1, h2, h3⟩; exact ⟨h2, ⟨h1, by linarith⟩, by linarith, h3⟩
    · rintro ⟨h1, ⟨h2, _⟩, _, h3⟩; exact ⟨h2, h1, h3⟩
  refine ⟨rfl, rfl, ?_, ?_, fun l hl => by simp [convertPDrop, hl]⟩
  · rw [h True]
    simp only [convertPDrop, List.length_cons, List.length_nil, List.getD_cons_zero, List.getD_cons_succ]
    by_cases h1 : a < b
    · by_cases h2 : (0 ≤ a ∧ a ≤ 1) ∧ (0 ≤ b ∧ b ≤ 1)
      · simp [h1, h2]
      · simp [h1, h2]
    · simp [h1]
  · rw [h True]
    simp only [convertPDrop, List.length_cons, List.length_nil, List.getD_cons_zero, List.getD_cons_succ]
    by_cases h1 : a < b
    · by_cases h2 : (0 ≤ a ∧ a ≤ 1) ∧ (0 ≤ b ∧ b ≤ 1)
      · simp [h1, h2]
      · simp [h1, h2]
    · simp [h1]

/-- C85 is false for numbers as probability: they are not checked, and the interval `(a, a)` of a single probability is rejected. -/
theorem p_drop_unchecked : convertPDrop (.number (3 / 2) : PDrop Unit) = some (.binomial (-1 / 2)) ∧
    convertPDrop (.iterable [1 / 2, 1 / 2] : PDrop Unit) = none := by decide +kernel

end Imgaug.Points.Props
