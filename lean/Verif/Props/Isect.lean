import Verif.Proofs.Isect
import Mathlib.Tactic.FinCases
/-! C126: where segments and outlines cross. -/
namespace Imgaug.Isect.Props
open Imgaug Imgaug.Props Imgaug.Isect

/-- A tree without any order. -/
def demoTree : Tree (List Ev) where
  empty := []
  insert _ e t := some (e :: t)
  remove _ e t := some (t.any (fun f => f.id == e.id), t.filter (fun f => f.id != e.id))
  above _ e t := t.find? (fun f => f.id != e.id)
  below _ e t := t.reverse.find? (fun f => f.id != e.id)
  slice _ _ t := t

theorem demoTree_ok : demoTree.Ok (fun t e => e ∈ t) where
  empty e h := by simp [demoTree] at h
  insert c e t t' h f hf := by
    obtain rfl := Option.some.inj h
    exact List.mem_cons.mp hf
  remove c e t r h f hf := by
    obtain rfl := Option.some.inj h
    exact (List.mem_filter.mp hf).1
  above c e t f h := List.mem_of_find?_eq_some h
  below c e t f h := List.mem_reverse.mp (List.mem_of_find?_eq_some h)
  slice c e t f h := h

def cross1 : Seg := (⟨0, 0⟩, ⟨4, 4⟩)
def cross2 : Seg := (⟨0, 4⟩, ⟨4, 0⟩)
def cross3 : Seg := (⟨3, 5⟩, ⟨3, -1⟩)

/-- C126: the intersection of two segments is the point that lies on both of them (ends included), if their directions differ. -/
theorem crossing_point (s t : Seg) (p : Pt) : point s t = some p ↔ Crosses p s t := point_iff s t p

example : Crosses ⟨2, 2⟩ cross1 cross2 := by
  refine ⟨by unfold Parallel cross1 cross2; norm_num, ⟨1 / 2, ?_⟩, ⟨1 / 2, ?_⟩⟩ <;> norm_num [cross1, cross2]

example : point cross1 cross2 = some ⟨2, 2⟩ ∧ point cross1 (⟨0, 4⟩, ⟨4, 5⟩) = none := by decide +kernel

/-- C126: in which direction the segments are given and which of them is the first does not matter. -/
theorem same_point (s t : Seg) : point t s = point s t ∧ point (s.2, s.1) t = point s t ∧ point s (t.2, t.1) = point s t := by
  refine ⟨?_, ?_, ?_⟩ <;> apply Option.ext <;> intro p <;> simp only [point_iff]
  · exact crosses_comm
  · exact crosses_swap
  · rw [crosses_comm, crosses_swap, crosses_comm]

/-- C126 is false of segments on the same line: they have common points, but none is found. -/
theorem overlapping_not_found : ∃ (s t : Seg) (p : Pt), OnSeg p s ∧ OnSeg p t ∧ NoCommonEnd s t ∧ point s t = none := by
  refine ⟨(⟨0, 0⟩, ⟨4, 0⟩), (⟨2, 0⟩, ⟨6, 0⟩), ⟨3, 0⟩, ⟨3 / 4, by norm_num⟩, ⟨1 / 4, by norm_num⟩, by unfold NoCommonEnd; decide +kernel, by decide +kernel⟩

/-- C126: the naive search finds exactly the points at which two of the segments without a common end cross. -/
theorem naive_finds (l : List Seg) (p : Pt) :
    p ∈ naive l ↔ ∃ (i j : Nat) (s t : Seg), i < j ∧ l[i]? = some s ∧ l[j]? = some t ∧ NoCommonEnd s t ∧ Crosses p s t := by
  unfold naive
  have side : ∀ s : Seg, (if s.1.x ≤ s.2.x then s else (s.2, s.1)) = s ∨ (if s.1.x ≤ s.2.x then s else (s.2, s.1)) = (s.2, s.1) := by
    intro s
    by_cases h : s.1.x ≤ s.2.x
    · rw [if_pos h]; exact Or.inl rfl
    · rw [if_neg h]; exact Or.inr rfl
  have key : ∀ s t s' t' : Seg, (s' = s ∨ s' = (s.2, s.1)) → (t' = t ∨ t' = (t.2, t.1)) →
      ((if apart s' t' then point s' t' else none) = some p ↔ NoCommonEnd s t ∧ Crosses p s t) := by
    intro s t s' t' hs ht
    have h1 : NoCommonEnd s' t' ↔ NoCommonEnd s t := by
      rcases hs with rfl | rfl <;> rcases ht with rfl | rfl <;> unfold NoCommonEnd <;> tauto
    have h2 : point s' t' = point s t := by
      rcases hs with rfl | rfl <;> rcases ht with rfl | rfl <;> simp only [(same_point _ _).2.1, (same_point _ _).2.2]
    by_cases ha : apart s' t' = true
    · rw [if_pos ha, h2, point_iff]
      exact ⟨fun h => ⟨h1.mp ((apart_iff _ _).mp ha), h⟩, fun h => h.2⟩
    · rw [if_neg ha]
      refine ⟨fun h => by simp at h, fun h => absurd ((apart_iff _ _).mpr (h1.mpr h.1)) ha⟩
  rw [List.mem_filterMap]
  constructor
  · rintro ⟨q, hq, hp⟩
    obtain ⟨i, j, hij, h1, h2⟩ := mem_pairs.mp hq
    rw [List.getElem?_map] at h1 h2
    obtain ⟨s, hs, e1⟩ := Option.map_eq_some_iff.mp h1
    obtain ⟨t, ht, e2⟩ := Option.map_eq_some_iff.mp h2
    exact ⟨i, j, s, t, hij, hs, ht, (key s t q.1 q.2 (e1 ▸ side s) (e2 ▸ side t)).mp hp⟩
  · rintro ⟨i, j, s, t, hij, hs, ht, h⟩
    refine ⟨(_, _), mem_pairs.mpr ⟨i, j, hij, ?_, ?_⟩, (key s t _ _ (side s) (side t)).mpr h⟩
    · rw [List.getElem?_map, hs]; rfl
    · rw [List.getElem?_map, ht]; rfl

example : naive [cross1, cross2, cross3] = [⟨2, 2⟩, ⟨3, 3⟩, ⟨3, 1⟩] := by decide +kernel

/-- C126: the naive search for polygons finds exactly the points at which two edges without a common end cross, except for those at ends of
both edges. -/
theorem naive_polygon_finds (l : List Pt) (p : Pt) :
    p ∈ naivePolygon l ↔ ∃ (i j : Nat) (s t : Seg), i < j ∧ IsEdge l i s ∧ IsEdge l j t ∧ NoCommonEnd s t ∧ Crosses p s t ∧
      ¬ (AtEnd p s ∧ AtEnd p t) := by
  unfold naivePolygon
  have key : ∀ s t : Seg, ((if apart s t then (point s t).filter (fun p => !(ends p s && ends p t)) else none) = some p ↔
      NoCommonEnd s t ∧ Crosses p s t ∧ ¬ (AtEnd p s ∧ AtEnd p t)) := by
    intro s t
    by_cases ha : apart s t = true
    · rw [if_pos ha, Option.filter_eq_some_iff, point_iff, ← ends_iff, ← ends_iff, ← apart_iff]
      simp only [ha, true_and, Bool.not_eq_true', Bool.and_eq_false_iff, not_and, Bool.not_eq_true]
      cases ends p s <;> cases ends p t <;> simp
    · rw [if_neg ha]
      exact ⟨fun h => by simp at h, fun h => absurd ((apart_iff _ _).mpr h.1) ha⟩
  rw [List.mem_filterMap]
  constructor
  · rintro ⟨q, hq, hp⟩
    obtain ⟨i, j, hij, h1, h2⟩ := mem_pairs.mp hq
    exact ⟨i, j, q.1, q.2, hij, (ring_edge _ _ _).mp h1, (ring_edge _ _ _).mp h2, (key _ _).mp hp⟩
  · rintro ⟨i, j, s, t, hij, hs, ht, h⟩
    exact ⟨(s, t), mem_pairs.mpr ⟨i, j, hij, (ring_edge _ _ _).mpr hs, (ring_edge _ _ _).mpr ht⟩, (key s t).mpr h⟩

/-- An outline in the form of an hourglass. -/
def hourglass : List Pt := [⟨0, 0⟩, ⟨4, 4⟩, ⟨4, 0⟩, ⟨0, 4⟩]

example : naivePolygon hourglass = [⟨2, 2⟩] := by decide +kernel

/-- C126: whatever the sweep line does, and however often, each reported point is reported once, lies on all the segments reported with it,
which are among the given ones, and at least two of these cross there, and not with their ends. -/
theorem reported {T : Type} (V : Tree T) (mem : T → Ev → Prop) (hV : V.Ok mem) (perm : List Ev → List Ev) (hperm : ∀ l, (perm l).Perm l) (n : Nat)
    (l : List Seg) (r : List (Pt × List Seg)) (h : search V perm n l = some r) :
    (r.map (fun i => i.1)).Nodup ∧ ∀ i ∈ r, (∀ s ∈ i.2, Among s l ∧ OnSeg i.1 s) ∧
      ∃ s ∈ i.2, ∃ t ∈ i.2, Crosses i.1 s t ∧ ¬ (AtEnd i.1 s ∧ AtEnd i.1 t) := by
  unfold search at h
  obtain ⟨st, hst, rfl⟩ := Option.map_eq_some_iff.mp h
  have I0 : Inv mem (l.map order) ⟨[], offerAll 0 (l.map order) [], 0, true, V.empty⟩ :=
    ⟨by simp, by simp, offerAll_good (fun s hs => hs) (by simp), fun e he => absurd he (hV.empty e)⟩
  have I := run_inv hV hperm I0 hst
  refine ⟨?_, ?_⟩
  · rw [List.map_map]; exact I.keys
  · intro i hi
    obtain ⟨k, hk, rfl⟩ := List.mem_map.mp hi
    obtain ⟨h1, a, ha, b, hb, h2⟩ := I.inter k hk
    refine ⟨?_, a.seg, List.mem_map.mpr ⟨a, (hperm _).mem_iff.mpr ha, rfl⟩, b.seg, List.mem_map.mpr ⟨b, (hperm _).mem_iff.mpr hb, rfl⟩, h2⟩
    intro s hs
    obtain ⟨e, he, rfl⟩ := List.mem_map.mp hs
    obtain ⟨g1, g2⟩ := h1 e ((hperm _).mem_iff.mp he)
    exact ⟨order_among _ g1, g2⟩

example : search demoTree id 20 [cross1, cross2, cross3] =
    some [(⟨3, 1⟩, [(⟨3, -1⟩, ⟨3, 5⟩), cross2]), (⟨3, 3⟩, [(⟨3, -1⟩, ⟨3, 5⟩), cross1]), (⟨2, 2⟩, [cross2, cross1])] := by decide +kernel

/-- C126: the search is sound in the sense required below. -/
theorem search_sound {T : Type} (V : Tree T) (mem : T → Ev → Prop) (hV : V.Ok mem) (perm : List Ev → List Ev) (hperm : ∀ l, (perm l).Perm l) (n : Nat) :
    Sound (search V perm n) := by
  intro l r h i hi
  obtain ⟨-, h2⟩ := reported V mem hV perm hperm n l r h
  obtain ⟨h3, s, hs, -⟩ := h2 i hi
  exact ⟨List.ne_nil_of_mem hs, h3⟩

/-- C126: the points found for an outline: there is a list for each point of the outline; its points lie on the edge from this point to the next one,
with coordinates rounded to four decimals, and are sorted by their distance to the start of the edge. If the search succeeds and no coordinate
is too large, each point found is in one of the lists, and nothing else; otherwise the lists are empty. -/
theorem points_per_edge (find : List Seg → Option (List (Pt × List Seg))) (hf : Sound find) (limit : ℚ) (max : ℝ) (hmax : 0 < max) (l r : List Pt)
    (hr : Rounded l r) : ∃ add, generate find limit max l = some add ∧ add.length = l.length ∧
      (∀ (i : Nat) (s : Seg) (ps : List Pt), IsEdge r i s → add[i]? = some ps →
        (∀ p ∈ ps, OnSeg p s) ∧ ps.Pairwise (fun p q => sqDist s.1 p ≤ sqDist s.1 q)) ∧
      ((∀ p ∈ l, |p.x| ≤ limit ∧ |p.y| ≤ limit) → ∀ (segs : List Seg) (res : List (Pt × List Seg)), segs.length = r.length →
        (∀ (i : Nat) (s : Seg), segs[i]? = some s → IsEdge r i s) → find segs = some res → add.flatten.Perm (res.map (fun i => i.1))) ∧
      ((∃ p ∈ l, limit < |p.x| ∨ limit < |p.y|) → ∀ ps ∈ add, ps = []) := by
  have hround : l.map (fun p => (⟨round4 p.x, round4 p.y⟩ : Pt)) = r := by
    apply List.ext_getElem?
    intro i
    rw [List.getElem?_map]
    cases h1 : l[i]? with
    | none =>
      have : r.length ≤ i := by rw [hr.1]; exact List.getElem?_eq_none_iff.mp h1
      rw [List.getElem?_eq_none this]; rfl
    | some p =>
      have hi : i < r.length := by rw [hr.1]; exact (List.getElem?_eq_some_iff.mp h1).1
      rw [List.getElem?_eq_getElem hi, hr.2 i p _ h1 (List.getElem?_eq_getElem hi)]
      rfl
  have hedges : ∀ segs : List Seg, segs.length = r.length → (∀ (i : Nat) (s : Seg), segs[i]? = some s → IsEdge r i s) → segs = edges l := by
    intro segs h1 h2
    unfold edges
    rw [hround]
    apply List.ext_getElem?
    intro i
    cases h : segs[i]? with
    | none =>
      have : segs.length ≤ i := List.getElem?_eq_none_iff.mp h
      rw [List.getElem?_eq_none (by rw [ring_length]; omega)]
    | some s => rw [(ring_edge _ _ _).mpr (h2 i s h)]
  have hempty : ∃ add : List (List Pt), some (l.map (fun _ => ([] : List Pt))) = some add ∧ add.length = l.length ∧ (∀ ps ∈ add, ps = []) ∧
      (∀ (i : Nat) (s : Seg) (ps : List Pt), IsEdge r i s → add[i]? = some ps →
        (∀ p ∈ ps, OnSeg p s) ∧ ps.Pairwise (fun p q => sqDist s.1 p ≤ sqDist s.1 q)) := by
    refine ⟨_, rfl, by simp, by simp, ?_⟩
    intro i s ps _ h
    have := List.mem_of_getElem? h
    obtain ⟨_, _, rfl⟩ := List.mem_map.mp this
    simp
  unfold generate
  by_cases hany : l.any (fun p => decide (|p.x| > limit ∨ |p.y| > limit)) = true
  · rw [if_pos hany]
    obtain ⟨add, h1, h2, h3, h4⟩ := hempty
    refine ⟨add, h1, h2, h4, ?_, fun _ => h3⟩
    intro hs
    obtain ⟨p, hp, h⟩ := List.any_eq_true.mp hany
    have := hs p hp
    simp only [decide_eq_true_eq] at h
    rcases h with h | h
    · exact absurd this.1 (not_le.mpr h)
    · exact absurd this.2 (not_le.mpr h)
  · rw [if_neg hany]
    have hsmall : ¬ ∃ p ∈ l, limit < |p.x| ∨ limit < |p.y| := by
      rintro ⟨p, hp, h⟩
      exact hany (List.any_eq_true.mpr ⟨p, hp, by simpa using h⟩)
    cases hfind : find (edges l) with
    | none =>
      dsimp only
      obtain ⟨add, h1, h2, h3, h4⟩ := hempty
      refine ⟨add, h1, h2, h4, ?_, fun _ => h3⟩
      intro _ segs res e1 e2 e3
      rw [hedges segs e1 e2, hfind] at e3
      simp at e3
    | some res =>
      dsimp only
      obtain ⟨add, h1, h2, h3, h4⟩ := distribute_spec hmax (hf _ _ hfind)
      refine ⟨add, h1, ?_, ?_, ?_, fun h => absurd h hsmall⟩
      · rw [h2, edges, ring_length, List.length_map]
      · intro i s ps hs hps
        refine h4 i s ps ?_ hps
        unfold edges
        rw [hround]
        exact (ring_edge _ _ _).mpr hs
      · intro _ segs res' e1 e2 e3
        rw [hedges segs e1 e2, hfind] at e3
        obtain rfl := Option.some.inj e3
        exact h3

example : Rounded hourglass hourglass := by
  refine ⟨rfl, ?_⟩
  intro i p q hp hq
  rw [hp] at hq
  obtain rfl := Option.some.inj hq
  have := List.mem_of_getElem? hp
  revert this
  unfold hourglass
  intro h
  fin_cases h <;> decide +kernel

example : (search demoTree id 20 (edges hourglass)).map (fun r => r.map (fun i => i.1)) = some [⟨2, 2⟩] := by decide +kernel

/-- C126: oversampling: there are as many lists as before; if the points of each list lie on an edge, so do the points afterwards; and all the points
are kept, in the same order, as long as the count of points does not exceed the limit. -/
theorem oversampled (o : ℚ) (o0 : 0 < o) (o1 : o ≤ 1) (limit : Nat) (l : List Pt) (add : List (List Pt)) (hlen : add.length = l.length)
    (h : ∀ (i : Nat) (s : Seg) (ps : List Pt), IsEdge l i s → add[i]? = some ps → ∀ p ∈ ps, OnSeg p s) :
    (oversample (some o) limit l add).length = l.length ∧
    (∀ (i : Nat) (s : Seg) (ps : List Pt), IsEdge l i s → (oversample (some o) limit l add)[i]? = some ps → ∀ p ∈ ps, OnSeg p s) ∧
    (l.length + (add.map (fun ps => cost ps.length)).sum ≤ limit → ∀ (i : Nat) (ps qs : List Pt), add[i]? = some ps →
      (oversample (some o) limit l add)[i]? = some qs → ps.Sublist qs) := by
  unfold oversample
  dsimp only
  rw [if_neg (not_le.mpr o0)]
  have hz : ∀ q ∈ (ring l).zip add, ∀ p ∈ q.2, OnSeg p q.1 := by
    intro q hq
    obtain ⟨i, hi⟩ := List.mem_iff_getElem?.mp hq
    obtain ⟨h1, h2⟩ := List.getElem?_zip_eq_some.mp hi
    exact h i q.1 q.2 ((ring_edge _ _ _).mp h1) h2
  obtain ⟨g1, g2, g3⟩ := overLoop_spec o0.le o1 limit ((ring l).zip add) l.length hz
  have hzl : ((ring l).zip add).length = l.length := by rw [List.length_zip, ring_length, hlen, Nat.min_self]
  have hsum : (((ring l).zip add).map (fun q => cost q.2.length)) = add.map (fun ps => cost ps.length) := by
    have : ((ring l).zip add).map (fun q => q.2) = add := by
      rw [show (fun q : Seg × List Pt => q.2) = Prod.snd from rfl, List.map_snd_zip (by rw [ring_length, hlen])]
    rw [← this, List.map_map, this]
    rfl
  refine ⟨by rw [g1, hzl], ?_, ?_⟩
  · intro i s ps hs hps
    have hi : i < ((ring l).zip add).length := by rw [← g1]; exact (List.getElem?_eq_some_iff.mp hps).1
    obtain ⟨e1, e2⟩ := List.getElem?_zip_eq_some.mp (List.getElem?_eq_getElem hi)
    rw [(ring_edge _ _ _).mpr hs] at e1
    have := g2 i _ ps (List.getElem?_eq_getElem hi) hps
    rw [← Option.some.inj e1] at this
    exact this
  · intro hc i ps qs hps hqs
    rw [hsum] at g3
    have hi : i < ((ring l).zip add).length := by rw [← g1]; exact (List.getElem?_eq_some_iff.mp hqs).1
    obtain ⟨e1, e2⟩ := List.getElem?_zip_eq_some.mp (List.getElem?_eq_getElem hi)
    have := g3 hc i _ qs (List.getElem?_eq_getElem hi) hqs
    rw [hps] at e2
    rw [← Option.some.inj e2] at this
    exact this

example : oversample (some (1 / 10)) 75 hourglass [[⟨2, 2⟩], [], [], []] = [[⟨9 / 5, 9 / 5⟩, ⟨2, 2⟩, ⟨11 / 5, 11 / 5⟩], [], [], []] := by decide +kernel

/-- The zigzag with 80 points: even points are at the bottom. -/
def zigzag : List Pt := (List.range 80).map (fun (i : Nat) => ⟨i, if i % 2 = 0 then 0 else 10⟩)

/-- C126 is false of outlines with many points: points at which the outline crosses itself get lost in the oversampling, without which they are kept. -/
theorem points_lost : ∃ (l : List Pt) (add : List (List Pt)), add.length = l.length ∧
    (∀ (i : Nat) (s : Seg) (ps : List Pt), IsEdge l i s → add[i]? = some ps → ∀ p ∈ ps, OnSeg p s) ∧
    (∃ p, p ∈ add.flatten ∧ p ∉ (oversample (some (1 / 100)) 75 l add).flatten) ∧ oversample (some 0) 75 l add = add := by
  refine ⟨zigzag, [[⟨1 / 2, 5⟩], [⟨3 / 2, 5⟩]] ++ List.replicate 78 [], by decide +kernel, ?_, ⟨⟨3 / 2, 5⟩, by decide +kernel, by decide +kernel⟩, by decide +kernel⟩
  intro i s ps hs hps p hp
  match i with
  | 0 =>
    obtain ⟨h1, h2⟩ := hs
    have e1 : zigzag[0]? = some ⟨0, 0⟩ := by decide +kernel
    have e2 : zigzag[(0 + 1) % zigzag.length]? = some ⟨1, 10⟩ := by decide +kernel
    rw [e1] at h1; rw [e2] at h2
    obtain rfl : s = (⟨0, 0⟩, ⟨1, 10⟩) := Prod.ext (Option.some.inj h1).symm (Option.some.inj h2).symm
    simp only [List.cons_append, List.getElem?_cons_zero, Option.some.injEq] at hps
    subst hps
    obtain rfl := List.mem_singleton.mp hp
    exact ⟨1 / 2, by norm_num⟩
  | 1 =>
    obtain ⟨h1, h2⟩ := hs
    have e1 : zigzag[1]? = some ⟨1, 10⟩ := by decide +kernel
    have e2 : zigzag[(1 + 1) % zigzag.length]? = some ⟨2, 0⟩ := by decide +kernel
    rw [e1] at h1; rw [e2] at h2
    obtain rfl : s = (⟨1, 10⟩, ⟨2, 0⟩) := Prod.ext (Option.some.inj h1).symm (Option.some.inj h2).symm
    simp only [List.cons_append, List.getElem?_cons_succ, List.getElem?_cons_zero, Option.some.injEq] at hps
    subst hps
    obtain rfl := List.mem_singleton.mp hp
    exact ⟨1 / 2, by norm_num⟩
  | i + 2 =>
    simp only [List.cons_append, List.nil_append, List.getElem?_cons_succ] at hps
    have := List.eq_of_mem_replicate (List.mem_of_getElem? hps)
    subst this
    simp at hp

/-- C126: the intersection of the lines through two pairs of points is the point on both of them, if they are not parallel. -/
theorem line_crossing (a b c d p : Pt) : lines a b c d = some p ↔ ¬ Parallel (a, b) (c, d) ∧ OnLine p a b ∧ OnLine p c d := lines_iff a b c d p

example : lines ⟨0, 0⟩ ⟨1, 1⟩ ⟨0, 8⟩ ⟨1, 7⟩ = some ⟨4, 4⟩ := by decide +kernel

/-- C126: the height at which the sweep line crosses a segment is that of the point of the segment. -/
theorem height (s : Seg) (x : ℚ) (h1 : s.1.x < s.2.x) (h2 : s.1.x ≤ x) (h3 : x ≤ s.2.x) : ∃ y, yIntercept s x = some y ∧ OnSeg ⟨x, y⟩ s := by
  have hd : s.2.x - s.1.x ≠ 0 := by linarith
  unfold yIntercept
  rw [if_neg hd]
  by_cases c1 : x ≤ s.1.x
  · rw [if_pos c1]
    exact ⟨_, rfl, 0, le_refl _, by norm_num, by dsimp only; linarith, by dsimp only; ring⟩
  · rw [if_neg c1]
    by_cases c2 : x ≥ s.2.x
    · rw [if_pos c2]
      exact ⟨_, rfl, 1, by norm_num, le_refl _, by dsimp only; linarith, by dsimp only; ring⟩
    · rw [if_neg c2]
      dsimp only
      have p1 : 0 ≤ (x - s.1.x) / (s.2.x - s.1.x) := div_nonneg (by linarith) (by linarith)
      have p2 : (x - s.1.x) / (s.2.x - s.1.x) ≤ 1 := (div_le_one (by linarith)).mpr (by linarith)
      by_cases c3 : x - s.1.x > s.2.x - x
      · rw [if_pos c3]
        refine ⟨_, rfl, (x - s.1.x) / (s.2.x - s.1.x), p1, p2, ?_, ?_⟩
        · dsimp only; field_simp; ring
        · dsimp only; ring
      · rw [if_neg c3]
        refine ⟨_, rfl, (x - s.1.x) / (s.2.x - s.1.x), p1, p2, ?_, ?_⟩
        · dsimp only; field_simp; ring
        · dsimp only; field_simp; ring

example : yIntercept cross1 3 = some 3 := by decide +kernel

theorem argmin_first (l : List ℝ) (h : l ≠ []) : ∃ v, l[argmin l]? = some v ∧ (∀ b ∈ l, v ≤ b) ∧ ∀ j u, j < argmin l → l[j]? = some u → v < u := by
  induction l with
  | nil => exact absurd rfl h
  | cons a l ih =>
    unfold argmin
    by_cases ha : ∀ b ∈ l, a ≤ b
    · rw [if_pos ha]
      refine ⟨a, rfl, ?_, fun j u hj => absurd hj (Nat.not_lt_zero j)⟩
      intro b hb
      rcases List.mem_cons.1 hb with rfl | hb
      · exact le_refl b
      · exact ha b hb
    · rw [if_neg ha]
      push Not at ha
      obtain ⟨b, hb, hlt⟩ := ha
      obtain ⟨v, hv, hmin, hfirst⟩ := ih (List.ne_nil_of_mem hb)
      have hva : v < a := lt_of_le_of_lt (hmin b hb) hlt
      refine ⟨v, by simpa using hv, ?_, ?_⟩
      · intro c hc
        rcases List.mem_cons.1 hc with rfl | hc
        · exact hva.le
        · exact hmin c hc
      · intro j u hj hu
        cases j with
        | zero => simp only [List.getElem?_cons_zero, Option.some.injEq] at hu; exact hu ▸ hva
        | succ j => exact hfirst j u (by omega) (by simpa using hu)

/-- C126: a crossing belongs to the first of the edges that differ least from the segment reported with it, provided that this difference is below
the limit; otherwise (also if it is the limit) it belongs to no edge. -/
theorem edge_of_crossing (max : ℝ) (segs : List Seg) (h : segs ≠ []) (s : Seg) :
    (∀ k, assign max segs s = some k ↔ ∃ t, segs[k]? = some t ∧ diff t s < max ∧ (∀ u ∈ segs, diff t s ≤ diff u s) ∧
      ∀ j u, j < k → segs[j]? = some u → diff t s < diff u s) ∧
    (assign max segs s = none ↔ ∀ u ∈ segs, max ≤ diff u s) := by
  obtain ⟨v, hv, hmin, hfirst⟩ := argmin_first (segs.map (fun t => diff t s)) (by simpa using h)
  obtain ⟨t, ht, htv⟩ := List.getElem?_map (f := fun t => diff t s) ▸ hv |> Option.map_eq_some_iff.1
  subst htv
  have hmin' : ∀ u ∈ segs, diff t s ≤ diff u s := fun u hu => hmin _ (List.mem_map_of_mem hu)
  have hfirst' : ∀ j u, j < argmin (segs.map (fun t => diff t s)) → segs[j]? = some u → diff t s < diff u s :=
    fun j u hj hu => hfirst j _ hj (by simp [hu])
  have hg : (segs.map (fun t => diff t s)).getD (argmin (segs.map (fun t => diff t s))) 0 = diff t s := by
    rw [List.getD_eq_getElem?_getD, hv]; rfl
  unfold assign
  simp only [hg]
  constructor
  · intro k
    constructor
    · intro hk
      split_ifs at hk with hm
      rw [Option.some.injEq] at hk
      subst hk
      exact ⟨t, ht, hm, hmin', hfirst'⟩
    · rintro ⟨u, hu, hum, hu1, hu2⟩
      have hmem := List.mem_of_getElem? hu
      have hmt := List.mem_of_getElem? ht
      rw [if_pos (lt_of_le_of_lt (hmin' u hmem) hum), Option.some.injEq]
      rcases Nat.lt_trichotomy (argmin (segs.map (fun t => diff t s))) k with h1 | h1 | h1
      · exact absurd (hmin' u hmem) (not_le.2 (hu2 _ t h1 ht))
      · exact h1
      · exact absurd (hu1 t hmt) (not_le.2 (hfirst' k u h1 hu))
  · constructor
    · intro hn u hu
      split_ifs at hn with hm
      exact le_trans (not_lt.1 hm) (hmin' u hu)
    · intro hu
      rw [if_neg (not_lt.2 (hu t (List.mem_of_getElem? ht)))]

/-- The segment itself is among the edges: the crossing belongs to it. -/
example (s : Seg) : assign 1 [s] s = some 0 := by
  rw [(edge_of_crossing 1 [s] (by simp) s).1 0]
  refine ⟨s, rfl, ?_, by simp, fun j u hj => absurd hj (Nat.not_lt_zero j)⟩
  refine lt_of_le_of_lt (min_le_left _ _) ?_
  simp [dist]

end Imgaug.Isect.Props
