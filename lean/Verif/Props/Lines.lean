import Verif.Proofs.Lines
/-! Position of line strings and polygons relative to the image, and clipping of line strings. -/
namespace Imgaug.Lines
open Imgaug

/-- C61: the assumption about intersections can be met. -/
theorem inter_exists (s : Shape) : ∃ inter, InterOk s inter := by
  classical
  refine ⟨fun a b => if h : ∃ p, OnEdge a b p ∧ OnBorder s p then [h.choose] else [], fun a b => ?_⟩
  by_cases h : ∃ p, OnEdge a b p ∧ OnBorder s p
  · simp only [dif_pos h]
    obtain ⟨t, t0, t1, e⟩ := h.choose_spec.1
    refine ⟨⟨[t], by rw [e]; rfl, by simp, by simp [t0, t1]⟩, ?_, by simp⟩
    intro p hp
    rw [List.mem_singleton.mp hp]
    exact h.choose_spec.2
  · simp only [dif_neg h]
    exact ⟨⟨[], rfl, by simp, by simp⟩, by simp, fun h' => absurd h' h⟩

/-- C61: a line string is fully within the image iff all of the (infinitely many) points of its lines are. -/
theorem fully_iff (s : Shape) (l : List Pt) (hl : l ≠ []) (dflt : Bool) :
    isFullyWithin s l dflt = true ↔ ∀ p, OnLine l p → InImage s p := by
  have : ¬ l.length = 0 := fun h => hl (List.length_eq_zero_iff.mp h)
  simp only [isFullyWithin, if_neg this, List.all_eq_true, inside_iff]
  exact ⟨line_inImage s l, fun h p hp => h p (mem_onLine l p hp)⟩

/-- C61: a line string is partly within the image iff one of its vertices is in the image, or if one of the points of its lines is in the image reduced
by 0.001 on the right and on the bottom. -/
theorem partly_iff (s : Shape) (inter : Pt → Pt → List Pt) (hI : InterOk s inter) (l : List Pt) (hl : l ≠ []) (dflt : Bool) :
    isPartlyWithin s inter l dflt = true ↔ (∃ p ∈ l, InImage s p) ∨ ∃ p, OnLine l p ∧ InRect s p := by
  have h0 : ¬ l.length = 0 := fun h => hl (List.length_eq_zero_iff.mp h)
  simp only [isPartlyWithin, if_neg h0]
  split_ifs with h1
  · simp only [true_iff]
    left
    obtain ⟨p, hp, h⟩ := List.any_eq_true.mp h1
    exact ⟨p, hp, (inside_iff s p).mp h⟩
  · have hout : ∀ p ∈ l, ¬ InImage s p := by
      intro p hp h
      exact h1 (List.any_eq_true.mpr ⟨p, hp, (inside_iff s p).mpr h⟩)
    have hno : ¬ ∃ p ∈ l, InImage s p := by rintro ⟨p, hp, h⟩; exact hout p hp h
    simp only [hno, false_or, decide_eq_true_eq]
    match l, hl with
    | [a], _ =>
      have ha : inside s a = false := by
        rw [← Bool.not_eq_true, inside_iff]; exact hout a (by simp)
      simp only [clip, ha, Bool.false_eq_true, if_false, List.length_nil, gt_iff_lt, lt_irrefl, false_iff, OnLine]
      rintro ⟨p, rfl, h⟩
      exact hout p (by simp) (rect_image h)
    | a :: b :: l, _ =>
      have hall : (a :: b :: l).all (inside s) = false := by
        rw [← Bool.not_eq_true, List.all_eq_true]
        intro h
        exact hout a (by simp) ((inside_iff s a).mp (h a (by simp)))
      simp only [clip, hall, Bool.false_eq_true, if_false]
      constructor
      · intro h
        obtain ⟨q, hq⟩ := List.exists_mem_of_ne_nil _ (List.ne_nil_of_length_pos h)
        have hq' := (List.mem_filter.mp hq).1
        obtain ⟨k, k1, k2, -⟩ := pieces_flatten (entries s inter (a :: b :: l)) []
        obtain ⟨x, hx⟩ := List.exists_mem_of_ne_nil _ (pieces_nonempty _ _ q hq')
        have hxk : x ∈ k := by
          have : x ∈ (pieces (entries s inter (a :: b :: l)) [] []).flatten := List.mem_flatten.mpr ⟨q, hq', hx⟩
          rwa [k1, List.nil_append] at this
        obtain ⟨e, he, rfl⟩ := List.mem_map.mp (k2.subset hxk)
        obtain ⟨he1, he2⟩ := List.mem_filter.mp he
        obtain ⟨m1, m2, m3⟩ := entries_mem s inter hI _ e he1
        have hooi : e.ooi = false := by simpa using he2
        have hadd : e.added = true := by
          by_contra hc
          -- an original point inside the image: there is none
          have hm : e.p ∈ ((entries s inter (a :: b :: l)).filter (fun e => !e.ooi && !e.added)).map (·.p) :=
            List.mem_map_of_mem (List.mem_filter.mpr ⟨he1, by simp [hooi, hc]⟩)
          rw [entries_original s inter _ (by simp)] at hm
          exact hout e.p (List.mem_filter.mp hm).1 (m1 hooi)
        exact ⟨e.p, m2, (m3 hadd).1.1⟩
      · rintro ⟨p, hp, hr⟩
        obtain ⟨e, he, h⟩ := entries_inter s inter hI _ (by simp) (fun q hq hq' => hout q hq (rect_image hq')) p hp hr
        have hne := pieces_exists (entries s inter (a :: b :: l)) [] (Or.inr ⟨e, he, h⟩)
        rw [List.filter_eq_self.mpr (fun q hq => by
          simpa using List.length_pos_of_ne_nil (pieces_nonempty _ _ q hq))]
        exact List.length_pos_of_ne_nil hne

/-- C61: in particular, if a line string is partly within the image then some of its points are in the image. -/
theorem partly_meets (s : Shape) (inter : Pt → Pt → List Pt) (hI : InterOk s inter) (l : List Pt) (hl : l ≠ []) (dflt : Bool)
    (h : isPartlyWithin s inter l dflt = true) : ∃ p, OnLine l p ∧ InImage s p := by
  rcases (partly_iff s inter hI l hl dflt).mp h with ⟨p, hp, h⟩ | ⟨p, hp, h⟩
  · exact ⟨p, mem_onLine l p hp, h⟩
  · exact ⟨p, hp, rect_image h⟩

/-- C61: the converse is false: a vertical line at the distance 0.0005 of the right border passes through the whole image, and is reported not to be partly
within it, but out of it, and clipping leaves nothing. -/
theorem strip_missed (inter : Pt → Pt → List Pt) (hI : InterOk ⟨10, 20⟩ inter) :
    OnLine [⟨20 - 1 / 2000, -5⟩, ⟨20 - 1 / 2000, 15⟩] ⟨20 - 1 / 2000, 5⟩ ∧ InImage ⟨10, 20⟩ ⟨20 - 1 / 2000, 5⟩ ∧
    isPartlyWithin ⟨10, 20⟩ inter [⟨20 - 1 / 2000, -5⟩, ⟨20 - 1 / 2000, 15⟩] false = false ∧
    isOutOfImage ⟨10, 20⟩ inter [⟨20 - 1 / 2000, -5⟩, ⟨20 - 1 / 2000, 15⟩] true false true = true ∧
    clip ⟨10, 20⟩ inter [⟨20 - 1 / 2000, -5⟩, ⟨20 - 1 / 2000, 15⟩] = [] := by
  have hp : isPartlyWithin ⟨10, 20⟩ inter [⟨20 - 1 / 2000, -5⟩, ⟨20 - 1 / 2000, 15⟩] false = false := by
    rw [← Bool.not_eq_true, partly_iff _ inter hI _ (by simp)]
    rintro (⟨p, hp, h⟩ | ⟨p, hp, h⟩)
    · simp only [List.mem_cons, List.not_mem_nil, or_false] at hp
      obtain ⟨h1, h2, h3, h4⟩ := h
      rcases hp with rfl | rfl
      · norm_num at h3
      · norm_num at h4
    · obtain ⟨h1, h2, h3, h4⟩ := h
      rcases hp with ⟨t, -, -, rfl⟩ | rfl
      · simp only [at_, eps] at h2; norm_num at h2
      · simp only [eps] at h2; norm_num at h2
  have hf : isFullyWithin ⟨10, 20⟩ [⟨20 - 1 / 2000, -5⟩, ⟨20 - 1 / 2000, 15⟩] false = false := by decide +kernel
  refine ⟨Or.inl ⟨1 / 2, by norm_num, by norm_num, by simp [at_]; norm_num⟩, by norm_num [InImage], hp, ?_, ?_⟩
  · simp only [isOutOfImage, hp, hf, List.length_cons, List.length_nil]
    rfl
  · have ha : ([⟨20 - 1 / 2000, -5⟩, ⟨20 - 1 / 2000, 15⟩] : List Pt).any (inside ⟨10, 20⟩) = false := by decide +kernel
    simp only [isPartlyWithin, ha] at hp
    simpa using hp

/-- C61: the three classes: a line string that is fully within the image is partly within it, and `is_out_of_image` tells which of the three cases
(fully within, only partly within, not within) holds. -/
theorem classes (s : Shape) (inter : Pt → Pt → List Pt) (l : List Pt) (hl : l ≠ []) (d1 d2 d3 : Bool) :
    (isFullyWithin s l d1 = true → isPartlyWithin s inter l d2 = true) ∧
    (∀ fully partly, isOutOfImage s inter l fully partly d3 =
      if isFullyWithin s l d1 then false else if isPartlyWithin s inter l d2 then partly else fully) := by
  have h0 : ¬ l.length = 0 := fun h => hl (List.length_eq_zero_iff.mp h)
  refine ⟨fun h => ?_, fun fully partly => ?_⟩
  · simp only [isFullyWithin, isPartlyWithin, if_neg h0] at *
    obtain ⟨p, hp⟩ := List.exists_mem_of_ne_nil l hl
    have : l.any (inside s) = true := List.any_eq_true.mpr ⟨p, hp, List.all_eq_true.mp h p hp⟩
    simp [this]
  · simp only [isOutOfImage, isFullyWithin, isPartlyWithin, if_neg h0]

/-- C61: line strings without points get the defaults. -/
theorem empty_line (s : Shape) (inter : Pt → Pt → List Pt) (fully partly dflt : Bool) :
    isFullyWithin s [] dflt = dflt ∧ isPartlyWithin s inter [] dflt = dflt ∧ isOutOfImage s inter [] fully partly dflt = dflt ∧ clip s inter [] = [] :=
  ⟨rfl, rfl, rfl, rfl⟩

/-- C61: clipping: every piece is a line string with points, all of them (and so the lines between them) in the image and on the original lines. -/
theorem clip_inside (s : Shape) (inter : Pt → Pt → List Pt) (hI : InterOk s inter) (l : List Pt) :
    ∀ q ∈ clip s inter l, q ≠ [] ∧ (∀ p ∈ q, OnLine l p) ∧ ∀ p, OnLine q p → InImage s p := by
  intro q hq
  match l with
  | [] => simp [clip] at hq
  | [a] =>
    simp only [clip] at hq
    split_ifs at hq with ha
    · rw [List.mem_singleton.mp hq]
      refine ⟨by simp, by simp [OnLine], line_inImage s [a] (by simpa using (inside_iff s a).mp ha)⟩
    · simp at hq
  | a :: b :: l =>
    simp only [clip] at hq
    split_ifs at hq with ha
    · rw [List.mem_singleton.mp hq]
      refine ⟨by simp, fun p hp => mem_onLine _ p hp, line_inImage s _ (fun p hp => (inside_iff s p).mp (List.all_eq_true.mp ha p hp))⟩
    · have hq' := (List.mem_filter.mp hq).1
      obtain ⟨k, k1, k2, -⟩ := pieces_flatten (entries s inter (a :: b :: l)) []
      have key : ∀ p ∈ q, OnLine (a :: b :: l) p ∧ InImage s p := by
        intro p hp
        have hpk : p ∈ k := by
          have : p ∈ (pieces (entries s inter (a :: b :: l)) [] []).flatten := List.mem_flatten.mpr ⟨q, hq', hp⟩
          rwa [k1, List.nil_append] at this
        obtain ⟨e, he, rfl⟩ := List.mem_map.mp (k2.subset hpk)
        obtain ⟨he1, he2⟩ := List.mem_filter.mp he
        obtain ⟨m1, m2, -⟩ := entries_mem s inter hI _ e he1
        exact ⟨m2, m1 (by simpa using he2)⟩
      exact ⟨pieces_nonempty _ _ q hq', fun p hp => (key p hp).1, line_inImage s q (fun p hp => (key p hp).2)⟩

/-- C61: clipping keeps all vertices in the image, in their order. -/
theorem clip_keeps (s : Shape) (inter : Pt → Pt → List Pt) (l : List Pt) : (l.filter (inside s)).Sublist (clip s inter l).flatten := by
  match l with
  | [] => simp [clip]
  | [a] =>
    simp only [clip]
    cases ha : inside s a <;> simp [ha]
  | a :: b :: l =>
    simp only [clip]
    split_ifs with ha
    · simp
    · have e : (pieces (entries s inter (a :: b :: l)) [] []).filter (fun l => l.length > 0) = pieces (entries s inter (a :: b :: l)) [] [] :=
        List.filter_eq_self.mpr (fun q hq => by simpa using List.length_pos_of_ne_nil (pieces_nonempty _ _ q hq))
      rw [e]
      obtain ⟨k, k1, -, k3⟩ := pieces_flatten (entries s inter (a :: b :: l)) []
      rw [k1, List.nil_append, ← entries_original s inter _ (by simp)]
      exact k3

/-- C61: clipping a line string that is fully within the image returns just that line string. -/
theorem clip_fully (s : Shape) (inter : Pt → Pt → List Pt) (l : List Pt) (hl : l ≠ []) (h : isFullyWithin s l false = true) : clip s inter l = [l] := by
  have h0 : ¬ l.length = 0 := fun h => hl (List.length_eq_zero_iff.mp h)
  simp only [isFullyWithin, if_neg h0] at h
  match l, hl with
  | [a], _ => simp at h; simp [clip, h]
  | a :: b :: l, _ => simp only [clip, if_pos h]

/-- C61: clipping does not make line strings longer, and the fraction that is out of the image is between 0 and 1. -/
theorem fraction_range (s : Shape) (inter : Pt → Pt → List Pt) (hI : InterOk s inter) (l : List Pt) :
    ((clip s inter l).map length).sum ≤ length l ∧ 0 ≤ outOfImageFraction s inter l ∧ outOfImageFraction s inter l ≤ 1 := by
  have hlen : ((clip s inter l).map length).sum ≤ length l := by
    match l with
    | [] => simp [clip, length]
    | [a] => simp only [clip]; split_ifs <;> simp [length]
    | a :: b :: l =>
      simp only [clip]
      split_ifs with ha
      · simp
      · rw [List.filter_eq_self.mpr (fun q hq => by
          simpa using List.length_pos_of_ne_nil (pieces_nonempty _ _ q hq))]
        have h1 := pieces_length (entries s inter (a :: b :: l)) []
        have h2 := (entries_length s inter hI (a :: b :: l) (by simp)).1
        simp only [List.nil_append] at h1
        exact h1.trans h2
  refine ⟨hlen, ?_⟩
  simp only [outOfImageFraction]
  have hs : 0 ≤ ((clip s inter l).map length).sum := List.sum_nonneg (by
    intro x hx
    obtain ⟨q, -, rfl⟩ := List.mem_map.mp hx
    exact length_nonneg q)
  split_ifs with h1 h2 h3
  · norm_num
  · norm_num
  · norm_num
  · have hpos : 0 < length l := lt_of_le_of_ne (length_nonneg l) (Ne.symm h1)
    have a := div_nonneg hs hpos.le
    have b : ((clip s inter l).map length).sum / length l ≤ 1 := by rw [div_le_one hpos]; exact hlen
    constructor <;> linarith

/-- C61: the fraction out of the image is 0 for line strings fully within the image, and 1 for those that are not even partly within it. -/
theorem fraction_ends (s : Shape) (inter : Pt → Pt → List Pt) (l : List Pt) (hl : l ≠ []) :
    (isFullyWithin s l false = true → outOfImageFraction s inter l = 0) ∧ (isPartlyWithin s inter l false = false → outOfImageFraction s inter l = 1) := by
  have h0 : ¬ l.length = 0 := fun h => hl (List.length_eq_zero_iff.mp h)
  constructor
  · intro h
    have hc := clip_fully s inter l hl h
    simp only [isFullyWithin, if_neg h0] at h
    simp only [outOfImageFraction, if_neg h0, hc]
    split_ifs with h1 h2
    · obtain ⟨p, hp⟩ := List.exists_mem_of_ne_nil l hl
      have a := List.all_eq_true.mp h p hp
      have b := List.all_eq_true.mp h2 p hp
      simp [a] at b
    · rfl
    · simp [h1]
  · intro h
    simp only [isPartlyWithin, if_neg h0] at h
    split_ifs at h with h1
    have hc : clip s inter l = [] := by simpa using h
    have hall : l.all (fun p => !inside s p) = true := by
      rw [List.all_eq_true]
      intro p hp
      cases hi : inside s p
      · rfl
      · exact absurd (List.any_eq_true.mpr ⟨p, hp, hi⟩) h1
    simp only [outOfImageFraction, if_neg h0, hc, hall, if_true]
    split_ifs <;> simp

/-- C61: polygons. A polygon without points raises an exception. Otherwise a polygon is fully within the image iff its edges are, and partly within it iff its
edges are, or if clipping leaves something of it. -/
theorem polygon_classes (s : Shape) (inter : Pt → Pt → List Pt) (n : Nat) (p : Polygon) :
    (p.exterior = [] → ∀ fully partly, polyIsOutOfImage s inter n p fully partly = none) ∧
    (p.exterior ≠ [] →
      polyIsFullyWithin s inter n p = some (isFullyWithin s (p.toLineString true) false) ∧
      polyIsPartlyWithin s inter n p = some (isPartlyWithin s inter (p.toLineString true) false || decide (n > 0)
        || isFullyWithin s (p.toLineString true) false) ∧
      (isFullyWithin s (p.toLineString true) false = true ↔ ∀ q ∈ p.exterior, InImage s q)) := by
  constructor
  · intro h _ _
    simp [polyIsOutOfImage, h]
  · intro h
    have h0 : ¬ p.exterior.length = 0 := fun h' => h (List.length_eq_zero_iff.mp h')
    have hne : p.toLineString true ≠ [] := by
      simp only [Polygon.toLineString]
      split_ifs
      · exact h
      · simp [h]
    have hc := (classes s inter (p.toLineString true) hne false false true).2
    refine ⟨?_, ?_, ?_⟩
    · simp only [polyIsFullyWithin, polyIsOutOfImage, if_neg h0, hc]
      cases isFullyWithin s (p.toLineString true) false <;> cases isPartlyWithin s inter (p.toLineString true) false <;>
        by_cases hn : n > 0 <;> simp [hn]
    · simp only [polyIsPartlyWithin, polyIsOutOfImage, if_neg h0, hc]
      cases isFullyWithin s (p.toLineString true) false <;> cases isPartlyWithin s inter (p.toLineString true) false <;>
        by_cases hn : n > 0 <;> simp [hn]
    · have hl : ¬ (p.toLineString true).length = 0 := fun h' => hne (List.length_eq_zero_iff.mp h')
      simp only [isFullyWithin, if_neg hl, List.all_eq_true, inside_iff]
      simp only [Polygon.toLineString]
      split_ifs
      · rfl
      · constructor
        · exact fun h q hq => h q (List.mem_append_left _ hq)
        · intro h q hq
          rcases List.mem_append.mp hq with hq | hq
          · exact h q hq
          · exact h q (List.mem_of_mem_take hq)

/-! The hypotheses can be met: a line string with a vertex outside, crossing the right border at x = 19.999. -/

example : clip ⟨10, 20⟩ (fun a b => if a.x < b.x then [⟨19999 / 1000, 5⟩] else if b.x < a.x then [⟨19999 / 1000, 5⟩] else [])
    [⟨10, 5⟩, ⟨30, 5⟩, ⟨15, 5⟩] = [[⟨10, 5⟩, ⟨19999 / 1000, 5⟩], [⟨19999 / 1000, 5⟩, ⟨15, 5⟩]] := by decide +kernel

/-- C61: a line that leaves the image in one point: that point ends the clipped line, unless it is within 0.01 of the vertex in the image. -/
theorem clip_crossing (s : Shape) (inter : Pt → Pt → List Pt) (a b c : Pt) (hc : inter a b = [c]) :
    (InImage s a → ¬ InImage s b →
      clip s inter [a, b] = if (c.x - a.x) ^ 2 + (c.y - a.y) ^ 2 > (1 / 100) ^ 2 then [[a, c]] else [[a]]) ∧
    (¬ InImage s a → InImage s b →
      clip s inter [a, b] = if (c.x - b.x) ^ 2 + (c.y - b.y) ^ 2 > (1 / 100) ^ 2 then [[c, b]] else [[b]]) := by
  rw [← inside_iff, ← inside_iff]
  constructor
  · intro ha hb
    split
    · rename_i hf
      have hf' : far c a = true := by simpa only [far, decide_eq_true_eq] using hf
      simp [clip, entries, pieces, ha, hb, hc, hf']
    · rename_i hf
      have hf' : far c a = false := by simpa only [far, decide_eq_false_iff_not] using hf
      simp [clip, entries, pieces, ha, hb, hc, hf']
  · intro ha hb
    split
    · rename_i hf
      have hf' : far c b = true := by simpa only [far, decide_eq_true_eq] using hf
      simp [clip, entries, pieces, ha, hb, hc, hf']
    · rename_i hf
      have hf' : far c b = false := by simpa only [far, decide_eq_false_iff_not] using hf
      simp [clip, entries, pieces, ha, hb, hc, hf']

end Imgaug.Lines
