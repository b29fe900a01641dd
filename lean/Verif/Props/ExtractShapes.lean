import Verif.Model.ExtractShapes
import Verif.Model.Lines
import Verif.Props.Extract
import Verif.Props.DrawLines
import Verif.Proofs.PolyClip
import Verif.Proofs.MinMax
/-! C134: cutting the areas of polygons and line strings out of images. -/
namespace Imgaug.ExtractShapes.Props
open Imgaug Imgaug.Props Imgaug.Extract Imgaug.Extract.Spec Imgaug.ExtractShapes

theorem foldl_round_min (a : ℚ) (l : List ℚ) : npRound (l.foldl min a) = (l.map npRound).foldl min (npRound a) := by
  induction l generalizing a with
  | nil => rfl
  | cons b l ih =>
    rw [List.foldl_cons, ih, List.map_cons, List.foldl_cons, Monotone.map_min (fun _ _ h => npRound_mono h)]

theorem foldl_round_max (a : ℚ) (l : List ℚ) : npRound (l.foldl max a) = (l.map npRound).foldl max (npRound a) := by
  induction l generalizing a with
  | nil => rfl
  | cons b l ih =>
    rw [List.foldl_cons, ih, List.map_cons, List.foldl_cons, Monotone.map_max (fun _ _ h => npRound_mono h)]

theorem minI_spec (l : List Int) (hl : l ≠ []) : minI l ∈ l ∧ ∀ v ∈ l, minI l ≤ v := by
  cases l with
  | nil => exact absurd rfl hl
  | cons a l =>
    clear hl
    show l.foldl min a ∈ a :: l ∧ ∀ v ∈ a :: l, l.foldl min a ≤ v
    induction l generalizing a with
    | nil => simp
    | cons b l ih =>
      rw [List.foldl_cons]
      obtain ⟨h1, h2⟩ := ih (min a b)
      simp only [List.mem_cons, forall_eq_or_imp] at h1 h2 ⊢
      refine ⟨?_, h2.1.trans (min_le_left _ _), h2.1.trans (min_le_right _ _), h2.2⟩
      rcases h1 with h1 | h1
      · rcases min_choice a b with e | e <;> rw [h1, e] <;> tauto
      · tauto

theorem maxI_spec (l : List Int) (hl : l ≠ []) : maxI l ∈ l ∧ ∀ v ∈ l, v ≤ maxI l := by
  cases l with
  | nil => exact absurd rfl hl
  | cons a l =>
    clear hl
    show l.foldl max a ∈ a :: l ∧ ∀ v ∈ a :: l, v ≤ l.foldl max a
    induction l generalizing a with
    | nil => simp
    | cons b l ih =>
      rw [List.foldl_cons]
      obtain ⟨h1, h2⟩ := ih (max a b)
      simp only [List.mem_cons, forall_eq_or_imp] at h1 h2 ⊢
      refine ⟨?_, (le_max_left _ _).trans h2.1, (le_max_right _ _).trans h2.1, h2.2⟩
      rcases h1 with h1 | h1
      · rcases max_choice a b with e | e <;> rw [h1, e] <;> tauto
      · tauto

theorem init_ordered {x1 y1 x2 y2 : ℚ} (hx : x1 ≤ x2) (hy : y1 ≤ y2) (l : Option String) : BB.init x1 y1 x2 y2 l = ⟨x1, y1, x2, y2, l⟩ := by
  unfold BB.init
  simp [not_lt.2 hx, not_lt.2 hy]

/-- The box of a polygon, and its rounded corners. -/
theorem box_round (ext : List Pt) (he : ext ≠ []) : ∃ b, Polygon.coordsToBB ext none = some b ∧ Ordered b ∧
    npRound b.x1 = minI (xxInt ext) ∧ npRound b.x2 = maxI (xxInt ext) ∧ npRound b.y1 = minI (yyInt ext) ∧ npRound b.y2 = maxI (yyInt ext) := by
  cases ext with
  | nil => exact absurd rfl he
  | cons p ps =>
    have ox : BB.minOf p.x (ps.map Pt.x) ≤ BB.maxOf p.x (ps.map Pt.x) := (foldl_min_le _ _).1.trans (le_foldl_max _ _).1
    have oy : BB.minOf p.y (ps.map Pt.y) ≤ BB.maxOf p.y (ps.map Pt.y) := (foldl_min_le _ _).1.trans (le_foldl_max _ _).1
    refine ⟨_, rfl, ?_⟩
    rw [init_ordered ox oy]
    refine ⟨⟨ox, oy⟩, ?_, ?_, ?_, ?_⟩
    · show npRound ((ps.map Pt.x).foldl min p.x) = _
      rw [foldl_round_min, List.map_map]; rfl
    · show npRound ((ps.map Pt.x).foldl max p.x) = _
      rw [foldl_round_max, List.map_map]; rfl
    · show npRound ((ps.map Pt.y).foldl min p.y) = _
      rw [foldl_round_min, List.map_map]; rfl
    · show npRound ((ps.map Pt.y).foldl max p.y) = _
      rw [foldl_round_max, List.map_map]; rfl

/-- C134: a polygon of less than three points is an error. -/
theorem too_few {α : Type} (lib : DrawLines.Lib) (out : Bool) (zero : α) (ext : List Pt) (a : Img α) (h : ext.length < 3) :
    extractPolygon lib out zero ext a = none := by
  unfold extractPolygon
  rw [if_pos (by omega)]

/-- C134 (partial): for a polygon that is not outside of the image the result has the size of the rounded box around the polygon. A pixel of the face has the
value of the image, or is zero outside of the image, and all other pixels are zero. Missing: boxes whose rounded height or width is zero, and polygons in the
image whose rounded right or bottom side is that of the image (`rounded_up`). -/
theorem polygon_partial {α : Type} (lib : DrawLines.Lib) (zero : α) (ext : List Pt) (a : Img α) (h3 : 3 ≤ ext.length)
    (hh : minI (yyInt ext) < maxI (yyInt ext)) (hw : minI (xxInt ext) < maxI (xxInt ext))
    (hin : (∀ p ∈ ext, 0 ≤ p.x ∧ p.x < a.w ∧ 0 ≤ p.y ∧ p.y < a.h) → maxI (xxInt ext) < a.w ∧ maxI (yyInt ext) < a.h) :
    ∃ r q, extractPolygon lib false zero ext a = some r ∧
      IsWindow zero a (minI (yyInt ext)) (minI (xxInt ext)) (maskH ext) (maskW ext) q ∧ r.h = maskH ext ∧ r.w = maskW ext ∧
      ∀ i j, i < r.h → j < r.w → r.px i j = if (i, j) ∈ face lib ext then q.px i j else zero := by
  have he : ext ≠ [] := by rintro rfl; simp at h3
  obtain ⟨b, hb, ho, r1, r2, r3, r4⟩ := box_round ext he
  have hins : Inside b a → npRound b.x2 < a.w ∧ npRound b.y2 < a.h := by
    intro hI
    rw [r2, r4]
    apply hin
    intro p hp
    cases ext with
    | nil => exact absurd rfl he
    | cons p0 ps =>
      have ox : BB.minOf p0.x (ps.map Pt.x) ≤ BB.maxOf p0.x (ps.map Pt.x) := (foldl_min_le _ _).1.trans (le_foldl_max _ _).1
      have oy : BB.minOf p0.y (ps.map Pt.y) ≤ BB.maxOf p0.y (ps.map Pt.y) := (foldl_min_le _ _).1.trans (le_foldl_max _ _).1
      have : b = ⟨BB.minOf p0.x (ps.map Pt.x), BB.minOf p0.y (ps.map Pt.y), BB.maxOf p0.x (ps.map Pt.x), BB.maxOf p0.y (ps.map Pt.y), none⟩ := by
        rw [← init_ordered ox oy]
        exact (Option.some.inj hb).symm
      subst this
      obtain ⟨i1, i2, i3, i4⟩ := hI
      have m1 : BB.minOf p0.x (ps.map Pt.x) ≤ p.x := by
        rcases List.mem_cons.1 hp with rfl | hp
        · exact (foldl_min_le _ _).1
        · exact (foldl_min_le _ _).2 _ (List.mem_map_of_mem hp)
      have m2 : p.x ≤ BB.maxOf p0.x (ps.map Pt.x) := by
        rcases List.mem_cons.1 hp with rfl | hp
        · exact (le_foldl_max _ _).1
        · exact (le_foldl_max _ _).2 _ (List.mem_map_of_mem hp)
      have m3 : BB.minOf p0.y (ps.map Pt.y) ≤ p.y := by
        rcases List.mem_cons.1 hp with rfl | hp
        · exact (foldl_min_le _ _).1
        · exact (foldl_min_le _ _).2 _ (List.mem_map_of_mem hp)
      have m4 : p.y ≤ BB.maxOf p0.y (ps.map Pt.y) := by
        rcases List.mem_cons.1 hp with rfl | hp
        · exact (le_foldl_max _ _).1
        · exact (le_foldl_max _ _).2 _ (List.mem_map_of_mem hp)
      exact ⟨i1.trans m1, m2.trans_lt i2, i3.trans m3, m4.trans_lt i4⟩
  obtain ⟨q, hq, hwin⟩ := Extract.Props.window_partial zero b a true ho hins
  have e1 : extent true b.y1 b.y2 = maskH ext := by
    unfold extent maskH
    rw [if_pos rfl, r3, r4]
    omega
  have e2 : extent true b.x1 b.x2 = maskW ext := by
    unfold extent maskW
    rw [if_pos rfl, r1, r2]
    omega
  rw [e1, e2, r1, r3] at hwin
  unfold extractPolygon
  rw [if_neg (by omega), hb, Option.bind_some, hq, Option.bind_some]
  simp only [Bool.false_eq_true, if_false]
  refine ⟨⟨maskH ext, maskW ext, fun i j => if (if maskH ext = 1 then 0 else i, if maskW ext = 1 then 0 else j) ∈ face lib ext then
    q.px (if q.h = 1 then 0 else i) (if q.w = 1 then 0 else j) else zero⟩, q, ?_, hwin, rfl, rfl, ?_⟩
  · unfold masked DrawLines.common
    rw [hwin.1, hwin.2.1]
    simp
  · intro i j hi hj
    have hi' : i < maskH ext := hi
    have hj' : j < maskW ext := hj
    have f1 : (if maskH ext = 1 then 0 else i) = i := by split <;> omega
    have f2 : (if maskW ext = 1 then 0 else j) = j := by split <;> omega
    show (if (if maskH ext = 1 then 0 else i, if maskW ext = 1 then 0 else j) ∈ face lib ext then
      q.px (if q.h = 1 then 0 else i) (if q.w = 1 then 0 else j) else zero) = _
    rw [hwin.1, hwin.2.1, f1, f2]

/-- A library that fills everything. -/
def fullLib : DrawLines.Lib := { DrawLines.Props.demoLib with polygon := fun _ h w => (List.range h).flatMap (fun y => (List.range w).map (fun x => (y, x))) }

def demoExt : List Pt := [⟨1, 0⟩, ⟨3, 0⟩, ⟨3, 2⟩]

example : minI (yyInt demoExt) < maxI (yyInt demoExt) ∧ minI (xxInt demoExt) < maxI (xxInt demoExt) ∧ maxI (xxInt demoExt) < 4 ∧ maxI (yyInt demoExt) < 3 := by
  decide +kernel

example : (extractPolygon fullLib false 0 demoExt (numbered 3 4)).map Img.toList = some [[2, 3], [6, 7]] := by decide +kernel

/-- C134 is false for polygons in the image whose right side is rounded to the width of the image: the mask does not fit, and the call fails. The same polygon,
half a pixel smaller or larger, is no problem. -/
theorem rounded_up :
    extractPolygon fullLib false 0 [⟨0, 0⟩, ⟨15 / 4, 0⟩, ⟨0, 2⟩] (numbered 3 4) = none ∧
    (extractPolygon fullLib false 0 [⟨0, 0⟩, ⟨13 / 4, 0⟩, ⟨0, 2⟩] (numbered 3 4)).map Img.toList = some [[1, 2, 3], [5, 6, 7]] ∧
    (extractPolygon fullLib false 0 [⟨0, 0⟩, ⟨17 / 4, 0⟩, ⟨0, 2⟩] (numbered 3 4)).map Img.toList = some [[1, 2, 3, 4], [5, 6, 7, 8]] := by
  refine ⟨?_, ?_, ?_⟩
  · have : (extractPolygon fullLib false 0 [⟨0, 0⟩, ⟨15 / 4, 0⟩, ⟨0, 2⟩] (numbered 3 4)).isSome = false := by decide +kernel
    simpa using this
  · decide +kernel
  · decide +kernel

/-- C134 is false for polygons outside of the image whose box overlaps it: the pixels of the image in the box are returned, although none of them belongs to
the polygon. Here the polygon lies beyond the line x + y = -2. -/
theorem outside_not_zero :
    Lines.polyIsOutOfImage ⟨3, 4⟩ (fun _ _ => []) 0 ⟨[⟨-3, -3⟩, ⟨1, -3⟩, ⟨-3, 1⟩], none⟩ true false = some true ∧
    (∀ p ∈ ([⟨-3, -3⟩, ⟨1, -3⟩, ⟨-3, 1⟩] : List Pt), p.x + p.y ≤ -2) ∧
    (extractPolygon fullLib true 0 [⟨-3, -3⟩, ⟨1, -3⟩, ⟨-3, 1⟩] (numbered 3 4)).map Img.toList =
      some [[0, 0, 0, 0], [0, 0, 0, 0], [0, 0, 0, 0], [0, 0, 0, 1]] := by
  decide +kernel

/-- C134: the new first point of `change_first_point_by_coords` is the first of the points that are closest to the given coordinates, unless it is further away
than allowed; then the polygon stays as it is or there is an error. Without points there is an error. -/
theorem first_point (p : Polygon) (x y : ℚ) (m : Option ℚ) (raise : Bool) :
    (p.exterior = [] → changeFirstPointByCoords p x y m raise = none) ∧
    (p.exterior ≠ [] → ∃ (i : Nat) (q : Pt), p.exterior[i]? = some q ∧ (∀ u ∈ p.exterior, PolyClip.dist q ⟨x, y⟩ ≤ PolyClip.dist u ⟨x, y⟩) ∧
      (∀ j u, p.exterior[j]? = some u → j < i → PolyClip.dist q ⟨x, y⟩ < PolyClip.dist u ⟨x, y⟩) ∧
      (m = none → changeFirstPointByCoords p x y m raise = p.changeFirstPointByIndex i) ∧
      ∀ d, m = some d → 0 ≤ d →
        (PolyClip.dist q ⟨x, y⟩ ≤ d ^ 2 → changeFirstPointByCoords p x y m raise = p.changeFirstPointByIndex i) ∧
        (d ^ 2 < PolyClip.dist q ⟨x, y⟩ → changeFirstPointByCoords p x y m raise = if raise then none else some p.deepcopy)) := by
  unfold changeFirstPointByCoords
  constructor
  · intro h
    rw [h]
    rfl
  · intro h
    obtain ⟨⟨i, d2⟩, hcl⟩ := PolyClip.closest_some ⟨x, y⟩ p.exterior h
    obtain ⟨⟨q, hq, rfl⟩, h2, h3⟩ := PolyClip.closest_spec _ _ _ _ hcl
    refine ⟨i, q, hq, h2, h3, ?_, ?_⟩
    · rintro rfl
      rw [hcl]
      rfl
    · rintro d rfl hd
      rw [hcl]
      simp only [Option.any_some, decide_eq_true_eq]
      constructor
      · intro hle
        rw [if_neg (by push Not; exact ⟨hd, hle⟩)]
      · intro hlt
        rw [if_pos (.inr hlt)]

example : (changeFirstPointByCoords ⟨demoExt, none⟩ 3 (1 / 4) (some (1 / 2)) true).map (fun r => r.exterior.head?) = some (some ⟨3, 0⟩) := by decide +kernel

/-! ### Line strings -/

/-- C134: without points, or for lines without thickness, the result is one black pixel, or empty if that is allowed. -/
theorem no_line (lib : DrawLines.Lib) (l : List Pt) (a : Img ℚ) (size : Int) (pad : Bool) (m : Option Int) (aa pz : Bool) (h : l = [] ∨ size ≤ 0) :
    ∃ r, extractLine lib l a size pad m aa pz = some r ∧ r.h = (if pz then 1 else 0) ∧ r.w = (if pz then 1 else 0) ∧ ∀ y x, r.px y x = 0 := by
  unfold extractLine
  rw [if_pos (by rcases h with rfl | h; exacts [.inl rfl, .inr h])]
  cases pz <;> exact ⟨_, rfl, rfl, rfl, fun _ _ => rfl⟩

/-- The box for an odd thickness has integer corners. -/
theorem odd_box (l : List Pt) (hl : l ≠ []) (k : Nat) : ∃ b, lineBox l (2 * k + 1) = b ∧ Ordered b ∧
    b.x1 = ((minI (xxInt l) - k : Int) : ℚ) ∧ b.y1 = ((minI (yyInt l) - k : Int) : ℚ) ∧ b.x2 = ((maxI (xxInt l) + 1 + k : Int) : ℚ) ∧
    b.y2 = ((maxI (yyInt l) + 1 + k : Int) : ℚ) := by
  have hx : minI (xxInt l) ≤ maxI (xxInt l) := by
    have hne : xxInt l ≠ [] := by simpa [xxInt] using hl
    exact (minI_spec _ hne).2 _ (maxI_spec _ hne).1
  have hy : minI (yyInt l) ≤ maxI (yyInt l) := by
    have hne : yyInt l ≠ [] := by simpa [yyInt] using hl
    exact (minI_spec _ hne).2 _ (maxI_spec _ hne).1
  have e : ∀ u : ℚ, u - (((2 * k + 1 : Int) : ℚ) - 1) / 2 = u - k := by intro u; push_cast; ring
  have e' : ∀ u : ℚ, u + (((2 * k + 1 : Int) : ℚ) - 1) / 2 = u + k := by intro u; push_cast; ring
  have qx : (minI (xxInt l) : ℚ) ≤ maxI (xxInt l) := by exact_mod_cast hx
  have qy : (minI (yyInt l) : ℚ) ≤ maxI (yyInt l) := by exact_mod_cast hy
  have qk : (0 : ℚ) ≤ k := Nat.cast_nonneg k
  refine ⟨_, rfl, ?_⟩
  unfold lineBox
  simp only [e, e']
  rw [init_ordered (by linarith) (by linarith)]
  refine ⟨⟨by show (_ : ℚ) ≤ _; linarith, by show (_ : ℚ) ≤ _; linarith⟩, ?_, ?_, ?_, ?_⟩ <;> push_cast <;> rfl

/-- A window of the plane for an odd thickness. -/
theorem odd_window {α : Type} (zero : α) (l : List Pt) (hl : l ≠ []) (k : Nat) (a : Img α) (pz : Bool) :
    ∃ r, extract zero (lineBox l (2 * k + 1)) a true none pz = some r ∧
      IsWindow zero a (minI (yyInt l) - k) (minI (xxInt l) - k) (maxI (yyInt l) - minI (yyInt l) + 2 * k + 1).toNat
        (maxI (xxInt l) - minI (xxInt l) + 2 * k + 1).toNat r := by
  obtain ⟨b, hb, ho, b1, b2, b3, b4⟩ := odd_box l hl k
  rw [hb]
  have n1 := npRound_int (minI (xxInt l) - k)
  have n2 := npRound_int (minI (yyInt l) - k)
  have n3 := npRound_int (maxI (xxInt l) + 1 + k)
  have n4 := npRound_int (maxI (yyInt l) + 1 + k)
  rw [← b1] at n1; rw [← b2] at n2; rw [← b3] at n3; rw [← b4] at n4
  have hx : minI (xxInt l) ≤ maxI (xxInt l) := by
    have hne : xxInt l ≠ [] := by simpa [xxInt] using hl
    exact (minI_spec _ hne).2 _ (maxI_spec _ hne).1
  have hy : minI (yyInt l) ≤ maxI (yyInt l) := by
    have hne : yyInt l ≠ [] := by simpa [yyInt] using hl
    exact (minI_spec _ hne).2 _ (maxI_spec _ hne).1
  obtain ⟨r, hr, hw⟩ := Extract.Props.window_partial zero b a pz ho (fun hI => by
    obtain ⟨-, i2, -, i4⟩ := hI
    rw [n3, n4]
    rw [b3] at i2
    rw [b4] at i4
    exact ⟨by exact_mod_cast i2, by exact_mod_cast i4⟩)
  refine ⟨r, hr, ?_⟩
  have x1 : extent pz b.y1 b.y2 = (maxI (yyInt l) - minI (yyInt l) + 2 * k + 1).toNat := by
    unfold extent; rw [n2, n4]; split <;> omega
  have x2 : extent pz b.x1 b.x2 = (maxI (xxInt l) - minI (xxInt l) + 2 * k + 1).toNat := by
    unfold extent; rw [n1, n3]; split <;> omega
  rwa [n1, n2, x1, x2] at hw

/-- C134: a single point gives the square around it of the thickness (if that is odd) as it is in the image, zero outside of the image. -/
theorem one_point (lib : DrawLines.Lib) (p : Pt) (a : Img ℚ) (k : Nat) (aa pz : Bool) :
    ∃ r, extractLine lib [p] a (2 * k + 1) true none aa pz = some r ∧
      IsWindow 0 a (npRound p.y - k) (npRound p.x - k) (2 * k + 1) (2 * k + 1) r := by
  obtain ⟨r, hr, hw⟩ := odd_window (0 : ℚ) [p] (by simp) k a pz
  refine ⟨r, ?_, ?_⟩
  · unfold extractLine
    rw [if_neg (by simp; omega), if_pos (List.length_singleton), hr]
  · have e : ∀ v : Int, (v - v + 2 * (k : Int) + 1).toNat = 2 * k + 1 := by intro v; omega
    have := hw
    simp only [xxInt, yyInt, minI, maxI, List.map_cons, List.map_nil, List.foldl_nil, e] at this
    exact this

/-- C134: lines that are not antialiased are exactly one on the thick line and zero elsewhere. -/
theorem solid_heat (lib : DrawLines.Lib) (h w : Nat) (l : List Pt) (size : Nat) (hs : 1 ≤ size) (f : Nat → Nat → ℚ)
    (hf : DrawLines.linesHeat lib h w l 1 size false false = some f) (y x : Nat) (hy : y < h) (hx : x < w) :
    (DrawLines.OnThick lib false l size h w y x → f y x = 1) ∧ (¬ DrawLines.OnThick lib false l size h w y x → f y x = 0) := by
  refine ⟨fun hon => ?_, (DrawLines.Props.heat_range lib h w l 1 size false false f hf y x hy hx).2.2⟩
  obtain ⟨r, hr, rfl⟩ := Option.map_eq_some_iff.1 hf
  have h2 : 2 ≤ l.length := by
    obtain ⟨yy, xx, v, -, -, -, -, i, p, q, -, hq, -⟩ := hon
    have := (List.getElem?_eq_some_iff.1 hq).1
    omega
  have := DrawLines.Props.opaque_lines lib (DrawLines.black h w) r l (.number 255) size false h2 hs [255] rfl hr y x 0 hy hx (by simp [DrawLines.black])
    ⟨255, by simp, by omega⟩ hon
  simp [this]

/-- C134 (partial): for an odd thickness the result is the box around the rounded points, grown by half of the thickness on each side. Pixels outside of the
image, and those that are not on the line, are zero; without antialiasing, pixels of a uint8 image on the line have their value; with it, no pixel becomes
brighter. Missing: even thicknesses (`even_cut`) and images that are not uint8 (`floats_rounded`), for which this is false. -/
theorem line_partial (lib : DrawLines.Lib) (l : List Pt) (h2 : 2 ≤ l.length) (a : Img ℚ) (k : Nat) (aa pz : Bool) (r : Img ℚ)
    (ha : ∀ y x, y < a.h → x < a.w → DrawLines.IsByte (a.px y x)) (hr : extractLine lib l a (2 * k + 1) true none aa pz = some r) :
    r.h = (maxI (yyInt l) - minI (yyInt l) + 2 * k + 1).toNat ∧ r.w = (maxI (xxInt l) - minI (xxInt l) + 2 * k + 1).toNat ∧
    ∀ i j, i < r.h → j < r.w →
      (¬ (0 ≤ minI (yyInt l) - k + i ∧ minI (yyInt l) - k + i < a.h ∧ 0 ≤ minI (xxInt l) - k + j ∧ minI (xxInt l) - k + j < a.w) → r.px i j = 0) ∧
      ∀ y x : Nat, y < a.h → x < a.w → minI (yyInt l) - k + i = (y : Int) → minI (xxInt l) - k + j = (x : Int) →
        0 ≤ r.px i j ∧ r.px i j ≤ a.px y x ∧
        (¬ DrawLines.OnThick lib aa l (2 * k + 1) a.h a.w y x → r.px i j = 0) ∧
        (aa = false → DrawLines.OnThick lib aa l (2 * k + 1) a.h a.w y x → r.px i j = a.px y x) := by
  unfold extractLine at hr
  rw [if_neg (by omega), if_neg (by omega)] at hr
  have hsz : ((2 * (k : Int) + 1)).toNat = 2 * k + 1 := by omega
  rw [hsz] at hr
  obtain ⟨heat, hheat, hr⟩ := Option.bind_eq_some_iff.1 hr
  obtain ⟨q, hq, rfl⟩ := Option.map_eq_some_iff.1 hr
  obtain ⟨q', hq', w1, w2, w3⟩ := odd_window (0 : ℚ) l (by rintro rfl; simp at h2) k ⟨a.h, a.w, fun y x => a.px y x * heat y x⟩ pz
  rw [hq] at hq'
  cases hq'
  have b0 : DrawLines.IsByte 0 := ⟨0, by simp, by omega⟩
  refine ⟨w1, w2, fun i j hi hj => ?_⟩
  obtain ⟨v1, v2⟩ := w3 i j (w1 ▸ hi) (w2 ▸ hj)
  constructor
  · intro hout
    show DrawLines.toByte (q.px i j) = 0
    rw [v2 hout, DrawLines.toByte_byte b0]
  · intro y x hy hx ey ex
    have e : q.px i j = a.px y x * heat y x := v1 y x hy hx ey ex
    show 0 ≤ DrawLines.toByte (q.px i j) ∧ DrawLines.toByte (q.px i j) ≤ a.px y x ∧ (_ → DrawLines.toByte (q.px i j) = 0) ∧
      (_ → _ → DrawLines.toByte (q.px i j) = a.px y x)
    rw [e]
    obtain ⟨g0, g1, g2⟩ := DrawLines.Props.heat_range lib a.h a.w l 1 (2 * k + 1) aa false heat hheat y x hy hx
    have hb := ha y x hy hx
    have hb0 : 0 ≤ a.px y x := by
      obtain ⟨n, hn, -⟩ := hb
      rw [hn]
      positivity
    refine ⟨?_, ?_, ?_, ?_⟩
    · obtain ⟨n, hn, -⟩ := DrawLines.toByte_isByte (a.px y x * heat y x)
      rw [hn]
      positivity
    · have := DrawLines.toByte_mono (show a.px y x * heat y x ≤ a.px y x from mul_le_of_le_one_right hb0 g1)
      rwa [DrawLines.toByte_byte hb] at this
    · intro hn
      rw [g2 hn, mul_zero, DrawLines.toByte_byte b0]
    · rintro rfl hon
      rw [(solid_heat lib a.h a.w l (2 * k + 1) (by omega) heat hheat y x hy hx).1 hon, mul_one, DrawLines.toByte_byte hb]

/-- An image whose pixels are numbered from one. -/
def numberedQ (h w : Nat) : Img ℚ := ⟨h, w, fun y x => (y * w + x + 1 : Nat)⟩

example : (extractLine DrawLines.Props.demoLib [⟨1, 1⟩, ⟨2, 1⟩] (numberedQ 3 4) 1 true none false true).map Img.toList = some [[6, 7]] := by decide +kernel

/-- C134 is false for even thicknesses: whether the whole line is in the result depends on whether the coordinates are even or odd. Here the same line of
thickness two is complete in one place, and without its right side one pixel further. -/
theorem even_cut :
    (extractLine DrawLines.Props.demoLib [⟨2, 2⟩, ⟨2, 2⟩] ⟨6, 6, fun _ _ => 9⟩ 2 true none false true).map Img.toList = some [[9, 9], [9, 9]] ∧
    (extractLine DrawLines.Props.demoLib [⟨3, 2⟩, ⟨3, 2⟩] ⟨6, 6, fun _ _ => 9⟩ 2 true none false true).map Img.toList = some [[0, 9], [0, 9]] := by
  decide +kernel

/-- C134 is false for images that are not uint8: the values are rounded to bytes, unlike those of a single point. -/
theorem floats_rounded :
    (extractLine DrawLines.Props.demoLib [⟨1, 1⟩, ⟨2, 1⟩] ⟨3, 4, fun _ _ => 1 / 4⟩ 1 true none false true).map Img.toList = some [[0, 0]] ∧
    (extractLine DrawLines.Props.demoLib [⟨1, 1⟩] ⟨3, 4, fun _ _ => 1 / 4⟩ 1 true none false true).map Img.toList = some [[1 / 4]] := by
  decide +kernel

end Imgaug.ExtractShapes.Props
