import Verif.Proofs.DrawLines
/-! C131: drawing line strings and polygons. -/
namespace Imgaug.DrawLines.Props
open Imgaug Imgaug.Dtypes Imgaug.Draw Imgaug.DrawLines

/-- A library that draws the corners of lines and, inside of polygons, the points of the first column. -/
def demoLib : Lib where
  lineAA y1 x1 y2 x2 := [((y1, x1), 1 / 4), ((y2, x2), 1)]
  line y1 x1 y2 x2 := [(y1, x1), (y2, x2)]
  polygon _ h _ := (List.range h).map (fun y => (y, 0))
  linesOut _ _ _ := false
  polyOut _ _ _ := false

theorem demoLib_ok : demoLib.Ok := by
  intro a b c d p hp
  simp only [demoLib, List.mem_cons, List.not_mem_nil, or_false] at hp
  rcases hp with rfl | rfl <;> norm_num

/-- A gray image of 5 rows and 6 columns with 3 channels, and a line string in it. -/
def demoImg : Img := ⟨⟨.u, 1⟩, 5, 6, 3, false, fun _ _ _ => 100⟩
def demoLine : List Pt := [⟨1, 1⟩, ⟨4, 1⟩, ⟨4, 3⟩]

example : Visible demoLine 1 3 := ⟨by decide, by norm_num, by omega⟩

/-- C131: drawing the lines of a line string keeps height, width and channels. If there are less than two points, or the lines are transparent or without
thickness, the image is returned as it is, otherwise a uint8 image. -/
theorem lines_shape (lib : Lib) (im r : Img) (coords : List Pt) (color : LColor) (alpha : ℚ) (size : Nat) (aa raise : Bool)
    (h : drawLines lib im coords color alpha size aa raise = some r) :
    (r.h = im.h ∧ r.w = im.w ∧ r.c = im.c ∧ r.flat = im.flat) ∧ (¬ Visible coords alpha size → r = im) ∧
    (Visible coords alpha size → r.dt = ⟨.u, 1⟩ ∧ ∀ y x ch, y < im.h → x < im.w → ch < im.c → IsByte (r.px y x ch)) := by
  by_cases hv : Visible coords alpha size
  · obtain ⟨k, -, -, hb⟩ := drawLines_drawn hv h
    obtain ⟨⟨h1, h2, h3, h4, h5⟩, hp⟩ := blend_cases hb
    refine ⟨⟨h2, h3, h4, h5⟩, fun h => absurd hv h, fun _ => ⟨h1, fun y x ch a1 a2 a3 => ?_⟩⟩
    rcases hp y x ch a1 a2 a3 with e | ⟨-, e⟩ | ⟨-, e⟩ <;> rw [e] <;> exact toByte_isByte _
  · rw [drawLines_hidden hv, Option.some.injEq] at h
    subst h
    exact ⟨⟨rfl, rfl, rfl, rfl⟩, fun _ => rfl, fun h => absurd h hv⟩

/-- C131: the pixels of a uint8 image that are not on a line, of the given thickness, stay as they are, with or without antialiasing. -/
theorem off_lines (lib : Lib) (im r : Img) (coords : List Pt) (color : LColor) (alpha : ℚ) (size : Nat) (aa raise : Bool)
    (h : drawLines lib im coords color alpha size aa raise = some r) (y x ch : Nat) (hy : y < im.h) (hx : x < im.w) (hc : ch < im.c)
    (hb : IsByte (im.px y x ch)) (hn : ¬ OnThick lib aa coords size im.h im.w y x) : r.px y x ch = im.px y x ch := by
  by_cases hv : Visible coords alpha size
  · obtain ⟨k, -, -, hbl⟩ := drawLines_drawn hv h
    have hz := heatmap_off lib aa alpha size im.h im.w coords hv.2.2 y x hy hx hn
    rcases (blend_cases hbl).2 y x ch hy hx hc with e | ⟨e, -⟩ | ⟨-, e⟩
    · rw [e, hz, mul_zero, zero_add, toByte_byte hb]
    · rw [hz] at e; norm_num at e
    · rw [e, toByte_byte hb]
  · rw [drawLines_hidden hv, Option.some.injEq] at h
    rw [← h]

example : ¬ OnThick demoLib false demoLine 1 5 6 0 0 := by
  rintro ⟨yy, xx, v, -, -, h1, h2, i, p, q, h3, h4, h5⟩
  have e1 : yy = 0 := by unfold InKernel at h1; omega
  have e2 : xx = 0 := by unfold InKernel at h2; omega
  subst e1 e2
  simp only [Bool.false_eq_true, if_false, demoLib, List.mem_cons, List.not_mem_nil, or_false, Prod.mk.injEq] at h5
  have key : ∀ p ∈ demoLine, npRound p.y ≠ 0 := by decide +kernel
  rcases h5.2 with ⟨h, -⟩ | ⟨h, -⟩
  · exact key p (List.mem_of_getElem? h3) (by simpa using h.symm)
  · exact key q (List.mem_of_getElem? h4) (by simpa using h.symm)

/-- C131 (partial): without antialiasing, with an opacity above 0.01, the pixels of the lines are mixed with the color as the opacity says, once, even where lines
meet or cross; if the lines cover the whole image and the opacity is at least 0.99, they may get the color itself.
Missing: opacities from 0.0001 to 0.01, for which nothing is drawn (`faint_lines`), and the strengths of antialiased lines (`on_smooth_lines`). -/
theorem on_lines_partial (lib : Lib) (im r : Img) (coords : List Pt) (color : LColor) (alpha : ℚ) (size : Nat) (raise : Bool)
    (hv : Visible coords alpha size) (ha : 1 / 100 < alpha) (k : List ℚ) (hk : color.comps im.flat im.c = some k)
    (h : drawLines lib im coords color alpha size false raise = some r) (y x ch : Nat) (hy : y < im.h) (hx : x < im.w) (hc : ch < im.c)
    (hn : OnThick lib false coords size im.h im.w y x) :
    r.px y x ch = toByte ((1 - alpha) * im.px y x ch + alpha * k.getD ch 0) ∨ (99 / 100 ≤ alpha ∧ r.px y x ch = toByte (k.getD ch 0)) := by
  obtain ⟨k', hk', -, hbl⟩ := drawLines_drawn hv h
  rw [hk, Option.some.injEq] at hk'
  subst hk'
  have hz := heatmap_on lib alpha (by linarith) size im.h im.w coords hv.2.2 y x hy hx hn
  rcases (blend_cases hbl).2 y x ch hy hx hc with e | ⟨e1, e⟩ | ⟨e, -⟩
  · left
    rw [e, hz]
    congr 1
    ring
  · rw [hz] at e1
    exact Or.inr ⟨e1, e⟩
  · rw [hz] at e; linarith

example : OnThick demoLib false demoLine 3 5 6 2 5 :=
  ⟨1, 4, 1, by omega, by omega, by unfold InKernel; omega, by unfold InKernel; omega, 0, ⟨1, 1⟩, ⟨4, 1⟩, rfl, rfl, by decide +kernel⟩

/-- C131: lines without antialiasing that are not transparent at all have exactly their color. -/
theorem opaque_lines (lib : Lib) (im r : Img) (coords : List Pt) (color : LColor) (size : Nat) (raise : Bool)
    (hl : 2 ≤ coords.length) (hs : 1 ≤ size) (k : List ℚ) (hk : color.comps im.flat im.c = some k)
    (h : drawLines lib im coords color 1 size false raise = some r) (y x ch : Nat) (hy : y < im.h) (hx : x < im.w) (hc : ch < im.c)
    (hb : IsByte (k.getD ch 0)) (hn : OnThick lib false coords size im.h im.w y x) : r.px y x ch = k.getD ch 0 := by
  rcases on_lines_partial lib im r coords color 1 size raise ⟨hl, by norm_num, hs⟩ (by norm_num) k hk h y x ch hy hx hc hn with e | ⟨-, e⟩
  · rw [e, sub_self, zero_mul, zero_add, one_mul, toByte_byte hb]
  · rw [e, toByte_byte hb]

example : ((drawLines demoLib demoImg demoLine (.list [7, 8, 9]) 1 1 false false).map fun r => (r.px 1 4 0, r.px 1 4 2, r.px 0 0 1)) = some (7, 9, 100) := by
  decide +kernel

/-- C131 is false of very faint lines: with an opacity of at least 0.0001, but at most 0.01, they are not drawn at all, whatever the color. -/
theorem faint_lines {lib : Lib} (hl : lib.Ok) (im r : Img) (coords : List Pt) (color : LColor) (alpha : ℚ) (size : Nat) (aa raise : Bool)
    (h0 : 0 ≤ alpha) (ha : alpha ≤ 1 / 100) (h : drawLines lib im coords color alpha size aa raise = some r) (y x ch : Nat) (hy : y < im.h) (hx : x < im.w)
    (hc : ch < im.c) (hb : IsByte (im.px y x ch)) : r.px y x ch = im.px y x ch := by
  by_cases hv : Visible coords alpha size
  · obtain ⟨k, -, -, hbl⟩ := drawLines_drawn hv h
    unfold blend at hbl
    simp only at hbl
    have hp : 0 < im.h * im.w * im.c := Nat.mul_pos (Nat.mul_pos (by omega) (by omega)) (by omega)
    have hr := fun y x hy hx => heatmap_range hl aa alpha h0 size im.h im.w coords hv.2.2 y x hy hx
    rw [if_neg (by omega), if_neg, if_pos, Option.some.injEq] at hbl
    · rw [← hbl]
      exact toByte_byte hb
    · exact allPixels_iff.2 (fun y x hy hx => by simpa using le_trans (hr y x hy hx).2 ha)
    · intro hc
      have h1 := allPixels_iff.1 hc y x hy hx
      have h2 := (hr y x hy hx).2
      simp only [ge_iff_le, decide_eq_true_eq] at h1
      linarith
  · rw [drawLines_hidden hv, Option.some.injEq] at h
    rw [← h]

/-- C131: with or without antialiasing, every value is between that of the image and that of the color. -/
theorem on_smooth_lines {lib : Lib} (hl : lib.Ok) (im r : Img) (coords : List Pt) (color : LColor) (alpha : ℚ) (h1 : alpha ≤ 1) (size : Nat) (aa raise : Bool)
    (k : List ℚ) (hk : color.comps im.flat im.c = some k)
    (h : drawLines lib im coords color alpha size aa raise = some r) (y x ch : Nat) (hy : y < im.h) (hx : x < im.w) (hc : ch < im.c)
    (hb : IsByte (im.px y x ch)) (hkb : IsByte (k.getD ch 0)) : Btw (im.px y x ch) (k.getD ch 0) (r.px y x ch) := by
  by_cases hv : Visible coords alpha size
  · obtain ⟨k', hk', -, hbl⟩ := drawLines_drawn hv h
    rw [hk, Option.some.injEq] at hk'
    subst hk'
    have hr := heatmap_range hl aa alpha (by linarith [hv.2.1]) size im.h im.w coords hv.2.2 y x hy hx
    rcases (blend_cases hbl).2 y x ch hy hx hc with e | ⟨-, e⟩ | ⟨-, e⟩ <;> rw [e]
    · exact toByte_between hb hkb (mix_between hr.1 (le_trans hr.2 h1))
    · exact toByte_between hb hkb ⟨min_le_right _ _, le_max_right _ _⟩
    · exact toByte_between hb hkb ⟨min_le_left _ _, le_max_left _ _⟩
  · rw [drawLines_hidden hv, Option.some.injEq] at h
    rw [← h]
    exact ⟨min_le_left _ _, le_max_left _ _⟩

/-- C131 is false of the corners of antialiased lines: a line hides the ends of the one before it, even if it is weaker there. The corner, on which the first line
ends with full strength, gets a quarter of the color. -/
theorem corner_weakened : OnLine demoLib true demoLine 1 4 1 ∧
    ((drawLines demoLib demoImg demoLine (.number 200) 1 1 true false).map fun r => r.px 1 4 0) = some 125 ∧
    ((drawLines demoLib demoImg (demoLine.take 2) (.number 200) 1 1 true false).map fun r => r.px 1 4 0) = some 200 := by
  refine ⟨⟨0, ⟨1, 1⟩, ⟨4, 1⟩, rfl, rfl, ?_⟩, by decide +kernel, by decide +kernel⟩
  decide +kernel

/-- C131: drawing lines, with opacities up to 1, fails if and only if something is to be drawn, and the line string is outside of the image although this is
forbidden, or the color does not fit: images with two axes expect a number, others a number or as many numbers as they have channels. -/
theorem lines_fail {lib : Lib} (hl : lib.Ok) (im : Img) (hf : im.flat = true → im.c = 1) (coords : List Pt) (color : LColor) (alpha : ℚ) (h1 : alpha ≤ 1) (size : Nat) (aa raise : Bool) :
    drawLines lib im coords color alpha size aa raise = none ↔ Visible coords alpha size ∧
      ((raise = true ∧ lib.linesOut coords im.h im.w = true) ∨
        match color with
        | .number _ => False
        | .scalar _ => im.flat = true ∨ im.c ≠ 1
        | .list l => im.flat = true ∨ im.c ≠ l.length) := by
  by_cases hv : Visible coords alpha size
  · obtain ⟨v1, v2, v3⟩ := id hv
    unfold drawLines
    rw [if_neg (by push Not; exact ⟨by omega, v2, by omega⟩)]
    by_cases ho : raise = true ∧ lib.linesOut coords im.h im.w = true
    · rw [if_pos ho]
      exact ⟨fun _ => ⟨hv, Or.inl ho⟩, fun _ => rfl⟩
    rw [if_neg ho]
    have hsome : ∀ k : List ℚ, blend im k (heatmap lib aa alpha size im.h im.w coords) ≠ none := by
      intro k hc
      have : (blend im k (heatmap lib aa alpha size im.h im.w coords)).isSome = true := by
        apply blend_isSome
        by_cases hh : im.h = 0
        · exact Or.inl hh
        by_cases hw : im.w = 0
        · exact Or.inr (Or.inl hw)
        have := heatmap_range hl aa alpha (by linarith) size im.h im.w coords v3 0 0 (by omega) (by omega)
        exact Or.inr (Or.inr ⟨this.1, le_trans this.2 h1⟩)
      rw [hc] at this
      simp at this
    constructor
    · intro h
      refine ⟨hv, Or.inr ?_⟩
      cases color with
      | number v =>
        cases hfl : im.flat <;> simp [LColor.comps, hfl, hsome] at h
        exact h (hf hfl).symm
      | scalar v =>
        cases hfl : im.flat <;> simp [LColor.comps, hfl, hsome] at h ⊢
        exact fun e => h e.symm
      | list l =>
        cases hfl : im.flat <;> simp [LColor.comps, hfl, hsome] at h ⊢
        exact fun e => h e.symm
    · rintro ⟨-, h | h⟩
      · exact absurd h ho
      · cases color with
        | number v => exact absurd h (by simp)
        | scalar v =>
          cases hfl : im.flat
          · simp only [hfl, Bool.false_eq_true, false_or] at h
            rw [LColor.comps, Option.bind_some, if_neg (fun e => h (by simpa using e.symm))]
          · simp [LColor.comps]
        | list l =>
          cases hfl : im.flat
          · simp only [hfl, Bool.false_eq_true, false_or] at h
            rw [LColor.comps, Option.bind_some, if_neg (fun e => h e.symm)]
          · simp [LColor.comps]
  · rw [drawLines_hidden hv]
    simp [hv]

example : drawLines demoLib demoImg demoLine (.list [1, 2]) 1 1 true false = none := by decide +kernel

/-- C131 is false of shapes that are given in place of an image, as the documentation allows: unless the width is 1 or happens to be the number of colour
components, an exception is raised. -/
theorem shapes_fail (lib : Lib) (h w c : Nat) (coords : List Pt) (color : LColor) (alpha : ℚ) (size : Nat) (aa raise : Bool) (hv : Visible coords alpha size)
    (hw : w ≠ 1) (k : List ℚ) (hk : color.comps false c = some k) (h1 : k.length ≠ 1) (hwk : w ≠ k.length) :
    drawLinesNew lib h w c coords color alpha size aa raise = none := by
  obtain ⟨v1, v2, v3⟩ := hv
  unfold drawLinesNew
  rw [if_neg (by push Not; exact ⟨by omega, v2, by omega⟩)]
  split
  · rfl
  rw [hk, Option.bind_some, common, if_neg hwk, if_neg hw, if_neg h1, Option.bind_none]

example : drawLinesNew demoLib 5 6 3 demoLine (.list [0, 255, 0]) 1 1 true false = none := by decide +kernel

/-- C131: the values of heatmaps of lines are between 0 and 1, and 0 off the lines. -/
theorem heat_range (lib : Lib) (h w : Nat) (coords : List Pt) (alpha : ℚ) (size : Nat) (aa raise : Bool) (f : Nat → Nat → ℚ)
    (hf : linesHeat lib h w coords alpha size aa raise = some f) (y x : Nat) (hy : y < h) (hx : x < w) :
    0 ≤ f y x ∧ f y x ≤ 1 ∧ (¬ OnThick lib aa coords size h w y x → f y x = 0) := by
  obtain ⟨r, hr, rfl⟩ := Option.map_eq_some_iff.1 hf
  have hz : IsByte ((black h w).px y x 0) := ⟨0, by simp [black], by omega⟩
  have hb : IsByte (r.px y x 0) := by
    obtain ⟨-, h2, h3⟩ := lines_shape _ _ _ _ _ _ _ _ _ hr
    by_cases hv : Visible coords alpha size
    · exact (h3 hv).2 y x 0 hy hx (by simp [black])
    · rw [h2 hv]; exact hz
  obtain ⟨n, e, hn⟩ := hb
  have hn' : (n : ℚ) ≤ 255 := by exact_mod_cast hn
  refine ⟨?_, ?_, fun ho => ?_⟩
  · simp only [e]; positivity
  · simp only [e]; rw [div_le_one (by norm_num)]; exact hn'
  · have := off_lines lib _ _ _ _ _ _ _ _ hr y x 0 hy hx (by simp [black]) hz ho
    simp only [this, black, zero_div]

open Classical in
/-- Points drawn in white on black. -/
theorem white_points (kps : List (ℚ × ℚ)) (im r : Img) (hd : im.dt = ⟨.u, 1⟩) (hc : im.c = 1)
    (hb : ∀ y x, y < im.h → x < im.w → im.px y x 0 = 0 ∨ im.px y x 0 = 255) (size : Nat) (raise : Bool)
    (h : drawKps im kps (.one 255) 1 size raise = some r) (y x : Nat) (hy : y < im.h) (hx : x < im.w) :
    r.px y x 0 = if (∃ k ∈ kps, InSquare k.1 k.2 (size / 2) y x) ∨ im.px y x 0 = 255 then 255 else 0 := by
  have hol : Holds (⟨.u, 1⟩ : DType) 0 ∧ Holds (⟨.u, 1⟩ : DType) 255 :=
    ⟨⟨by decide +kernel, by decide +kernel, fun _ => ⟨0, rfl⟩⟩, ⟨by decide +kernel, by decide +kernel, fun _ => ⟨255, rfl⟩⟩⟩
  induction kps generalizing im with
  | nil =>
    simp only [drawKps, List.foldlM_nil, Option.pure_def, Option.some.injEq] at h
    subst h
    simp only [List.not_mem_nil, false_and, exists_false, false_or]
    split
    · assumption
    · rcases hb y x hy hx with e | e
      · exact e
      · contradiction
  | cons k ks ih =>
    simp only [drawKps, List.foldlM_cons] at h
    rw [Option.bind_eq_bind, Option.bind_eq_some_iff] at h
    obtain ⟨m, hm, hr⟩ := h
    have hok : im.Ok := by
      intro y x ch h1 h2 h3
      have : ch = 0 := by omega
      subst this
      rw [hd]
      rcases hb y x h1 h2 with e | e <;> rw [e]
      · exact hol.1
      · exact hol.2
    obtain ⟨s, p⟩ := Draw.Props.keypoint_drawn im m hok k.1 k.2 (.one 255) 1 size raise hm
    have hcol : ∀ y x, y < im.h → x < im.w → m.px y x 0 = if InSquare k.1 k.2 (size / 2) y x then 255 else im.px y x 0 := by
      intro y x h1 h2
      obtain ⟨q1, q2, -⟩ := p y x 0 h1 h2 (by omega)
      by_cases hs : InSquare k.1 k.2 (size / 2) y x
      · rw [if_pos hs]; exact q2 hs (by norm_num) (by rw [hd]; exact hol.2)
      · rw [if_neg hs]; exact q1 (Or.inl hs)
    have := ih m (s.1 ▸ hd) (s.2.2.2.1 ▸ hc) (fun y x h1 h2 => by
      rw [hcol y x (s.2.1 ▸ h1) (s.2.2.1 ▸ h2)]
      split
      · exact Or.inr rfl
      · exact hb y x (s.2.1 ▸ h1) (s.2.2.1 ▸ h2)) hr (s.2.1 ▸ hy) (s.2.2.1 ▸ hx)
    rw [this, hcol y x hy hx]
    congr 1
    simp only [List.mem_cons, exists_eq_or_imp, eq_iff_iff]
    by_cases hs : InSquare k.1 k.2 (size / 2) y x
    · simp [hs]
    · simp [hs]

/-- C131: masks of line strings show exactly the pixels of the lines and, if they have a size, of the squares of the points. -/
theorem mask_exact (lib : Lib) (h w : Nat) (coords : List Pt) (sizeL sizeP : Nat) (raise : Bool) (m : Nat → Nat → Bool)
    (hm : drawMask lib h w coords sizeL sizeP raise = some m) (y x : Nat) (hy : y < h) (hx : x < w) :
    m y x = true ↔ (1 ≤ sizeL ∧ OnThick lib false coords sizeL h w y x) ∨ (1 ≤ sizeP ∧ OnPoint coords sizeP y x) := by
  classical
  obtain ⟨f, hf, rfl⟩ := Option.map_eq_some_iff.1 hm
  obtain ⟨l, hl, hf⟩ := Option.bind_eq_some_iff.1 hf
  have hline : l y x = if 1 ≤ sizeL ∧ OnThick lib false coords sizeL h w y x then 1 else 0 := by
    by_cases hon : 1 ≤ sizeL ∧ OnThick lib false coords sizeL h w y x
    · rw [if_pos hon]
      obtain ⟨r, hr, rfl⟩ := Option.map_eq_some_iff.1 hl
      have h2 : 2 ≤ coords.length := by
        obtain ⟨yy, xx, v, -, -, -, -, i, p, q, -, hq, -⟩ := hon.2
        have := (List.getElem?_eq_some_iff.1 hq).1
        omega
      have := opaque_lines lib (black h w) r coords (.number 255) sizeL raise h2 hon.1 [255] rfl hr y x 0 hy hx (by simp [black])
        ⟨255, by simp, by omega⟩ hon.2
      simp [this]
    · rw [if_neg hon]
      by_cases h1 : 1 ≤ sizeL
      · exact (heat_range lib h w coords 1 sizeL false raise l hl y x hy hx).2.2 (fun hc => hon ⟨h1, hc⟩)
      · obtain ⟨r, hr, rfl⟩ := Option.map_eq_some_iff.1 hl
        have : r = black h w := (lines_shape _ _ _ _ _ _ _ _ _ hr).2.1 (fun hv => h1 hv.2.2)
        simp [this, black]
  by_cases hp : sizeP ≤ 0
  · rw [if_pos hp, Option.some.injEq] at hf
    subst hf
    rw [decide_eq_true_eq, hline]
    have : ¬ 1 ≤ sizeP := by omega
    simp only [this, false_and, or_false]
    split
    · rename_i ht; simp only [ht, iff_true]; norm_num
    · rename_i ht; simp only [ht, iff_false]; norm_num
  · rw [if_neg hp] at hf
    obtain ⟨p, hp2, rfl⟩ := Option.map_eq_some_iff.1 hf
    obtain ⟨r, hr, rfl⟩ := Option.map_eq_some_iff.1 hp2
    have hw := white_points _ (black h w) r rfl rfl (fun _ _ _ _ => Or.inl rfl) sizeP raise hr y x hy hx
    have hpt : (∃ k ∈ coords.map (fun p : Pt => (p.x, p.y)), InSquare k.1 k.2 (sizeP / 2) y x) ↔ OnPoint coords sizeP y x := by
      simp only [OnPoint, List.mem_map, exists_exists_and_eq_and]
    have e0 : ¬ (black h w).px y x 0 = 255 := by simp [black]
    have h1 : 1 ≤ sizeP := by omega
    have hw2 : (OnPoint coords sizeP y x → r.px y x 0 = 255) ∧ (¬ OnPoint coords sizeP y x → r.px y x 0 = 0) := by
      refine ⟨fun a => ?_, fun a => ?_⟩
      · rw [hw, if_pos (Or.inl (hpt.2 a))]
      · rw [hw, if_neg (fun c => c.elim (fun c => a (hpt.1 c)) e0)]
    simp only [decide_eq_true_eq, hline, h1, true_and]
    by_cases a2 : OnPoint coords sizeP y x
    · rw [hw2.1 a2]
      by_cases a1 : 1 ≤ sizeL ∧ OnThick lib false coords sizeL h w y x <;> simp [a1, a2] <;> norm_num
    · rw [hw2.2 a2]
      by_cases a1 : 1 ≤ sizeL ∧ OnThick lib false coords sizeL h w y x <;> simp [a1, a2] <;> norm_num

example : ((drawMask demoLib 5 6 demoLine 1 1 false).map fun m => (m 1 4, m 3 4, m 2 2)) = some (true, true, false) := by decide +kernel

/-- C131 is false of images with two axes: drawing a line string with lines and points always fails, whatever the color. -/
theorem gray_images_fail (lib : Lib) (im : Img) (hf : im.flat = true) (coords : List Pt) (a : Args) (aa raise : Bool)
    (hv : Visible coords (a.alphaLines.getD a.alpha) (a.sizeLines.getD a.size)) : drawLineString lib im coords a aa raise = none := by
  obtain ⟨v1, v2, v3⟩ := hv
  have : drawLines lib im coords (a.colorLines.getD a.color).u8 (a.alphaLines.getD a.alpha) (a.sizeLines.getD a.size) aa raise = none := by
    unfold drawLines
    rw [if_neg (by push Not; exact ⟨by omega, v2, by omega⟩)]
    split
    · rfl
    · rw [hf]
      cases a.colorLines.getD a.color <;> rfl
  unfold drawLineString
  rw [this, Option.bind_none]

/-- C131 is false of colors that are numbers: drawing a line string with them fails, unless the image has a single channel. -/
theorem numbers_fail (lib : Lib) (im : Img) (hc : im.c ≠ 1) (coords : List Pt) (a : Args) (v : ℚ) (hn : a.colorLines.getD a.color = .number v) (aa raise : Bool)
    (hv : Visible coords (a.alphaLines.getD a.alpha) (a.sizeLines.getD a.size)) : drawLineString lib im coords a aa raise = none := by
  obtain ⟨v1, v2, v3⟩ := hv
  have : drawLines lib im coords (a.colorLines.getD a.color).u8 (a.alphaLines.getD a.alpha) (a.sizeLines.getD a.size) aa raise = none := by
    unfold drawLines
    rw [if_neg (by push Not; exact ⟨by omega, v2, by omega⟩), hn]
    split
    · rfl
    · cases im.flat
      · simp only [LColor.u8, LColor.comps, Option.bind_some, List.length_cons, List.length_nil, Nat.zero_add]
        rw [if_neg (fun e => hc e.symm)]
      · rfl
  unfold drawLineString
  rw [this, Option.bind_none]

/-- A drawing in one color. -/
def plain (k : LColor) (alpha : ℚ) (size : Nat) : Args := ⟨k, none, none, none, alpha, none, none, none, size, none, none⟩

example : drawLineString demoLib demoImg demoLine (plain (.number 3) 1 1) true false = none := by decide +kernel
example : (drawLineString demoLib demoImg demoLine (plain (.list [0, 255, 0]) 1 1) true false).isSome = true := by decide +kernel

/-- C131: a line string drawn on a uint8 image leaves size and dtype, and all pixels that are neither on its lines nor in the squares of its points. -/
theorem off_line_string (lib : Lib) (im r : Img) (hd : im.dt = ⟨.u, 1⟩) (coords : List Pt) (a : Args) (aa raise : Bool)
    (h : drawLineString lib im coords a aa raise = some r) :
    Same im r ∧ ∀ y x ch, y < im.h → x < im.w → ch < im.c → IsByte (im.px y x ch) →
      ¬ OnThick lib aa coords (a.sizeLines.getD a.size) im.h im.w y x → ¬ OnPoint coords (a.sizePoints.getD (a.size * 3)) y x →
      r.px y x ch = im.px y x ch := by
  obtain ⟨m, hm, hr⟩ := Option.bind_eq_some_iff.1 h
  obtain ⟨⟨s1, s2, s3, s4⟩, hh, hvis⟩ := lines_shape _ _ _ _ _ _ _ _ _ hm
  obtain ⟨s, p⟩ := drawPoints_off hr
  have hmd : m.dt = ⟨.u, 1⟩ := by
    by_cases hv : Visible coords (a.alphaLines.getD a.alpha) (a.sizeLines.getD a.size)
    · exact (hvis hv).1
    · rw [hh hv]; exact hd
  refine ⟨⟨by rw [hd, ← s.1, hmd], s1.symm.trans s.2.1, s2.symm.trans s.2.2.1, s3.symm.trans s.2.2.2.1, s4.symm.trans s.2.2.2.2⟩, ?_⟩
  intro y x ch hy hx hc hb hl hp
  have e := off_lines lib im m coords _ _ _ aa raise hm y x ch hy hx hc hb hl
  rw [p y x ch (by omega) (by omega) (Or.inr ⟨hmd, by rw [e]; exact hb⟩) hp, e]

open Classical in
/-- Opaque points have their color, all other pixels stay. -/
theorem opaque_points (kps : List (ℚ × ℚ)) (im r : Img) (hok : im.Ok) (color : Color) (hcol : ∀ ch, ch < im.c → Holds im.dt (color.comp ch))
    (alpha : ℚ) (ha : alpha > 99 / 100) (size : Nat) (raise : Bool) (h : drawKps im kps color alpha size raise = some r)
    (y x ch : Nat) (hy : y < im.h) (hx : x < im.w) (hc : ch < im.c) :
    r.px y x ch = if ∃ k ∈ kps, InSquare k.1 k.2 (size / 2) y x then color.comp ch else im.px y x ch := by
  induction kps generalizing im with
  | nil =>
    simp only [drawKps, List.foldlM_nil, Option.pure_def, Option.some.injEq] at h
    subst h
    simp
  | cons k ks ih =>
    simp only [drawKps, List.foldlM_cons] at h
    rw [Option.bind_eq_bind, Option.bind_eq_some_iff] at h
    obtain ⟨m, hm, hr⟩ := h
    obtain ⟨s, p⟩ := Draw.Props.keypoint_drawn im m hok k.1 k.2 color alpha size raise hm
    have hp : ∀ y x ch, y < im.h → x < im.w → ch < im.c →
        m.px y x ch = if InSquare k.1 k.2 (size / 2) y x then color.comp ch else im.px y x ch := by
      intro y x ch h1 h2 h3
      obtain ⟨q1, q2, -⟩ := p y x ch h1 h2 h3
      by_cases hs : InSquare k.1 k.2 (size / 2) y x
      · rw [if_pos hs]; exact q2 hs ha (hcol ch h3)
      · rw [if_neg hs]; exact q1 (Or.inl hs)
    have := ih m (fun y x ch h1 h2 h3 => by
      rw [← s.2.1] at h1
      rw [← s.2.2.1] at h2
      rw [← s.2.2.2.1] at h3
      rw [hp y x ch h1 h2 h3, ← s.1]
      split
      · exact hcol ch h3
      · exact hok y x ch h1 h2 h3) (fun ch h3 => s.1 ▸ hcol ch (s.2.2.2.1 ▸ h3)) hr (s.2.1 ▸ hy) (s.2.2.1 ▸ hx) (s.2.2.2.1 ▸ hc)
    rw [this, hp y x ch hy hx hc]
    simp only [List.mem_cons, exists_eq_or_imp]
    by_cases hs : InSquare k.1 k.2 (size / 2) y x
    · simp [hs]
    · simp [hs]

theorem comp_many (l : List ℚ) (ch : Nat) (h : ch < l.length) : (Color.many l).comp ch = l.getD ch 0 := by
  match l, h with
  | [v], h =>
    have : ch = 0 := by simpa using h
    subst this
    rfl
  | _ :: _ :: _, _ => rfl

theorem holds_byte {v : ℚ} (h : IsByte v) : Holds (⟨.u, 1⟩ : DType) v := by
  obtain ⟨n, rfl, hn⟩ := h
  have hb : lo ⟨.u, 1⟩ = 0 ∧ hi ⟨.u, 1⟩ = 255 := by decide +kernel
  refine ⟨?_, ?_, fun _ => ⟨n, rfl⟩⟩
  · rw [hb.1]; push_cast; positivity
  · rw [hb.2]; exact_mod_cast hn

theorem half_byte : ∀ n : Nat, n ≤ 255 → astype ⟨.u, 1⟩ ((n : ℚ) / 2) = ((n / 2 : Nat) : ℚ) := by
  have : ∀ n : Fin 256, astype ⟨.u, 1⟩ (((n : Nat) : ℚ) / 2) = (((n : Nat) / 2 : Nat) : ℚ) := by decide +kernel
  exact fun n hn => this ⟨n, by omega⟩

/-- C131: the points of a line string on a uint8 image that are opaque, and for which no color of their own is given, have half the intensities of the color,
rounded down. -/
theorem points_darker (lib : Lib) (im r : Img) (hd : im.dt = ⟨.u, 1⟩) (hok : im.Ok) (coords : List Pt) (a : Args) (aa raise : Bool)
    (l : List Nat) (hl : a.color = .list (l.map fun (n : Nat) => (n : ℚ))) (hlen : l.length = im.c) (hb : ∀ n ∈ l, n ≤ 255) (hc : a.colorPoints = none)
    (ha : a.alphaPoints.getD a.alpha > 99 / 100) (h : drawLineString lib im coords a aa raise = some r) (y x ch : Nat)
    (hy : y < im.h) (hx : x < im.w) (hch : ch < im.c) (hp : OnPoint coords (a.sizePoints.getD (a.size * 3)) y x) :
    r.px y x ch = ((l.getD ch 0 / 2 : Nat) : ℚ) := by
  classical
  obtain ⟨m, hm, hr⟩ := Option.bind_eq_some_iff.1 h
  obtain ⟨⟨s1, s2, s3, s4⟩, hh, hvis⟩ := lines_shape _ _ _ _ _ _ _ _ _ hm
  have hmok : m.dt = ⟨.u, 1⟩ ∧ m.Ok := by
    by_cases hv : Visible coords (a.alphaLines.getD a.alpha) (a.sizeLines.getD a.size)
    · refine ⟨(hvis hv).1, fun y x ch h1 h2 h3 => ?_⟩
      rw [(hvis hv).1]
      exact holds_byte ((hvis hv).2 y x ch (by omega) (by omega) (by omega))
    · rw [hh hv]; exact ⟨hd, hok⟩
  have hcolor : ∀ ch, ch < im.c → ((a.colorPoints.getD a.color.half).u8).toColor.comp ch = ((l.getD ch 0 / 2 : Nat) : ℚ) := by
    intro ch hch
    rw [hc, hl]
    simp only [Option.getD_none, LColor.half, LColor.u8, LColor.toColor, List.map_map]
    rw [comp_many _ _ (by simpa [hlen] using hch)]
    have h1 : ch < l.length := by omega
    simp only [List.getD_eq_getElem?_getD, List.getElem?_map, List.getElem?_eq_getElem h1, Option.map_some, Option.getD_some, Function.comp_apply]
    exact half_byte _ (hb _ (List.getElem_mem h1))
  have key := opaque_points _ m r hmok.2 _ (fun ch h3 => by
    rw [hcolor ch (by omega), hmok.1]
    refine holds_byte ⟨_, rfl, ?_⟩
    have h1 : ch < l.length := by omega
    have := hb _ (List.getElem_mem h1)
    rw [List.getD_eq_getElem?_getD, List.getElem?_eq_getElem h1, Option.getD_some]
    omega) _ ha _ _ hr y x ch (by omega) (by omega) (by omega)
  rw [key, hcolor ch hch, if_pos]
  obtain ⟨p, hp1, hp2⟩ := hp
  exact ⟨(p.x, p.y), List.mem_map.2 ⟨p, hp1, rfl⟩, hp2⟩

example : ((drawLineString demoLib demoImg demoLine ⟨.list [200, 101, 0], none, none, none, 1, none, none, none, 1, none, none⟩ false false).map
    fun r => [r.px 1 1 0, r.px 1 1 1, r.px 1 1 2]) = some [100, 50, 0] ∧ OnPoint demoLine 3 1 1 := by
  refine ⟨by decide +kernel, ⟨1, 1⟩, by simp [demoLine], ?_⟩
  unfold InSquare
  decide +kernel

/-- C131: a polygon drawn on a uint8 image leaves size and dtype. Off its outline and the squares of its points, the pixels of its inside are mixed with the color of
the face as its opacity says (opacities below 0.01 count as 0, those above 0.99 as 1), and all others stay. -/
theorem polygon_drawn (lib : Lib) (im r : Img) (hd : im.dt = ⟨.u, 1⟩) (ext : List Pt) (a : Args) (raise : Bool)
    (h : drawPolygon lib im ext a raise = some r) (k : List ℚ) (hk : (a.colorFace.getD a.color.arr).comps im.flat im.c = some k) :
    Same im r ∧ ∀ y x ch, y < im.h → x < im.w → ch < im.c → IsByte (im.px y x ch) →
      ¬ OnThick lib true (if ext.length ≤ 1 then ext else ext ++ ext.take 1) (a.sizeLines.getD a.size) im.h im.w y x →
      ¬ OnPoint ext (a.sizePoints.getD (a.size * 3)) y x →
      ((y, x) ∉ lib.polygon (ext.map (fun p => (npRound p.y, npRound p.x))) im.h im.w ∨ a.alphaFace.getD (a.alpha / 2) < 1 / 100 →
        r.px y x ch = im.px y x ch) ∧
      ((y, x) ∈ lib.polygon (ext.map (fun p => (npRound p.y, npRound p.x))) im.h im.w → 1 / 100 ≤ a.alphaFace.getD (a.alpha / 2) →
        r.px y x ch = if a.alphaFace.getD (a.alpha / 2) > 99 / 100 then toByte (k.getD (if k.length = 1 then 0 else ch) 0)
          else toByte ((1 - a.alphaFace.getD (a.alpha / 2)) * im.px y x ch + a.alphaFace.getD (a.alpha / 2) * k.getD (if k.length = 1 then 0 else ch) 0)) := by
  unfold drawPolygon faceComps at h
  rw [hk, Option.bind_some] at h
  split at h
  · simp at h
  obtain ⟨f, hf, h⟩ := Option.bind_eq_some_iff.1 h
  obtain ⟨m, hm, h⟩ := Option.bind_eq_some_iff.1 h
  obtain ⟨q, hq, rfl⟩ := Option.map_eq_some_iff.1 h
  generalize a.alphaFace.getD (a.alpha / 2) = af at *
  generalize lib.polygon (ext.map (fun p => (npRound p.y, npRound p.x))) im.h im.w = ps at *
  -- the face
  have hface : (f.dt = ⟨.f, 4⟩ ∧ f.h = im.h ∧ f.w = im.w ∧ f.c = im.c ∧ f.flat = im.flat) ∧ ∀ y x ch,
      f.px y x ch = if (y, x) ∈ ps ∧ faceAlpha af ≠ 0 then (1 - faceAlpha af) * im.px y x ch + faceAlpha af * k.getD (if k.length = 1 then 0 else ch) 0
        else im.px y x ch := by
    unfold drawFace at hf
    by_cases h0 : ps = [] ∨ faceAlpha af = 0
    · rw [if_pos h0, Option.some.injEq] at hf
      subst hf
      refine ⟨⟨rfl, rfl, rfl, rfl, rfl⟩, fun y x ch => ?_⟩
      rw [if_neg]
      rintro ⟨c1, c2⟩
      rcases h0 with rfl | h0
      · simp at c1
      · exact c2 h0
    · rw [if_neg h0] at hf
      split at hf
      · simp at hf
      · rw [Option.some.injEq] at hf
        subst hf
        refine ⟨⟨rfl, rfl, rfl, rfl, rfl⟩, fun y x ch => ?_⟩
        push Not at h0
        by_cases hin : (y, x) ∈ ps
        · rw [if_pos ⟨hin, h0.2⟩]; simp only [hin, if_true]
        · rw [if_neg (fun c => hin c.1)]; simp only [hin, if_false]
  obtain ⟨⟨f1, f2, f3, f4, f5⟩, fpx⟩ := hface
  obtain ⟨⟨s1, s2, s3, s4⟩, hh, hvis⟩ := lines_shape _ _ _ _ _ _ _ _ _ hm
  obtain ⟨s, p⟩ := drawPoints_off hq
  refine ⟨⟨rfl, ?_, ?_, ?_, ?_⟩, ?_⟩
  · exact (f2.symm.trans s1.symm).trans s.2.1
  · exact (f3.symm.trans s2.symm).trans s.2.2.1
  · exact (f4.symm.trans s3.symm).trans s.2.2.2.1
  · exact (f5.symm.trans s4.symm).trans s.2.2.2.2
  intro y x ch hy hx hc hb hl hp
  -- off the lines and points, the result is the byte of the face
  have key : (finish im.dt q).px y x ch = toByte (f.px y x ch) := by
    simp only [finish, hd, if_true]
    by_cases hv : Visible (ring ext) (a.alphaLines.getD a.alpha) (a.sizeLines.getD a.size)
    · obtain ⟨k', -, -, hbl⟩ := drawLines_drawn hv hm
      have hz := heatmap_off lib true (a.alphaLines.getD a.alpha) (a.sizeLines.getD a.size) f.h f.w (ring ext) hv.2.2 y x (by omega) (by omega)
        (by rw [f2, f3]; exact hl)
      have e : m.px y x ch = toByte (f.px y x ch) := by
        rcases (blend_cases hbl).2 y x ch (by omega) (by omega) (by omega) with e | ⟨e, -⟩ | ⟨-, e⟩
        · rw [e, hz, mul_zero, zero_add]
        · rw [hz] at e; norm_num at e
        · exact e
      rw [p y x ch (by omega) (by omega) (Or.inr ⟨(hvis hv).1, by rw [e]; exact toByte_isByte _⟩) hp, e, toByte_byte (toByte_isByte _)]
    · have em := hh hv
      rw [p y x ch (by omega) (by omega) (Or.inl (by rw [em]; exact f1)) hp, em]
  rw [key, fpx]
  refine ⟨fun ho => ?_, fun hin ha => ?_⟩
  · rw [if_neg, toByte_byte hb]
    rintro ⟨c1, c2⟩
    rcases ho with ho | ho
    · exact ho c1
    · exact c2 (by unfold faceAlpha; rw [if_pos ho])
  · have h1 : ¬ af < 1 / 100 := not_lt.2 ha
    by_cases h2 : af > 99 / 100
    · have e : faceAlpha af = 1 := by unfold faceAlpha; rw [if_neg h1, if_pos h2]
      rw [e, if_pos ⟨hin, one_ne_zero⟩, if_pos h2, sub_self, zero_mul, zero_add, one_mul]
    · have e : faceAlpha af = af := by unfold faceAlpha; rw [if_neg h1, if_neg h2]
      rw [e, if_pos ⟨hin, by intro c; rw [c] at ha; norm_num at ha⟩, if_neg h2]

example : ((drawPolygon demoLib demoImg [⟨3, 1⟩, ⟨5, 1⟩, ⟨5, 2⟩] (plain (.list [200, 0, 0]) (1 / 2) 1) false).map fun r => (r.px 4 0 0, r.px 4 0 1, r.px 4 3 0)) =
    some (125, 75, 100) := by decide +kernel

/-- C131 is false of polygons on images with two axes if the color of the face is not given as a number: drawing fails. -/
theorem gray_polygons_fail (lib : Lib) (im : Img) (hf : im.flat = true) (ext : List Pt) (a : Args) (hc : a.colorFace = none) (raise : Bool) :
    drawPolygon lib im ext a raise = none := by
  unfold drawPolygon faceComps
  rw [hc, hf]
  cases a.color <;> rfl

end Imgaug.DrawLines.Props
