import Verif.Spec.DrawLines
import Verif.Proofs.Num
import Verif.Props.Draw
import Mathlib.Tactic.Linarith
/-! Lemmas for C131. -/
namespace Imgaug.DrawLines
open Imgaug Imgaug.Dtypes Imgaug.Draw

theorem toByte_byte {v : ℚ} (h : IsByte v) : toByte v = v := by
  obtain ⟨n, rfl, hn⟩ := h
  have := Imgaug.Props.npRound_int (n : Int)
  push_cast at this
  simp only [toByte, this, clipI]
  have e : min (max (n : Int) 0) 255 = n := by omega
  rw [e]; rfl

theorem toByte_isByte (v : ℚ) : IsByte (toByte v) := by
  refine ⟨(clipI (npRound v) 0 255).toNat, ?_, ?_⟩
  · have h : 0 ≤ clipI (npRound v) 0 255 := by unfold clipI; omega
    unfold toByte
    conv_lhs => rw [← Int.toNat_of_nonneg h]
    rfl
  · unfold clipI; omega

theorem toByte_mono {v w : ℚ} (h : v ≤ w) : toByte v ≤ toByte w := by
  unfold toByte clipI
  have := Imgaug.Props.npRound_mono h
  have e : min (max (npRound v) 0) 255 ≤ min (max (npRound w) 0) 255 := by omega
  exact_mod_cast e

theorem mark_cases (alpha : ℚ) (ps : List ((Int × Int) × ℚ)) (heat : Nat → Nat → ℚ) (y x : Nat) :
    (∃ v, (((y : Int), (x : Int)), v) ∈ ps ∧ mark alpha ps heat y x = v * alpha) ∨
    ((∀ v, (((y : Int), (x : Int)), v) ∉ ps) ∧ mark alpha ps heat y x = heat y x) := by
  unfold mark
  cases h : ps.reverse.find? (fun p => p.1 == ((y : Int), (x : Int))) with
  | some p =>
    left
    have h1 := List.find?_some h
    have h2 := List.mem_of_find?_eq_some h
    rw [beq_iff_eq] at h1
    refine ⟨p.2, ?_, rfl⟩
    rw [← h1]
    exact List.mem_reverse.1 h2
  | none =>
    right
    refine ⟨fun v hv => ?_, rfl⟩
    have := List.find?_eq_none.1 h _ (List.mem_reverse.2 hv)
    simp at this

theorem fold_cases (alpha : ℚ) (f : (Int × Int × Int × Int) → List ((Int × Int) × ℚ)) (S : List (Int × Int × Int × Int)) (heat : Nat → Nat → ℚ) (y x : Nat) :
    (∃ s ∈ S, ∃ v, (((y : Int), (x : Int)), v) ∈ f s ∧ S.foldl (fun heat s => mark alpha (f s) heat) heat y x = v * alpha) ∨
    ((∀ s ∈ S, ∀ v, (((y : Int), (x : Int)), v) ∉ f s) ∧ S.foldl (fun heat s => mark alpha (f s) heat) heat y x = heat y x) := by
  induction S generalizing heat with
  | nil => right; simp
  | cons s S ih =>
    rw [List.foldl_cons]
    rcases ih (mark alpha (f s) heat) with ⟨t, ht, v, hv, e⟩ | ⟨hn, e⟩
    · exact Or.inl ⟨t, by simp [ht], v, hv, e⟩
    · rcases mark_cases alpha (f s) heat y x with ⟨v, hv, e2⟩ | ⟨hn2, e2⟩
      · exact Or.inl ⟨s, by simp, v, hv, e.trans e2⟩
      · refine Or.inr ⟨fun t ht v => ?_, e.trans e2⟩
        rcases List.mem_cons.1 ht with rfl | ht
        · exact hn2 v
        · exact hn t ht v

theorem mem_pixels {lib : Lib} {aa : Bool} {s : Int × Int × Int × Int} {y x : Nat} {v : ℚ} :
    (((y : Int), (x : Int)), v) ∈ pixels lib aa s ↔
      (if aa = true then (((y : Int), (x : Int)), v) ∈ lib.lineAA s.1 s.2.1 s.2.2.1 s.2.2.2
        else v = 1 ∧ ((y : Int), (x : Int)) ∈ lib.line s.1 s.2.1 s.2.2.1 s.2.2.2) := by
  cases aa
  · simp only [pixels, Bool.false_eq_true, if_false, List.mem_map, Prod.mk.injEq]
    constructor
    · rintro ⟨p, hp, e, rfl⟩
      exact ⟨rfl, e ▸ hp⟩
    · rintro ⟨rfl, h⟩
      exact ⟨_, h, rfl, rfl⟩
  · simp [pixels]

theorem mem_segments {coords : List Pt} {s : Int × Int × Int × Int} :
    s ∈ segments coords ↔ ∃ (i : Nat) (p q : Pt), coords[i]? = some p ∧ coords[i + 1]? = some q ∧
      s = (npRound p.y, npRound p.x, npRound q.y, npRound q.x) := by
  unfold segments
  simp only [List.mem_map]
  constructor
  · rintro ⟨⟨p, q⟩, h, rfl⟩
    obtain ⟨i, hi⟩ := List.mem_iff_getElem?.1 h
    rw [List.getElem?_zip_eq_some] at hi
    refine ⟨i, p, q, hi.1, ?_, rfl⟩
    have := hi.2
    simpa using this
  · rintro ⟨i, p, q, h1, h2, rfl⟩
    refine ⟨(p, q), ?_, rfl⟩
    apply List.mem_iff_getElem?.2 ⟨i, ?_⟩
    rw [List.getElem?_zip_eq_some]
    exact ⟨h1, by simpa using h2⟩

theorem marked_cases (lib : Lib) (aa : Bool) (alpha : ℚ) (coords : List Pt) (y x : Nat) :
    (∃ v, OnLine lib aa coords y x v ∧ marked lib aa alpha coords y x = v * alpha) ∨
    ((∀ v, ¬ OnLine lib aa coords y x v) ∧ marked lib aa alpha coords y x = 0) := by
  rcases fold_cases alpha (pixels lib aa) (segments coords) (fun _ _ => 0) y x with ⟨s, hs, v, hv, e⟩ | ⟨hn, e⟩
  · left
    obtain ⟨i, p, q, h1, h2, rfl⟩ := mem_segments.1 hs
    exact ⟨v, ⟨i, p, q, h1, h2, mem_pixels.1 hv⟩, e⟩
  · right
    refine ⟨fun v hv => ?_, e⟩
    obtain ⟨i, p, q, h1, h2, h3⟩ := hv
    exact hn _ (mem_segments.2 ⟨i, p, q, h1, h2, rfl⟩) v (mem_pixels.2 h3)

theorem mem_covered {size n i j : Nat} : j ∈ covered size n i ↔ j < n ∧ InKernel size i j := by
  simp only [covered, List.mem_filter, List.mem_range, InKernel, decide_eq_true_eq]
  constructor
  · rintro ⟨h1, h2, h3⟩
    refine ⟨h1, ?_, ?_⟩ <;> omega
  · rintro ⟨h1, h2, h3⟩
    refine ⟨h1, ?_, ?_⟩ <;> omega

theorem foldr_max_cases (l : List ℚ) (b : ℚ) : (∀ v ∈ l, v ≤ l.foldr max b) ∧ b ≤ l.foldr max b ∧ (l.foldr max b = b ∨ l.foldr max b ∈ l) := by
  induction l with
  | nil => simp
  | cons a l ih =>
    obtain ⟨h1, h2, h3⟩ := ih
    rw [List.foldr_cons]
    refine ⟨fun v hv => ?_, le_trans h2 (le_max_right _ _), ?_⟩
    · rcases List.mem_cons.1 hv with rfl | hv
      · exact le_max_left _ _
      · exact le_trans (h1 v hv) (le_max_right _ _)
    · rcases max_choice a (l.foldr max b) with e | e <;> rw [e]
      · exact Or.inr (by simp)
      · rcases h3 with h3 | h3
        · exact Or.inl h3
        · exact Or.inr (List.mem_cons_of_mem _ h3)

theorem inKernel_self {size : Nat} (h : 1 ≤ size) (i : Nat) : InKernel size i i := by
  unfold InKernel; omega

/-- The strength of a pixel in the heatmap is that of a pixel of a line whose square covers it, and the largest. -/
theorem heatmap_cases (lib : Lib) (aa : Bool) (alpha : ℚ) (size h w : Nat) (coords : List Pt) (hs : 1 ≤ size) (y x : Nat) (hy : y < h) (hx : x < w) :
    (∃ yy xx, yy < h ∧ xx < w ∧ InKernel size y yy ∧ InKernel size x xx ∧ heatmap lib aa alpha size h w coords y x = marked lib aa alpha coords yy xx) ∧
    (∀ yy xx, yy < h → xx < w → InKernel size y yy → InKernel size x xx → marked lib aa alpha coords yy xx ≤ heatmap lib aa alpha size h w coords y x) := by
  unfold heatmap
  by_cases h1 : size > 1
  · rw [if_pos h1]
    unfold dilate
    obtain ⟨a1, a2, a3⟩ := foldr_max_cases ((covered size h y).flatMap (fun yy => (covered size w x).map (fun xx => marked lib aa alpha coords yy xx)))
      (marked lib aa alpha coords y x)
    constructor
    · rcases a3 with a3 | a3
      · exact ⟨y, x, hy, hx, inKernel_self hs y, inKernel_self hs x, a3⟩
      · obtain ⟨yy, h2, h3⟩ := List.mem_flatMap.1 a3
        obtain ⟨xx, h4, h5⟩ := List.mem_map.1 h3
        rw [mem_covered] at h2 h4
        exact ⟨yy, xx, h2.1, h4.1, h2.2, h4.2, h5.symm⟩
    · intro yy xx b1 b2 b3 b4
      apply a1
      exact List.mem_flatMap.2 ⟨yy, mem_covered.2 ⟨b1, b3⟩, List.mem_map.2 ⟨xx, mem_covered.2 ⟨b2, b4⟩, rfl⟩⟩
  · rw [if_neg h1]
    have e : size = 1 := by omega
    subst e
    refine ⟨⟨y, x, hy, hx, inKernel_self hs y, inKernel_self hs x, rfl⟩, fun yy xx _ _ b3 b4 => ?_⟩
    unfold InKernel at b3 b4
    have e1 : yy = y := by omega
    have e2 : xx = x := by omega
    rw [e1, e2]

theorem heatmap_off (lib : Lib) (aa : Bool) (alpha : ℚ) (size h w : Nat) (coords : List Pt) (hs : 1 ≤ size) (y x : Nat) (hy : y < h) (hx : x < w)
    (hn : ¬ OnThick lib aa coords size h w y x) : heatmap lib aa alpha size h w coords y x = 0 := by
  obtain ⟨yy, xx, b1, b2, b3, b4, e⟩ := (heatmap_cases lib aa alpha size h w coords hs y x hy hx).1
  rw [e]
  rcases marked_cases lib aa alpha coords yy xx with ⟨v, hv, -⟩ | ⟨-, e2⟩
  · exact absurd ⟨yy, xx, v, b1, b2, b3, b4, hv⟩ hn
  · exact e2

theorem onLine_false {lib : Lib} {coords : List Pt} {y x : Nat} {v : ℚ} (h : OnLine lib false coords y x v) : v = 1 := by
  obtain ⟨i, p, q, -, -, h⟩ := h
  simp only [Bool.false_eq_true, if_false] at h
  exact h.1

theorem heatmap_on (lib : Lib) (alpha : ℚ) (h0 : 0 ≤ alpha) (size h w : Nat) (coords : List Pt) (hs : 1 ≤ size) (y x : Nat) (hy : y < h) (hx : x < w)
    (hn : OnThick lib false coords size h w y x) : heatmap lib false alpha size h w coords y x = alpha := by
  obtain ⟨⟨yy, xx, b1, b2, b3, b4, e⟩, hmax⟩ := heatmap_cases lib false alpha size h w coords hs y x hy hx
  apply le_antisymm
  · rw [e]
    rcases marked_cases lib false alpha coords yy xx with ⟨v, hv, e2⟩ | ⟨-, e2⟩
    · rw [e2, onLine_false hv, one_mul]
    · rw [e2]; exact h0
  · obtain ⟨y2, x2, v, c1, c2, c3, c4, hv⟩ := hn
    have := hmax y2 x2 c1 c2 c3 c4
    rcases marked_cases lib false alpha coords y2 x2 with ⟨u, hu, e2⟩ | ⟨hno, -⟩
    · rw [e2, onLine_false hu, one_mul] at this
      exact this
    · exact absurd hv (hno v)

theorem heatmap_range {lib : Lib} (hl : lib.Ok) (aa : Bool) (alpha : ℚ) (h0 : 0 ≤ alpha) (size h w : Nat) (coords : List Pt) (hs : 1 ≤ size) (y x : Nat)
    (hy : y < h) (hx : x < w) : 0 ≤ heatmap lib aa alpha size h w coords y x ∧ heatmap lib aa alpha size h w coords y x ≤ alpha := by
  obtain ⟨yy, xx, b1, b2, b3, b4, e⟩ := (heatmap_cases lib aa alpha size h w coords hs y x hy hx).1
  rw [e]
  rcases marked_cases lib aa alpha coords yy xx with ⟨v, hv, e2⟩ | ⟨-, e2⟩
  · rw [e2]
    have hb : 0 ≤ v ∧ v ≤ 1 := by
      cases aa
      · rw [onLine_false hv]; norm_num
      · obtain ⟨i, p, q, -, -, hm⟩ := hv
        simp only [if_true] at hm
        exact hl _ _ _ _ _ hm
    constructor
    · exact mul_nonneg hb.1 h0
    · nlinarith
  · rw [e2]; exact ⟨le_refl _, h0⟩

theorem allPixels_iff {h w : Nat} {p : Nat → Nat → Bool} : allPixels h w p = true ↔ ∀ y x, y < h → x < w → p y x = true := by
  simp only [allPixels, List.all_eq_true, List.mem_range]
  exact ⟨fun h y x h1 h2 => h y h1 x h2, fun h y h1 x h2 => h y x h1 h2⟩

/-- What `blend` returns, pixel by pixel: mixtures, except for the two shortcuts. -/
theorem blend_cases {im r : Img} {k : List ℚ} {heat : Nat → Nat → ℚ} (h : blend im k heat = some r) :
    (r.dt = ⟨.u, 1⟩ ∧ r.h = im.h ∧ r.w = im.w ∧ r.c = im.c ∧ r.flat = im.flat) ∧
    ∀ y x ch, y < im.h → x < im.w → ch < im.c →
      r.px y x ch = toByte ((k.getD ch 0 - im.px y x ch) * heat y x + im.px y x ch) ∨
      (99 / 100 ≤ heat y x ∧ r.px y x ch = toByte (k.getD ch 0)) ∨
      (heat y x ≤ 1 / 100 ∧ r.px y x ch = toByte (im.px y x ch)) := by
  unfold blend at h
  simp only at h
  by_cases h0 : im.h * im.w * im.c = 0
  · rw [if_pos h0, Option.some.injEq] at h
    subst h
    refine ⟨⟨rfl, rfl, rfl, rfl, rfl⟩, fun y x ch h1 h2 h3 => ?_⟩
    have : 0 < im.h * im.w * im.c := Nat.mul_pos (Nat.mul_pos (by omega) (by omega)) (by omega)
    omega
  rw [if_neg h0] at h
  by_cases h1 : allPixels im.h im.w (fun y x => decide (heat y x ≥ 99 / 100)) = true
  · rw [if_pos h1, Option.some.injEq] at h
    subst h
    refine ⟨⟨rfl, rfl, rfl, rfl, rfl⟩, fun y x ch a1 a2 a3 => Or.inr (Or.inl ⟨?_, rfl⟩)⟩
    simpa using allPixels_iff.1 h1 y x a1 a2
  rw [if_neg h1] at h
  by_cases h2 : allPixels im.h im.w (fun y x => decide (heat y x ≤ 1 / 100)) = true
  · rw [if_pos h2, Option.some.injEq] at h
    subst h
    refine ⟨⟨rfl, rfl, rfl, rfl, rfl⟩, fun y x ch a1 a2 a3 => Or.inr (Or.inr ⟨?_, rfl⟩)⟩
    simpa using allPixels_iff.1 h2 y x a1 a2
  rw [if_neg h2] at h
  by_cases h3 : 0 ≤ heat 0 0 ∧ heat 0 0 ≤ 1
  · rw [if_pos h3, Option.some.injEq] at h
    subst h
    exact ⟨⟨rfl, rfl, rfl, rfl, rfl⟩, fun y x ch a1 a2 a3 => Or.inl rfl⟩
  · rw [if_neg h3] at h
    simp at h

theorem blend_isSome {im : Img} {k : List ℚ} {heat : Nat → Nat → ℚ} (h : im.h = 0 ∨ im.w = 0 ∨ (0 ≤ heat 0 0 ∧ heat 0 0 ≤ 1)) :
    (blend im k heat).isSome = true := by
  unfold blend
  simp only
  by_cases h0 : im.h * im.w * im.c = 0
  · rw [if_pos h0]; rfl
  rw [if_neg h0]
  split
  · rfl
  split
  · rfl
  have h3 : 0 ≤ heat 0 0 ∧ heat 0 0 ≤ 1 := by
    rcases h with h | h | h
    · exact absurd (by rw [h]; simp) h0
    · exact absurd (by rw [h]; simp) h0
    · exact h
  rw [if_pos h3]; rfl

/-- The drawn case of `drawLines`. -/
theorem drawLines_drawn {lib : Lib} {im r : Img} {coords : List Pt} {color : LColor} {alpha : ℚ} {size : Nat} {aa raise : Bool}
    (hv : Visible coords alpha size) (h : drawLines lib im coords color alpha size aa raise = some r) :
    ∃ k, color.comps im.flat im.c = some k ∧ k.length = im.c ∧ blend im k (heatmap lib aa alpha size im.h im.w coords) = some r := by
  obtain ⟨v1, v2, v3⟩ := hv
  unfold drawLines at h
  rw [if_neg (by push Not; exact ⟨by omega, v2, by omega⟩)] at h
  split at h
  · simp at h
  obtain ⟨k, hk, hb⟩ := Option.bind_eq_some_iff.1 h
  split at hb
  · rename_i hlen
    exact ⟨k, hk, hlen, hb⟩
  · simp at hb

theorem drawLines_hidden {lib : Lib} {im : Img} {coords : List Pt} {color : LColor} {alpha : ℚ} {size : Nat} {aa raise : Bool}
    (hv : ¬ Visible coords alpha size) : drawLines lib im coords color alpha size aa raise = some im := by
  unfold drawLines
  rw [if_pos]
  unfold Visible at hv
  by_contra hc
  push Not at hc
  exact hv ⟨by omega, hc.2.1, by omega⟩

theorem mix_between {a v k : ℚ} (h0 : 0 ≤ a) (h1 : a ≤ 1) : min v k ≤ (k - v) * a + v ∧ (k - v) * a + v ≤ max v k := by
  rcases le_total v k with h | h
  · rw [min_eq_left h, max_eq_right h]; constructor <;> nlinarith
  · rw [min_eq_right h, max_eq_left h]; constructor <;> nlinarith

theorem toByte_between {v k m : ℚ} (hv : IsByte v) (hk : IsByte k) (h : min v k ≤ m ∧ m ≤ max v k) : Btw v k (toByte m) := by
  have e1 : toByte (min v k) = min v k := by rcases min_choice v k with e | e <;> rw [e] <;> exact toByte_byte ‹_›
  have e2 : toByte (max v k) = max v k := by rcases max_choice v k with e | e <;> rw [e] <;> exact toByte_byte ‹_›
  exact ⟨e1 ▸ toByte_mono h.1, e2 ▸ toByte_mono h.2⟩

theorem back_stays {d : DType} {v : ℚ} (h : d = ⟨.f, 4⟩ ∨ (d = ⟨.u, 1⟩ ∧ IsByte v)) : back d v = v := by
  rcases h with rfl | ⟨rfl, n, rfl, hn⟩
  · unfold back; rw [if_pos rfl]
  · apply back_holds
    refine ⟨?_, ?_, fun _ => ⟨n, by simp⟩⟩
    · have : ((lo ⟨.u, 1⟩ : Int) : ℚ) = 0 := by norm_num [lo]
      first | (rw [this]; positivity) | (simp [lo])
    · have h1 : (n : ℚ) ≤ 255 := by exact_mod_cast hn
      have : ((hi ⟨.u, 1⟩ : Int) : ℚ) = 255 := by norm_num [hi]
      first | (rw [this]; exact h1) | (simp [hi]; exact h1)

/-- Off the square of a keypoint, pixels stay. -/
theorem drawKp_off {im r : Img} {x y : ℚ} {color : Color} {alpha : ℚ} {size : Nat} {raise : Bool} (h : drawKp im x y color alpha size raise = some r) :
    Same im r ∧ ∀ yy xx ch, yy < im.h → xx < im.w → im.dt = ⟨.f, 4⟩ ∨ (im.dt = ⟨.u, 1⟩ ∧ IsByte (im.px yy xx ch)) →
      ¬ InSquare x y (size / 2) yy xx → r.px yy xx ch = im.px yy xx ch := by
  have ry := range_iff (npRound y) (size / 2) im.h
  have rx := range_iff (npRound x) (size / 2) im.w
  unfold drawKp at h
  simp only at h
  generalize clipI (max (npRound x - (size / 2 : Nat)) 0) 0 im.w = X1 at *
  generalize clipI (min (npRound x + 1 + (size / 2 : Nat)) im.w) 0 im.w = X2 at *
  generalize clipI (max (npRound y - (size / 2 : Nat)) 0) 0 im.h = Y1 at *
  generalize clipI (min (npRound y + 1 + (size / 2 : Nat)) im.h) 0 im.h = Y2 at *
  by_cases h1 : im.flat = true ∧ color.isOne = false
  · rw [if_pos h1] at h; cases h
  rw [if_neg h1] at h
  by_cases h2 : alpha < 1 / 100
  · rw [if_pos h2] at h
    cases h
    exact ⟨⟨rfl, rfl, rfl, rfl, rfl⟩, fun _ _ _ _ _ _ _ => rfl⟩
  rw [if_neg h2] at h
  split at h
  · split at h
    · cases h
      refine ⟨⟨rfl, rfl, rfl, rfl, rfl⟩, ?_⟩
      intro yy xx ch p1 p2 hb hn
      have hin : (Y1 ≤ (yy : Int) ∧ (yy : Int) < Y2 ∧ X1 ≤ (xx : Int) ∧ (xx : Int) < X2) ↔ InSquare x y (size / 2) yy xx := by
        unfold InSquare
        rw [← ry yy p1, ← rx xx p2, and_assoc]
      dsimp only
      rw [if_neg (mt hin.1 hn)]
      split_ifs
      · rfl
      · exact back_stays hb
    · cases h
  · split at h
    · cases h
    · cases h
      refine ⟨by split_ifs <;> exact ⟨rfl, rfl, rfl, rfl, rfl⟩, ?_⟩
      intro yy xx ch p1 p2 hb hn
      split_ifs
      · rfl
      · exact back_stays hb

theorem drawKps_off {kps : List (ℚ × ℚ)} {im r : Img} {color : Color} {alpha : ℚ} {size : Nat} {raise : Bool} (h : drawKps im kps color alpha size raise = some r) :
    Same im r ∧ ∀ yy xx ch, yy < im.h → xx < im.w → im.dt = ⟨.f, 4⟩ ∨ (im.dt = ⟨.u, 1⟩ ∧ IsByte (im.px yy xx ch)) →
      (∀ k ∈ kps, ¬ InSquare k.1 k.2 (size / 2) yy xx) → r.px yy xx ch = im.px yy xx ch := by
  induction kps generalizing im with
  | nil =>
    simp only [drawKps, List.foldlM_nil, Option.pure_def, Option.some.injEq] at h
    subst h
    exact ⟨⟨rfl, rfl, rfl, rfl, rfl⟩, fun _ _ _ _ _ _ _ => rfl⟩
  | cons k ks ih =>
    simp only [drawKps, List.foldlM_cons] at h
    rw [Option.bind_eq_bind, Option.bind_eq_some_iff] at h
    obtain ⟨m, hm, hr⟩ := h
    obtain ⟨s1, p1⟩ := drawKp_off hm
    obtain ⟨s2, p2⟩ := ih hr
    refine ⟨⟨s1.1.trans s2.1, s1.2.1.trans s2.2.1, s1.2.2.1.trans s2.2.2.1, s1.2.2.2.1.trans s2.2.2.2.1, s1.2.2.2.2.trans s2.2.2.2.2⟩, ?_⟩
    intro yy xx ch a1 a2 hb hn
    have e := p1 yy xx ch a1 a2 hb (hn k (by simp))
    rw [p2 yy xx ch (s1.2.1 ▸ a1) (s1.2.2.1 ▸ a2) (by rw [← s1.1, e]; exact hb) (fun k' hk => hn k' (by simp [hk])), e]

theorem drawPoints_off {im r : Img} {coords : List Pt} {color : LColor} {alpha : ℚ} {size : Nat} {raise : Bool}
    (h : drawPoints im coords color alpha size raise = some r) :
    Same im r ∧ ∀ yy xx ch, yy < im.h → xx < im.w → im.dt = ⟨.f, 4⟩ ∨ (im.dt = ⟨.u, 1⟩ ∧ IsByte (im.px yy xx ch)) →
      ¬ OnPoint coords size yy xx → r.px yy xx ch = im.px yy xx ch := by
  obtain ⟨s, p⟩ := drawKps_off h
  refine ⟨s, fun yy xx ch a1 a2 hb hn => p yy xx ch a1 a2 hb ?_⟩
  intro k hk hs
  obtain ⟨q, hq, rfl⟩ := List.mem_map.1 hk
  exact hn ⟨q, hq, hs⟩

end Imgaug.DrawLines
