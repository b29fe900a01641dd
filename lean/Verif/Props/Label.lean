import Verif.Spec.Label
import Verif.Proofs.Draw
import Verif.Proofs.Num
import Mathlib.Tactic.Linarith
/-! C132: the labels of bounding boxes. -/
namespace Imgaug.Label.Props
open Imgaug Imgaug.Dtypes Imgaug.Draw Imgaug.Label

/-- Text that is a vertical bar of one pixel width. -/
def demoText : Text := fun im x _ _ color _ => some { im with px := fun yy xx ch => if (xx : Int) = x then color.getD ch 0 else im.px yy xx ch }
def demoImg : Img := ⟨⟨.u, 1⟩, 40, 30, 3, false, fun _ _ _ => 100⟩
def demoBox : BB := ⟨5, 20, 25, 35, some "cat"⟩
def demoArgs : Args := ⟨some [0, 255, 0], none, none, 1, 1, false, 10, 20⟩

/-- The area of the label, if it is not empty, are the pixels of the bar. -/
theorem area_iff (a : Args) (im : Img) (b : BB) (y x : Nat) :
    ((area a im b).y1 ≤ y ∧ (y : Int) < (area a im b).y2 ∧ (area a im b).x1 ≤ x ∧ (x : Int) < (area a im b).x2) ↔
      InBar b a.height a.size im.h im.w y x := by
  unfold area InBar clipI
  simp only
  constructor
  · rintro ⟨h1, h2, h3, h4⟩
    refine ⟨?_, ?_, ?_, ?_, ?_, ?_⟩ <;> omega
  · rintro ⟨h1, h2, h3, h4, h5, h6⟩
    refine ⟨?_, ?_, ?_, ?_⟩ <;> omega

theorem area_start (a : Args) (im : Img) (b : BB) (y x : Nat) (h : InBar b a.height a.size im.h im.w y x) :
    (area a im b).y1 = top b a.height ∧ (area a im b).x1 = left b a.size := by
  unfold InBar at h
  unfold area top left clipI
  simp only
  constructor <;> omega

/-- C132: drawing a label keeps the size and dtype of the image, and changes only the pixels of the bar above the box. -/
theorem off_label (T : Text) (im r : Img) (b : BB) (a : Args) (h : drawLabel T im b a = some r) :
    Same im r ∧ ∀ y x ch, ¬ InBar b a.height a.size im.h im.w y x → r.px y x ch = im.px y x ch := by
  unfold drawLabel at h
  split at h
  · simp at h
  obtain ⟨c, -, h⟩ := Option.bind_eq_some_iff.1 h
  simp only at h
  split at h
  · rw [Option.some.injEq] at h
    subst h
    exact ⟨⟨rfl, rfl, rfl, rfl, rfl⟩, fun _ _ _ _ => rfl⟩
  split at h
  · simp at h
  obtain ⟨l, -, rfl⟩ := Option.map_eq_some_iff.1 h
  refine ⟨⟨rfl, rfl, rfl, rfl, rfl⟩, fun y x ch hn => ?_⟩
  unfold place
  simp only
  rw [if_neg (mt (area_iff a im b y x).1 hn)]

example : ((drawLabel demoText demoImg demoBox demoArgs).map fun r => (r.px 9 6 1, r.px 18 25 1, r.px 19 6 1, r.px 8 6 1)) = some (255, 255, 100, 100) := by
  decide +kernel

/-- C132: labels are above their boxes, whose pixels they never touch. -/
theorem above_box (T : Text) (im r : Img) (b : BB) (a : Args) (h : drawLabel T im b a = some r) (y x ch : Nat) (hy : b.y1 ≤ y) : r.px y x ch = im.px y x ch := by
  refine (off_label T im r b a h).2 y x ch (fun hb => ?_)
  have h1 := hb.2.1
  have h2 : npRound b.y1 ≤ y := by
    have := Imgaug.Props.npRound_mono hy
    have e := Imgaug.Props.npRound_int (y : Int)
    push_cast at e
    rwa [e] at this
  omega

/-- C132: in the bar, uint8 images show the text on the background: with an alpha of at least 0.99 the pixels are those of the text that PIL draws, in the color of the
text, two pixels from the corner of an array of the size of the bar and the color of the background; with a smaller alpha they are mixed with the image. -/
theorem on_label (T : Text) (im r : Img) (hd : im.dt = ⟨.u, 1⟩) (b : BB) (a : Args) (h : drawLabel T im b a = some r) (y x ch : Nat)
    (hb : InBar b a.height a.size im.h im.w y x) :
    ∃ (text bg : List ℚ) (hh ww : Nat) (l : Img), colors a = some (text, bg) ∧ (bg.length = 1 ∨ bg.length = im.c) ∧
      (∀ i, InBar b a.height a.size im.h im.w i x ↔ top b a.height ≤ i ∧ i < top b a.height + hh) ∧
      (∀ j, InBar b a.height a.size im.h im.w y j ↔ left b a.size ≤ j ∧ j < left b a.size + ww) ∧
      T ⟨im.dt, hh, ww, im.c, false, fun _ _ ch => astype im.dt (bg.getD (if bg.length = 1 then 0 else ch) 0)⟩ 2 2 (b.label.getD "None") text a.sizeText = some l ∧
      r.px y x ch = if a.alpha ≥ 99 / 100 then l.px (y - top b a.height) (x - left b a.size) ch
        else astype im.dt (min (max ((1 - a.alpha) * im.px y x ch + a.alpha * l.px (y - top b a.height) (x - left b a.size) ch) 0) 255) := by
  have hin := (area_iff a im b y x).2 hb
  obtain ⟨s1, s2⟩ := area_start a im b y x hb
  unfold drawLabel at h
  split at h
  · simp at h
  obtain ⟨c, hc, h⟩ := Option.bind_eq_some_iff.1 h
  simp only at h
  rw [if_neg (by omega)] at h
  split at h
  · simp at h
  obtain ⟨l, hl, rfl⟩ := Option.map_eq_some_iff.1 h
  unfold labelArr at hl
  split at hl
  · rename_i hfit
    unfold drawText at hl
    simp only at hl
    rw [if_pos hd] at hl
    refine ⟨c.1, c.2, _, _, l, hc, hfit, ?_, ?_, hl, ?_⟩
    · intro i
      rw [← area_iff]
      omega
    · intro j
      rw [← area_iff]
      omega
    · unfold place
      simp only
      rw [if_pos hin, s1, s2]
      have e1 : ((y : Int) - (top b a.height : Nat)).toNat = y - top b a.height := by omega
      have e2 : ((x : Int) - (left b a.size : Nat)).toNat = x - left b a.size := by omega
      rw [e1, e2]
  · simp at hl

example : InBar demoBox 10 1 40 30 9 6 ∧ InBar demoBox 10 1 40 30 18 25 := by
  have h1 : npRound demoBox.y1 = 20 := by decide +kernel
  have h2 : npRound demoBox.x1 = 5 := by decide +kernel
  have h3 : npRound demoBox.x2 = 25 := by decide +kernel
  unfold InBar
  rw [h1, h2, h3]
  omega

/-- C132: if no color for the text is given, it is white or black, whichever makes its brightness differ from that of the background by at least 127. -/
theorem text_readable (a : Args) (ht : a.colorText = none) (text bg : List ℚ) (h : colors a = some (text, bg)) :
    ∃ (t r g b : ℚ) (rest : List ℚ), bg = r :: g :: b :: rest ∧ text = [t, t, t] ∧ (t = 0 ∨ t = 255) ∧
      127 ≤ |brightness t t t - brightness r g b| := by
  unfold colors at h
  rw [ht] at h
  generalize background a = o at h
  cases o with
  | none => simp at h
  | some l =>
    simp only at h
    obtain ⟨v, hv, e⟩ := Option.map_eq_some_iff.1 h
    rw [Prod.mk.injEq] at e
    obtain ⟨rfl, rfl⟩ := e
    unfold gray at hv
    split at hv
    · rename_i r g b rest
      rw [Option.some.injEq] at hv
      refine ⟨if v > 128 then 0 else 255, r, g, b, rest, rfl, rfl, by split_ifs <;> simp, ?_⟩
      unfold brightness
      rw [hv]
      split_ifs with hg
      · rw [le_abs]; right; linarith
      · rw [le_abs]; left; linarith
    · simp at hv

example : colors demoArgs = some ([0, 0, 0], [0, 255, 0]) := by decide +kernel

/-- C132: the color of the background is the given one, or that of the box. Without both, and for colors with less than three components and no color for the text,
labels cannot be drawn. -/
theorem colors_needed (a : Args) :
    (colors a = none ↔ (a.colorBg = none ∧ a.color = none) ∨ (a.colorText = none ∧ ∃ l, a.colorBg.or a.color = some l ∧ l.length < 3)) ∧
    (∀ text bg, colors a = some (text, bg) → ∃ l, a.colorBg.or a.color = some l ∧ bg = l.map (astype ⟨.u, 1⟩)) := by
  have e : background a = (a.colorBg.or a.color).map bytes := by
    unfold background
    cases a.colorBg <;> rfl
  have e2 : (a.colorBg = none ∧ a.color = none) ↔ a.colorBg.or a.color = none := by
    cases a.colorBg <;> cases a.color <;> simp
  have hg : ∀ l : List ℚ, gray (bytes l) = none ↔ l.length < 3 := by
    intro l
    match l with
    | [] => simp [gray, bytes]
    | [_] => simp [gray, bytes]
    | [_, _] => simp [gray, bytes]
    | _ :: _ :: _ :: _ => simp [gray, bytes]
  unfold colors
  rw [e, e2]
  cases a.colorBg.or a.color with
  | none => simp
  | some l =>
    simp only [Option.map_some]
    cases a.colorText with
    | none =>
      constructor
      · simp [hg]
      · intro text bg h
        obtain ⟨v, -, h⟩ := Option.map_eq_some_iff.1 h
        rw [Prod.mk.injEq] at h
        exact ⟨l, rfl, h.2.symm⟩
    | some t =>
      constructor
      · simp
      · intro text bg h
        rw [Option.some.injEq, Prod.mk.injEq] at h
        exact ⟨l, rfl, h.2.symm⟩

/-- C132: boxes at the top of the image have no label: there is no room for it. -/
theorem no_room (T : Text) (im r : Img) (b : BB) (a : Args) (h : drawLabel T im b a = some r) (ht : b.y1 ≤ 1) : r = im := by
  unfold drawLabel at h
  split at h
  · simp at h
  obtain ⟨c, -, h⟩ := Option.bind_eq_some_iff.1 h
  have : npRound b.y1 ≤ 1 := Imgaug.Props.npRound_le (by exact_mod_cast ht)
  simp only at h
  rw [if_pos] at h
  · exact (Option.some.inj h).symm
  · right
    unfold area clipI
    simp only
    omega

/-- C132 is false of images with two axes: if there is room for the label, drawing it fails. -/
theorem gray_images_fail (T : Text) (im : Img) (hf : im.flat = true) (b : BB) (a : Args) (y x : Nat) (hb : InBar b a.height a.size im.h im.w y x) :
    drawLabel T im b a = none := by
  have hin := (area_iff a im b y x).2 hb
  unfold drawLabel
  split
  · rfl
  cases hc : colors a with
  | none => rfl
  | some c =>
    rw [Option.bind_some]
    simp only
    rw [if_neg (by omega)]

/-- C132 is false of thick frames: labels hide the upper rows of frames that are at least three pixels thick. The pixel in the row 18 is on the frame, but shows the
background of the label, if that has another color. -/
theorem thick_frames_hidden : OnFrame demoBox demoImg 3 18 10 ∧
    ((drawBox demoImg demoBox (.many [200, 0, 0]) 1 3 true false).map fun r => r.1.px 18 10 0) = some 200 ∧
    ((drawBox demoImg demoBox (.many [200, 0, 0]) 1 3 true false).bind fun r => (drawLabel demoText r.1 demoBox ⟨some [200, 0, 0], none, some [0, 0, 255], 3, 1, false, 10, 20⟩).map
      fun r => r.px 18 10 0) = some 0 := by
  refine ⟨?_, by decide +kernel, by decide +kernel⟩
  have h1 : npRound demoBox.y1 = 20 := by decide +kernel
  have h2 : npRound demoBox.x1 = 5 := by decide +kernel
  have h3 : npRound demoBox.x2 = 25 := by decide +kernel
  have h4 : npRound demoBox.y2 = 35 := by decide +kernel
  have hw : Within demoBox demoImg := by
    unfold Within demoBox demoImg
    norm_num
  unfold OnFrame line
  simp only [h1, h2, h3, h4, demoImg]
  omega

/-- C132: drawing a box that has no label is drawing its frame; with a label, first the frame and then the label is drawn. -/
theorem box_then_label (T : Text) (im : Img) (b : BB) (color : List ℚ) (alpha : ℚ) (size : Nat) (copy raise : Bool) :
    (b.label = none → drawBoxLabel T im b color alpha size copy raise = (drawBox im b (.many color) alpha size copy raise).map Prod.fst) ∧
    (b.label ≠ none → ∀ r, drawBoxLabel T im b color alpha size copy raise = some r → ∃ m, drawBox im b (.many color) alpha size copy raise = some m ∧
      Same m.1 r ∧ ∀ y x ch, ¬ InBar b 30 size m.1.h m.1.w y x → r.px y x ch = m.1.px y x ch) := by
  unfold drawBoxLabel
  constructor
  · intro h
    simp only [h, if_true]
    cases drawBox im b (.many color) alpha size copy raise <;> rfl
  · intro h r hr
    obtain ⟨m, hm, hr⟩ := Option.bind_eq_some_iff.1 hr
    rw [if_neg h] at hr
    exact ⟨m, hm, off_label T m.1 r b _ hr⟩

example : (drawBoxLabel demoText demoImg demoBox [0, 255, 0] 1 1 true false).isSome = true := by decide +kernel

end Imgaug.Label.Props
