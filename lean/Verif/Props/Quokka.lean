import Verif.Spec.Quokka
import Verif.Props.Extract
/-! C129: the example data. -/
namespace Imgaug.Quokka
open Imgaug Imgaug.Extract Imgaug.Extract.Spec
variable {α β : Type}

theorem entry_asked (f n : Nat) (a : Option Num) (h : Asked f a n) : entry f a = n := by
  cases h with
  | same => rfl
  | pixels n => simp [entry]
  | fraction q n h => simp [entry, h]

/-- C129: the computed size is the one that is asked for; the number of channels does not change. -/
theorem resized_asked (h w h' w' : Nat) (c : ℚ) (s : SizeArg) (hs : AskedSize h w s h' w') : resized h w c s = some ((h' : ℚ), (w' : ℚ), c) := by
  cases hs with
  | none => rfl
  | array h' w' => simp [resized, resizedTuple, entry]
  | tuple a b h' w' ha hb => simp [resized, resizedTuple, entry_asked _ _ _ ha, entry_asked _ _ _ hb]
  | num v h' w' ha hb => simp [resized, resizedTuple, entry_asked _ _ _ ha, entry_asked _ _ _ hb]

/-- C129: the third entry of a size must be the number of channels, and other numbers of entries are rejected. -/
theorem resized_channels (h w c : ℚ) (l : List (Option Num)) :
    (resized h w c (.tuple l)).isSome ↔ l.length = 2 ∨ ∃ (a b : Option Num) (v : Num), l = [a, b, some v] ∧ v.val = c := by
  simp only [resized]
  match l with
  | [] => simp [resizedTuple]
  | [a] => simp [resizedTuple]
  | [a, b] => simp [resizedTuple]
  | [a, b, k] =>
    cases k with
    | none => simp [resizedTuple]
    | some v =>
      by_cases hv : v.val = c <;> simp [resizedTuple, hv]
  | a :: b :: k :: m :: r => simp [resizedTuple]

theorem area_box (ex : ExtractArg) (x y : Int) (h w : Nat) (ha : Area ex x y h w) (hne : ex ≠ .none) :
    ∃ b : BB, normalize ex = some b ∧ b.x1 = x ∧ b.y1 = y ∧ b.x2 = x + w ∧ b.y2 = y + h := by
  cases ha with
  | none => exact absurd rfl hne
  | square => exact ⟨BB.init 0 0 643 643, rfl, by decide +kernel, by decide +kernel, by decide +kernel, by decide +kernel⟩
  | tuple x y h w =>
    refine ⟨BB.init x y (x + w) (y + h), rfl, ?_⟩
    have h1 : ¬ ((x : ℚ) > x + w) := by have : (0 : ℚ) ≤ w := Nat.cast_nonneg w; linarith
    have h2 : ¬ ((y : ℚ) > y + h) := by have : (0 : ℚ) ≤ h := Nat.cast_nonneg h; linarith
    simp [BB.init, h1, h2]
  | box x y h w l => exact ⟨_, rfl, rfl, rfl, rfl, rfl⟩
  | boxes x y h w l s => exact ⟨⟨x, y, x + w, y + h, l⟩, by simp [normalize], rfl, rfl, rfl, rfl⟩

theorem part_area (zero : α) (a : Img α) (hh : a.h = 643) (hw : a.w = 960) (ex : ExtractArg) (x y : Int) (h w : Nat)
    (ha : Area ex x y h w) (h1 : 0 < h) (w1 : 0 < w) : ∃ r, part zero a ex = some r ∧ IsWindow zero a y x h w r := by
  by_cases hne : ex = .none
  · subst hne
    cases ha
    refine ⟨a, rfl, hh, hw, fun i j hi hj => ⟨fun p q hp hq e1 e2 => ?_, fun hn => absurd ?_ hn⟩⟩
    · rw [show i = p by omega, show j = q by omega]
    · rw [hh, hw]; omega
  · obtain ⟨b, hb, b1, b2, b3, b4⟩ := area_box ex x y h w ha hne
    have rx1 : npRound b.x1 = x := by rw [b1]; exact Imgaug.Props.npRound_int x
    have ry1 : npRound b.y1 = y := by rw [b2]; exact Imgaug.Props.npRound_int y
    have rx2 : npRound b.x2 = x + w := by
      rw [b3, show ((x : ℚ) + w) = ((x + w : Int) : ℚ) by push_cast; ring]; exact Imgaug.Props.npRound_int _
    have ry2 : npRound b.y2 = y + h := by
      rw [b4, show ((y : ℚ) + h) = ((y + h : Int) : ℚ) by push_cast; ring]; exact Imgaug.Props.npRound_int _
    obtain ⟨r, hr, hwin⟩ := Imgaug.Extract.Props.window_partial zero b a true
      ⟨by rw [b1, b3]; have : (0 : ℚ) ≤ w := Nat.cast_nonneg w; linarith, by rw [b2, b4]; have : (0 : ℚ) ≤ h := Nat.cast_nonneg h; linarith⟩
      (by
        rintro ⟨-, i2, -, i4⟩
        rw [b3] at i2; rw [b4] at i4
        rw [rx2, ry2]
        constructor
        · exact_mod_cast i2
        · exact_mod_cast i4)
    refine ⟨r, ?_, ?_⟩
    · cases ex <;> first | exact absurd rfl hne | (simp only [part, hb, Option.bind_some]; exact hr)
    · unfold extent at hwin
      rw [if_pos rfl, if_pos rfl, rx1, ry1, rx2, ry2, show max 1 (y + h - y).toNat = h by omega, show max 1 (x + w - x).toNat = w by omega] at hwin
      exact hwin

theorem toSize_nat (resize : Img α → Nat → Nat → Img α) (a : Img α) (h w : Nat) (c : ℚ) :
    toSize resize a ((h : ℚ), (w : ℚ), c) = some (resize a h w) := by
  unfold toSize
  have h1 : (0 : ℚ) ≤ h := Nat.cast_nonneg h
  have h2 : (0 : ℚ) ≤ w := Nat.cast_nonneg w
  rw [if_neg (by simp only [not_or, not_lt]; exact ⟨h1, h2⟩)]
  simp

/-- C129 (partial): for every size and every part of the example image, the image, heatmap, segmentation map, keypoints, boxes and polygons fit
together: they all have the size that is asked for, the image is the resized part, and points are where the pixels are. Missing: parts that do not
begin and end at whole pixels (`fractions_differ`), empty parts (`empty_part_differs`), and sizes with three entries, which are
rejected for segmentation maps (`segmap_three_entries`). -/
theorem data_agree_partial (zero : α) (resize : Img α → Nat → Nat → Img α) (hr : ResizeOk resize) (depth : α → β) (img dep seg : Img α)
    (hi : img.h = 643 ∧ img.w = 960) (hd : dep.h = 643 ∧ dep.w = 960) (hs : seg.h = 643 ∧ seg.w = 960) (pts : List (ℚ × ℚ))
    (ex : ExtractArg) (x y : Int) (h w : Nat) (ha : Area ex x y h w) (h1 : 0 < h) (w1 : 0 < w)
    (size : SizeArg) (h' w' : Nat) (hz : AskedSize h w size h' w') (h2 : 0 < h') (w2 : 0 < w') :
    ∃ a d s : Img α, IsWindow zero img y x h w a ∧ IsWindow zero dep y x h w d ∧ IsWindow zero seg y x h w s ∧
      image zero resize img size ex = some (resize a h' w') ∧
      heatmap zero resize depth dep size ex = some (⟨h', w', fun i j => depth ((resize d h' w').px i j)⟩, (h' : ℚ), (w' : ℚ)) ∧
      segmap zero resize seg size ex = some (resize s h' w', (h' : ℚ), (w' : ℚ)) ∧
      points pts size ex = some (pts.map (fun (p : ℚ × ℚ) => ((p.1 - x) * (w' / w), (p.2 - y) * (h' / h))), (h' : ℚ), (w' : ℚ)) := by
  obtain ⟨a, a1, a2⟩ := part_area zero img hi.1 hi.2 ex x y h w ha h1 w1
  obtain ⟨d, d1, d2⟩ := part_area zero dep hd.1 hd.2 ex x y h w ha h1 w1
  obtain ⟨s, s1, s2⟩ := part_area zero seg hs.1 hs.2 ex x y h w ha h1 w1
  have qh : (0 : ℚ) < h := by exact_mod_cast h1
  have qw : (0 : ℚ) < w := by exact_mod_cast w1
  have qh' : (0 : ℚ) < h' := by exact_mod_cast h2
  have qw' : (0 : ℚ) < w' := by exact_mod_cast w2
  refine ⟨a, d, s, a2, d2, s2, ?_, ?_, ?_, ?_⟩
  · unfold image
    rw [a1, Option.bind_some]
    by_cases hn : size = .none
    · subst hn
      cases hz
      rw [if_pos rfl, ← a2.1, ← a2.2.1, hr.same]
    · rw [if_neg hn, a2.1, a2.2.1, resized_asked h w h' w' 3 size hz, Option.bind_some, toSize_nat]
  · unfold heatmap
    rw [d1, Option.bind_some]
    have key : resized d.h d.w 3 (if size = .none then .tuple [some (.int d.h), some (.int d.w)] else size) = some ((h' : ℚ), (w' : ℚ), 3) := by
      rw [d2.1, d2.2.1]
      by_cases hn : size = .none
      · subst hn
        cases hz
        rw [if_pos rfl]
        exact resized_asked h w h w 3 _ (.tuple _ _ _ _ (.pixels h) (.pixels w))
      · rw [if_neg hn, resized_asked h w h' w' 3 size hz]
    rw [key, Option.bind_some, toSize_nat, Option.map_some, (hr.size d h' w').1, (hr.size d h' w').2]
  · unfold segmap
    rw [s1, Option.bind_some]
    by_cases hn : size = .none
    · subst hn
      cases hz
      rw [if_pos rfl]
      have := hr.same s
      rw [s2.1, s2.2.1] at this ⊢
      rw [this]
    · rw [if_neg hn, s2.1, s2.2.1, resized_asked h w h' w' 1 size hz, Option.bind_some, toSize_nat, Option.map_some]
  · have hp : ∀ t : ℚ × ℚ × ℚ × ℚ, t = ((x : ℚ), (y : ℚ), (h : ℚ), (w : ℚ)) →
        (let ps := pts.map (fun (p : ℚ × ℚ) => (p.1 - t.1, p.2 - t.2.1))
          if size = .none then some (ps, t.2.2.1, t.2.2.2)
          else (resized t.2.2.1 t.2.2.2 3 size).bind (fun s => on ps t.2.2.1 t.2.2.2 s.1 s.2.1)) =
        some (pts.map (fun (p : ℚ × ℚ) => ((p.1 - x) * (w' / w), (p.2 - y) * (h' / h))), (h' : ℚ), (w' : ℚ)) := by
      rintro t rfl
      by_cases hn : size = .none
      · subst hn
        cases hz
        simp only [if_true, div_self qh.ne', div_self qw.ne', mul_one]
      · simp only [if_neg hn, resized_asked h w h' w' 3 size hz, Option.bind_some]
        unfold on
        by_cases he : (h : ℚ) = h' ∧ (w : ℚ) = w'
        · rw [if_pos he, ← he.1, ← he.2]
          simp only [div_self qh.ne', div_self qw.ne', mul_one]
        · rw [if_neg he, if_neg (by rintro ⟨-, hh⟩; exact hh ⟨qh, qw, qh', qw'⟩), List.map_map]
          congr 2
          apply List.map_congr_left
          intro p _
          simp only [Function.comp, Prod.mk.injEq]
          constructor <;> ring
    unfold points
    by_cases hne : ex = .none
    · subst hne
      cases ha
      simp only [Option.bind_some]
      exact hp (0, 0, 643, 960) (by simp)
    · obtain ⟨b, hb, b1, b2, b3, b4⟩ := area_box ex x y h w ha hne
      have : (b.x1, b.y1, b.height, b.width) = ((x : ℚ), (y : ℚ), (h : ℚ), (w : ℚ)) := by
        simp only [BB.height, BB.width, b1, b2, b3, b4]
        simp
      cases ex <;> first | exact absurd rfl hne | (simp only [hb, Option.map_some, Option.bind_some]; exact hp _ this)

/-- Resizing by nearest neighbours. -/
def demoResize (a : Img Nat) (h w : Nat) : Img Nat :=
  if h = a.h ∧ w = a.w then a else ⟨h, w, fun y x => a.px (y * a.h / h) (x * a.w / w)⟩

theorem demoResize_ok : ResizeOk demoResize :=
  ⟨fun a h w => by unfold demoResize; split <;> simp_all, fun a => by simp [demoResize]⟩

example : Area (.tuple [-10, 20, 70, 60]) (-10) 20 40 80 ∧ AskedSize 40 80 (.tuple [none, some (.float (1 / 2))]) 40 40 ∧
    AskedSize 40 80 (.num (.float (1 / 4))) 10 20 := by
  refine ⟨by have := Area.tuple (-10) 20 40 80; norm_num at this; exact this, ?_, ?_⟩
  · exact .tuple _ _ _ _ .same (.fraction _ _ (by decide +kernel))
  · exact .num _ _ _ (.fraction _ _ (by decide +kernel)) (.fraction _ _ (by decide +kernel))

/-- C129 is false for parts that do not end at whole pixels: the image has 10 rows and columns, the keypoints are on an image with 10.4 of
them. -/
theorem fractions_differ :
    ((image 0 demoResize (numbered 643 960) .none (.tuple [0, 0, 52 / 5, 52 / 5])).map (fun a => (a.h, a.w))) = some (10, 10) ∧
    points [] .none (.tuple [0, 0, 52 / 5, 52 / 5]) = some ([], 52 / 5, 52 / 5) := by decide +kernel

/-- C129 is false for parts without any pixel: the image has one pixel, the keypoints are on an image of height and width zero. -/
theorem empty_part_differs :
    ((image 0 demoResize (numbered 643 960) .none (.tuple [5, 5, 5, 5])).map (fun a => (a.h, a.w))) = some (1, 1) ∧
    points [] .none (.tuple [5, 5, 5, 5]) = some ([], 0, 0) := by decide +kernel

/-- C129 is false for sizes with three entries, e.g. those of another image with three channels: the image and the keypoints are resized, but
the segmentation map fails, whatever the size, because it has one channel. -/
theorem segmap_three_entries (zero : α) (resize : Img α → Nat → Nat → Img α) (seg : Img α) (hs : seg.h = 643 ∧ seg.w = 960)
    (pts : List (ℚ × ℚ)) (img : Img α) (hi : img.h = 643 ∧ img.w = 960) (h w : Nat) (h1 : 0 < h) (w1 : 0 < w) :
    segmap zero resize seg (.array [h, w, 3]) .none = none ∧
    image zero resize img (.array [h, w, 3]) .none = some (resize img h w) ∧
    (points pts (.array [h, w, 3]) .none).isSome := by
  have k : ∀ c : ℚ, resized 643 960 c (.array [h, w, 3]) = if (3 : ℚ) = c then some ((h : ℚ), (w : ℚ), c) else none := by
    intro c; simp [resized, resizedTuple, Num.val, entry]
  refine ⟨?_, ?_, ?_⟩
  · simp only [segmap, part, Option.bind_some, hs.1, hs.2]
    rw [if_neg (by simp)]
    have := k 1
    norm_num at this
    simp [this]
  · simp only [image, part, Option.bind_some, hi.1, hi.2]
    rw [if_neg (by simp)]
    have := k 3
    norm_num at this
    simp [this, toSize_nat]
  · have qh : (0 : ℚ) < h := by exact_mod_cast h1
    have qw : (0 : ℚ) < w := by exact_mod_cast w1
    simp only [points, Option.bind_some]
    rw [if_neg (by simp), k 3, if_pos rfl, Option.bind_some]
    unfold on
    split
    · rfl
    · rw [if_neg (by rintro ⟨-, hh⟩; exact hh ⟨by norm_num, by norm_num, qh, qw⟩)]
      rfl

/-- C129: parts are given as "square", as four numbers, as a box, or as one box on an image of the size of the example image; anything else is an
error for all functions alike. -/
theorem extract_args (zero : α) (resize : Img α → Nat → Nat → Img α) (img : Img α) (pts : List (ℚ × ℚ)) (size : SizeArg) (ex : ExtractArg)
    (h : ex = .other ∨ (∃ l, ex = .tuple l ∧ l.length ≠ 4) ∨ (∃ l s, ex = .boxes l s ∧ (l.length ≠ 1 ∨ s.take 2 ≠ [643, 960]))) :
    image zero resize img size ex = none ∧ segmap zero resize img size ex = none ∧ points pts size ex = none := by
  have hn : normalize ex = none ∧ ex ≠ .none := by
    rcases h with rfl | ⟨l, rfl, hl⟩ | ⟨l, s, rfl, hl⟩
    · exact ⟨rfl, by simp⟩
    · refine ⟨?_, by simp⟩
      match l, hl with
      | [], _ => rfl
      | [_], _ => rfl
      | [_, _], _ => rfl
      | [_, _, _], _ => rfl
      | [_, _, _, _], hl => exact absurd rfl hl
      | _ :: _ :: _ :: _ :: _ :: _, _ => rfl
    · refine ⟨?_, by simp⟩
      simp only [normalize]
      rw [if_neg (by tauto)]
  obtain ⟨hn, hne⟩ := hn
  cases ex <;> first | exact absurd rfl hne | simp [image, segmap, points, part, hn]

end Imgaug.Quokka
