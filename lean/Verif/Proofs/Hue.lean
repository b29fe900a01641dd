import Verif.Spec.Hue
import Verif.Proofs.Color
import Mathlib.Tactic.SplitIfs
/-! Lemmas on hue and saturation. -/
namespace Imgaug.Hue
open Imgaug Imgaug.Dtypes Imgaug.Color

theorem clipSat_eq (s : Int) : clipSat s = limited s := by
  unfold clipSat limited
  split_ifs <;> omega

theorem hueUp_eq (h : Nat) (hh : h ≤ 255) : hueUp h = ((h * 255 / 180 : Nat) : Int) := by
  have : ∀ h < 256, hueUp h = ((h * 255 / 180 : Nat) : Int) := by decide +kernel
  exact this h (by omega)

theorem down_all : ∀ v < 256, ⌊f32 (f32 (((v : Nat) : ℚ) / 255) * 180)⌋ = ((v * 180 / 255 : Nat) : Int) := by decide +kernel

theorem hueDown_eq (a : Int) : hueDown a = (a % 255).toNat * 180 / 255 := by
  have h0 := Int.emod_nonneg a (b := 255) (by norm_num)
  have h1 := Int.emod_lt_of_pos a (b := 255) (by norm_num)
  have := down_all (a % 255).toNat (by omega)
  have hc : (((a % 255).toNat : Nat) : ℚ) = ((a % 255 : Int) : ℚ) := by
    have : (((a % 255).toNat : Nat) : Int) = a % 255 := Int.toNat_of_nonneg h0
    exact_mod_cast congrArg (Int.cast (R := ℚ)) this
  rw [hc] at this
  unfold hueDown
  rw [← Int.floor_toNat, this]
  rfl

theorem hueShift_eq (v : Int) (h0 : -255 ≤ v) (h1 : v ≤ 255) : hueShift v = angle v := by
  unfold hueShift angle
  rw [down_all v.natAbs (by omega)]
  rcases lt_trichotomy v 0 with h | h | h
  · rw [Int.sign_eq_neg_one_of_neg h]
    have : v = -(v.natAbs : Int) := by omega
    conv_rhs => rw [this]
    rw [show -(v.natAbs : Int) * 180 = -((v.natAbs : Int) * 180) by ring, Int.neg_tdiv, Int.tdiv_eq_ediv_of_nonneg (by omega)]
    push_cast; ring
  · subst h; rfl
  · rw [Int.sign_eq_one_of_pos h]
    have : v = (v.natAbs : Int) := by omega
    conv_rhs => rw [this]
    rw [Int.tdiv_eq_ediv_of_nonneg (by omega)]
    push_cast; ring

theorem angle_bounds (v : Int) (h0 : -255 ≤ v) (h1 : v ≤ 255) : -180 ≤ angle v ∧ angle v ≤ 180 := by
  unfold angle
  rcases le_or_gt 0 v with h | h
  · rw [Int.tdiv_eq_ediv_of_nonneg (by omega)]; omega
  · have : v * 180 = -(-v * 180) := by ring
    rw [this, Int.neg_tdiv, Int.tdiv_eq_ediv_of_nonneg (by omega)]; omega

theorem cv2_numpy (hue sat : Int) (h0 : -255 ≤ hue) (h1 : hue ≤ 255) (h2 : -255 ≤ sat) (h3 : sat ≤ 255) (l : List Px) :
    transformCv2 hue sat l = some (transformNumpy hue sat l) := by
  unfold transformCv2 rowAt
  rw [if_pos (by omega), if_pos (by omega)]
  simp only [Option.bind_some, Option.map_some, Option.some.injEq]
  unfold transformNumpy
  refine List.map_congr_left (fun p _ => ?_)
  rw [hueRow, satRow, if_pos (by omega), if_pos (by omega)]
  have e1 : ((255 + hue).toNat : Int) - 255 = hue := by omega
  have e2 : ((255 + sat).toNat : Int) - 255 = sat := by omega
  rw [e1, e2]

theorem drawn_at (n : Nat) (s : Samples) (d : List (Int × Int)) (hf : s.Fits n) (hd : drawn n s = some d) :
    d.length = n ∧ ∀ i < n, d[i]? = some (hueShift (s.at i).1, (s.at i).2) := by
  cases s with
  | both values perChannel =>
    obtain ⟨f1, f2⟩ := hf
    cases values with
    | nil => simp [drawn] at hd
    | cons v vs =>
      simp only [drawn] at hd
      split at hd
      · simp only [Option.some.injEq] at hd
        subst hd
        refine ⟨by rw [List.length_map, List.length_zip, f1, f2, Nat.min_self], fun i hi => ?_⟩
        have e1 := List.getElem?_eq_getElem (by omega : i < (v :: vs).length)
        have e2 := List.getElem?_eq_getElem (by omega : i < perChannel.length)
        have hz : ((v :: vs).zip perChannel)[i]? = some ((v :: vs)[i], perChannel[i]) :=
          List.getElem?_zip_eq_some.2 ⟨e1, e2⟩
        rw [List.getElem?_map, hz]
        simp only [Option.map_some, Samples.at, List.getD_eq_getElem?_getD, e1, e2, Option.getD_some]
      · simp at hd
  | each hue saturation =>
    obtain ⟨f1, f2⟩ := hf
    simp only [drawn, Option.some.injEq] at hd
    subst hd
    have l1 : (hue.getD (List.replicate n 0)).length = n := by
      cases hue with
      | none => simp
      | some l => exact f1 l rfl
    have l2 : (saturation.getD (List.replicate n 0)).length = n := by
      cases saturation with
      | none => simp
      | some l => exact f2 l rfl
    refine ⟨by rw [List.length_zip, List.length_map, List.length_map, l1, l2, Nat.min_self], fun i hi => ?_⟩
    have hp0 : pyInt 0 = 0 := by decide +kernel
    refine List.getElem?_zip_eq_some.2 ⟨?_, ?_⟩
    · rw [List.getElem?_map, List.getElem?_eq_getElem (by omega)]
      cases hue with
      | none => simp [Samples.at, hp0]
      | some l =>
        have hl : l.length = n := f1 l rfl
        simp [Samples.at, List.getElem?_eq_getElem (by omega : i < l.length)]
    · rw [List.getElem?_map, List.getElem?_eq_getElem (by omega)]
      cases saturation with
      | none => simp [Samples.at, hp0]
      | some l =>
        have hl : l.length = n := f2 l rfl
        simp [Samples.at, List.getElem?_eq_getElem (by omega : i < l.length)]

theorem mapM_all {α β : Type} (g : α → Option β) (l : List α) (h : ∀ a ∈ l, ∃ b, g a = some b) : ∃ r, l.mapM g = some r := by
  induction l with
  | nil => exact ⟨[], rfl⟩
  | cons a l ih =>
    obtain ⟨b, hb⟩ := h a List.mem_cons_self
    obtain ⟨r, hr⟩ := ih (fun x hx => h x (List.mem_cons_of_mem _ hx))
    exact ⟨b :: r, by rw [List.mapM_cons, hb, hr]; rfl⟩

theorem change_result (cv : Cv) (hcv : cv.Bytes) (im : Img) (t f : Space) (hc : im.Colour) (hg : f ≠ .gray) :
    ∃ o, change cv im t f = some o ∧ o.result.px = im.px.map (converted cv f t) ∧ o.result.h = im.h ∧ o.result.w = im.w ∧ o.result.Colour := by
  refine ⟨_, change_some cv im t f hc hg, ?_⟩
  by_cases hne : f = t
  · rw [if_pos hne]
    exact ⟨(map_same cv im.px f t hne).symm, rfl, rfl, hc⟩
  · rw [if_neg hne]
    refine ⟨convert_result cv im t f hne hg, ?_, ?_, convert_colour cv hcv im t f hc hne hg⟩ <;> rw [convert_shape]

theorem store_facts (array : Bool) (im : Img) : (store array im).px = im.px ∧ (store array im).h = im.h ∧ (store array im).w = im.w ∧
    (store array im).dt = im.dt ∧ (im.Colour → (store array im).Colour) := by
  unfold store
  split
  · exact ⟨rfl, rfl, rfl, rfl, fun h => h⟩
  · exact ⟨rfl, rfl, rfl, rfl, fun h => h⟩

theorem changes_many (cv : Cv) (hcv : cv.Bytes) (array : Bool) (images : List Img) (t f : Arg) (ts fs : List Space)
    (ht : validate images.length t = some ts) (hf : validate images.length f = some fs) (lt : ts.length = images.length)
    (lf : fs.length = images.length) (hg : Space.gray ∉ fs) (hc : ∀ im ∈ images, im.Colour) :
    ∃ r, changes cv array images t f = some r ∧ r.length = images.length ∧
      ∀ (i : Nat) im st sf, images[i]? = some im → ts[i]? = some st → fs[i]? = some sf → ∃ im', r[i]? = some im' ∧ im'.Colour ∧
        im'.px = im.px.map (converted cv sf st) ∧ im'.h = im.h ∧ im'.w = im.w := by
  unfold changes
  simp only [ht, hf, Option.bind_some]
  have hall : ∀ p ∈ images.zip (ts.zip fs), ∃ q, (change cv p.1 p.2.1 p.2.2).map (fun o => store array o.result) = some q := by
    rintro ⟨im, st, sf⟩ hp
    have h1 := List.of_mem_zip hp
    have h2 := List.of_mem_zip h1.2
    obtain ⟨o, ho, -⟩ := change_result cv hcv im st sf (hc im h1.1) (fun h => hg (h ▸ h2.2))
    exact ⟨_, by dsimp only; rw [ho]; rfl⟩
  obtain ⟨r, hr⟩ := mapM_all _ _ hall
  refine ⟨r, hr, by rw [mapM_len _ _ _ hr, List.length_zip, List.length_zip]; omega, ?_⟩
  intro i im st sf h1 h2 h3
  obtain ⟨o, ho, p1, p2, p3, p4⟩ := change_result cv hcv im st sf (hc im (List.mem_of_getElem? h1)) (fun h => hg (h ▸ List.mem_of_getElem? h3))
  obtain ⟨b, hb, hbe⟩ := mapM_nth _ _ _ hr i (im, st, sf) (List.getElem?_zip_eq_some.2 ⟨h1, List.getElem?_zip_eq_some.2 ⟨h2, h3⟩⟩)
  dsimp only at hbe
  rw [ho, Option.map_some] at hbe
  obtain rfl := Option.some.inj hbe
  obtain ⟨s1, s2, s3, s4, s5⟩ := store_facts array o.result
  exact ⟨_, hb, s5 p4, by rw [s1, p1], by rw [s2, p2], by rw [s3, p3]⟩

theorem changes_one (cv : Cv) (hcv : cv.Bytes) (array : Bool) (images : List Img) (t f : Space) (hg : f ≠ .gray)
    (hc : ∀ im ∈ images, im.Colour) :
    ∃ r, changes cv array images (.one t) (.one f) = some r ∧ r.length = images.length ∧
      ∀ (i : Nat) im, images[i]? = some im → ∃ im', r[i]? = some im' ∧ im'.Colour ∧ im'.px = im.px.map (converted cv f t) ∧
        im'.h = im.h ∧ im'.w = im.w := by
  obtain ⟨r, h1, h2, h3⟩ := changes_many cv hcv array images (.one t) (.one f) (List.replicate images.length t) (List.replicate images.length f)
    rfl rfl (by simp) (by simp) (by intro h; exact hg (List.eq_of_mem_replicate h).symm) hc
  refine ⟨r, h1, h2, fun i im hi => ?_⟩
  have hlt : i < images.length := (List.getElem?_eq_some_iff.1 hi).1
  exact h3 i im t f hi (by rw [List.getElem?_replicate, if_pos hlt]) (by rw [List.getElem?_replicate, if_pos hlt])

theorem add_one (cv : Cv) (hcv : cv.Bytes) (backend : Bool) (f : Space) (hsv : Img) (hc : hsv.Colour) (v : Int × Int) (hr : InRange v) :
    ∃ q, addOne cv backend f hsv (hueShift v.1, v.2) = some q ∧ q.h = hsv.h ∧ q.w = hsv.w ∧ q.dt = ⟨.u, 1⟩ ∧
      q.px = hsv.px.map (fun p => converted cv .hsv f (shifted v.1 v.2 p)) := by
  obtain ⟨r1, r2, r3, r4⟩ := hr
  obtain ⟨b1, b2⟩ := angle_bounds v.1 r1 r2
  have he : transformNumpy (hueShift v.1) v.2 hsv.px = hsv.px.map (shifted v.1 v.2) := by
    unfold transformNumpy
    refine List.map_congr_left (fun p _ => ?_)
    rw [clipSat_eq, hueShift_eq v.1 r1 r2]; rfl
  have ht : (if backend then transformCv2 (hueShift v.1) v.2 hsv.px else some (transformNumpy (hueShift v.1) v.2 hsv.px)) =
      some (hsv.px.map (shifted v.1 v.2)) := by
    split
    · rw [cv2_numpy _ _ (by rw [hueShift_eq v.1 r1 r2]; omega) (by rw [hueShift_eq v.1 r1 r2]; omega) r3 r4, he]
    · rw [he]
  obtain ⟨c1, c2, c3, c4, c5, c6, c7⟩ := hc
  unfold addOne
  rw [if_neg (by omega)]
  dsimp only
  rw [ht]
  have hc' : ({ hsv with px := hsv.px.map (shifted v.1 v.2) } : Img).Colour := by
    refine ⟨c1, c2, c3, c4, c5, by simpa using c6, ?_⟩
    intro q hq
    obtain ⟨p, hp, rfl⟩ := List.mem_map.1 hq
    refine ⟨?_, ?_, (c7 p hp).2.2⟩
    · show turned _ _ ≤ 255
      unfold turned; omega
    · show limited _ ≤ 255
      unfold limited; split_ifs <;> omega
  obtain ⟨o, ho, p1, p2, p3, p4⟩ := change_result cv hcv _ f .hsv hc' (by decide)
  rw [Option.bind_some, ho, Option.map_some]
  exact ⟨_, rfl, p2, p3, p4.1, by rw [p1]; simp only [List.map_map]; rfl⟩

theorem channel_facts (s : Space) (h : HasBrightness s) : ∃ k, channelId s = some k ∧ (∀ p, Px.get p k = brightness s p) ∧
    ∀ p v, Px.set p k v = withValue s p v := by
  rcases h with rfl | rfl | rfl | rfl | rfl | rfl <;> exact ⟨_, rfl, fun _ => rfl, fun _ _ => rfl⟩

theorem chan_at (ch : Chan) (w i : Nat) (hw : ch.w = w) (hh : ch.h ≠ 1 ∨ i < w) : ch.at w i = ch.vals.getD i 0 := by
  unfold Chan.at
  subst hw
  have hd := Nat.div_add_mod i ch.w
  have h1 : (if ch.w = 1 then 0 else i % ch.w) = i % ch.w := by
    split
    · rename_i h; rw [h, Nat.mod_one]
    · rfl
  have h2 : (if ch.h = 1 then 0 else i / ch.w) = i / ch.w := by
    split
    · rename_i h
      rcases hh with hh | hh
      · exact absurd h hh
      · rw [Nat.div_eq_of_lt hh]
    · rfl
  rw [h1, h2, Nat.mul_comm, hd]

theorem insert_same (ch : Chan) (im : Img) (s : Space) (hs : HasBrightness s) (hc : im.Colour) (hh : ch.h = im.h) (hw : ch.w = im.w) (h1 : ch.c = 1)
    (hl : ch.vals.length = im.px.length) : putBack ch im s = some { im with px := List.zipWith (withValue s) im.px ch.vals } := by
  obtain ⟨k, e1, -, e3⟩ := channel_facts s hs
  unfold putBack
  rw [e1, Option.bind_some, if_pos ⟨Or.inl hh, Or.inl hw, h1⟩]
  congr 2
  obtain ⟨-, -, -, c4, c5, c6, -⟩ := hc
  refine List.ext_getElem? (fun i => ?_)
  rw [List.getElem?_map, List.getElem?_zipIdx, List.getElem?_zipWith]
  by_cases hi : i < im.px.length
  · rw [List.getElem?_eq_getElem hi, List.getElem?_eq_getElem (by omega : i < ch.vals.length)]
    simp only [Option.map_some, Nat.zero_add, Option.some.injEq]
    rw [e3, chan_at ch im.w i hw, List.getD_eq_getElem?_getD, List.getElem?_eq_getElem (by omega : i < ch.vals.length), Option.getD_some]
    · by_cases h : im.h = 1
      · right; rw [c6, h, one_mul] at hi; exact hi
      · left; omega
  · rw [List.getElem?_eq_none (by omega)]; rfl

end Imgaug.Hue
