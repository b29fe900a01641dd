import Verif.Proofs.Temperature
import Verif.Proofs.AffineArgs
import Verif.Props.Handle
/-! Properties of colour temperatures (C106). -/
namespace Imgaug.Temperature
open Imgaug Imgaug.Dtypes Imgaug.Color Imgaug.Params

/-- C106: the table has a colour for every 100 kelvin from 1000 to 40000, and white becomes exactly that colour. -/
theorem white_becomes_table : table.length = 391 ∧
    ∀ (i : Nat) (row : Px), table[i]? = some row → adjust (1000 + 100 * i) white = row := by
  refine ⟨table_length, fun i row h => ?_⟩
  have hi : i < 391 := by
    obtain ⟨hi, -⟩ := List.getElem?_eq_some_iff.1 h
    rw [table_length] at hi
    exact hi
  have hd : table.getD i (0, 0, 0) = row := by rw [List.getD_eq_getElem?_getD, h]; rfl
  have hq : (i : ℚ) ≤ 390 := by exact_mod_cast (by omega : i ≤ 390)
  have hm : ∀ c, multiplier (1000 + 100 * i) c = cell c i := by
    intro c
    rw [multiplier_along, pos_eq i (by positivity) hq]
    have := along_seg (cell c) i 0 le_rfl zero_le_one
    simpa using this
  have hb := table_max i hi
  rw [hd] at hb
  have e : ∀ n : Nat, n ≤ 255 → toByte (((255 : Nat) : ℚ) * ((n : ℚ) / 255)) = n := by
    intro n hn
    rw [show ((255 : Nat) : ℚ) * ((n : ℚ) / 255) = n by push_cast; ring]
    exact toByte_nat n hn
  have c0 : cell 0 i = (row.1 : ℚ) / 255 := by unfold cell; rw [hd]; rfl
  have c1 : cell 1 i = (row.2.1 : ℚ) / 255 := by unfold cell; rw [hd]; rfl
  have c2 : cell 2 i = (row.2.2 : ℚ) / 255 := by unfold cell; rw [hd]; rfl
  simp only [adjust, white, hm, c0, c1, c2]
  rw [e _ hb.1, e _ (by omega), e _ hb.2.2]

example : table[55]? = some (255, 249, 253) := by decide +kernel

/-- C106: between two entries of the table the factors are interpolated linearly. -/
theorem factors_between (i : Nat) (hi : i < 390) (t : ℚ) (h0 : 0 ≤ t) (h1 : t ≤ 1) (c : Nat) :
    multiplier (1000 + 100 * (i + t)) c = (1 - t) * multiplier (1000 + 100 * i) c + t * multiplier (1000 + 100 * (i + 1)) c := by
  have hq : (i : ℚ) + 1 ≤ 390 := by exact_mod_cast (by omega : i + 1 ≤ 390)
  have hz : (0 : ℚ) ≤ i := by positivity
  simp only [multiplier_along]
  rw [pos_eq _ (by linarith) (by linarith), pos_eq _ hz (by linarith), pos_eq _ (by linarith) hq, along_seg _ i t h0 h1]
  have a := along_seg (cell c) i 0 le_rfl zero_le_one
  have b := along_seg (cell c) i 1 zero_le_one le_rfl
  rw [add_zero] at a
  rw [a, b]
  ring

/-- C106: temperatures below 1000 and above 40000 count as 1000 and 40000. -/
theorem extreme_temperatures (k : ℚ) (p : Px) :
    (k ≤ 1000 → adjust k p = adjust 1000 p) ∧ (40000 ≤ k → adjust k p = adjust 40000 p) := by
  constructor
  · intro h
    have : ∀ c, multiplier k c = multiplier 1000 c := by
      intro c; unfold multiplier; rw [max_eq_right h, max_self]
    simp only [adjust, this]
  · intro h
    have : ∀ c, multiplier k c = multiplier 40000 c := by
      intro c; unfold multiplier
      rw [max_eq_left (by linarith), min_eq_right h, max_eq_left (by norm_num), min_self]
    simp only [adjust, this]

/-- C106: a pixel is multiplied with factors between 0 and 1 and rounded: no channel ever overflows or becomes brighter, at any temperature. -/
theorem never_brighter (k : ℚ) (p : Px) (hp : p.Bytes) :
    (∀ c, 0 ≤ multiplier k c ∧ multiplier k c ≤ 1) ∧
    ((adjust k p).1 : Int) = npRound (p.1 * multiplier k 0) ∧ ((adjust k p).2.1 : Int) = npRound (p.2.1 * multiplier k 1) ∧
    ((adjust k p).2.2 : Int) = npRound (p.2.2 * multiplier k 2) ∧
    (adjust k p).1 ≤ p.1 ∧ (adjust k p).2.1 ≤ p.2.1 ∧ (adjust k p).2.2 ≤ p.2.2 := by
  have hr := multiplier_range k
  obtain ⟨a, b, c⟩ := hp
  have q0 := prod_range p.1 a _ (hr 0)
  have q1 := prod_range p.2.1 b _ (hr 1)
  have q2 := prod_range p.2.2 c _ (hr 2)
  exact ⟨hr, toByte_eq _ q0.1 q0.2.2, toByte_eq _ q1.1 q1.2.2, toByte_eq _ q2.1 q2.2.2, byte_le _ _ a (hr 0), byte_le _ _ b (hr 1),
    byte_le _ _ c (hr 2)⟩

example : Px.Bytes (255, 0, 17) := by unfold Px.Bytes; decide

/-- C106: black stays black, and a channel that was brighter in one pixel than in another is not darker afterwards. -/
theorem keeps_order (k : ℚ) (p q : Px) (hq : q.Bytes) :
    adjust k (0, 0, 0) = (0, 0, 0) ∧ (p.1 ≤ q.1 → (adjust k p).1 ≤ (adjust k q).1) ∧ (p.2.1 ≤ q.2.1 → (adjust k p).2.1 ≤ (adjust k q).2.1) ∧
    (p.2.2 ≤ q.2.2 → (adjust k p).2.2 ≤ (adjust k q).2.2) := by
  have hr := multiplier_range k
  refine ⟨?_, fun h => byte_mono _ _ _ _ h hq.1 (hr 0).1 le_rfl (hr 0).2, fun h => byte_mono _ _ _ _ h hq.2.1 (hr 1).1 le_rfl (hr 1).2,
    fun h => byte_mono _ _ _ _ h hq.2.2 (hr 2).1 le_rfl (hr 2).2⟩
  have : toByte 0 = 0 := by decide +kernel
  simp [adjust, this]

/-- C106: the higher the temperature, the less red and the more blue is a pixel. Green rises up to 6500 kelvin and falls from 6600 on. -/
theorem higher_is_bluer (k k' : ℚ) (h : k ≤ k') (p : Px) (hp : p.Bytes) :
    (adjust k' p).1 ≤ (adjust k p).1 ∧ (adjust k p).2.2 ≤ (adjust k' p).2.2 ∧
    (k' ≤ 6500 → (adjust k p).2.1 ≤ (adjust k' p).2.1) ∧ (6600 ≤ k → (adjust k' p).2.1 ≤ (adjust k p).2.1) := by
  have hr := multiplier_range
  have hk := pos_range k
  have hk' := pos_range k'
  have hm := pos_mono k k' h
  refine ⟨byte_mono _ _ _ _ le_rfl hp.1 (hr k' 0).1 ?_ (hr k 0).2, byte_mono _ _ _ _ le_rfl hp.2.2 (hr k 2).1 ?_ (hr k' 2).2,
    fun h6 => byte_mono _ _ _ _ le_rfl hp.2.1 (hr k 1).1 ?_ (hr k' 1).2, fun h6 => byte_mono _ _ _ _ le_rfl hp.2.1 (hr k' 1).1 ?_ (hr k 1).2⟩ <;>
    rw [multiplier_along, multiplier_along]
  · exact along_anti _ 0 390 (by norm_num) (fun i _ hi => cell_le _ _ _ _ (red_steps i hi)) _ _ hk.1 hm hk'.2
  · exact along_mono _ 0 390 (by norm_num) (fun i _ hi => cell_le _ _ _ _ (blue_steps i hi)) _ _ hk.1 hm hk'.2
  · exact along_mono _ 0 55 (by norm_num) (fun i _ hi => cell_le _ _ _ _ (green_up i hi)) _ _ hk.1 hm (pos_le k' 55 (by push_cast; linarith))
  · exact along_anti _ 56 390 (by norm_num) (fun i h1 hi => cell_le _ _ _ _ (green_down i hi h1)) _ _
      (le_pos k 56 (by norm_num) (by push_cast; linarith)) hm hk'.2

/-- C106: gray pixels become red or yellow up to 6200 kelvin and blue from 7200 kelvin on. -/
theorem warm_and_cold (k : ℚ) (v : Nat) (hv : v ≤ 255) :
    (k ≤ 6200 → (adjust k (v, v, v)).2.2 ≤ (adjust k (v, v, v)).2.1 ∧ (adjust k (v, v, v)).2.1 ≤ (adjust k (v, v, v)).1) ∧
    (7200 ≤ k → (adjust k (v, v, v)).1 ≤ (adjust k (v, v, v)).2.1 ∧ (adjust k (v, v, v)).2.1 ≤ (adjust k (v, v, v)).2.2) := by
  have hr := multiplier_range
  have hk := pos_range k
  refine ⟨fun h => ?_, fun h => ?_⟩
  · have hp := pos_le k 52 (by push_cast; linarith)
    refine ⟨byte_mono _ _ _ _ le_rfl hv (hr k 2).1 ?_ (hr k 1).2, byte_mono _ _ _ _ le_rfl hv (hr k 1).1 ?_ (hr k 0).2⟩ <;>
      rw [multiplier_along, multiplier_along]
    · exact along_le _ _ 0 52 (by norm_num) (fun i _ hi => cell_le _ _ _ _ (warm_rows i (by omega) hi).2) _ hk.1 hp
    · exact along_le _ _ 0 52 (by norm_num) (fun i _ hi => cell_le _ _ _ _ (warm_rows i (by omega) hi).1) _ hk.1 hp
  · have hp := le_pos k 62 (by norm_num) (by push_cast; linarith)
    refine ⟨byte_mono _ _ _ _ le_rfl hv (hr k 0).1 ?_ (hr k 1).2, byte_mono _ _ _ _ le_rfl hv (hr k 1).1 ?_ (hr k 2).2⟩ <;>
      rw [multiplier_along, multiplier_along]
    · exact along_le _ _ 62 390 (by norm_num) (fun i h1 hi => cell_le _ _ _ _ (cold_rows i (by omega) h1).1) _ hp hk.2
    · exact along_le _ _ 62 390 (by norm_num) (fun i h1 hi => cell_le _ _ _ _ (cold_rows i (by omega) h1).2) _ hp hk.2

/-- C106: there is no neutral temperature: at every one of them white loses at least 6 of its 255 steps of green. -/
theorem white_is_lost (k : ℚ) : (adjust k white).2.1 ≤ 249 ∧ adjust k white ≠ white := by
  have h : (adjust k white).2.1 ≤ 249 := by
    have hg := green_max k
    have h0 := (multiplier_range k 1).1
    have : toByte (((255 : Nat) : ℚ) * multiplier k 1) ≤ toByte ((249 : Nat) : ℚ) := by
      refine toByte_mono _ _ (by positivity) ?_ (by norm_num)
      push_cast
      linarith
    rwa [toByte_nat 249 (by norm_num)] at this
  exact ⟨h, fun e => by rw [e] at h; simp [white] at h⟩

/-- C106: the images of a call: each uint8 image of shape (H,W,3) gets its own temperature, and every pixel is converted to RGB, multiplied, and
converted back to its colour space. Shape and dtype remain. -/
theorem temperatures_px (cv : Cv) (hcv : cv.Bytes) (array : Bool) (images r : List Img) (ka : KArg) (fa : Arg) (ks : List ℚ) (fs : List Space)
    (hk : ka.For images.length ks) (hf : SpacesFor images.length fa fs) (h : temperatures cv array images ka fa = some r) :
    r.length = images.length ∧ ∀ (i : Nat) (im : Img) (k : ℚ) (f : Space), images[i]? = some im → ks[i]? = some k → fs[i]? = some f → im.Colour →
      ∃ im', r[i]? = some im' ∧ im'.px = im.px.map (tempered cv f k) ∧ im'.dt = im.dt ∧ im'.flat = false ∧ im'.h = im.h ∧ im'.w = im.w ∧
        im'.c = 3 := by
  unfold temperatures at h
  by_cases he : images = []
  · subst he
    rw [if_pos rfl] at h
    obtain rfl := Option.some.inj h
    exact ⟨rfl, fun i im k f hi => by simp at hi⟩
  rw [if_neg he, (kelvinsOf_iff _ _ _).2 hk, Option.bind_some, (validate_iff _ _ _).2 hf, Option.bind_some] at h
  split_ifs at h with hrange
  have hl := mapM_len _ _ _ h
  have hn := mapM_nth _ _ _ h
  have l1 := for_length _ _ _ hk
  have l2 := spaces_length _ _ _ hf
  refine ⟨by rw [hl, List.length_zip, List.length_zip]; omega, fun i im k f hi hki hfi hc => ?_⟩
  have hz : (images.zip (ks.zip fs))[i]? = some (im, k, f) :=
    List.getElem?_zip_eq_some.2 ⟨hi, List.getElem?_zip_eq_some.2 ⟨hki, hfi⟩⟩
  obtain ⟨im', hr, hs⟩ := hn i _ hz
  dsimp only at hs
  rw [step_colour cv hcv array k f im hc] at hs
  split_ifs at hs with hg
  obtain rfl := Option.some.inj hs
  exact ⟨_, hr, rfl, rfl, hc.2.1, rfl, rfl, hc.2.2.1⟩

/-- C106: which calls on uint8 images of shape (H,W,3) succeed: numbers of kelvins and colour spaces fit, no image is in grayscale, and the first
temperature is between 1000 and 40000. -/
theorem temperatures_accept (cv : Cv) (hcv : cv.Bytes) (array : Bool) (images : List Img) (hne : images ≠ []) (hc : ∀ im ∈ images, im.Colour)
    (ka : KArg) (fa : Arg) :
    (temperatures cv array images ka fa).isSome = true ↔
      ∃ ks fs, ka.For images.length ks ∧ SpacesFor images.length fa fs ∧ Space.gray ∉ fs ∧ ∃ k, ks[0]? = some k ∧ 1000 ≤ k ∧ k ≤ 40000 := by
  unfold temperatures
  rw [if_neg hne]
  have hpos : 0 < images.length := List.length_pos_iff.2 hne
  constructor
  · intro h
    cases hk : kelvinsOf images.length ka with
    | none => rw [hk] at h; simp at h
    | some ks =>
      cases hf : validate images.length fa with
      | none => rw [hk, hf] at h; simp at h
      | some fs =>
        rw [hk, hf, Option.bind_some, Option.bind_some] at h
        have l1 := for_length _ _ _ ((kelvinsOf_iff _ _ _).1 hk)
        have l2 := spaces_length _ _ _ ((validate_iff _ _ _).1 hf)
        by_cases hr : 1000 ≤ ks.getD 0 0 ∧ ks.getD 0 0 ≤ 40000
        · rw [if_pos hr] at h
          refine ⟨ks, fs, (kelvinsOf_iff _ _ _).1 hk, (validate_iff _ _ _).1 hf, ?_, ks.getD 0 0, ?_, hr.1, hr.2⟩
          · intro hg
            obtain ⟨i, hi⟩ := List.getElem?_of_mem hg
            have hlt : i < fs.length := (List.getElem?_eq_some_iff.1 hi).1
            obtain ⟨r, hr'⟩ := Option.isSome_iff_exists.1 h
            have him : images[i]? = some images[i] := List.getElem?_eq_getElem (by omega)
            have hki : ks[i]? = some ks[i] := List.getElem?_eq_getElem (by omega)
            have hz : (images.zip (ks.zip fs))[i]? = some (images[i], ks[i], Space.gray) :=
              List.getElem?_zip_eq_some.2 ⟨him, List.getElem?_zip_eq_some.2 ⟨hki, hi⟩⟩
            obtain ⟨b, hb, hs⟩ := mapM_nth _ _ _ hr' i _ hz
            dsimp only at hs
            rw [step_colour cv hcv array _ _ _ (hc _ (List.getElem_mem _)), if_pos rfl] at hs
            simp at hs
          · rw [List.getD_eq_getElem?_getD, List.getElem?_eq_getElem (by omega)]; rfl
        · rw [if_neg hr] at h; simp at h
  · rintro ⟨ks, fs, hk, hf, hg, k, h0, h1, h2⟩
    rw [(kelvinsOf_iff _ _ _).2 hk, Option.bind_some, (validate_iff _ _ _).2 hf, Option.bind_some]
    have e : ks.getD 0 0 = k := by rw [List.getD_eq_getElem?_getD, h0]; rfl
    rw [e, if_pos ⟨h1, h2⟩]
    obtain ⟨r, hr⟩ := mapM_exists (fun p : Img × ℚ × Space => step cv array p.2.1 p.2.2 p.1) (images.zip (ks.zip fs)) (by
      intro p hp
      have hm := List.of_mem_zip hp
      have hm2 := List.of_mem_zip hm.2
      rw [step_colour cv hcv array _ _ _ (hc _ hm.1), if_neg (show ¬ p.2.2 = Space.gray from fun e => hg (by rw [← e]; exact hm2.2))]
      rfl)
    rw [hr]; rfl

/-- cv2 with trivial conversions. -/
example : (⟨fun _ _ p => (p.1 % 256, p.2.1 % 256, p.2.2 % 256), fun _ _ => 0⟩ : Cv).Bytes ∧
    (⟨⟨.u, 1⟩, false, 1, 1, 3, true, [(255, 0, 9)]⟩ : Img).Colour ∧ (KArg.many [5000, 10]).For 2 [5000, 10] ∧
    SpacesFor 2 (.one .hsv) [.hsv, .hsv] := by
  refine ⟨⟨fun _ _ p => ?_, fun _ _ => by simp⟩, ⟨rfl, rfl, rfl, by decide, by decide, by decide, ?_⟩, ⟨rfl, rfl⟩, rfl⟩
  · simp only [Px.Bytes]; omega
  · simp [Px.Bytes]

/-- C106 is false for temperatures that are not of the first image: if they are not between 1000 and 40000 they are accepted. The same values
are rejected in another order. -/
theorem only_first_checked (cv : Cv) (hcv : cv.Bytes) (array : Bool) (a b : Img) (ha : a.Colour) (hb : b.Colour) (f : Space) (hg : f ≠ .gray) (k bad : ℚ)
    (hk : 1000 ≤ k ∧ k ≤ 40000) (hbad : bad < 1000 ∨ 40000 < bad) :
    (temperatures cv array [a, b] (.many [k, bad]) (.one f)).isSome = true ∧ temperatures cv array [b, a] (.many [bad, k]) (.one f) = none := by
  constructor
  · rw [temperatures_accept cv hcv array _ (by simp) (by simp [ha, hb])]
    exact ⟨[k, bad], [f, f], ⟨rfl, rfl⟩, rfl, by simp [Ne.symm hg], k, rfl, hk.1, hk.2⟩
  · by_contra h
    have := (temperatures_accept cv hcv array [b, a] (by simp) (by simp [ha, hb]) (.many [bad, k]) (.one f)).1 (Option.isSome_iff_ne_none.2 h)
    obtain ⟨ks, fs, h1, -, -, k', h2, h3, h4⟩ := this
    obtain ⟨rfl, -⟩ := h1
    simp only [List.getElem?_cons_zero, Option.some.injEq] at h2
    subst h2
    rcases hbad with h | h <;> linarith

/-- C106: if the first temperature is out of range nothing is changed: the call raises. -/
theorem first_out_of_range (cv : Cv) (array : Bool) (im : Img) (images : List Img) (k : ℚ) (hk : k < 1000 ∨ 40000 < k) (l : List ℚ) (fa : Arg) :
    temperatures cv array (im :: images) (.one k) fa = none ∧ temperatures cv array (im :: images) (.many (k :: l)) fa = none := by
  have hr : ¬ (1000 ≤ k ∧ k ≤ 40000) := by rintro ⟨a, b⟩; rcases hk with h | h <;> linarith
  constructor
  · unfold temperatures
    rw [if_neg (by simp)]
    simp only [kelvinsOf, Option.bind_some, List.length_cons, List.replicate_succ, List.getD_cons_zero]
    cases validate (images.length + 1) fa with
    | none => rfl
    | some fs => rw [Option.bind_some, if_neg hr]
  · unfold temperatures
    rw [if_neg (by simp)]
    simp only [kelvinsOf]
    split_ifs
    · rw [Option.bind_some]
      cases validate (im :: images).length fa with
      | none => rfl
      | some fs => rw [Option.bind_some, List.getD_cons_zero, if_neg hr]
    · rfl

/-- C106 is false for images without pixels: those of shape (H,W,C) with H or W 0 are rejected if C is neither 1 nor 3, and in a list such an image
with one channel is returned with three channels; the dtype is not looked at and becomes uint8. -/
theorem no_pixels (cv : Cv) (im : Img) (hf : im.flat = false) (he : im.h = 0 ∨ im.w = 0) (k : ℚ) (hk : 1000 ≤ k ∧ k ≤ 40000) (f : Space) :
    temperatures cv false [im] (.one k) (.one f) =
      if im.c = 1 ∨ im.c = 3 then some [{ im with dt := ⟨.u, 1⟩, c := 3, owned := true }] else none := by
  unfold temperatures
  rw [if_neg (by simp)]
  simp only [kelvinsOf, validate, Option.bind_some, List.length_singleton, List.replicate_one, List.getD_cons_zero, if_pos hk]
  simp only [List.zip_cons_cons, List.zip_nil_right, List.mapM_cons, List.mapM_nil, step, if_pos he, emptyStep, hf, Bool.false_eq_true, if_false]
  split_ifs <;> rfl

example : (⟨⟨.f, 4⟩, false, 0, 5, 4, true, []⟩ : Img).flat = false ∧ ((⟨⟨.f, 4⟩, false, 0, 5, 4, true, []⟩ : Img).h = 0 ∨ False) := ⟨rfl, Or.inl rfl⟩

/-- C106 is false for images of shape (H,W) without pixels: they are rejected, unless the height is 0 and the width is 1 or 3; in a list the result then
has another shape, (1,0,3); an array of them is returned as it is if the width is 3, and rejected otherwise. -/
theorem no_pixels_flat (cv : Cv) (im : Img) (hf : im.flat = true) (he : im.h = 0 ∨ im.w = 0) (k : ℚ) (hk : 1000 ≤ k ∧ k ≤ 40000) (f : Space) :
    temperatures cv false [im] (.one k) (.one f) = (if im.h = 0 ∧ (im.w = 1 ∨ im.w = 3) then some [⟨⟨.u, 1⟩, false, 1, 0, 3, true, []⟩] else none) ∧
    temperatures cv true [im] (.one k) (.one f) = (if im.h = 0 ∧ im.w = 3 then some [{ im with owned := false }] else none) := by
  unfold temperatures
  rw [if_neg (show ¬ ([im] = []) by simp)]
  simp only [if_neg (show ¬ ([im] = []) by simp), kelvinsOf, validate, Option.bind_some, List.length_singleton, List.replicate_one, List.getD_cons_zero, if_pos hk]
  simp only [List.zip_cons_cons, List.zip_nil_right, List.mapM_cons, List.mapM_nil, step, if_pos he, emptyStep, hf, Bool.false_eq_true, if_false, if_true]
  constructor
  · split_ifs <;> rfl
  · split_ifs <;> first | rfl | (exfalso; omega)

/-- C106: an array of images without pixels of shape (H,W,C) is returned as it is if C is 3, else it is rejected. -/
theorem no_pixels_array (cv : Cv) (im : Img) (hf : im.flat = false) (he : im.h = 0 ∨ im.w = 0) (k : ℚ) (hk : 1000 ≤ k ∧ k ≤ 40000) (f : Space) :
    temperatures cv true [im] (.one k) (.one f) = if im.c = 3 then some [{ im with owned := false }] else none := by
  unfold temperatures
  rw [if_neg (by simp)]
  simp only [kelvinsOf, validate, Option.bind_some, List.length_singleton, List.replicate_one, List.getD_cons_zero, if_pos hk]
  simp only [List.zip_cons_cons, List.zip_nil_right, List.mapM_cons, List.mapM_nil, step, if_pos he, emptyStep, hf, Bool.false_eq_true, if_false, if_true]
  split_ifs <;> first | rfl | (exfalso; omega)

/-- C106: one image: `change_color_temperature`. -/
theorem temperature_px (cv : Cv) (hcv : cv.Bytes) (im : Img) (hc : im.Colour) (k : ℚ) (f : Space) :
    ((temperature cv im k f).isSome = true ↔ f ≠ .gray ∧ 1000 ≤ k ∧ k ≤ 40000) ∧
    ∀ r, temperature cv im k f = some r → r.px = im.px.map (tempered cv f k) ∧ r.dt = im.dt ∧ r.h = im.h ∧ r.w = im.w ∧ r.c = 3 := by
  have hc' : ({ im with owned := false } : Img).Colour := hc
  have hone : ∀ r, temperatures cv true [{ im with owned := false }] (.many [k]) (.many [f]) = some r → r.length = 1 ∧
      ∃ im', r[0]? = some im' ∧ im'.px = im.px.map (tempered cv f k) ∧ im'.dt = im.dt ∧ im'.flat = false ∧ im'.h = im.h ∧ im'.w = im.w ∧
        im'.c = 3 := by
    intro r hr
    obtain ⟨a, b⟩ := temperatures_px cv hcv true _ r (.many [k]) (.many [f]) [k] [f] ⟨rfl, rfl⟩ ⟨rfl, rfl⟩ hr
    exact ⟨a, b 0 { im with owned := false } k f rfl rfl rfl hc'⟩
  have hacc := temperatures_accept cv hcv true [{ im with owned := false }] (by simp) (by simpa using hc') (.many [k]) (.many [f])
  constructor
  · constructor
    · intro h
      have h1 : (temperatures cv true [{ im with owned := false }] (.many [k]) (.many [f])).isSome = true := by
        unfold temperature at h
        cases e : temperatures cv true [{ im with owned := false }] (.many [k]) (.many [f]) with
        | none => rw [e] at h; simp at h
        | some r => rfl
      obtain ⟨ks, fs, h1, h2, h3, k', h4, h5, h6⟩ := hacc.1 h1
      obtain ⟨rfl, -⟩ := h1
      obtain ⟨rfl, -⟩ := h2
      simp only [List.getElem?_cons_zero, Option.some.injEq] at h4
      subst h4
      exact ⟨fun e => h3 (by simp [e]), h5, h6⟩
    · rintro ⟨hg, h1, h2⟩
      obtain ⟨r, hr⟩ := Option.isSome_iff_exists.1 (hacc.2 ⟨[k], [f], ⟨rfl, rfl⟩, ⟨rfl, rfl⟩, by simp [Ne.symm hg], k, rfl, h1, h2⟩)
      obtain ⟨-, im', h0, -⟩ := hone r hr
      unfold temperature
      rw [hr, Option.bind_some, List.head?_eq_getElem?, h0]
      rfl
  · intro r h
    unfold temperature at h
    cases e : temperatures cv true [{ im with owned := false }] (.many [k]) (.many [f]) with
    | none => rw [e] at h; simp at h
    | some l =>
      obtain ⟨-, im', h0, a, b, -, c, d, g⟩ := hone l e
      rw [e, Option.bind_some, List.head?_eq_getElem?, h0] at h
      obtain rfl := Option.some.inj h
      exact ⟨a, b, c, d, g⟩

variable {σ : Type}

/-- C106: the augmenter. Numbers, tuples and lists must lie between 1000 and 40000. Then every image gets a temperature for which the argument stands,
and the call succeeds. Only with parameters of the user may it be otherwise. -/
theorem augmenter_temperatures (cv : Cv) (hcv : cv.Bytes) (S : AffineArgs.Sampler σ Handled ℚ) (P : AffineArgs.Values ℚ)
    (hS : AffineArgs.Ok (AffineArgs.Supports P) S) (a : Val) (hfill : AffineArgs.Val.Filled a)
    (hp : ∀ i, a ≠ .atom (.par i)) (array : Bool) (images : List Img) (hc : ∀ im ∈ images, im.Colour) (f : Space) (hg : f ≠ .gray) (g : σ) :
    ((init a).isSome = true ↔ NumericArg true true true a ∧ ∀ n : Num, .num n ∈ numbers a → 1000 ≤ n.q ∧ n.q ≤ 40000) ∧
    ∀ d, init a = some d → ∃ r, augment cv S d f images.length array (some images) g = some (some r) ∧ r.length = images.length ∧
      ∀ (i : Nat) (im : Img), images[i]? = some im → ∃ k im', AffineArgs.Allows P a k ∧ 1000 ≤ k ∧ k ≤ 40000 ∧ r[i]? = some im' ∧
        im'.px = im.px.map (tempered cv f k) ∧ im'.dt = im.dt ∧ im'.h = im.h ∧ im'.w = im.w ∧ im'.c = 3 := by
  have hacc : (init a).isSome = true ↔ NumericArg true true true a ∧ ∀ n : Num, .num n ∈ numbers a → 1000 ≤ n.q ∧ n.q ≤ 40000 := by
    unfold init
    rw [continuous_accepts]
    constructor
    · rintro (⟨i, h⟩ | ⟨h1, h2⟩)
      · exact absurd h (hp i)
      · exact ⟨h1, fun n hn => by simpa [VR.allowed] using h2 n hn⟩
    · rintro ⟨h1, h2⟩
      exact Or.inr ⟨h1, fun n hn => by simpa [VR.allowed] using h2 n hn⟩
  refine ⟨hacc, fun d hd => ?_⟩
  obtain ⟨-, hr⟩ := hacc.1 (by rw [hd]; rfl)
  have hin : ∀ k, AffineArgs.Allows P a k → 1000 ≤ k ∧ k ≤ 40000 := by
    intro k hk
    rcases a with x | l | l
    · cases x with
      | num n => simp only [AffineArgs.Allows] at hk; subst hk; exact hr n (by simp [numbers])
      | par i => exact absurd rfl (hp i)
      | _ => simp [AffineArgs.Allows] at hk
    · obtain ⟨x, y, rfl, h1, h2⟩ := hk
      have hx := hr x (by simp [numbers])
      have hy := hr y (by simp [numbers])
      exact ⟨le_trans (le_min hx.1 hy.1) h1, le_trans h2 (max_le hx.2 hy.2)⟩
    · obtain ⟨n, hn, rfl⟩ := hk
      exact hr n hn
  have hlen := hS.length d images.length g
  have hval : ∀ k ∈ (S d images.length g).1, AffineArgs.Allows P a k := fun k hk =>
    AffineArgs.continuous_supports P a _ d k hd hfill (hS.values d _ g k hk)
  have hfor : (KArg.many (S d images.length g).1).For images.length (S d images.length g).1 := ⟨rfl, hlen⟩
  by_cases he : images = []
  · subst he
    exact ⟨[], by simp [augment, temperatures], rfl, by simp⟩
  have hpos : 0 < images.length := List.length_pos_iff.2 he
  have hsome := (temperatures_accept cv hcv array images he hc (.many (S d images.length g).1) (.one f)).2
    ⟨_, _, hfor, rfl, fun h => hg (List.eq_of_mem_replicate h).symm, (S d images.length g).1[0], List.getElem?_eq_getElem (by omega),
      hin _ (hval _ (List.getElem_mem _))⟩
  obtain ⟨r, hr'⟩ := Option.isSome_iff_exists.1 hsome
  obtain ⟨h1, h2⟩ := temperatures_px cv hcv array images r _ (.one f) _ _ hfor rfl hr'
  refine ⟨r, by simp [augment, hr'], h1, fun i im hi => ?_⟩
  have hlt : i < images.length := (List.getElem?_eq_some_iff.1 hi).1
  have hmem : im ∈ images := List.mem_of_getElem? hi
  obtain ⟨im', e1, e2, e3, -, e4, e5, e6⟩ := h2 i im (S d images.length g).1[i] f hi (List.getElem?_eq_getElem (by omega))
    (by rw [List.getElem?_replicate, if_pos hlt]) (hc im hmem)
  have hk := hval _ (List.getElem_mem (h := (by omega : i < (S d images.length g).1.length)))
  exact ⟨_, im', hk, (hin _ hk).1, (hin _ hk).2, e1, e2, e3, e4, e5, e6⟩

/-- C106: without images nothing is done. -/
theorem augmenter_no_images (cv : Cv) (S : AffineArgs.Sampler σ Handled ℚ) (d : Handled) (f : Space) (n : Nat) (array : Bool) (g : σ) :
    augment cv S d f n array none g = some none := rfl

example : (init (.tuple [.num ⟨true, 1000⟩, .num ⟨true, 11000⟩])).isSome = true ∧ (init (.atom (.num ⟨true, 999⟩))).isSome = false ∧
    AffineArgs.Val.Filled (.tuple [.num ⟨true, 1000⟩, .num ⟨true, 11000⟩]) := by
  refine ⟨by decide +kernel, by decide +kernel, by simp [AffineArgs.Val.Filled]⟩

end Imgaug.Temperature
