import Verif.Proofs.Intensity
/-! C96: augmenters that equalize the intensity of images. -/
namespace Imgaug.Props.Intensity
open Imgaug Imgaug.Intensity Imgaug.Color Imgaug.Spec.Intensity

/-- C96: exactly the documented colour spaces are accepted: RGB, BGR, Lab, HLS and HSV for the input, Lab, HLS and HSV as target. -/
theorem colorspaces (f t : Space) :
    (Applier.make f t).isSome = true ↔ f ∈ [Space.rgb, .bgr, .lab, .hls, .hsv] ∧ t ∈ [Space.lab, .hls, .hsv] := by
  cases f <;> cases t <;> decide

/-- C96: whatever is done to the intensities, every image of a batch gets back its own: its converted image with the intensity replaced is converted
back, a fourth channel is kept, and images without three or four channels are handed over and returned as they are. -/
theorem image_by_image (conv : Conv) {f t : Space} {a : Applier} (ha : Applier.make f t = some a) (func : List Im → Option (List Im))
    (images new : List Im) (hf : func (images.map (intensity conv f t)) = some new) (hl : new.length = images.length)
    (hone : ∀ q ∈ images.zip new, (q.1.ch.length = 3 ∨ q.1.ch.length = 4) → q.2.ch.length = 1) :
    a.apply conv func images = some (List.zipWith (restored conv f t) images new) := by
  obtain ⟨rfl, hv⟩ := make_some ha
  rw [apply_eq conv ha, hf]
  exact denormalize_eq conv ⟨f, t⟩ images new hl hone

/-- A conversion for examples: the order of the channels is reversed. -/
def flipped : Conv := fun _ _ ch => ch.reverse

example : Keeps flipped := fun _ _ ch h => by simp [flipped, h]

example : ((⟨.rgb, .hsv⟩ : Applier).apply flipped (fun l => some (l.map (fun im => { im with ch := im.ch.map (·.map (· + 1)) })))
    [⟨⟨.u, 1⟩, 1, 2, [[1, 2], [3, 4], [5, 6], [7, 8]]⟩, ⟨⟨.u, 1⟩, 1, 1, [[9]]⟩, ⟨⟨.u, 1⟩, 1, 1, [[1], [2], [3]]⟩])
      = some [⟨⟨.u, 1⟩, 1, 2, [[2, 3], [3, 4], [5, 6], [7, 8]]⟩, ⟨⟨.u, 1⟩, 1, 1, [[10]]⟩, ⟨⟨.u, 1⟩, 1, 1, [[2], [2], [3]]⟩] := by
  decide

/-- C96: the histogram equalization changes every image by itself: images of three or four channels by their intensity in the target colour space,
other images channel by channel. -/
theorem equalize_each (conv : Conv) (hk : Keeps conv) {f t : Space} {a : Applier} (ha : Applier.make f t = some a) (images : List Im)
    (hu : ∀ im ∈ images, im.dt = ⟨.u, 1⟩) :
    equalize conv a images = some (images.map (fun im => restored conv f t im (equalizeImage (intensity conv f t im)))) := by
  have h1 : images.all (fun im => im.dt = ⟨.u, 1⟩) = true := by simpa using hu
  unfold equalize
  rw [if_pos h1]
  rw [image_by_image conv ha allChannelsEqualize images ((images.map (intensity conv f t)).map equalizeImage)]
  · congr 1
    rw [List.map_map, List.zipWith_map_right, List.zipWith_self]; rfl
  · unfold allChannelsEqualize
    rw [if_pos]
    simpa [intensity_dt] using hu
  · simp
  · intro q hq hc
    obtain ⟨i, h1, h2, rfl⟩ := zip_mem hq
    simp only [List.getElem_map]
    rw [(equalizeImage_shape _).2.2.2]
    exact intensity_one conv hk f t _ hc

/-- C96: CLAHE changes every image by itself in the same way, with the first values drawn for this image. -/
theorem clahe_each (conv : Conv) (hk : Keeps conv) (cv : CvClahe) {f t : Space} {a : Applier} (ha : Applier.make f t = some a)
    (draw : Nat → Nat → Sample) (m : Nat) (images : List Im) (hu : ∀ im ∈ images, im.dt = ⟨.u, 1⟩) :
    clahe conv cv a draw m images
      = some (images.zipIdx.map (fun q => restored conv f t q.1 (claheOne cv draw (fun _ => false) m q.2 (intensity conv f t q.1)))) := by
  have h1 : images.all (fun im => im.dt = ⟨.u, 1⟩) = true := by simpa using hu
  unfold clahe
  rw [if_pos h1]
  rw [image_by_image conv ha _ images
    (((images.map (intensity conv f t)).zipIdx).map (fun q => claheOne cv draw (fun _ => false) m q.2 q.1))]
  · congr 1
    rw [List.zipIdx_map, List.map_map]
    conv_lhs => rw [← List.zipIdx_map_fst 0 images]
    rw [List.zipWith_map, List.zipIdx_map_fst, List.zipWith_self]; rfl
  · unfold allChannelsClahe
    rw [if_pos]
    · exact claheFrom_eq cv draw _ m _ _ 0 (fun im h => le_maxChannels h)
    · have : ∀ im ∈ images, (intensity conv f t im).dt = ⟨.u, 1⟩ := fun im h => by rw [intensity_dt]; exact hu im h
      simp only [List.all_map, List.all_eq_true, Function.comp, decide_eq_true_eq]
      intro im h; exact Or.inl (this im h)
  · simp
  · intro q hq hc
    obtain ⟨i, h1, h2, rfl⟩ := zip_mem hq
    simp only [List.getElem_map, List.getElem_zipIdx]
    rw [(claheOne_shape _ _ _ _ _ _).2.2.2]
    exact intensity_one conv hk f t _ hc

/-- C96: other data types than uint8 raise, whatever the images. -/
theorem only_uint8 (conv : Conv) (cv : CvClahe) (a : Applier) (draw : Nat → Nat → Sample) (m : Nat) (images : List Im)
    (h : ∃ im ∈ images, im.dt ≠ ⟨.u, 1⟩) :
    equalize conv a images = none ∧ clahe conv cv a draw m images = none ∧ allChannelsEqualize images = none := by
  obtain ⟨im, hm, hd⟩ := h
  have : ¬ images.all (fun im => im.dt = ⟨.u, 1⟩) = true := by
    simp only [List.all_eq_true, decide_eq_true_eq]; intro hall; exact hd (hall im hm)
  simp [equalize, clahe, allChannelsEqualize, this]

/-- C96: both keep number, sizes, data types and numbers of channels of the images, also of images without pixels. -/
theorem shapes_kept (conv : Conv) (hk : Keeps conv) (cv : CvClahe) {f t : Space} {a : Applier} (ha : Applier.make f t = some a)
    (draw : Nat → Nat → Sample) (m : Nat) (images : List Im) (hu : ∀ im ∈ images, im.dt = ⟨.u, 1⟩) :
    (∃ out, equalize conv a images = some out ∧ List.Forall₂ SameShape out images) ∧
    (∃ out, clahe conv cv a draw m images = some out ∧ List.Forall₂ SameShape out images) := by
  constructor
  · refine ⟨_, equalize_each conv hk ha images hu, ?_⟩
    rw [List.forall₂_map_left_iff, List.forall₂_same]
    intro im _
    refine restored_shape conv hk f t im _ (fun hc => ?_)
    simp only [intensity, if_neg hc]
    exact equalizeImage_shape im
  · refine ⟨_, clahe_each conv hk cv ha draw m images hu, ?_⟩
    rw [List.forall₂_map_left_iff]
    have : List.Forall₂ (fun (q : Im × Nat) im => q.1 = im) images.zipIdx images := by
      conv => arg 3; rw [← List.zipIdx_map_fst 0 images]
      rw [List.forall₂_map_right_iff, List.forall₂_same]
      intros; rfl
    refine this.imp ?_
    rintro ⟨im, i⟩ _ rfl
    refine restored_shape conv hk f t im _ (fun hc => ?_)
    simp only [intensity, if_neg hc]
    exact claheOne_shape _ _ _ _ _ im

example : (equalize flipped ⟨.rgb, .hsv⟩ [⟨⟨.u, 1⟩, 1, 2, [[1, 2], [3, 4], [5, 6], [7, 8]]⟩, ⟨⟨.u, 1⟩, 0, 1, [[]]⟩]).isSome = true := by decide +kernel

/-- C96: the fourth channel of an image comes out unchanged. -/
theorem fourth_channel (conv : Conv) (hk : Keeps conv) (f t : Space) (im new : Im) (h : im.ch.length = 4) :
    (restored conv f t im new).ch[3]? = im.ch[3]? := by
  unfold restored
  rw [if_pos (Or.inr h)]
  have := hk t f ((conv f t (im.ch.take 3)).set (at' t) (new.ch.headD [])) (by rw [List.length_set]; exact hk f t _ (by simp; omega))
  simp only
  rw [List.getElem?_append_right (by omega), this]
  simp

/-- C96: in the target colour space, only the intensity of an image with three channels changes, if conversions there and back are inverse. -/
theorem only_intensity (conv : Conv) (f t : Space) (im new : Im) (h : im.ch.length = 3)
    (hinv : ∀ ch, conv f t (conv t f ch) = ch) (c : Nat) (hc : c ≠ at' t) :
    (conv f t (restored conv f t im new).ch)[c]? = (conv f t im.ch)[c]? := by
  unfold restored
  rw [if_pos (Or.inl h)]
  simp only
  rw [rest_of_three h, List.append_nil, hinv, List.take_of_length_le (by omega), List.getElem?_set_ne (fun e => hc e.symm)]

example : (∀ ch, flipped .rgb .hsv (flipped .hsv .rgb ch) = ch) ∧ at' .hsv = 2 ∧ at' .hls = 1 ∧ at' .lab = 0 := by
  simp [flipped, at']

/-- C96: images with one, two or more than four channels are equalized channel by channel, in their own colour space. -/
theorem other_counts (conv : Conv) (f t : Space) (im : Im) (h3 : im.ch.length ≠ 3) (h4 : im.ch.length ≠ 4) (hw : Fits im)
    (c : Nat) (p : Plane) (hp : im.ch[c]? = some p) :
    (restored conv f t im (equalizeImage (intensity conv f t im))).ch[c]? = some (equalizeHist p) := by
  have hc : ¬ (im.ch.length = 3 ∨ im.ch.length = 4) := by omega
  simp only [restored, intensity, if_neg hc, equalizeImage]
  split_ifs with hz
  · rw [hp]
    have hm : p ∈ im.ch := List.mem_of_getElem? hp
    rcases (noPixels_iff im).1 hz with e | e
    · have : p.length = 0 := by rw [hw p hm]; rcases e with e | e <;> simp [e]
      rw [List.length_eq_zero_iff] at this
      subst this; rfl
    · rw [e] at hm; cases hm
  · simp [hp]

example : Fits ⟨⟨.u, 1⟩, 1, 2, [[1, 2], [3, 4]]⟩ := by intro p hp; simp at hp; rcases hp with rfl | rfl <;> rfl

/-- C96: `AllChannelsCLAHE` accepts uint8 and uint16, never runs out of drawn values, and hands every channel to cv2 with the values drawn for this
channel if `per_channel`, else with those drawn for the first channel; both tile numbers are raised to the minimum before, and the width comes
first. A single tile leaves the channel unchanged. -/
theorem clahe_channels (cv : CvClahe) (draw : Nat → Nat → Sample) (pc : Nat → Bool) (m : Nat) (images : List Im)
    (hd : ∀ im ∈ images, im.dt = ⟨.u, 1⟩ ∨ im.dt = ⟨.u, 2⟩) :
    ∃ out, allChannelsClahe cv draw pc m images = some out ∧ out.length = images.length ∧
      ∀ i im c p, images[i]? = some im → 0 < im.h → 0 < im.w → im.ch[c]? = some p →
        ∃ o, out[i]? = some o ∧ SameShape o im ∧ o.ch[c]? = some (
          let s := draw i (if pc i then c else 0)
          if max s.tw m ≤ 1 ∧ max s.th m ≤ 1 then p else cv s.clip (max s.tw m, max s.th m) im.h im.w p) := by
  refine ⟨images.zipIdx.map (fun q => claheOne cv draw pc m q.2 q.1), ?_, ?_, ?_⟩
  · unfold allChannelsClahe
    rw [if_pos (by simpa using hd)]
    exact claheFrom_eq cv draw pc m _ _ 0 (fun im h => le_maxChannels h)
  · simp
  · intro i im c p him hh hw hp
    refine ⟨claheOne cv draw pc m i im, by simp [him], claheOne_shape _ _ _ _ _ _, ?_⟩
    unfold claheOne
    rw [if_neg (by omega)]
    simp only [List.getElem?_map, List.getElem?_zipIdx, hp, Option.map_some, Option.some.injEq, claheChannel, atLeast, Nat.zero_add]
    by_cases h : max (draw i (if pc i = true then c else 0)).tw m ≤ 1 ∧ max (draw i (if pc i = true then c else 0)).th m ≤ 1
    · rw [if_pos h, if_neg (by omega)]
    · rw [if_neg h, if_pos (by omega)]

example : allChannelsClahe (fun _ g _ _ p => p.map (· + g.1)) (fun i k => ⟨1, i, i + k⟩) (fun i => i = 1) 2
    [⟨⟨.u, 1⟩, 1, 1, [[1], [2]]⟩, ⟨⟨.u, 2⟩, 1, 1, [[1], [2], [4]]⟩]
      = some [⟨⟨.u, 1⟩, 1, 1, [[3], [4]]⟩, ⟨⟨.u, 2⟩, 1, 1, [[3], [4], [7]]⟩] := by decide

/-- C96: other data types raise in `AllChannelsCLAHE`. -/
theorem clahe_dtypes (cv : CvClahe) (draw : Nat → Nat → Sample) (pc : Nat → Bool) (m : Nat) (images : List Im)
    (h : ∃ im ∈ images, im.dt ≠ ⟨.u, 1⟩ ∧ im.dt ≠ ⟨.u, 2⟩) : allChannelsClahe cv draw pc m images = none := by
  obtain ⟨im, hm, hd⟩ := h
  unfold allChannelsClahe
  rw [if_neg]
  simp only [List.all_eq_true, decide_eq_true_eq]
  intro hall
  rcases hall im hm with e | e
  · exact hd.1 e
  · exact hd.2 e

/-- C96: the equalized value of a pixel is the rounded share, of 255, that the pixels of at most its value have among those above the smallest
value. -/
theorem equalized_value (p : Plane) (s : Nat) (hs : s ∈ p) (hmin : ∀ x ∈ p, s ≤ x) (hne : ∃ x ∈ p, x ≠ s) (i v : Nat) (hv : p[i]? = some v) :
    ∃ o : Nat, (equalizeHist p)[i]? = some o ∧ ((o : Int)) = npRound ((upTo p s v : ℚ) / (p.filter (s < ·)).length * 255) := by
  have hsm : smallest p = s := le_antisymm (smallest_le hs) (hmin _ (smallest_mem (List.ne_nil_of_mem hs)))
  have hone : ¬ p.count (smallest p) = p.length := by
    rw [one_value_iff, hsm]; intro h; obtain ⟨x, hx, hne⟩ := hne; exact hne (h x hx)
  refine ⟨table p v, by simp [equalizeHist, hone, hv], ?_⟩
  unfold table
  rw [cumulated_eq, others_eq, hsm]
  have h0 : 0 ≤ npRound ((p.countP (fun x => s < x ∧ x ≤ v) : ℚ) * (255 / (p.countP (fun x => s < x) : ℚ))) :=
    npRound_nonneg (by positivity)
  rw [Int.toNat_of_nonneg h0]
  congr 1
  rw [upTo, ← List.countP_eq_length_filter, ← List.countP_eq_length_filter]
  ring

example : equalizeHist [3, 7, 7, 9, 3, 200] = [0, 128, 128, 191, 0, 255] := by decide +kernel

/-- C96: a channel with a single value stays as it is, and none changes its number of pixels. -/
theorem equalized_constant (p : Plane) : (equalizeHist p).length = p.length ∧ ((∃ s, ∀ x ∈ p, x = s) → equalizeHist p = p) := by
  constructor
  · unfold equalizeHist; split_ifs <;> simp
  · rintro ⟨s, h⟩
    unfold equalizeHist
    rw [if_pos]
    rw [one_value_iff]
    intro x hx
    rw [h x hx, h _ (smallest_mem (List.ne_nil_of_mem hx))]

example : equalizeHist [3, 3] = [3, 3] := by decide

/-- C96: equalizing keeps the order of the pixels, the darkest become 0, the brightest 255. -/
theorem equalized_order (p : Plane) (hne : ∃ x ∈ p, ∃ y ∈ p, x ≠ y) :
    (∀ i j v w a b : Nat, p[i]? = some v → p[j]? = some w → v ≤ w → (equalizeHist p)[i]? = some a → (equalizeHist p)[j]? = some b → a ≤ b) ∧
    (∀ i v : Nat, p[i]? = some v → (∀ x ∈ p, v ≤ x) → (equalizeHist p)[i]? = some 0) ∧
    (∀ i v : Nat, p[i]? = some v → (∀ x ∈ p, x ≤ v) → (equalizeHist p)[i]? = some 255) := by
  obtain ⟨x0, hx0, y0, hy0, hxy⟩ := hne
  have hp : p ≠ [] := List.ne_nil_of_mem hx0
  have hs := smallest_mem hp
  have hmin : ∀ x ∈ p, smallest p ≤ x := fun x hx => smallest_le hx
  have hne : ∃ x ∈ p, x ≠ smallest p := by
    by_cases e : x0 = smallest p
    · exact ⟨y0, hy0, fun e' => hxy (e.trans e'.symm)⟩
    · exact ⟨x0, hx0, e⟩
  have hpos : (0 : ℚ) < ((p.filter (smallest p < ·)).length : ℚ) := by
    obtain ⟨x, hx, hne'⟩ := hne
    have : x ∈ p.filter (smallest p < ·) := List.mem_filter.2 ⟨hx, by have := hmin x hx; simp; omega⟩
    exact_mod_cast List.length_pos_of_mem this
  refine ⟨?_, ?_, ?_⟩
  · intro i j v w a b hv hw hvw ha hb
    obtain ⟨o, ho, he⟩ := equalized_value p _ hs hmin hne i v hv
    obtain ⟨o', ho', he'⟩ := equalized_value p _ hs hmin hne j w hw
    rw [ho, Option.some.injEq] at ha; rw [ho', Option.some.injEq] at hb
    subst ha hb
    have : (o : Int) ≤ o' := by
      rw [he, he']
      apply npRound_mono
      have h : upTo p (smallest p) v ≤ upTo p (smallest p) w := by
        unfold upTo
        rw [← List.countP_eq_length_filter, ← List.countP_eq_length_filter]
        apply List.countP_mono_left
        intro x _ hx
        simp only [decide_eq_true_eq] at hx ⊢
        omega
      have h' : (upTo p (smallest p) v : ℚ) ≤ upTo p (smallest p) w := by exact_mod_cast h
      have := div_le_div_of_nonneg_right h' hpos.le
      linarith
    omega
  · intro i v hv hall
    obtain ⟨o, ho, he⟩ := equalized_value p _ hs hmin hne i v hv
    have h0 : upTo p (smallest p) v = 0 := by
      unfold upTo
      rw [List.length_eq_zero_iff, List.filter_eq_nil_iff]
      intro x hx
      have := hall _ hs
      simp only [decide_eq_true_eq]; omega
    rw [h0] at he
    have : npRound ((((0 : Nat) : ℚ)) / ((p.filter (smallest p < ·)).length : ℚ) * 255) = 0 := by
      have : ((((0 : Nat) : ℚ)) / ((p.filter (smallest p < ·)).length : ℚ) * 255) = ((0 : Int) : ℚ) := by simp
      rw [this, npRound_int]
    rw [this] at he
    rw [ho]; congr 1; omega
  · intro i v hv hall
    obtain ⟨o, ho, he⟩ := equalized_value p _ hs hmin hne i v hv
    have h0 : upTo p (smallest p) v = (p.filter (smallest p < ·)).length := by
      unfold upTo
      congr 1
      apply List.filter_congr
      intro x hx
      simp [hall x hx]
    rw [h0, div_self hpos.ne', one_mul] at he
    have : npRound (255 : ℚ) = 255 := by
      have := npRound_int 255
      simpa using this
    rw [this] at he
    rw [ho]; congr 1; omega

example : ∃ x ∈ [3, 7, 7, 9], ∃ y ∈ [3, 7, 7, 9], x ≠ y := ⟨3, by simp, 7, by simp, by decide⟩

/-- C96 (partial): the tiles have the documented size in pixels if the sides of the image are the squares of these sizes. -/
theorem tile_pixels_partial (th tw : Nat) (h1 : 0 < th) (h2 : 0 < tw) : cvTiles (th * th) (tw * tw) (tw, th) = (th, tw) := by
  unfold cvTiles
  simp [Nat.mul_mod_right, Nat.mul_div_cancel _ h1, Nat.mul_div_cancel _ h2]

example : cvTiles 9 25 (5, 3) = (3, 5) := by decide

/-- C96: the tiles cover the whole image. -/
theorem tiles_cover (h w th tw : Nat) (h1 : 0 < th) (h2 : 0 < tw) : h ≤ th * (cvTiles h w (tw, th)).1 ∧ w ≤ tw * (cvTiles h w (tw, th)).2 := by
  have exact : ∀ n g : Nat, n % g = 0 → n ≤ g * (n / g) := fun n g e => by rw [Nat.mul_div_cancel' (Nat.dvd_of_mod_eq_zero e)]
  have more : ∀ n g : Nat, 0 < g → n ≤ g * ((n + (g - n % g)) / g) := by
    intro n g hg
    have hlt := Nat.mod_lt n hg
    have e : n + (g - n % g) = g * (n / g + 1) := by
      have := Nat.div_add_mod n g
      rw [Nat.mul_add, Nat.mul_one]
      omega
    rw [e, Nat.mul_div_cancel_left _ hg]
    omega
  unfold cvTiles
  split
  · rename_i e
    exact ⟨exact h th e.1, exact w tw e.2⟩
  · exact ⟨more h th h1, more w tw h2⟩

example : cvTiles 10 9 (3, 3) = (4, 4) := by decide

/-- C96 is false for the size of the tiles: the values documented as the size of the neighbourhoods in pixels are handed to cv2 as the number of
tiles, so that on an image of 224×224 pixels a size of 8 gives tiles of 28×28 pixels, and larger sizes give smaller neighbourhoods. -/
theorem tiles_not_pixels : cvTiles 224 224 (8, 8) = (28, 28) ∧ cvTiles 224 224 (16, 16) = (14, 14) := by decide

end Imgaug.Props.Intensity
