import Verif.Spec.Compress
import Verif.Proofs.Compress
import Mathlib.Tactic.FinCases
import Mathlib.Tactic.IntervalCases
import Mathlib.Tactic.Linarith
/-! C123: compression with JPEG, quantisation with k-means. -/
namespace Imgaug.Compress.Props
open Imgaug Imgaug.Props Imgaug.Compress

/-- A codec that rounds to multiples of a number that depends on the quality. -/
def demoCodec : Codec where
  gray q _ _ f y x := f y x / (101 - q) * (101 - q)
  rgb q _ _ f y x k := f y x k / (101 - q) * (101 - q)

def demoGray : Arr := ⟨true, .hw 2 3, fun y x _ => 40 * y + 30 * x⟩
def demoRgb : Arr := ⟨true, .hwc 2 3 3, fun y x k => 40 * y + 30 * x + 7 * k⟩

/-- C123: `compress_jpeg` returns an image that has no pixels or no channels as it is; all other images it accepts if and only if they are
uint8, of shape (H,W), (H,W,1) or (H,W,3), and the compression is in the interval [0, 100]. -/
theorem jpeg_accepts (j : Codec) (im : Arr) (c : ℚ) :
    (im.shape.empty = true → compressJpeg j im c = some im) ∧
    (im.shape.empty = false →
      ((compressJpeg j im c).isSome ↔ im.uint8 = true ∧ 0 ≤ c ∧ c ≤ 100 ∧ ∃ h w, im.shape = .hw h w ∨ im.shape = .hwc h w 1 ∨ im.shape = .hwc h w 3)) := by
  obtain ⟨u, s, px⟩ := im
  constructor
  · intro h; simp only at h; simp [compressJpeg, h]
  · intro h
    simp only at h
    unfold compressJpeg
    simp only [h, Bool.false_eq_true, if_false]
    by_cases hu : u = false
    · simp [hu]
    · have hu : u = true := by simpa using hu
      by_cases hc : 0 ≤ c ∧ c ≤ 100
      · rw [if_neg (by simp [hu]), if_pos hc]
        match s with
        | .hw h w => simp [hu, hc]
        | .other => simp
        | .hwc h w 1 => simp [hu, hc]
        | .hwc h w 3 => simp [hu, hc]
        | .hwc h w 0 => simp
        | .hwc h w 2 => simp
        | .hwc h w (n + 4) => simp
      · rw [if_neg (by simp [hu]), if_neg hc]
        simp only [Option.isSome_none, Bool.false_eq_true, false_iff]
        rintro ⟨_, h1, h2, _⟩
        exact hc ⟨h1, h2⟩

example : (compressJpeg demoCodec demoRgb 50).isSome := ((jpeg_accepts _ _ _).2 rfl).2 ⟨rfl, by norm_num, by norm_num, 2, 3, .inr (.inr rfl)⟩
example : ¬ (compressJpeg demoCodec ⟨true, .hwc 2 3 4, fun _ _ _ => 0⟩ 50).isSome := by decide +kernel

/-- C123: an array that has two or three axes and no value at all, whatever its dtype and whatever the compression, comes back as it is. -/
theorem jpeg_nothing (j : Codec) (im : Arr) (c : ℚ) (hs : im.shape ≠ .other) (hn : ∀ y x k, ¬ Inside im.shape y x k) :
    compressJpeg j im c = some im := by
  unfold compressJpeg
  rw [if_pos]
  cases e : im.shape with
  | hw h w =>
    rw [e] at hn
    have := hn 0 0 0
    simp only [Inside] at this
    simp only [Shape.empty, Bool.or_eq_true, beq_iff_eq]
    grind
  | hwc h w c =>
    rw [e] at hn
    have := hn 0 0 0
    simp only [Inside] at this
    simp only [Shape.empty, Bool.or_eq_true, beq_iff_eq]
    omega
  | other => exact absurd e hs

example : ∀ y x k, ¬ Inside (.hwc 3 4 0) y x k := by intro y x k; simp [Inside]

/-- C123: the compressed image has the shape and the dtype of the image, and its pixels are what the codec makes of the image as it is, for
images of shape (H,W) and (H,W,1) in shades of gray, with the quality that belongs to the compression. -/
theorem jpeg_result (j : Codec) (im r : Arr) (c : ℚ) (h : compressJpeg j im c = some r) (hn : im.shape.empty = false) :
    r.shape = im.shape ∧ r.uint8 = im.uint8 ∧
    (∀ h w : Nat, im.shape = .hw h w ∨ im.shape = .hwc h w 1 → ∀ y x, r.px y x 0 = j.gray (quality c) h w (fun y x => im.px y x 0) y x) ∧
    (∀ h w : Nat, im.shape = .hwc h w 3 → ∀ y x k, r.px y x k = j.rgb (quality c) h w im.px y x k) := by
  obtain ⟨u, s, px⟩ := im
  simp only at hn
  unfold compressJpeg at h
  simp only [hn, Bool.false_eq_true, if_false] at h
  by_cases hu : u = false
  · simp [hu] at h
  · by_cases hc : 0 ≤ c ∧ c ≤ 100
    · rw [if_neg hu, if_pos hc] at h
      match s with
      | .hw h' w' =>
        simp only [Option.some.injEq] at h
        subst h
        refine ⟨rfl, rfl, ?_, ?_⟩
        · rintro a b (e | e)
          · cases e; exact fun y x => rfl
          · cases e
        · intro a b e; cases e
      | .hwc h' w' 1 =>
        simp only [Option.some.injEq] at h
        subst h
        refine ⟨rfl, rfl, ?_, ?_⟩
        · rintro a b (e | e)
          · cases e
          · cases e; exact fun y x => rfl
        · intro a b e; cases e
      | .hwc h' w' 3 =>
        simp only [Option.some.injEq] at h
        subst h
        refine ⟨rfl, rfl, ?_, ?_⟩
        · rintro a b (e | e) <;> cases e
        · intro a b e; cases e; exact fun y x k => rfl
      | .other => simp at h
      | .hwc h' w' 0 => simp at h
      | .hwc h' w' 2 => simp at h
      | .hwc h' w' (n + 4) => simp at h
    · rw [if_neg hu, if_neg hc] at h; simp at h

example : ((compressJpeg demoCodec demoGray 50).map fun r => (r.px 1 2 0, r.px 1 1 0)) = some (50 * 2, 50 * 1) := by decide +kernel

/-- C123: `compress_jpeg` treats an image of shape (H,W,1) as it treats the image of shape (H,W) with the same values. -/
theorem jpeg_single_channel (j : Codec) (u : Bool) (h w : Nat) (px : Nat → Nat → Nat → Int) (c : ℚ) :
    compressJpeg j ⟨u, .hwc h w 1, px⟩ c = (compressJpeg j ⟨u, .hw h w, px⟩ c).map (fun r => { r with shape := .hwc h w 1 }) := by
  unfold compressJpeg
  have : (Shape.hwc h w 1).empty = (Shape.hw h w).empty := by simp [Shape.empty]
  simp only [this]
  by_cases h1 : (Shape.hw h w).empty = true
  · simp [h1]
  · by_cases h2 : u = false
    · simp [h1, h2]
    · by_cases h3 : 0 ≤ c ∧ c ≤ 100 <;> simp [h1, h2, h3]

/-- C123: more compression never means a higher quality; the quality 100 is used for a compression of 0; qualities are between 2 and 100. -/
theorem quality_antitone (c d : ℚ) (h0 : 0 ≤ c) (h : c ≤ d) (h1 : d ≤ 100) :
    quality d ≤ quality c ∧ 2 ≤ quality d ∧ quality c ≤ 100 ∧ quality 0 = 100 := by
  have mono : npRound (1 + (100 - 1) * (1 - d / 101)) ≤ npRound (1 + (100 - 1) * (1 - c / 101)) := npRound_mono (by linarith)
  have low : (2 : Int) ≤ npRound (1 + (100 - 1) * (1 - d / 101)) := by
    have a : (1 : ℚ) + (100 - 1) * (1 - 100 / 101) ≤ 1 + (100 - 1) * (1 - d / 101) := by linarith
    have b : npRound ((1 : ℚ) + (100 - 1) * (1 - 100 / 101)) = 2 := npRound_unique _ _ (by norm_num [abs_lt])
    have := npRound_mono a
    omega
  have z : npRound ((1 : ℚ) + (100 - 1) * (1 - 0 / 101)) = 100 := npRound_unique _ _ (by norm_num [abs_lt])
  unfold quality clipI
  rw [z]
  omega

example : quality 50 ≤ quality 20 := (quality_antitone 20 50 (by norm_num) (by norm_num) (by norm_num)).1

/-- C123: for whole compressions `c` the quality is, up to rounding, the share `1 - c / 101` of the way from 1 to 100, and
compressions that differ by two never share a quality. -/
theorem quality_spread (c : Nat) (h : c ≤ 100) :
    |(quality c : ℚ) - (100 - 99 * c / 101)| ≤ 1 / 2 ∧ (c ≤ 98 → quality (c + 2 : Nat) < quality c) := by
  have key : ∀ e : Nat, e ≤ 100 → quality e = npRound (1 + (100 - 1) * (1 - (e : ℚ) / 101)) := by
    intro e he
    have he' : (e : ℚ) ≤ 100 := by exact_mod_cast he
    have h0 : (0 : ℚ) ≤ e := by positivity
    have := le_npRound (q := 1 + (100 - 1) * (1 - (e : ℚ) / 101)) (n := 1) (by push_cast; linarith)
    have := npRound_le (q := 1 + (100 - 1) * (1 - (e : ℚ) / 101)) (n := 100) (by push_cast; linarith)
    unfold quality clipI
    omega
  have d1 : |(quality c : ℚ) - (100 - 99 * c / 101)| ≤ 1 / 2 := by
    rw [key c h]
    have := npRound_dist (1 + (100 - 1) * (1 - (c : ℚ) / 101))
    have e : (1 : ℚ) + (100 - 1) * (1 - (c : ℚ) / 101) = 100 - 99 * c / 101 := by ring
    rwa [e] at this ⊢
  refine ⟨d1, fun hc => ?_⟩
  have d2 : |(quality (c + 2 : Nat) : ℚ) - (100 - 99 * (c + 2 : Nat) / 101)| ≤ 1 / 2 := by
    rw [key (c + 2) (by omega)]
    have := npRound_dist (1 + (100 - 1) * (1 - ((c + 2 : Nat) : ℚ) / 101))
    have e : (1 : ℚ) + (100 - 1) * (1 - ((c + 2 : Nat) : ℚ) / 101) = 100 - 99 * (c + 2 : Nat) / 101 := by ring
    rwa [e] at this ⊢
  have : (quality (c + 2 : Nat) : ℚ) < quality c := by
    have a := abs_le.1 d1
    have b := abs_le.1 d2
    push_cast at a b ⊢
    linarith [a.1, b.2]
  exact_mod_cast this

example : quality (2 : Nat) < quality (0 : Nat) := (quality_spread 0 (by norm_num)).2 (by norm_num)

/-- C123 is false for the strongest compression: the lowest quality, 1, is used for no compression that is accepted. -/
theorem lowest_quality_unused (c : ℚ) (h0 : 0 ≤ c) (h1 : c ≤ 100) : quality c ≠ 1 := by
  have := (quality_antitone c c h0 le_rfl h1).2.1
  omega

example : quality 100 = 2 := by decide +kernel

/-- C123: `JpegCompression` compresses every image by its own sample, without its decimals, and keeps the number and the order of the
images. A sample in the interval [0, 100] never is an error for an image that `compress_jpeg` accepts at all. -/
theorem jpeg_batch (j : Codec) (ims : List Arr) (samples : List ℚ) (hl : samples.length = ims.length) :
    (∀ rs, jpegBatch j ims samples = some rs → rs.length = ims.length ∧
      ∀ (i : Nat) (im : Arr) (s : ℚ), ims[i]? = some im → samples[i]? = some s → rs[i]? = compressJpeg j im (pyInt s)) ∧
    ((∀ s ∈ samples, 0 ≤ s ∧ s ≤ 100) → (∀ im ∈ ims, (compressJpeg j im 0).isSome) → (jpegBatch j ims samples).isSome) := by
  induction ims generalizing samples with
  | nil => 
    cases samples with
    | nil => simp [jpegBatch]
    | cons => simp at hl
  | cons a t ih =>
    cases samples with
    | nil => simp at hl
    | cons s ss =>
      obtain ⟨i1, i2⟩ := ih ss (by simpa using hl)
      constructor
      · intro rs h
        simp only [jpegBatch, List.zip_cons_cons, List.mapM_cons, bind, Option.bind_eq_some_iff, pure, Option.some.injEq] at h
        obtain ⟨r, h1, rs', h2, rfl⟩ := h
        obtain ⟨l, f⟩ := i1 rs' h2
        refine ⟨by simp [l], ?_⟩
        intro i im s' e1 e2
        cases i with
        | zero =>
          simp only [List.getElem?_cons_zero, Option.some.injEq] at e1 e2 ⊢
          subst e1 e2
          exact h1.symm
        | succ i =>
          simp only [List.getElem?_cons_succ] at e1 e2 ⊢
          exact f i im s' e1 e2
      · intro hs hi
        have b := i2 (fun x hx => hs x (by simp [hx])) (fun x hx => hi x (by simp [hx]))
        have hs0 := hs s (by simp)
        have ha : (compressJpeg j a (pyInt s)).isSome := by
          have h0 := hi a (by simp)
          by_cases he : a.shape.empty = true
          · rw [(jpeg_accepts j a _).1 he]; rfl
          · have he : a.shape.empty = false := by simpa using he
            have := ((jpeg_accepts j a 0).2 he).1 h0
            refine ((jpeg_accepts j a _).2 he).2 ⟨this.1, ?_, ?_, this.2.2.2⟩
            · have : 0 ≤ pyInt s := by
                unfold pyInt; rw [if_neg (by linarith)]; exact Int.floor_nonneg.2 hs0.1
              exact_mod_cast this
            · have : pyInt s ≤ 100 := by
                unfold pyInt; rw [if_neg (by linarith)]
                have : (⌊s⌋ : ℚ) ≤ 100 := le_trans (Int.floor_le s) hs0.2
                exact_mod_cast this
              exact_mod_cast this
        obtain ⟨r, hr⟩ := Option.isSome_iff_exists.1 ha
        obtain ⟨rs, hrs⟩ := Option.isSome_iff_exists.1 b
        rw [jpegBatch] at hrs
        rw [jpegBatch, List.zip_cons_cons, List.mapM_cons]
        simp only [hr, bind, Option.bind_some, hrs, pure, Option.isSome_some]

example : (jpegBatch demoCodec [demoGray, demoRgb] [20 + 1 / 2, 100]).isSome :=
  (jpeg_batch _ _ _ rfl).2 (by intro s hs; fin_cases hs <;> norm_num) (by intro im h; fin_cases h <;> decide +kernel)

/-- A library that puts the first vector in cluster 0 and all different ones into cluster 1, and that uses these as centers. -/
def demoLib : Lib where
  CvState := Nat
  seeded n := n
  kmeans s v n _ _ :=
    if n = 0 then (([], []), s) else
    ((v.map (fun u => if u = v.getD 0 [] ∨ n < 2 then 0 else 1),
      (List.range n).map (fun i => if i = 1 then (v.find? (fun u => u ≠ v.getD 0 [])).getD (v.getD 0 []) else v.getD 0 [])), s + 1)
  Global := Nat
  draw g := (g * 7 + 3, g + 1)

def demoArr : Arr := ⟨true, .hw 2 2, fun y x _ => if y = 1 ∧ x = 0 then 9 else 5⟩

/-- C123: `quantize_kmeans` accepts an array if and only if it is uint8, has two or three axes, the number of clusters is in the interval
[2, 256], and it has channels or no more pixels than clusters; the accepted array keeps its shape and its dtype. -/
theorem kmeans_accepts {L : Lib} (a : Arr) (n : Int) (it : Nat) (eps : ℚ) (s : World L) :
    ((quantizeKmeans a n it eps s).1.isSome ↔
      a.uint8 = true ∧ a.shape ≠ .other ∧ 2 ≤ n ∧ n ≤ 256 ∧ (a.shape.channels ≠ 0 ∨ a.shape.pixels ≤ n)) ∧
    ∀ r, (quantizeKmeans a n it eps s).1 = some r → r.shape = a.shape ∧ r.uint8 = a.uint8 := by
  unfold quantizeKmeans
  constructor
  · by_cases h1 : a.uint8 = false
    · simp [h1]
    · by_cases h2 : a.shape = .other
      · simp [h2]
      · by_cases h3 : 2 ≤ n ∧ n ≤ 256
        · by_cases h4 : n ≥ a.shape.pixels
          · simp [h1, h2, h3, h4]
          · have h4' : ¬ (a.shape.pixels : Int) ≤ n := h4
            by_cases h5 : a.shape.channels = 0
            · simp [h1, h2, h3, h4', h5]
            · simp [h1, h2, h3, h4', h5]
        · rw [if_neg h1, if_neg h2, if_neg h3]
          simp only [Option.isSome_none, Bool.false_eq_true, false_iff]
          rintro ⟨_, _, a1, a2, _⟩
          exact h3 ⟨a1, a2⟩
  · intro r h
    split_ifs at h <;> simp only [Option.some.injEq, reduceCtorEq] at h
    · subst h; exact ⟨rfl, rfl⟩
    · subst h; exact ⟨rfl, rfl⟩

/-- C123: the result of `quantize_kmeans` is the same whatever the states of the random numbers of OpenCV and imgaug are. -/
theorem kmeans_repeatable {L : Lib} (a : Arr) (n : Int) (it : Nat) (eps : ℚ) (s t : World L) :
    (quantizeKmeans a n it eps s).1 = (quantizeKmeans a n it eps t).1 := by
  unfold quantizeKmeans
  split_ifs <;> rfl

/-- C123: the global random numbers of imgaug advance by exactly one seed, which becomes the seed of OpenCV, if the array is accepted and
has more pixels than there are clusters; otherwise all random numbers stay as they are. -/
theorem kmeans_states {L : Lib} (a : Arr) (n : Int) (it : Nat) (eps : ℚ) (s : World L) :
    ((quantizeKmeans a n it eps s).1.isSome → n < a.shape.pixels →
      (quantizeKmeans a n it eps s).2 = ⟨L.seeded (L.draw s.glob).1, (L.draw s.glob).2⟩) ∧
    (((quantizeKmeans a n it eps s).1 = none ∨ a.shape.pixels ≤ n) → (quantizeKmeans a n it eps s).2 = s) := by
  unfold quantizeKmeans
  constructor
  · intro h hn
    split_ifs at h ⊢ <;> first | rfl | omega | simp at h
  · intro h
    by_cases h1 : a.uint8 = false
    · simp [h1]
    · by_cases h2 : a.shape = .other
      · simp [h2]
      · by_cases h3 : 2 ≤ n ∧ n ≤ 256
        · by_cases h4 : n ≥ a.shape.pixels
          · simp [h1, h2, h3, h4]
          · by_cases h5 : a.shape.channels = 0
            · simp [h1, h2, h3, h4, h5]
            · exfalso
              rcases h with h | h
              · simp only [h1, h2, h3, h4, h5, and_self, if_true, if_false] at h
                cases h
              · exact h4 h
        · rw [if_neg h1, if_neg h2, if_neg h3]

example : let s : World demoLib := ⟨(77 : Nat), (4 : Nat)⟩
    (quantizeKmeans demoArr 2 10 1 s).2 = ⟨(31 : Nat), (5 : Nat)⟩ := by
  refine (kmeans_states (L := demoLib) demoArr 2 10 1 ⟨(77 : Nat), (4 : Nat)⟩).1 ?_ (by decide)
  exact ((kmeans_accepts (L := demoLib) _ _ _ _ _).1).2 ⟨rfl, by decide, by norm_num, by norm_num, .inl (by decide)⟩

/-- C123: the result of `quantize_kmeans` has at most as many colours as were asked for, for arrays with few pixels too. -/
theorem kmeans_colours {L : Lib} (hL : L.Sane) (a r : Arr) (n : Nat) (it : Nat) (eps : ℚ) (s : World L)
    (h : (quantizeKmeans a n it eps s).1 = some r) : AtMostColours n r := by
  have acc := ((kmeans_accepts a n it eps s).1).1 (by rw [h]; rfl)
  rcases kmeans_cases h with ⟨h4, rfl⟩ | ⟨h4, h5, rfl⟩
  · refine ⟨(Finset.range a.shape.pixels).image (fun i => colour a (i / a.shape.width) (i % a.shape.width)), ?_, ?_⟩
    · refine le_trans Finset.card_image_le ?_
      rw [Finset.card_range]
      exact_mod_cast h4
    · intro y x hw
      refine Finset.mem_image.2 ⟨y * a.shape.width + x, Finset.mem_range.2 (idx_lt y x hw), ?_⟩
      rw [pos_div hw, pos_mod hw]
  · have hv := vectors_ne a (by omega)
    obtain ⟨ll, lb⟩ := hL.labels (L.seeded 1) (vectors a) n it eps hv (by omega)
    refine ⟨(Finset.range n).image (fun l => (List.range a.shape.channels).map (fun k =>
      pyInt (((L.kmeans (L.seeded 1) (vectors a) n it eps).1.2.getD l []).getD k 0) % 256)), ?_, ?_⟩
    · exact le_trans Finset.card_image_le (by rw [Finset.card_range])
    · intro y x hw
      have hi : y * a.shape.width + x < (L.kmeans (L.seeded 1) (vectors a) n it eps).1.1.length := by
        rw [ll]; simp only [vectors, List.length_map, List.length_range]; exact idx_lt y x hw
      refine Finset.mem_image.2 ⟨(L.kmeans (L.seeded 1) (vectors a) n it eps).1.1.getD (y * a.shape.width + x) 0, ?_, ?_⟩
      · rw [Finset.mem_range, List.getD_eq_getElem?_getD, List.getElem?_eq_getElem hi]
        exact lb _ (List.getElem_mem hi)
      · rfl

example : demoLib.Sane where
  labels := by
    intro s v n it eps hv hn
    simp only [demoLib, if_neg (Nat.pos_iff_ne_zero.1 hn)]
    refine ⟨by simp, ?_⟩
    intro l hl
    obtain ⟨u, _, rfl⟩ := List.mem_map.1 hl
    split_ifs <;> omega
  centers := by
    intro s v n it eps hv hn
    simp only [demoLib, if_neg (Nat.pos_iff_ne_zero.1 hn)]
    simp
  range := by
    intro s v n it eps k l h hv hn hr c hc
    simp only [demoLib, if_neg (Nat.pos_iff_ne_zero.1 hn)] at hc
    obtain ⟨i, _, rfl⟩ := List.mem_map.1 hc
    have h0 : v.getD 0 [] ∈ v := by
      cases v with
      | nil => exact absurd rfl hv
      | cons a t => simp
    refine hr _ ?_
    split_ifs
    · cases hf : v.find? (fun u => decide (u ≠ v.getD 0 [])) with
      | none => simpa using h0
      | some u => simpa using List.mem_of_find?_eq_some hf
    · exact h0

example : AtMostColours 2 (assemble demoArr [0, 0, 1, 0] [[5], [9]]) :=
  ⟨{[5], [9]}, by decide, by rintro y x ⟨h1, h2⟩; interval_cases y <;> interval_cases x <;> decide +kernel⟩

/-- C123: an array with at most as many pixels as there are clusters is returned as it is. -/
theorem kmeans_few_pixels {L : Lib} (a : Arr) (n : Int) (it : Nat) (eps : ℚ) (s : World L) (hu : a.uint8 = true)
    (hs : a.shape ≠ .other) (h1 : 2 ≤ n) (h2 : n ≤ 256) (hp : a.shape.pixels ≤ n) : (quantizeKmeans a n it eps s).1 = some a := by
  unfold quantizeKmeans
  rw [if_neg (by simp [hu]), if_neg hs, if_pos ⟨h1, h2⟩, if_pos hp]

example (s : World demoLib) : (quantizeKmeans demoArr 4 10 1 s).1 = some demoArr :=
  kmeans_few_pixels _ _ _ _ _ rfl (by decide) (by norm_num) (by norm_num) (by decide)

/-- C123: in every channel the values of the result of `quantize_kmeans` lie in the range of the values of that channel of the array. -/
theorem kmeans_range {L : Lib} (hL : L.Sane) (a r : Arr) (n it : Nat) (eps : ℚ) (s : World L)
    (h : (quantizeKmeans a n it eps s).1 = some r) (hb : Bytes a) (k : Nat) (hk : k < a.shape.channels) (lo hi : Int)
    (hr : ∀ y x, Within a.shape y x → lo ≤ a.px y x k ∧ a.px y x k ≤ hi) :
    ∀ y x, Within a.shape y x → lo ≤ r.px y x k ∧ r.px y x k ≤ hi := by
  intro y x hw
  rcases kmeans_cases h with ⟨h4, rfl⟩ | ⟨h4, h5, rfl⟩
  · exact hr y x hw
  · have acc := ((kmeans_accepts a n it eps s).1).1 (by rw [h]; rfl)
    have hv := vectors_ne a (by omega)
    have hn : 0 < n := by omega
    obtain ⟨ll, lb⟩ := hL.labels (L.seeded 1) (vectors a) n it eps hv hn
    have lc := hL.centers (L.seeded 1) (vectors a) n it eps hv hn
    have hi' : y * a.shape.width + x < (L.kmeans (L.seeded 1) (vectors a) n it eps).1.1.length := by
      rw [ll]; simp only [vectors, List.length_map, List.length_range]; exact idx_lt y x hw
    set l := (L.kmeans (L.seeded 1) (vectors a) n it eps).1.1.getD (y * a.shape.width + x) 0 with hl
    have hln : l < n := by
      rw [hl, List.getD_eq_getElem?_getD, List.getElem?_eq_getElem hi']
      exact lb _ (List.getElem_mem hi')
    have hc : (L.kmeans (L.seeded 1) (vectors a) n it eps).1.2.getD l [] ∈ (L.kmeans (L.seeded 1) (vectors a) n it eps).1.2 := by
      rw [List.getD_eq_getElem?_getD, List.getElem?_eq_getElem (by omega)]
      exact List.getElem_mem _
    have R := fun (A B : Int) (hA : ∀ y x, Within a.shape y x → A ≤ a.px y x k ∧ a.px y x k ≤ B) =>
      hL.range (L.seeded 1) (vectors a) n it eps k A B hv hn (by
        intro u hu
        obtain ⟨i, hi1, rfl⟩ := List.mem_map.1 hu
        rw [List.mem_range] at hi1
        have := hA _ _ (within_of_lt hi1)
        rw [List.getD_eq_getElem?_getD, List.getElem?_map, List.getElem?_range hk]
        simp only [Option.map_some, Option.getD_some]
        exact ⟨by exact_mod_cast this.1, by exact_mod_cast this.2⟩) _ hc
    obtain ⟨b0, b1⟩ := R 0 255 (fun y x _ => hb y x k)
    obtain ⟨c0, c1⟩ := R lo hi hr
    set v := ((L.kmeans (L.seeded 1) (vectors a) n it eps).1.2.getD l []).getD k 0 with hvv
    have e : (assemble a (L.kmeans (L.seeded 1) (vectors a) n it eps).1.1 (L.kmeans (L.seeded 1) (vectors a) n it eps).1.2).px y x k = ⌊v⌋ := by
      show pyInt v % 256 = ⌊v⌋
      push_cast at b0 b1
      rw [pyInt, if_neg (by linarith)]
      have f0 : 0 ≤ ⌊v⌋ := Int.floor_nonneg.2 b0
      have f1 : ⌊v⌋ ≤ 255 := by
        have : (⌊v⌋ : ℚ) ≤ 255 := le_trans (Int.floor_le v) b1
        exact_mod_cast this
      omega
    rw [e]
    exact ⟨Int.le_floor.2 c0, by
      have : (⌊v⌋ : ℚ) ≤ hi := le_trans (Int.floor_le v) c1
      exact_mod_cast this⟩

/-- C123: if k-means puts equal vectors in the same cluster, pixels of the same colour still have the same colour afterwards. -/
theorem kmeans_same_colour {L : Lib} (hC : L.Consistent) (a r : Arr) (n it : Nat) (eps : ℚ) (s : World L)
    (h : (quantizeKmeans a n it eps s).1 = some r) (y x y' x' : Nat) (hw : Within a.shape y x) (hw' : Within a.shape y' x')
    (he : colour a y x = colour a y' x') : colour r y x = colour r y' x' := by
  rcases kmeans_cases h with ⟨h4, rfl⟩ | ⟨h4, h5, rfl⟩
  · exact he
  · have key : ∀ y x, Within a.shape y x → (vectors a).getD (y * a.shape.width + x) [] = (colour a y x).map (fun v : Int => (v : ℚ)) := by
      intro y x hw
      rw [List.getD_eq_getElem?_getD, vectors, List.getElem?_map, List.getElem?_range (idx_lt y x hw)]
      simp only [Option.map_some, Option.getD_some, pos_div hw, pos_mod hw, colour, List.map_map]
      rfl
    have := hC (L.seeded 1) (vectors a) n it eps (y * a.shape.width + x) (y' * a.shape.width + x')
      (by simp only [vectors, List.length_map, List.length_range]; exact idx_lt y x hw)
      (by simp only [vectors, List.length_map, List.length_range]; exact idx_lt y' x' hw')
      (by rw [key y x hw, key y' x' hw', he])
    simp only [colour, assemble, this]

example : demoLib.Consistent := by
  intro s v n it eps i j hi hj he
  simp only [demoLib]
  split_ifs with h0
  · simp
  · rw [List.getD_eq_getElem?_getD, List.getElem?_eq_getElem hi] at he
    rw [List.getD_eq_getElem?_getD (i := j), List.getElem?_eq_getElem hj] at he
    simp only [Option.getD_some] at he
    simp [List.getD_eq_getElem?_getD, List.getElem?_map, List.getElem?_eq_getElem hi, List.getElem?_eq_getElem hj, he]

/-- C123: `quantize_kmeans` treats an array of shape (H,W,1) as it treats the array of shape (H,W) with the same values. -/
theorem kmeans_single_channel {L : Lib} (u : Bool) (h w : Nat) (px : Nat → Nat → Nat → Int) (n : Int) (it : Nat) (eps : ℚ) (s : World L) :
    quantizeKmeans ⟨u, .hwc h w 1, px⟩ n it eps s =
      ((quantizeKmeans ⟨u, .hw h w, px⟩ n it eps s).1.map (fun r => { r with shape := .hwc h w 1 }), (quantizeKmeans ⟨u, .hw h w, px⟩ n it eps s).2) := by
  unfold quantizeKmeans
  have e1 : vectors ⟨u, .hwc h w 1, px⟩ = vectors ⟨u, .hw h w, px⟩ := rfl
  simp only [e1, Shape.channels, Shape.pixels, reduceCtorEq, if_false, one_ne_zero]
  by_cases h1 : u = false
  · simp [h1]
  · by_cases h2 : 2 ≤ n ∧ n ≤ 256
    · by_cases h3 : n ≥ (h * w : Nat)
      · rw [if_neg h1, if_pos h2, if_pos h3, if_neg h1, if_pos h2, if_pos h3]
        rfl
      · rw [if_neg h1, if_pos h2, if_neg h3, if_neg h1, if_pos h2, if_neg h3]
        rfl
    · rw [if_neg h1, if_neg h2, if_neg h1, if_neg h2]
      rfl

/-- C123: `KMeansColorQuantization` uses the drawn number of colours, rounded, and 2 for anything below; the result has at most that many
colours (before the image is resized or changed to another colourspace). -/
theorem kmeans_drawn {L : Lib} (hL : L.Sane) (a r : Arr) (drawn : ℚ) (s : World L) (h : (kmeansDrawn a drawn s).1 = some r) :
    AtMostColours (max (npRound drawn) 2).toNat r := by
  unfold kmeansDrawn Quantize.count at h
  simp only at h
  refine kmeans_colours hL a r _ 10 1 s ?_
  rwa [Int.toNat_of_nonneg (by omega)]

/-- C123 is false for more than 256 colours: `KMeansColorQuantization` has no upper limit for the number of colours, but fails for every
image if the number is above 256. -/
theorem many_colours_rejected {L : Lib} (a : Arr) (drawn : ℚ) (s : World L) (h : 257 ≤ drawn) : (kmeansDrawn a drawn s).1 = none := by
  have : (257 : Int) ≤ npRound drawn := le_npRound (by exact_mod_cast h)
  unfold kmeansDrawn Quantize.count quantizeKmeans
  simp only
  split_ifs <;> first | rfl | omega

example (s : World demoLib) : (kmeansDrawn demoArr 300 s).1 = none := many_colours_rejected _ _ _ (by norm_num)

end Imgaug.Compress.Props
