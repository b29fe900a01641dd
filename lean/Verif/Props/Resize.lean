import Verif.Proofs.Resize
import Verif.Proofs.Normalize
/-! C74: resizing of images. -/
namespace Imgaug.Resize
open Imgaug Imgaug.Dtypes Imgaug.Props

/-- A `cv2.resize` for the examples: nearest neighbour for all methods. -/
def demoCv : Cv := fun _ _ h w h' w' f y x => f (min (y * h / h') (h - 1)) (min (x * w / w') (w - 1))

/-- An image of 2 rows and 3 columns for the examples. -/
def demoIm (d : DType) (c : Option Nat) : Im := ⟨d, 2, 3, c, fun y x k => (((y + x + k) % 2 : Nat) : ℚ)⟩

theorem demoCv_picks : PicksPixels demoCv := by
  intro h w h' w' hh hw
  exact ⟨fun y => min (y * h / h') (h - 1), fun x => min (x * w / w') (w - 1), 
    fun y => by show min _ _ < _; omega, fun x => by show min _ _ < _; omega, fun _ _ _ _ => rfl⟩

theorem demoCv_keeps : Keeps demoCv := fun _ _ _ _ _ _ _ hf _ _ => hf _ _

/-- C74: the resized image has the dtype and the channels of the image and the size that was asked for, for every way of giving the size. -/
theorem resized_shape (cv : Cv) (ip : Option Inter) (a b : Size) (im r : Im) (hr : single cv ip (.tuple [a, b]) im = some r) :
    r.dt = im.dt ∧ r.c = im.c ∧ AsksFor im.h a r.h ∧ AsksFor im.w b r.w := by
  obtain ⟨sz, r', hp, hc, rfl⟩ := single_eq cv ip _ im r hr
  obtain ⟨h1, h2, h3, _⟩ := core_cases cv ip sz _ r' hc
  have hn := pair_nonneg _ _ hp
  simp only [pair] at hp
  split_ifs at hp
  cases hp
  refine ⟨h1, rfl, ?_, ?_⟩
  · show AsksFor im.h a r'.h
    rw [h2]; exact target_asks _ _ hn.1
  · show AsksFor im.w b r'.w
    rw [h3]; exact target_asks _ _ hn.2

example : ∃ r, single demoCv none (.tuple [.int 4, .float (1 / 2)]) (demoIm ⟨.u, 1⟩ (some 3)) = some r ∧ r.h = 4 ∧ r.w = 2 := by
  have h : (single demoCv none (.tuple [.int 4, .float (1 / 2)]) (demoIm ⟨.u, 1⟩ (some 3))).map (fun r => (r.h, r.w)) = some (4, 2) := by
    decide +kernel
  obtain ⟨r, e, h⟩ := Option.map_eq_some_iff.mp h
  simp only [Prod.mk.injEq] at h
  exact ⟨r, e, h.1, h.2⟩

/-- C74: a single number counts for both axes; zero and negative numbers are rejected, in tuples only negative ones, and so are tuples that are no pairs. -/
theorem sizes_accepted (cv : Cv) (ip : Option Inter) (im : Im) :
    (∀ s : Size, 0 < s.val → single cv ip (.one s) im = single cv ip (.tuple [s, s]) im) ∧
    (∀ s : Size, s.val ≤ 0 → single cv ip (.one s) im = none) ∧
    (∀ a b : Size, a.val < 0 ∨ b.val < 0 → single cv ip (.tuple [a, b]) im = none) ∧
    (∀ l : List Size, l.length ≠ 2 → single cv ip (.tuple l) im = none) := by
  have key : ∀ s t : Sizes, pair s = pair t → single cv ip s im = single cv ip t im := by
    intro s t h
    simp only [single, h]
  have knone : ∀ s : Sizes, pair s = none → single cv ip s im = none := by
    intro s h
    simp only [single, h, Option.bind_none, Option.map_none]
    split <;> rfl
  refine ⟨fun s hs => key _ _ ?_, fun s hs => knone _ ?_, fun a b hab => knone _ ?_, fun l hl => knone _ ?_⟩
  · simp [pair, hs.le, not_le.mpr hs]
  · simp [pair, hs]
  · simp only [pair]
    rw [if_neg]
    rintro ⟨h1, h2⟩
    rcases hab with h | h <;> linarith
  · match l, hl with
    | [], _ => rfl
    | [_], _ => rfl
    | _ :: _ :: _ :: _, _ => rfl

/-- C74: an image that has the size already is returned unchanged, whatever its dtype and also if it is empty. -/
theorem same_size_kept (cv : Cv) (ip : Option Inter) (im : Im) : single cv ip (.tuple [.int im.h, .int im.w]) im = some im := by
  have hp : pair (.tuple [.int im.h, .int im.w]) = some (.int im.h, .int im.w) := by
    simp [pair, Size.val]
  obtain ⟨d, h, w, c, px⟩ := im
  cases c with
  | none => simp only [single, hp, Option.bind_some, core, target, Int.toNat_natCast, and_self, if_true, Option.map_some]
  | some n => simp only [single, hp, Option.bind_some, core, target, Int.toNat_natCast, and_self, if_true]

/-- The dtypes that the documentation of `imresize_many_images` lists as supported. -/
def documented (nearest : Bool) : List DType :=
  [⟨.u, 1⟩, ⟨.u, 2⟩, ⟨.i, 1⟩, ⟨.i, 2⟩, ⟨.f, 2⟩, ⟨.f, 4⟩, ⟨.f, 8⟩, ⟨.b, 1⟩] ++ (if nearest then [⟨.i, 4⟩] else [])

/-- C74: resizing to `m × n` works exactly if the size is kept, or the result is empty, or the image is not empty and of a documented dtype. -/
theorem resize_succeeds (cv : Cv) (ip : Option Inter) (im : Im) (m n : Nat) :
    (single cv ip (.tuple [.int m, .int n]) im).isSome ↔
      (m = im.h ∧ n = im.w) ∨ m = 0 ∨ n = 0 ∨ im.c = some 0 ∨
      (0 < im.h ∧ 0 < im.w ∧ im.dt ∈ documented (ip == some .nearest)) := by
  have hp : pair (.tuple [.int m, .int n]) = some (.int m, .int n) := by simp [pair, Size.val]
  rw [single_isSome cv ip _ _ im hp, core_isSome]
  simp only [target, Int.toNat_natCast]
  have h1 : (some (im.c.getD 1) = some 0) ↔ im.c = some 0 := by cases im.c <;> simp
  have h2 : im.dt ∈ allowed (chosen im.h im.w m n ip) ↔ im.dt ∈ documented (ip == some .nearest) := by
    have h3 : ∀ j : Inter, (im.dt ∈ allowed j ↔ im.dt ∈ documented (j == .nearest)) := by
      intro j
      cases j <;> simp [allowed, documented] <;> tauto
    cases ip with
    | none =>
      simp only [chosen]
      split_ifs
      · exact h3 .area
      · exact h3 .linear
    | some j => exact h3 j
  rw [h1, h2]

example : (single demoCv none (.tuple [.int (4 : Nat), .int (0 : Nat)]) ⟨⟨.u, 8⟩, 2, 0, some 3, fun _ _ _ => 0⟩).isSome := by
  rw [resize_succeeds]; decide

/-- C74: without a method, `area` is used if any axis grows and `linear` otherwise. -/
theorem automatic_method (cv : Cv) (im : Im) (m n : Nat) :
    (m > im.h ∨ n > im.w →
      single cv none (.tuple [.int m, .int n]) im = single cv (some .area) (.tuple [.int m, .int n]) im) ∧
    (m ≤ im.h → n ≤ im.w →
      single cv none (.tuple [.int m, .int n]) im = single cv (some .linear) (.tuple [.int m, .int n]) im) := by
  have hp : pair (.tuple [.int m, .int n]) = some (.int m, .int n) := by simp [pair, Size.val]
  have key : ∀ i : Inter, chosen im.h im.w m n none = i →
      single cv none (.tuple [.int m, .int n]) im = single cv (some i) (.tuple [.int m, .int n]) im := by
    intro i h
    have h' : chosen im.h im.w m n (some i) = i := rfl
    simp only [single, hp, Option.bind_some, core, target, Int.toNat_natCast, h, h']
  constructor
  · intro h
    exact key .area (by simp only [chosen, if_pos h])
  · intro h1 h2
    have h : ¬ (m > im.h ∨ n > im.w) := by omega
    exact key .linear (by simp only [chosen, if_neg h])

/-- C74: every channel is resized as if it were an image of its own: the other channels, and their number, have no influence. -/
theorem channel_alone (cv : Cv) (ip : Option Inter) (sizes : Sizes) (im r : Im) (hr : single cv ip sizes im = some r)
    (k : Nat) (hk : k < im.c.getD 1) : ∃ r', single cv ip sizes (channel im k) = some r' ∧ SameIm r' (channel r k) := by
  obtain ⟨sz, r1, hp, hc, rfl⟩ := single_eq cv ip _ im r hr
  have hne : ¬ (some (im.c.getD 1) = some 0) := by
    intro h
    cases h' : im.c with
    | none => simp [h'] at h
    | some n => rw [h'] at h hk; simp only [Option.getD_some, Option.some.injEq] at h hk; omega
  have hne1 : ¬ (some 1 = some 0) := by decide
  have red : ∀ x : Im, core cv ip sz { channel im k with c := some 1 } = some x →
      single cv ip sizes (channel im k) = some { x with c := none } := by
    intro x hx
    simp only [single, channel, hp, Option.bind_some] at hx ⊢
    rw [hx]; rfl
  by_cases h1 : target im.h sz.1 = im.h ∧ target im.w sz.2 = im.w
  · have hc' : r1 = { im with c := some (im.c.getD 1) } := by
      rw [core_same cv _ _ { im with c := some (im.c.getD 1) } h1, Option.some.injEq] at hc
      exact hc.symm
    refine ⟨_, red { channel im k with c := some 1 } ?_, ?_⟩
    · exact core_same cv ip sz { channel im k with c := some 1 } h1
    · subst hc'
      exact ⟨rfl, rfl, fun _ _ _ _ _ _ => rfl⟩
  by_cases h2 : target im.h sz.1 = 0 ∨ target im.w sz.2 = 0
  · have h2' : target im.h sz.1 = 0 ∨ target im.w sz.2 = 0 ∨ some (im.c.getD 1) = some 0 := by tauto
    have h2'' : target im.h sz.1 = 0 ∨ target im.w sz.2 = 0 ∨ some 1 = some 0 := by tauto
    have hc' : r1 = ⟨im.dt, target im.h sz.1, target im.w sz.2, some (im.c.getD 1), fun _ _ _ => 0⟩ := by
      rw [core_empty cv ip sz { im with c := some (im.c.getD 1) } h1 h2', Option.some.injEq] at hc
      exact hc.symm
    refine ⟨_, red ⟨im.dt, target im.h sz.1, target im.w sz.2, some 1, fun _ _ _ => 0⟩ ?_, ?_⟩
    · exact core_empty cv ip sz { channel im k with c := some 1 } h1 h2''
    · subst hc'
      exact ⟨rfl, rfl, fun _ _ _ _ _ _ => rfl⟩
  · have h2' : ¬ (target im.h sz.1 = 0 ∨ target im.w sz.2 = 0 ∨ some (im.c.getD 1) = some 0) := by tauto
    have h2'' : ¬ (target im.h sz.1 = 0 ∨ target im.w sz.2 = 0 ∨ some 1 = some 0) := by tauto
    have hsome : (core cv ip sz { im with c := some (im.c.getD 1) }).isSome := by rw [hc]; rfl
    rw [core_isSome] at hsome
    simp only at hsome
    have h3 : 0 < im.h ∧ 0 < im.w ∧ im.dt ∈ allowed (chosen im.h im.w (target im.h sz.1) (target im.w sz.2) ip) := by tauto
    have h3' : ¬ (im.h = 0 ∨ im.w = 0 ∨ some (im.c.getD 1) = some 0) := by
      rintro (h | h | h)
      · omega
      · omega
      · exact hne h
    have h3'' : ¬ (im.h = 0 ∨ im.w = 0 ∨ some 1 = some 0) := by
      rintro (h | h | h)
      · omega
      · omega
      · exact hne1 h
    rw [core_real cv ip sz { im with c := some (im.c.getD 1) } h1 h2' h3' h3.2.2, Option.some.injEq] at hc
    refine ⟨_, red _ (core_real cv ip sz { channel im k with c := some 1 } h1 h2'' h3'' h3.2.2), ?_⟩
    subst hc
    exact ⟨rfl, rfl, fun _ _ _ _ _ _ => rfl⟩

example : ∃ r, single demoCv none (.one (.int 4)) (demoIm ⟨.b, 1⟩ (some 600)) = some r ∧ 599 < (demoIm ⟨.b, 1⟩ (some 600)).c.getD 1 := by
  have h : (single demoCv none (.one (.int 4)) (demoIm ⟨.b, 1⟩ (some 600))).isSome := by decide +kernel
  obtain ⟨r, e⟩ := Option.isSome_iff_exists.mp h
  exact ⟨r, e, by decide⟩

/-- C74: the components of the result are values of the dtype, whatever the method overshoots to. -/
theorem values_in_dtype (cv : Cv) (hcv : Keeps cv) (ip : Option Inter) (sizes : Sizes) (im r : Im)
    (hv : Valid im) (hr : single cv ip sizes im = some r) : Valid r := by
  obtain ⟨sz, r1, hp, hc, rfl⟩ := single_eq cv ip _ im r hr
  have hz : ∀ d : DType, Holds d 0 := by
    intro d
    refine ⟨?_, ?_, fun _ => ⟨0, by norm_num⟩⟩
    · have : lo d ≤ 0 := by
        unfold lo
        split
        · have : (0 : Int) ≤ 2 ^ (8 * d.bytes - 1) := by positivity
          omega
        · exact le_refl _
        · exact le_refl _
        · rw [neg_nonpos]
          refine mul_nonneg ?_ (by positivity)
          have : (1 : Int) ≤ 2 ^ prec d := one_le_pow₀ (by norm_num)
          omega
      exact_mod_cast this
    · have : 0 ≤ hi d := by
        unfold hi
        split
        · have : (1 : Int) ≤ 2 ^ (8 * d.bytes - 1) := one_le_pow₀ (by norm_num)
          omega
        · have : (1 : Int) ≤ 2 ^ (8 * d.bytes) := one_le_pow₀ (by norm_num)
          omega
        · norm_num
        · refine mul_nonneg ?_ (by positivity)
          have : (1 : Int) ≤ 2 ^ prec d := one_le_pow₀ (by norm_num)
          omega
      exact_mod_cast this
  intro y x k
  by_cases h1 : target im.h sz.1 = im.h ∧ target im.w sz.2 = im.w
  · rw [core_same cv ip sz { im with c := some (im.c.getD 1) } h1, Option.some.injEq] at hc
    subst hc
    exact hv y x k
  by_cases h2 : target im.h sz.1 = 0 ∨ target im.w sz.2 = 0 ∨ some (im.c.getD 1) = some 0
  · rw [core_empty cv ip sz { im with c := some (im.c.getD 1) } h1 h2, Option.some.injEq] at hc
    subst hc
    exact hz _
  have hsome : (core cv ip sz { im with c := some (im.c.getD 1) }).isSome := by rw [hc]; rfl
  rw [core_isSome] at hsome
  simp only at hsome
  have h3 : 0 < im.h ∧ 0 < im.w ∧ im.dt ∈ allowed (chosen im.h im.w (target im.h sz.1) (target im.w sz.2) ip) := by tauto
  have h3' : ¬ (im.h = 0 ∨ im.w = 0 ∨ some (im.c.getD 1) = some 0) := by
    rintro (h | h | h)
    · omega
    · omega
    · exact h2 (Or.inr (Or.inr h))
  rw [core_real cv ip sz { im with c := some (im.c.getD 1) } h1 h2 h3' h3.2.2, Option.some.injEq] at hc
  subst hc
  simp only
  obtain ⟨r, e, hr, _⟩ := after_some _ im.dt _ (hcv _ _ im.h im.w (target im.h sz.1) (target im.w sz.2) _
    (fun y x => before_holds (chosen im.h im.w (target im.h sz.1) (target im.w sz.2) ip) im.dt h3.2.2 _ (hv y x k)) y x)
  rw [e]
  exact hr

example : Valid (demoIm ⟨.i, 1⟩ none) ∧ Keeps demoCv := by
  refine ⟨fun y x k => ?_, demoCv_keeps⟩
  have h : (demoIm ⟨.i, 1⟩ none).px y x k = (((y + x + k) % 2 : Nat) : ℚ) := by simp [demoIm]
  rw [h]
  have h2 : (y + x + k) % 2 ≤ 1 := by omega
  refine ⟨?_, ?_, fun _ => ⟨((y + x + k) % 2 : Nat), by push_cast; rfl⟩⟩
  · have : (lo ⟨.i, 1⟩ : ℚ) = -128 := by norm_num [lo]
    show (lo ⟨.i, 1⟩ : ℚ) ≤ _
    rw [this]
    have : (0 : ℚ) ≤ (((y + x + k) % 2 : Nat) : ℚ) := Nat.cast_nonneg _
    linarith
  · have : (hi ⟨.i, 1⟩ : ℚ) = 127 := by norm_num [hi]
    show _ ≤ (hi ⟨.i, 1⟩ : ℚ)
    rw [this]
    have : (((y + x + k) % 2 : Nat) : ℚ) ≤ 1 := by exact_mod_cast h2
    linarith

/-- C74: nearest neighbour interpolation only moves rows and columns: every pixel of the result shows one pixel of the image, with all its
channels, for every dtype (also those that are converted on the way); the row it comes from depends on its row only, and so for columns. -/
theorem nearest_moves_pixels (cv : Cv) (hcv : PicksPixels cv) (im r : Im) (m n : Nat) (hm : 0 < m) (hn : 0 < n) (hc0 : im.c ≠ some 0)
    (hv : Valid im) (hr : single cv (some .nearest) (.tuple [.int m, .int n]) im = some r) :
    ∃ sy sx : Nat → Nat, (∀ y < m, sy y < im.h) ∧ (∀ x < n, sx x < im.w) ∧
      ∀ y x k, r.px y x k = im.px (sy y) (sx x) k := by
  obtain ⟨sz, r1, hp, hc, rfl⟩ := single_eq cv _ _ im r hr
  have hp' : pair (.tuple [.int m, .int n]) = some (.int m, .int n) := by simp [pair, Size.val]
  rw [hp', Option.some.injEq] at hp
  subst hp
  have t1 : target im.h (.int m) = m := by simp [target]
  have t2 : target im.w (.int n) = n := by simp [target]
  by_cases h1 : target im.h (.int m) = im.h ∧ target im.w (.int n) = im.w
  · have : r1 = { im with c := some (im.c.getD 1) } := by
      rw [core_same cv _ _ { im with c := some (im.c.getD 1) } h1, Option.some.injEq] at hc
      exact hc.symm
    subst this
    rw [t1, t2] at h1
    exact ⟨id, id, fun y hy => by show y < _; omega, fun x hx => by show x < _; omega, fun _ _ _ => rfl⟩
  have hne : ¬ (some (im.c.getD 1) = some 0) := by
    intro h
    cases h' : im.c with
    | none => simp [h'] at h
    | some n => rw [h'] at h; exact hc0 (by rw [h']; simpa using h)
  have h2 : ¬ (target im.h (.int m) = 0 ∨ target im.w (.int n) = 0 ∨ some (im.c.getD 1) = some 0) := by
    rw [t1, t2]
    rintro (h | h | h)
    · omega
    · omega
    · exact hne h
  have hsome : (core cv (some .nearest) (.int m, .int n) { im with c := some (im.c.getD 1) }).isSome := by rw [hc]; rfl
  rw [core_isSome] at hsome
  simp only at hsome
  have h3 : 0 < im.h ∧ 0 < im.w ∧
      im.dt ∈ allowed (chosen im.h im.w (target im.h (.int m)) (target im.w (.int n)) (some .nearest)) := by tauto
  have h3' : ¬ (im.h = 0 ∨ im.w = 0 ∨ some (im.c.getD 1) = some 0) := by
    rintro (h | h | h)
    · omega
    · omega
    · exact hne h
  rw [core_real cv _ _ { im with c := some (im.c.getD 1) } h1 h2 h3' h3.2.2, Option.some.injEq] at hc
  subst hc
  obtain ⟨sy, sx, b1, b2, hpick⟩ := hcv im.h im.w m n h3.1 h3.2.1
  refine ⟨sy, sx, fun y _ => b1 y, fun x _ => b2 x, fun y x k => ?_⟩
  simp only [t1, t2, chosen]
  rw [hpick]
  have := after_before .nearest im.dt h3.2.2 _ (hv (sy y) (sx x) k)
  simp only [this, Option.getD_some]

example : ∃ r, single demoCv (some .nearest) (.tuple [.int (5 : Nat), .int (2 : Nat)]) (demoIm ⟨.b, 1⟩ (some 2)) = some r := by
  have h := (resize_succeeds demoCv (some .nearest) (demoIm ⟨.b, 1⟩ (some 2)) 5 2).mpr (by decide)
  exact Option.isSome_iff_exists.mp h

/-- C74: the method is not used beyond the range of `int8`: what `cv2.resize` computes in `int16` is cut at the limits. -/
theorem int8_clipped (cv : Cv) (hcv : Keeps cv) (i : Inter) (hi' : i ≠ .nearest) (h w m n : Nat) (px : Nat → Nat → Nat → ℚ)
    (hv : Valid ⟨⟨.i, 1⟩, h, w, some 1, px⟩) (hh : 0 < h) (hw : 0 < w) (hm : 0 < m) (hn : 0 < n) (hne : ¬ (m = h ∧ n = w)) :
    ∃ r, single cv (some i) (.tuple [.int m, .int n]) ⟨⟨.i, 1⟩, h, w, some 1, px⟩ = some r ∧
      ∀ y x, r.px y x 0 = min (max (cv i ⟨.i, 2⟩ h w m n (fun y x => px y x 0) y x) (-128)) 127 := by
  have hp : pair (.tuple [.int m, .int n]) = some (.int m, .int n) := by simp [pair, Size.val]
  have hal : (⟨.i, 1⟩ : DType) ∈ allowed i := by cases i <;> simp [allowed]
  have t1 : target h (.int m) = m := by simp [target]
  have t2 : target w (.int n) = n := by simp [target]
  have e := core_real cv (some i) (.int m, .int n) ⟨⟨.i, 1⟩, h, w, some 1, px⟩ (by simp only [t1, t2]; exact hne)
    (by
      simp only [t1, t2]
      rintro (h | h | h)
      · omega
      · omega
      · cases h)
    (by
      rintro (h | h | h)
      · simp only at h; omega
      · simp only at h; omega
      · cases h) hal
  have es : single cv (some i) (.tuple [.int m, .int n]) ⟨⟨.i, 1⟩, h, w, some 1, px⟩ =
      core cv (some i) (.int m, .int n) ⟨⟨.i, 1⟩, h, w, some 1, px⟩ := by
    simp only [single, hp, Option.bind_some]
  rw [es, e]
  refine ⟨_, rfl, ?_⟩
  · intro y x
    simp only [t1, t2, chosen]
    have hb : (fun y x => before ⟨.i, 1⟩ (px y x 0)) = fun y x => px y x 0 := by
      funext y x; simp [before]
    have hin : inner i ⟨.i, 1⟩ = ⟨.i, 2⟩ := by simp [inner, hi']
    obtain ⟨r, e, _, hr⟩ := after_some i ⟨.i, 1⟩ _ (hcv i (inner i ⟨.i, 1⟩) h w m n _
      (fun y x => before_holds i ⟨.i, 1⟩ hal _ (hv y x 0)) y x)
    rw [e, Option.getD_some]
    rcases hr (by decide) with hr | ⟨h, _⟩
    · rw [hr, hb, hin, clamp]
      norm_num [lo, hi]
    · rw [hin] at h; cases h

/-- C74: the images of a list do not influence each other: a list is resized as its images are resized one by one, provided that they are of
one dtype or not all of the same shape (missing: lists of images of the same shape but different dtypes, see `list_mixes_dtypes`). -/
theorem list_as_alone_partial (cv : Cv) (ip : Option Inter) (sizes : Sizes) (a : Im) (l : List Im)
    (hd : (∃ b ∈ l, b.shape ≠ a.shape) ∨ ((∀ b ∈ l, b.dt = a.dt) ∧ a.dt ∈ Dtypes.all ∧ ∀ b ∈ a :: l, Valid b)) :
    manyList cv ip sizes (a :: l) = (a :: l).mapM (fun b => (pair sizes).bind (fun sz => core cv ip sz b)) := by
  cases hp : pair sizes with
  | none => simp [manyList, hp]
  | some sz =>
    simp only [manyList, hp, Option.bind_some]
    split_ifs with h
    · rcases hd with ⟨b, hb, hne⟩ | ⟨h1, h2, h3⟩
      · exact absurd (by simpa using List.all_eq_true.mp h b hb) hne
      · rw [npArray_same a l h1 h2 h3]
    · rfl

example : ∃ b ∈ [demoIm ⟨.f, 4⟩ (some 1)], b.shape ≠ (demoIm ⟨.u, 1⟩ (some 3)).shape := ⟨_, List.mem_singleton.mpr rfl, by decide⟩

/-- C74: an image with a channel axis is resized in a list as it is resized alone. -/
theorem list_of_one (cv : Cv) (ip : Option Inter) (sizes : Sizes) (a : Im) (hd : a.dt ∈ Dtypes.all) (hv : Valid a) (hc : a.c ≠ none) :
    manyList cv ip sizes [a] = (single cv ip sizes a).map (fun r => [r]) := by
  rw [list_as_alone_partial cv ip sizes a [] (Or.inr ⟨by simp, hd, by simpa using hv⟩)]
  cases hc' : a.c with
  | none => exact absurd hc' hc
  | some n =>
    simp only [single, hc', List.mapM_cons, List.mapM_nil]
    cases (pair sizes).bind (fun sz => core cv ip sz a) <;> rfl

/-- C74: a list of images of one shape and dtype is resized like the array of these images. -/
theorem list_as_array (cv : Cv) (ip : Option Inter) (sizes : Sizes) (l : List Im) (d : DType) (s : Nat × Nat × Option Nat)
    (hd : d ∈ Dtypes.all) (h : ∀ b ∈ l, b.dt = d ∧ b.shape = s ∧ Valid b) : manyList cv ip sizes l = manyArray cv ip sizes l := by
  cases l with
  | nil => rfl
  | cons a l =>
    obtain ⟨e1, e2, _⟩ := h a (by simp)
    rw [list_as_alone_partial cv ip sizes a l (Or.inr ⟨fun b hb => by rw [e1]; exact (h b (by simp [hb])).1, by rw [e1]; exact hd,
      fun b hb => (h b hb).2.2⟩)]
    cases hp : pair sizes with
    | none => simp [manyArray, hp]
    | some sz => simp [manyArray, hp]

/-- C74 is false for lists of images of the same shape and different dtypes: two images, a `uint8` and a `float32` one, come back as
two `float32` images, although each of them alone (and both, if their shapes differ) keeps its dtype. -/
theorem list_mixes_dtypes :
    (manyList demoCv none (.one (.int 4)) [demoIm ⟨.u, 1⟩ (some 3), demoIm ⟨.f, 4⟩ (some 3)]).map (fun l => l.map (·.dt))
      = some [⟨.f, 4⟩, ⟨.f, 4⟩] ∧
    (single demoCv none (.one (.int 4)) (demoIm ⟨.u, 1⟩ (some 3))).map (·.dt) = some ⟨.u, 1⟩ ∧
    (manyList demoCv none (.one (.int 4)) [demoIm ⟨.u, 1⟩ (some 3), demoIm ⟨.f, 4⟩ (some 1)]).map (fun l => l.map (·.dt))
      = some [⟨.u, 1⟩, ⟨.f, 4⟩] := by
  decide +kernel

/-- C74: bool images are interpolated as images of 0 and 255, and the result is `True` where that is above 127. -/
theorem bool_limit (cv : Cv) (i : Inter) (h w m n : Nat) (px : Nat → Nat → Nat → ℚ)
    (hh : 0 < h) (hw : 0 < w) (hm : 0 < m) (hn : 0 < n) (hne : ¬ (m = h ∧ n = w)) :
    ∃ r, single cv (some i) (.tuple [.int m, .int n]) ⟨⟨.b, 1⟩, h, w, some 1, px⟩ = some r ∧
      ∀ y x, r.px y x 0 = if cv i ⟨.u, 1⟩ h w m n (fun y x => px y x 0 * 255) y x > 127 then 1 else 0 := by
  have hp : pair (.tuple [.int m, .int n]) = some (.int m, .int n) := by simp [pair, Size.val]
  have hal : (⟨.b, 1⟩ : DType) ∈ allowed i := by cases i <;> simp [allowed]
  have t1 : target h (.int m) = m := by simp [target]
  have t2 : target w (.int n) = n := by simp [target]
  have e := core_real cv (some i) (.int m, .int n) ⟨⟨.b, 1⟩, h, w, some 1, px⟩ (by simp only [t1, t2]; exact hne)
    (by
      simp only [t1, t2]
      rintro (h | h | h)
      · omega
      · omega
      · cases h)
    (by
      rintro (h | h | h)
      · simp only at h; omega
      · simp only at h; omega
      · cases h) hal
  have es : single cv (some i) (.tuple [.int m, .int n]) ⟨⟨.b, 1⟩, h, w, some 1, px⟩ =
      core cv (some i) (.int m, .int n) ⟨⟨.b, 1⟩, h, w, some 1, px⟩ := by
    simp only [single, hp, Option.bind_some]
  rw [es, e]
  refine ⟨_, rfl, ?_⟩
  intro y x
  simp only [t1, t2, chosen]
  have hb : (fun y x => before ⟨.b, 1⟩ (px y x 0)) = fun y x => px y x 0 * 255 := by
    funext y x; simp [before]
  have hin : inner i ⟨.b, 1⟩ = ⟨.u, 1⟩ := by simp [inner]
  rw [hb, hin]
  simp [after]

end Imgaug.Resize
