import Verif.Proofs.Pad
import Verif.Props.Size2
/-! C120: padding arrays. -/
namespace Imgaug.Pad
open Imgaug Imgaug.Dtypes Imgaug.Size

/-- An image with five channels of numbers that differ. -/
def demo (d : DType) : Draw.Img := ⟨d, 2, 3, 5, false, fun y x ch => 10 * y + x + 3 * ch⟩

/-- A library for the other modes that pads with zeros. -/
def demoNp : Np := fun _ _ _ _ => some (fun _ _ _ => 0)

/-- C120: an array of any dtype and any number of channels that is padded by amounts that are not negative, with one of the modes "constant", "edge", "reflect"
and "symmetric", and with one value or one per channel, is padded without error. -/
theorem pads (np : Np) (a : Draw.Img) (t : Trbl) (m : Mode) (cval : Cval) (hn : NonNeg t) (hm : m ∈ [Mode.constant, .edge, .reflect, .symmetric])
    (hw : WellFormed a) (hc : Matches cval a.c) : ∃ r, pad np a t m cval = some r := by
  obtain ⟨r, h, _⟩ := pad_eq np a t m cval hn hm hw hc
  exact ⟨r, h⟩

example : NonNeg ⟨1, 2, 0, 4⟩ ∧ WellFormed (demo ⟨.u, 1⟩) ∧ Matches (.many [1, 2, 3, 4, 300]) (demo ⟨.u, 1⟩).c := by
  refine ⟨by simp [NonNeg], by simp [WellFormed, demo], by simp [Matches, demo]⟩

/-- C120: whatever the mode and the values are, padding changes neither the dtype nor the channels, adds the amounts to the sizes, and shows the array
unchanged at the place they say. -/
theorem content_kept (np : Np) (a r : Draw.Img) (t : Trbl) (m : Mode) (cval : Cval) (h : pad np a t m cval = some r) : InMiddle a r t :=
  (pad_middle h).2

example : ∃ r, pad demoNp (demo ⟨.u, 1⟩) ⟨1, 0, 2, 3⟩ .wrap (.one 0) = some r := ⟨_, rfl⟩

/-- C120: with the mode "constant" each pixel of the border has in each channel the value given for it, brought into the range of the dtype; in an array
without rows or columns this is so for each mode. -/
theorem constant_border (np : Np) (a r : Draw.Img) (t : Trbl) (m : Mode) (cval : Cval) (hd : a.dt ∈ all) (hw : WellFormed a) (hc : Matches cval a.c)
    (hm : m ∈ [Mode.constant, .edge, .reflect, .symmetric]) (hf : m = .constant ∨ a.h = 0 ∨ a.w = 0) (h : pad np a t m cval = some r)
    (y x ch : Nat) (hy : y < r.h) (hx : x < r.w) (hch : ch < a.c) (ho : OnBorder a t y x) : StoredAs a.dt (valueFor cval ch) (r.px y x ch) := by
  obtain ⟨hn, -⟩ := pad_middle h
  obtain ⟨r', h1, h2⟩ := pad_eq np a t m cval hn hm hw hc
  obtain rfl : r' = r := Option.some.inj (h1.symm.trans h)
  rw [h2 y x ch hy hx hch, frame_outside a t hn _ y x ch ho]
  have : eff a m = .constant := by
    rcases hf with h | h
    · simp [eff, h]
    · simp [eff, h]
  simp only [documented, border, this, if_true]
  exact value_stored a.dt hd _

example : ∃ r, pad demoNp (demo ⟨.u, 1⟩) ⟨1, 2, 0, 4⟩ .constant (.many [1, 2, 3, -4, 300]) = some r ∧ r.px 0 0 4 = 255 ∧ r.px 0 8 3 = 0 ∧ r.px 1 4 1 = 3 ∧
    r.h = 3 ∧ r.w = 9 := by
  refine ⟨_, rfl, ?_⟩
  decide +kernel

/-- C120: with the modes "edge", "reflect" and "symmetric" each pixel of the border shows the pixel of the array that the mode says for its row and
its column, in all channels. -/
theorem mirrored_border (np : Np) (a r : Draw.Img) (t : Trbl) (m : Mode) (cval : Cval) (hw : WellFormed a) (hc : Matches cval a.c)
    (hm : m ∈ [Mode.edge, .reflect, .symmetric]) (h1 : 1 ≤ a.h) (h2 : 1 ≤ a.w) (h : pad np a t m cval = some r)
    (y x : Nat) (hy : y < r.h) (hx : x < r.w) (ho : OnBorder a t y x) :
    ∃ j i, j < a.h ∧ i < a.w ∧ Shows m a.h ((y : Int) - t.top) j ∧ Shows m a.w ((x : Int) - t.left) i ∧
      ∀ ch < a.c, r.px y x ch = a.px j i ch := by
  obtain ⟨hn, -⟩ := pad_middle h
  have hm' : m = .edge ∨ m = .reflect ∨ m = .symmetric := by simpa using hm
  obtain ⟨r', e1, e2⟩ := pad_eq np a t m cval hn (by simp only [cv2Modes]; exact List.mem_cons_of_mem _ hm) hw hc
  obtain rfl : r' = r := Option.some.inj (e1.symm.trans h)
  refine ⟨_, _, index_lt m _ h1 _ hm', index_lt m _ h2 _ hm', index_shows m _ h1 _ hm', index_shows m _ h2 _ hm', ?_⟩
  intro ch hch
  rw [e2 y x ch hy hx hch, frame_outside a t hn _ y x ch ho]
  have e3 : eff a m = m := by
    have : ¬ (a.h = 0 ∨ a.w = 0) := by omega
    simp [eff, this]
  have e4 : m ≠ .constant := by rintro rfl; simp at hm'
  simp only [documented, border, e3, if_neg e4]

example : ∃ r, pad demoNp (demo ⟨.f, 2⟩) ⟨0, 7, 0, 0⟩ .reflect (.one 0) = some r ∧ (List.range 10).map (fun x => r.px 0 x 0) = [0, 1, 2, 1, 0, 1, 2, 1, 0, 1] := by
  refine ⟨_, rfl, ?_⟩
  decide +kernel

example : ∃ r, pad demoNp (demo ⟨.u, 1⟩) ⟨0, 2, 0, 5⟩ .symmetric (.one 0) = some r ∧ (List.range 10).map (fun x => r.px 1 x 4) =
    [23, 24, 24, 23, 22, 22, 23, 24, 24, 23] := by
  refine ⟨_, rfl, ?_⟩
  decide +kernel

/-- C120: the pixels that a mode shows are determined, except that an axis of size 1 always shows its only index. -/
theorem shown_unique (m : Mode) (n : Nat) (i : Int) (j k : Nat) (hj : Shows m n i j) (hk : Shows m n i k) : j = k := by
  exact shows_unique m n i j k hj hk

example : Shows .reflect 3 (-2) 2 ∧ Shows .symmetric 3 (-2) 1 ∧ Shows .edge 3 (-2) 0 := by
  refine ⟨⟨by omega, Or.inr ⟨0, by omega⟩⟩, ⟨by omega, 0, by omega⟩, Or.inl (by omega)⟩

/-- C120: each channel is padded as if it were padded alone, with its value, however many channels there are. -/
theorem channel_alone (np np' : Np) (a r : Draw.Img) (t : Trbl) (m : Mode) (cval : Cval) (hw : WellFormed a) (hc : Matches cval a.c)
    (hm : m ∈ [Mode.constant, .edge, .reflect, .symmetric]) (h : pad np a t m cval = some r) (ch : Nat) (hch : ch < a.c) :
    ∃ q, pad np' (channel a ch) t m (.one (valueFor cval ch)) = some q ∧ Same q (channel r ch) := by
  obtain ⟨hn, hr⟩ := pad_middle h
  obtain ⟨r', e1, e2⟩ := pad_eq np a t m cval hn hm hw hc
  obtain rfl : r' = r := Option.some.inj (e1.symm.trans h)
  obtain ⟨q, q1, q2⟩ := pad_eq np' (channel a ch) t m (.one (valueFor cval ch)) hn hm (channel_wellFormed a ch) trivial
  obtain ⟨-, hq⟩ := pad_middle q1
  obtain ⟨a1, a2, a3, a4, a5, -⟩ := hr
  obtain ⟨b1, b2, b3, b4, b5, -⟩ := hq
  have hh : q.h = r'.h := by simp only [channel] at b4; omega
  have hww : q.w = r'.w := by simp only [channel] at b5; omega
  refine ⟨q, q1, b1.trans a1.symm, hh, hww, b2, b3.trans a3.symm, ?_⟩
  intro y x c hy hx hcc
  have hc0 : c = 0 := by rw [b2] at hcc; simp only [channel] at hcc; omega
  subst hc0
  rw [q2 y x 0 hy hx (by simp [channel]), channel_frame, ← e2 y x ch (by omega) (by omega) hch]
  rfl

example : ∃ r, pad demoNp (demo ⟨.u, 1⟩) ⟨1, 2, 0, 4⟩ .constant (.many [1, 2, 3, -4, 300]) = some r ∧ 4 < (demo ⟨.u, 1⟩).c := ⟨_, rfl, by decide⟩

/-- C120: padding twice with a color or with the edges is padding once with the sums of the amounts. -/
theorem padded_twice (np : Np) (a r q : Draw.Img) (t s : Trbl) (m : Mode) (cval : Cval) (hw : WellFormed a) (hc : Matches cval a.c)
    (hm : m = .constant ∨ m = .edge) (h1 : pad np a t m cval = some r) (h2 : pad np r s m cval = some q) :
    ∃ p, pad np a (both t s) m cval = some p ∧ Same q p := by
  have hm' : m ∈ cv2Modes := by rcases hm with rfl | rfl <;> simp [cv2Modes]
  obtain ⟨hn, hr⟩ := pad_middle h1
  obtain ⟨hs, hq⟩ := pad_middle h2
  obtain ⟨r', e1, e2⟩ := pad_eq np a t m cval hn hm' hw hc
  obtain rfl : r' = r := Option.some.inj (e1.symm.trans h1)
  obtain ⟨a1, a2, a3, a4, a5, -⟩ := id hr
  obtain ⟨q', f1, f2⟩ := pad_eq np r' s m cval hs hm' (fun h => a2.trans (hw (a3 ▸ h))) (a2 ▸ hc)
  obtain rfl : q' = q := Option.some.inj (f1.symm.trans h2)
  have hb : NonNeg (both t s) := by
    obtain ⟨t1, t2, t3, t4⟩ := hn
    obtain ⟨s1, s2, s3, s4⟩ := hs
    exact ⟨add_nonneg t1 s1, add_nonneg t2 s2, add_nonneg t3 s3, add_nonneg t4 s4⟩
  obtain ⟨p, p1, p2⟩ := pad_eq np a (both t s) m cval hb hm' hw hc
  obtain ⟨-, hp⟩ := pad_middle p1
  obtain ⟨b1, b2, b3, b4, b5, -⟩ := hq
  obtain ⟨c1, c2, c3, c4, c5, -⟩ := hp
  have hh : q'.h = p.h := by simp only [both] at c4; omega
  have hww : q'.w = p.w := by simp only [both] at c5; omega
  refine ⟨p, p1, by rw [b1, a1, c1], hh, hww, by rw [b2, a2, c2], by rw [b3, a3, c3], ?_⟩
  intro y x ch hy hx hch
  have hch' : ch < a.c := by rw [b2, a2] at hch; exact hch
  rw [f2 y x ch hy hx (by rw [a2]; exact hch'), p2 y x ch (by omega) (by omega) hch']
  exact twice_px a r' t s m cval hm hn hs hr e2 y x ch (by omega) (by omega) hch'

example : ∃ r q, pad demoNp (demo ⟨.u, 1⟩) ⟨1, 0, 2, 3⟩ .edge (.one 0) = some r ∧ pad demoNp r ⟨0, 1, 1, 2⟩ .edge (.one 0) = some q := ⟨_, _, rfl, rfl⟩

/-- C120: for the modes that mirror this is not so: mirroring a mirrored array is not mirroring it further. -/
theorem mirrored_twice : ∃ r q p, pad demoNp (demo ⟨.u, 1⟩) ⟨0, 1, 0, 0⟩ .reflect (.one 0) = some r ∧ pad demoNp r ⟨0, 2, 0, 0⟩ .reflect (.one 0) = some q ∧
    pad demoNp (demo ⟨.u, 1⟩) (both ⟨0, 1, 0, 0⟩ ⟨0, 2, 0, 0⟩) .reflect (.one 0) = some p ∧ q.px 0 4 0 ≠ p.px 0 4 0 := by
  refine ⟨_, _, _, rfl, rfl, rfl, ?_⟩
  decide +kernel

/-- C120: amounts of which one is negative are rejected. -/
theorem negative_amounts (np : Np) (a : Draw.Img) (t : Trbl) (m : Mode) (cval : Cval) (h : ¬ NonNeg t) : pad np a t m cval = none := by
  cases e : pad np a t m cval with
  | none => rfl
  | some r => exact absurd (pad_middle e).1 h

example : ¬ NonNeg ⟨0, 0, -1, 3⟩ := by simp [NonNeg]

/-- C120: with amounts that are all zero the array is returned, for each mode and also if the values do not match the channels. -/
theorem no_amounts (np : Np) (a : Draw.Img) (m : Mode) (cval : Cval) : pad np a ⟨0, 0, 0, 0⟩ m cval = some a := by
  simp [pad]

/-- C120 is false for values that do not match the channels: fewer values than channels are an error for some dtypes, for others the border is silently
0 in the channels without value. -/
theorem too_few_values : pad demoNp (demo ⟨.f, 2⟩) ⟨1, 0, 0, 0⟩ .constant (.many [7]) = none ∧
    ∃ r, pad demoNp (demo ⟨.f, 4⟩) ⟨1, 0, 0, 0⟩ .constant (.many [7]) = some r ∧ r.px 0 0 0 = 7 ∧ r.px 0 0 1 = 0 := by
  refine ⟨by decide +kernel, _, rfl, ?_⟩
  decide +kernel

/-- C120 is false for values that do not match the channels: five values for one channel are accepted for some dtypes and an error for others. -/
theorem too_many_values : (pad demoNp { demo ⟨.f, 2⟩ with c := 1 } ⟨1, 0, 0, 0⟩ .constant (.many [1, 2, 3, 4, 5])).isSome = true ∧
    pad demoNp { demo ⟨.f, 4⟩ with c := 1 } ⟨1, 0, 0, 0⟩ .constant (.many [1, 2, 3, 4, 5]) = none := by
  constructor <;> decide +kernel

/-- C120 is false for values that do not match the channels: two values for an array without channel axis are used for the sides before and after it with
some dtypes, and the first for all sides with others. -/
theorem flat_values : ∃ r q, pad demoNp { demo ⟨.u, 4⟩ with c := 1, flat := true } ⟨1, 1, 1, 1⟩ .constant (.many [7, 9]) = some r ∧
    pad demoNp { demo ⟨.u, 1⟩ with c := 1, flat := true } ⟨1, 1, 1, 1⟩ .constant (.many [7, 9]) = some q ∧
    r.px 1 0 0 = 7 ∧ r.px 1 4 0 = 9 ∧ q.px 1 0 0 = 7 ∧ q.px 1 4 0 = 7 := by
  refine ⟨_, _, rfl, rfl, ?_⟩
  decide +kernel

/-- C120: padding to multiples works for all arrays. The sizes are the smallest multiples (without zero) that are not below the old sizes, the amounts that are
returned lead from the old to the new sizes, and the array is at the place they say, in the middle. -/
theorem to_multiples (np : Np) (a : Draw.Img) (hm wm : Option Nat) (h1 : hm ≠ some 0) (h2 : wm ≠ some 0) (m : Mode) (cval : Cval)
    (hmode : m ∈ [Mode.constant, .edge, .reflect, .symmetric]) (hw : WellFormed a) (hc : Matches cval a.c) :
    ∃ r t, padToMultiples np a hm wm m cval = some (r, t) ∧ InMiddle a r t ∧
      IsLeast {n | n ∈ sizesOf posMultiples hm ∧ (a.h : Int) ≤ n} r.h ∧ IsLeast {n | n ∈ sizesOf posMultiples wm ∧ (a.w : Int) ≤ n} r.w ∧
      (t.bottom = t.top ∨ t.bottom = t.top + 1) ∧ (t.right = t.left ∨ t.right = t.left + 1) := by
  obtain ⟨t, e, p1, p2⟩ := paddings_multiples ⟨a.h, a.w⟩ hm wm h1 h2
  obtain ⟨r, hr⟩ := pads np a t m cval ⟨p1.1, p2.2.1, p1.2.1, p2.1⟩ hmode hw hc
  have hmid := content_kept np a r t m cval hr
  refine ⟨r, t, by simp [padToMultiples, e, hr], hmid, ?_, ?_, p1.2.2.1, p2.2.2.1⟩
  · rw [hmid.2.2.2.1, add_comm t.top]; exact p1.2.2.2
  · rw [hmid.2.2.2.2.1, add_comm t.left]; exact p2.2.2.2

example : ∃ r t, padToMultiples demoNp (demo ⟨.u, 1⟩) (some 4) (some 5) .reflect (.one 0) = some (r, t) ∧ r.h = 4 ∧ r.w = 5 ∧ t.left = 1 := by
  refine ⟨_, _, rfl, ?_⟩
  decide +kernel

/-- C120: padding an array with pixels to an aspect ratio works likewise: only the axis that is too small is padded, its new size is less than one pixel away
from the wanted one, and the array is at the place the returned amounts say, in the middle. -/
theorem to_ratio (np : Np) (a : Draw.Img) (ratio : ℚ) (h0 : 0 < ratio) (h1 : 1 ≤ a.h) (h2 : 1 ≤ a.w) (m : Mode) (cval : Cval)
    (hmode : m ∈ [Mode.constant, .edge, .reflect, .symmetric]) (hw : WellFormed a) (hc : Matches cval a.c) :
    ∃ r t, padToRatio np a ratio m cval = some (r, t) ∧ InMiddle a r t ∧
      ((a.w : ℚ) ≤ ratio * a.h → r.h = a.h ∧ |(r.w : ℚ) - ratio * r.h| < 1) ∧
      (ratio * a.h ≤ (a.w : ℚ) → r.w = a.w ∧ |(r.h : ℚ) - r.w / ratio| < 1) ∧
      (t.bottom = t.top ∨ t.bottom = t.top + 1) ∧ (t.right = t.left ∨ t.right = t.left + 1) := by
  obtain ⟨t, e, p1, -, p3, p4, p5, p6⟩ := paddings_ratio ⟨a.h, a.w⟩ ratio h0 h1 h2
  obtain ⟨r, hr⟩ := pads np a t m cval p1 hmode hw hc
  have hmid := content_kept np a r t m cval hr
  obtain ⟨-, -, -, e1, e2, -⟩ := id hmid
  refine ⟨r, t, by simp [padToRatio, e, hr], hmid, ?_, ?_, p3, p4⟩
  · intro hle
    obtain ⟨q1, q2⟩ := p5 hle
    have e3 : r.h = a.h := by omega
    have e4 : (r.w : ℚ) = ((a.w + t.left + t.right : Int) : ℚ) := by
      have : (r.w : Int) = a.w + t.left + t.right := by omega
      exact_mod_cast this
    refine ⟨e3, ?_⟩
    rw [e3, e4]; exact q2
  · intro hle
    obtain ⟨q1, q2⟩ := p6 hle
    have e3 : r.w = a.w := by omega
    have e4 : (r.h : ℚ) = ((a.h + t.top + t.bottom : Int) : ℚ) := by
      have : (r.h : Int) = a.h + t.top + t.bottom := by omega
      exact_mod_cast this
    refine ⟨e3, ?_⟩
    rw [e3, e4]; exact q2

example : (padToRatio demoNp (demo ⟨.u, 1⟩) 2 .edge (.one 0)).map (fun p => (p.1.h, p.1.w, p.2.right)) = some (2, 4, 1) := by
  decide +kernel

end Imgaug.Pad
