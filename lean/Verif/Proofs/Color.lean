import Verif.Spec.Color
import Verif.Props.Blend
import Verif.Proofs.Dtypes
/-! Lemmas on colour spaces. -/
namespace Imgaug.Color
open Imgaug Imgaug.Dtypes

theorem direct_iff (f t : Space) : direct f t = true ↔ f ≠ t ∧ f ≠ .gray ∧ (f.Basic ∨ t.Basic) := by
  cases f <;> cases t <;> decide

theorem convert_result (cv : Cv) (im : Img) (t f : Space) (hne : f ≠ t) (hg : f ≠ .gray) :
    (convert cv im t f).result.px = im.px.map (converted cv f t) := by
  unfold convert
  by_cases hd : direct f t = true
  · rw [if_pos hd]
    obtain ⟨-, -, hb⟩ := (direct_iff f t).1 hd
    by_cases ht : t = .gray
    · have hfb : f.Basic := by
        rcases hb with h | h
        · exact h
        · subst ht; rcases h with h | h <;> simp at h
      simp only [cvtColor, if_pos ht]
      refine List.map_congr_left (fun p _ => ?_)
      rw [converted, if_neg hne, if_pos ht, if_pos hfb]
    · simp only [cvtColor, if_neg ht]
      refine List.map_congr_left (fun p _ => ?_)
      rw [converted, if_neg hne, if_neg ht, if_pos hb]
  · rw [if_neg hd]
    have hb : ¬ (f.Basic ∨ t.Basic) := fun h => hd ((direct_iff f t).2 ⟨hne, hg, h⟩)
    have hfb : ¬ f.Basic := fun h => hb (Or.inl h)
    by_cases ht : t = .gray
    · simp only [cvtColor, if_pos ht]
      rw [if_neg (by decide), List.map_map]
      refine List.map_congr_left (fun p _ => ?_)
      rw [converted, if_neg hne, if_pos ht, if_neg hfb]; rfl
    · simp only [cvtColor, if_neg ht]
      rw [if_neg (by decide), List.map_map]
      refine List.map_congr_left (fun p _ => ?_)
      rw [converted, if_neg hne, if_neg ht, if_neg hb]; rfl

theorem convert_shape (cv : Cv) (im : Img) (t f : Space) :
    (convert cv im t f).result = { im with owned := (convert cv im t f).result.owned, px := (convert cv im t f).result.px } := by
  unfold convert; split <;> rfl

theorem change_some (cv : Cv) (im : Img) (t f : Space) (hc : im.Colour) (hg : f ≠ .gray) :
    change cv im t f = some (if f = t then ⟨im, im⟩ else convert cv im t f) := by
  obtain ⟨h1, h2, h3, h4, h5, -, -⟩ := hc
  unfold change
  rw [if_neg (by omega), if_neg (not_not.2 h1), if_neg hg, if_neg (by simp [h2]), if_neg (not_not.2 h3)]
  split <;> rfl

theorem toBlend_vals (im : Img) : (toBlend im).vals = comps im.px := by
  unfold toBlend
  dsimp only
  induction im.px with
  | nil => rfl
  | cons p l ih => rw [List.flatMap_cons, ih, comps]; rfl

theorem comps_length (l : List Px) : (comps l).length = l.length * 3 := by
  induction l with
  | nil => rfl
  | cons p l ih => simp only [comps, List.length_cons, ih]; omega

theorem comps_bytes (l : List Px) (h : ∀ p ∈ l, p.Bytes) : ∀ v ∈ comps l, Holds ⟨.u, 1⟩ v := by
  induction l with
  | nil => simp [comps]
  | cons p l ih =>
    obtain ⟨h1, h2, h3⟩ := h p List.mem_cons_self
    intro v hv
    have hb : ∀ n : Nat, n ≤ 255 → Holds ⟨.u, 1⟩ (n : ℚ) := fun n hn => by
      have := Blend.holds_byte (n : Int) (by omega) (by omega)
      exact_mod_cast this
    rw [comps] at hv
    rcases List.mem_cons.1 hv with rfl | hv
    · exact hb _ h1
    rcases List.mem_cons.1 hv with rfl | hv
    · exact hb _ h2
    rcases List.mem_cons.1 hv with rfl | hv
    · exact hb _ h3
    exact ih (fun q hq => h q (List.mem_cons_of_mem _ hq)) v hv

theorem converted_bytes (cv : Cv) (hcv : cv.Bytes) (f t : Space) (p : Px) (hp : p.Bytes) : (converted cv f t p).Bytes := by
  unfold converted
  split
  · exact hp
  split
  · split <;> exact ⟨hcv.2 _ _, hcv.2 _ _, hcv.2 _ _⟩
  split <;> exact hcv.1 _ _ _

/-- Blending two images of bytes with one alpha. -/
theorem blend_faded (fg bg : Img) (hf : fg.Colour) (hb : bg.Colour) (hh : fg.h = bg.h) (hw : fg.w = bg.w) (alpha : ℚ) (h0 : 0 ≤ alpha)
    (h1 : alpha ≤ 1) :
    ∃ o, Blend.blend (1 / 1000) (toBlend fg) (toBlend bg) ⟨[], [alpha]⟩ = some o ∧ o.dt = ⟨.u, 1⟩ ∧
      o.vals = List.zipWith (faded alpha) (comps fg.px) (comps bg.px) := by
  obtain ⟨f1, f2, f3, f4, f5, f6, f7⟩ := hf
  obtain ⟨b1, b2, b3, b4, b5, b6, b7⟩ := hb
  have hne : (toBlend fg).vals ≠ [] := by
    intro h
    rw [toBlend_vals] at h
    have := congrArg List.length h
    rw [comps_length, f6] at this
    have := Nat.mul_pos f4 f5
    simp at *; omega
  have hv : ∀ im : Img, im.dt = ⟨.u, 1⟩ → im.flat = false → im.c = 3 → im.px.length = im.h * im.w → (∀ p ∈ im.px, p.Bytes) →
      (toBlend im).Valid := by
    intro im a b c d e
    refine ⟨?_, ?_, ?_, ?_⟩
    · show im.dt ∈ all
      rw [a]; decide
    · rw [toBlend_vals, comps_length, d]
      show _ = im.h * im.w * im.c
      rw [c]
    · intro h
      exact absurd h (by show ¬ im.flat = true; simp [b])
    · rw [toBlend_vals]
      show ∀ v ∈ _, Holds im.dt v
      rw [a]; exact comps_bytes _ e
  have hblend : Blend.Blendable (toBlend fg) (toBlend bg) := by
    refine ⟨hv fg f1 f2 f3 f6 f7, hv bg b1 b2 b3 b6 b7, ?_, hh, hw, ?_, ?_, ?_, ?_⟩
    · show fg.flat = bg.flat; rw [f2, b2]
    · show fg.c = bg.c; rw [f3, b3]
    · show fg.dt.kind = bg.dt.kind; rw [f1, b1]
    · show fg.dt ≠ _; rw [f1]; decide
    · show bg.dt ≠ _; rw [b1]; decide
  have hdf : (toBlend fg).dt = ⟨.u, 1⟩ := f1
  have hdb : (toBlend bg).dt = ⟨.u, 1⟩ := b1
  obtain ⟨o, ho, hl, -, hdt, hget⟩ := Blend.Props.blend_partial (1 / 1000) _ _ hblend (by rw [hdf]; decide) ⟨[], [alpha]⟩ (.number [] alpha)
    (by intro x hx; rw [List.mem_singleton] at hx; subst hx; exact ⟨h0, h1⟩) (fun h => h.2.2.2 rfl) hne
  refine ⟨o, ho, ?_, ?_⟩
  · rw [hdt, hdf, hdb]
    split
    · rfl
    split <;> rfl
  refine List.ext_getElem? (fun i => ?_)
  rw [toBlend_vals] at hl
  have hll : (comps fg.px).length = (comps bg.px).length := by rw [comps_length, comps_length, f6, b6, hh, hw]
  by_cases hi : i < (comps fg.px).length
  · have ha := List.getElem?_eq_getElem hi
    have hb' := List.getElem?_eq_getElem (hll ▸ hi)
    rw [hget i _ _ (by rw [toBlend_vals]; exact ha) (by rw [toBlend_vals]; exact hb'), List.getElem?_zipWith, ha, hb']
    simp only [List.mem_singleton, forall_eq]
    have h9 : ((1 : ℚ) - 1 / 1000 ≤ alpha) = (999 / 1000 ≤ alpha) := by norm_num
    have hal : Blend.alphaAt (toBlend fg) ⟨[], [alpha]⟩ i = alpha := by simp [Blend.alphaAt]
    rw [faded]
    simp only [h9, hal, Blend.nearest, hdf]
    rfl
  · rw [List.getElem?_eq_none (by omega), List.getElem?_eq_none (by rw [List.length_zipWith]; omega)]

theorem convert_arg_same (cv : Cv) (im : Img) (t f : Space) (hne : f ≠ t) (hg : f ≠ .gray)
    (hcond : im.owned = false ∨ f = t ∨ (t = .gray ∧ f.Basic)) : (convert cv im t f).arg = { im with px := im.px } := by
  unfold convert
  by_cases ho : im.owned = false
  · have h1 : ¬ (im.owned = true) := by simp [ho]
    have h2 : ¬ (im.owned = true ∧ t ≠ .gray) := fun h => h1 h.1
    split <;> rfl
  · have h2 : t = .gray ∧ f.Basic := by tauto
    have hd : direct f t = true := (direct_iff f t).2 ⟨hne, hg, Or.inl h2.2⟩
    rw [if_pos hd]
    simp only [h2.1, ne_eq, not_true_eq_false, and_false, if_false]

theorem convert_arg_changed (cv : Cv) (im : Img) (t f : Space) (hne : f ≠ t) (hg : f ≠ .gray)
    (hcond : ¬ (im.owned = false ∨ f = t ∨ (t = .gray ∧ f.Basic))) :
    (convert cv im t f).arg = { im with px := if t = .gray then im.px.map (converted cv f .rgb) else (convert cv im t f).result.px } := by
  have ho : im.owned = true := by
    by_contra h; exact hcond (Or.inl (by simpa using h))
  unfold convert
  by_cases hd : direct f t = true
  · rw [if_pos hd]
    have ht : t ≠ .gray := by
      intro ht
      obtain ⟨-, -, hb⟩ := (direct_iff f t).1 hd
      have hfb : f.Basic := by
        rcases hb with h | h
        · exact h
        · subst ht; rcases h with h | h <;> simp at h
      exact hcond (Or.inr (Or.inr ⟨ht, hfb⟩))
    simp [ho, ht]
  · rw [if_neg hd]
    have hb : ¬ (f.Basic ∨ t.Basic) := fun h => hd ((direct_iff f t).2 ⟨hne, hg, h⟩)
    by_cases ht : t = .gray
    · have hf : f ≠ .rgb := fun h => hb (Or.inl (Or.inl h))
      have : cvtColor cv f .rgb im.px = im.px.map (converted cv f .rgb) := by
        have h1 : ¬ (Space.rgb = Space.gray) := by decide
        unfold cvtColor
        rw [if_neg h1]
        refine List.map_congr_left (fun p _ => ?_)
        rw [converted, if_neg hf, if_neg h1, if_pos (Or.inr (show Space.rgb.Basic from Or.inl rfl))]
      simp [ho, ht, this]
    · simp [ho, ht]

theorem convert_colour (cv : Cv) (hcv : cv.Bytes) (im : Img) (t f : Space) (hc : im.Colour) (hne : f ≠ t) (hg : f ≠ .gray) :
    (convert cv im t f).result.Colour := by
  obtain ⟨c1, c2, c3, c4, c5, c6, c7⟩ := hc
  have hp := convert_result cv im t f hne hg
  rw [convert_shape, hp]
  refine ⟨c1, c2, c3, c4, c5, by simpa using c6, ?_⟩
  intro q hq
  obtain ⟨p, hp, rfl⟩ := List.mem_map.1 hq
  exact converted_bytes cv hcv f t p (c7 p hp)

theorem map_same (cv : Cv) (l : List Px) (f t : Space) (h : f = t) : l.map (converted cv f t) = l := by
  have : l.map (converted cv f t) = l.map id := List.map_congr_left (fun p _ => by rw [converted, if_pos h]; rfl)
  rw [this, List.map_id]

theorem comps_nat (l : List Px) : ∀ v ∈ comps l, ∃ n : Nat, v = n := by
  induction l with
  | nil => simp [comps]
  | cons p l ih =>
    intro v hv
    rw [comps] at hv
    rcases List.mem_cons.1 hv with rfl | hv
    · exact ⟨_, rfl⟩
    rcases List.mem_cons.1 hv with rfl | hv
    · exact ⟨_, rfl⟩
    rcases List.mem_cons.1 hv with rfl | hv
    · exact ⟨_, rfl⟩
    exact ih v hv

theorem faded_same (alpha v : ℚ) (h : ∃ n : Nat, v = n) : faded alpha v v = v := by
  obtain ⟨n, rfl⟩ := h
  unfold faded
  split
  · rfl
  split
  · rfl
  have : Blend.mix alpha n n = ((n : Int) : ℚ) := by rw [Blend.mix]; push_cast; ring
  rw [this, Imgaug.Props.npRound_int]
  push_cast; rfl

theorem zipWith_right (g : ℚ → ℚ → ℚ) (a b : List ℚ) (hl : a.length = b.length)
    (h : ∀ (i : Nat) (x y : ℚ), a[i]? = some x → b[i]? = some y → g x y = y) : List.zipWith g a b = b := by
  refine List.ext_getElem? (fun i => ?_)
  rw [List.getElem?_zipWith]
  by_cases hi : i < b.length
  · have e1 := List.getElem?_eq_getElem hi
    have e2 := List.getElem?_eq_getElem (by omega : i < a.length)
    rw [e1, e2]
    simp only [Option.some.injEq]
    exact h i _ _ e2 e1
  · rw [List.getElem?_eq_none (by omega : b.length ≤ i), List.getElem?_eq_none (by omega : a.length ≤ i)]

/-- A conversion between RGB and BGR that swaps the components, and one to grayscale that takes the second component. -/
def swap : Cv := ⟨fun f t p => if f.Basic ∧ t.Basic then (p.2.2 % 256, p.2.1 % 256, p.1 % 256) else (0, 0, 0), fun _ p => p.2.1 % 256⟩

theorem swap_bytes : swap.Bytes := by
  refine ⟨fun f t p => ?_, fun f p => ?_⟩
  · unfold swap; dsimp only; split
    · exact ⟨by dsimp only; omega, by dsimp only; omega, by dsimp only; omega⟩
    · exact ⟨by dsimp only; omega, by dsimp only; omega, by dsimp only; omega⟩
  · unfold swap; dsimp only; omega

/-- One pixel. -/
def dot (owned : Bool) : Img := ⟨⟨.u, 1⟩, false, 1, 1, 3, owned, [(200, 100, 0)]⟩

theorem dot_colour (owned : Bool) : (dot owned).Colour := by
  refine ⟨rfl, rfl, rfl, by simp [dot], by simp [dot], rfl, ?_⟩
  intro p hp
  simp only [dot, List.mem_singleton] at hp
  subst hp
  exact ⟨by decide, by decide, by decide⟩

end Imgaug.Color
