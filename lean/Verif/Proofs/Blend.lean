import Verif.Spec.Blend
import Verif.Proofs.AddMul
/-! Helpers for Props/Blend.lean. -/
namespace Imgaug.Blend
open Imgaug Imgaug.Dtypes Imgaug.AddMul

theorem combine_length (f : Nat → ℚ → ℚ → ℚ) (fg bg : List ℚ) (h : fg.length = bg.length) : (combine f fg bg).length = fg.length := by
  simp [combine, h]

theorem combine_get (f : Nat → ℚ → ℚ → ℚ) (fg bg : List ℚ) (i : Nat) (x y : ℚ) (hx : fg[i]? = some x) (hy : bg[i]? = some y) :
    (combine f fg bg)[i]? = some (f i x y) := by
  have hz : (fg.zip bg)[i]? = some (x, y) := List.getElem?_zip_eq_some.2 ⟨hx, hy⟩
  simp [combine, List.getElem?_zipIdx, hz]

theorem all_iff (l : List ℚ) (p : ℚ → Prop) [DecidablePred p] : (l.all (fun x => decide (p x)) = true) ↔ ∀ x ∈ l, p x := by
  simp

theorem promote_larger (a b : DType) (ha : a ∈ all) (hb : b ∈ all) (hk : a.kind = b.kind) : promote a b = larger a b := by
  revert hk; revert hb; revert b; revert ha; revert a; decide +kernel

theorem larger_range (a b : DType) (ha : a ∈ all) (hb : b ∈ all) (hk : a.kind = b.kind) :
    (larger a b).kind = a.kind ∧ larger a b ∈ all ∧ lo (larger a b) ≤ lo a ∧ lo (larger a b) ≤ lo b ∧ hi a ≤ hi (larger a b) ∧
      hi b ≤ hi (larger a b) := by
  revert hk; revert hb; revert b; revert ha; revert a; decide +kernel

theorem mix_bounds (a f b : ℚ) (h0 : 0 ≤ a) (h1 : a ≤ 1) : min f b ≤ mix a f b ∧ mix a f b ≤ max f b := by
  unfold mix
  constructor
  · rcases le_total f b with h | h
    · rw [min_eq_left h]; nlinarith
    · rw [min_eq_right h]; nlinarith
  · rcases le_total f b with h | h
    · rw [max_eq_right h]; nlinarith
    · rw [max_eq_left h]; nlinarith

theorem restored_mix (d da db : DType) (a f b : ℚ) (h0 : 0 ≤ a) (h1 : a ≤ 1) (hf : Holds da f) (hb : Holds db b)
    (l1 : lo d ≤ lo da) (l2 : lo d ≤ lo db) (u1 : hi da ≤ hi d) (u2 : hi db ≤ hi d) (hk : d.kind = da.kind) :
    restored d ((f - b) * a + b) = nearest da (mix a f b) := by
  have he : (f - b) * a + b = mix a f b := by unfold mix; ring
  rw [he]
  have hm := mix_bounds a f b h0 h1
  unfold restored nearest
  rw [hk]
  split
  · rfl
  · have q1 : ((lo d : Int) : ℚ) ≤ lo da := by exact_mod_cast l1
    have q2 : ((lo d : Int) : ℚ) ≤ lo db := by exact_mod_cast l2
    have q3 : ((hi da : Int) : ℚ) ≤ hi d := by exact_mod_cast u1
    have q4 : ((hi db : Int) : ℚ) ≤ hi d := by exact_mod_cast u2
    have hlo : (lo d : ℚ) ≤ mix a f b := le_trans (le_min (le_trans q1 hf.1) (le_trans q2 hb.1)) hm.1
    have hhi : mix a f b ≤ hi d := le_trans hm.2 (max_le (le_trans hf.2.1 q3) (le_trans hb.2.1 q4))
    have := npRound_holds d _ hlo hhi
    exact astype_int d _ this.1 this.2

/-- The alphas after the shape checks. -/
theorem norm_documented (fg : Img) (hv : fg.vals.length = fg.h * fg.w * fg.c) (a : Alpha) (ha : Documented fg a) :
    ∃ na, normAlpha fg a = some na ∧ na.vals = a.vals ∧
      (∃ al, broadcast fg na = some al ∧ ∀ i < fg.vals.length, al i = alphaAt fg a i) ∧
      (a.vals.length ≠ 1 → ¬ a.IsMap → na.shape = [1, 1, fg.c] ∧ ∀ i, a.vals.getD (i % fg.c) 0 = alphaAt fg a i) ∧
      (a.IsMap → na = a) := by
  cases ha with
  | number shape x =>
    refine ⟨⟨shape, [x]⟩, by simp [normAlpha], rfl, ⟨fun _ => x, by simp [broadcast], fun i _ => by simp [alphaAt]⟩,
      fun h => absurd rfl h, fun _ => rfl⟩
  | channels l h =>
    by_cases h1 : l.length = 1
    · refine ⟨⟨[fg.c], l⟩, by simp [normAlpha, h1], rfl, ⟨fun _ => l.getD 0 0, by simp [broadcast, h1], fun i _ => by
        simp [alphaAt, h1]⟩, fun h => absurd h1 h, fun _ => rfl⟩
    · refine ⟨⟨[1, 1, fg.c], l⟩, by simp [normAlpha, h, (h ▸ h1 : ¬ fg.c = 1)], rfl, ?_, ?_, ?_⟩
      · by_cases h2 : [1, 1, fg.c] = [fg.h, fg.w, fg.c]
        · refine ⟨fun i => l.getD i 0, by rw [broadcast]; simp only; rw [if_neg h1, if_pos h2], fun i hi => ?_⟩
          have : i < fg.c := by
            simp only [List.cons.injEq] at h2
            rw [hv, ← h2.1, ← h2.2.1] at hi; omega
          simp [alphaAt, h1, Nat.mod_eq_of_lt this]
        · refine ⟨fun i => l.getD (i % fg.c) 0, ?_, fun i _ => by simp [alphaAt, h1]⟩
          rw [broadcast]; simp only
          rw [if_neg h1, if_neg h2, if_neg, if_pos trivial]
          rintro (h3 | h3)
          · simp at h3
          · simp only [List.cons.injEq, and_true] at h3
            exact h1 (by rw [h]; exact h3.2.2)
      · intro _ _
        exact ⟨rfl, fun i => by simp [alphaAt, h1]⟩
      · rintro ⟨hc, _⟩
        simp at hc
  | map2 l h =>
    by_cases h1 : l.length = 1
    · exact ⟨⟨[fg.h, fg.w], l⟩, by simp [normAlpha, h1], rfl, ⟨fun _ => l.getD 0 0, by simp [broadcast, h1], fun i _ => by
        simp [alphaAt, h1]⟩, fun h => absurd h1 h, fun _ => rfl⟩
    · refine ⟨⟨[fg.h, fg.w], l⟩, by simp [normAlpha, h1], rfl, ⟨fun i => l.getD (i / fg.c) 0, by simp [broadcast, h1], fun i _ => by
        simp [alphaAt, h1]⟩, fun _ hm => absurd ⟨by simp, h1⟩ hm, fun _ => rfl⟩
  | map1 l h =>
    by_cases h1 : l.length = 1
    · exact ⟨⟨[fg.h, fg.w, 1], l⟩, by simp [normAlpha, h1], rfl, ⟨fun _ => l.getD 0 0, by simp [broadcast, h1], fun i _ => by
        simp [alphaAt, h1]⟩, fun h => absurd h1 h, fun _ => rfl⟩
    · refine ⟨⟨[fg.h, fg.w, 1], l⟩, by simp [normAlpha, h1], rfl, ?_, fun _ hm => absurd ⟨by simp, h1⟩ hm, fun _ => rfl⟩
      by_cases hc : 1 = fg.c
      · exact ⟨fun i => l.getD i 0, by simp [broadcast, h1, ← hc], fun i _ => by simp [alphaAt, h1, ← hc]⟩
      · exact ⟨fun i => l.getD (i / fg.c) 0, by simp [broadcast, h1, hc], fun i _ => by simp [alphaAt, h1, hc]⟩
  | map3 l h =>
    by_cases h1 : l.length = 1
    · exact ⟨⟨[fg.h, fg.w, fg.c], l⟩, by simp [normAlpha, h1], rfl, ⟨fun _ => l.getD 0 0, by simp [broadcast, h1], fun i _ => by
        simp [alphaAt, h1]⟩, fun h => absurd h1 h, fun _ => rfl⟩
    · exact ⟨⟨[fg.h, fg.w, fg.c], l⟩, by simp [normAlpha, h1], rfl, ⟨fun i => l.getD i 0, by simp [broadcast, h1], fun i _ => by
        simp [alphaAt, h1]⟩, fun _ hm => absurd ⟨by simp, h1⟩ hm, fun _ => rfl⟩

/-- The alpha of a component is one of the alphas. -/
theorem alphaAt_mem (fg : Img) (hv : fg.vals.length = fg.h * fg.w * fg.c) (a : Alpha) (ha : Documented fg a) (i : Nat)
    (hi : i < fg.vals.length) : alphaAt fg a i ∈ a.vals := by
  have hc : 0 < fg.c := by
    rcases Nat.eq_zero_or_pos fg.c with h | h
    · rw [hv, h] at hi; omega
    · exact h
  have hq : i / fg.c < fg.h * fg.w := by
    rw [Nat.div_lt_iff_lt_mul hc, ← hv]; exact hi
  unfold alphaAt
  by_cases h1 : a.vals.length = 1
  · rw [if_pos h1]; exact getD_mem _ _ (by omega)
  · rw [if_neg h1]
    cases ha with
    | number shape x => exact absurd rfl h1
    | channels l h =>
      rw [if_pos (by simp)]
      exact getD_mem _ _ (by rw [h]; exact Nat.mod_lt _ hc)
    | map2 l h =>
      rw [if_neg (by simp), if_neg (by simp)]
      exact getD_mem _ _ (by rw [h]; exact hq)
    | map1 l h =>
      rw [if_neg (by simp)]
      split
      · rename_i h2
        simp only [List.cons.injEq, true_and, and_true] at h2
        refine getD_mem _ _ ?_
        show i < l.length
        rw [h]
        rw [hv, ← h2] at hi
        omega
      · exact getD_mem _ _ (by rw [h]; exact hq)
    | map3 l h =>
      rw [if_neg (by simp), if_pos rfl]
      refine getD_mem _ _ ?_
      show i < l.length
      rw [h, ← hv]; exact hi

theorem saturate_byte (x : ℚ) (h0 : 0 ≤ x) (h1 : x ≤ 255) : saturate x = npRound x := by
  unfold saturate
  have a : (0 : ℚ) ≤ npRound x := by exact_mod_cast Props.npRound_nonneg h0
  have b : ((npRound x : Int) : ℚ) ≤ 255 := by exact_mod_cast Props.npRound_le (n := 255) (by exact_mod_cast h1)
  rw [max_eq_left a, min_eq_left b]

theorem weighted_mix (a f b : ℚ) (h0 : 0 ≤ a) (h1 : a ≤ 1) (hf : Holds ⟨.u, 1⟩ f) (hb : Holds ⟨.u, 1⟩ b) :
    weighted a f b = nearest ⟨.u, 1⟩ (mix a f b) := by
  have he : f * a + b * (1 - a) = mix a f b := by unfold mix; ring
  unfold weighted nearest
  rw [he, if_neg (by decide)]
  have hm := mix_bounds a f b h0 h1
  have q1 : (0 : ℚ) ≤ f := by have := hf.1; simpa [lo] using this
  have q2 : (0 : ℚ) ≤ b := by have := hb.1; simpa [lo] using this
  have q3 : f ≤ 255 := by have := hf.2.1; norm_num [hi] at this; exact this
  have q4 : b ≤ 255 := by have := hb.2.1; norm_num [hi] at this; exact this
  exact saturate_byte _ (le_trans (le_min q1 q2) hm.1) (le_trans hm.2 (max_le q3 q4))

theorem byte_range (f : ℚ) (hf : Holds ⟨.u, 1⟩ f) : 0 ≤ f ∧ f ≤ 255 ∧ ∃ n : Int, f = n := by
  refine ⟨by have := hf.1; simpa [lo] using this, ?_, hf.2.2 (by decide)⟩
  have := hf.2.1; norm_num [hi] at this; exact this

theorem holds_byte (n : Int) (h0 : 0 ≤ n) (h1 : n ≤ 255) : Holds ⟨.u, 1⟩ (n : ℚ) := by
  refine ⟨by simpa [lo] using h0, ?_, fun _ => ⟨n, rfl⟩⟩
  show (n : ℚ) ≤ ((255 : Int) : ℚ)
  exact_mod_cast h1

theorem saturate_int (x : ℚ) : ∃ n : Int, saturate x = n ∧ 0 ≤ n ∧ n ≤ 255 := by
  refine ⟨min (max (npRound x) 0) 255, by unfold saturate; push_cast; rfl, ?_, min_le_right _ _⟩
  exact le_min (le_max_right _ _) (by norm_num)

theorem mulAdd_mix (a f b : ℚ) (h0 : 0 ≤ a) (h1 : a ≤ 1) (hf : Holds ⟨.u, 1⟩ f) (hb : Holds ⟨.u, 1⟩ b) :
    Holds ⟨.u, 1⟩ (mulAdd a f b) ∧ |mulAdd a f b - mix a f b| ≤ 1 ∧ (a = 1 → mulAdd a f b = f) ∧ (a = 0 → mulAdd a f b = b) := by
  obtain ⟨f0, f1, nf, rfl⟩ := byte_range f hf
  obtain ⟨b0, b1, nb, rfl⟩ := byte_range b hb
  have e1 := saturate_byte ((nf : ℚ) * a) (by positivity) (by nlinarith)
  have e2 := saturate_byte ((nb : ℚ) * (1 - a)) (mul_nonneg b0 (by linarith)) (by nlinarith)
  have hm := mix_bounds a nf nb h0 h1
  have m0 : 0 ≤ mix a nf nb := le_trans (le_min f0 b0) hm.1
  have m1 : mix a nf nb ≤ 255 := le_trans hm.2 (max_le f1 b1)
  refine ⟨?_, ?_, ?_, ?_⟩
  · obtain ⟨n, hn, n0, n1⟩ := saturate_int (saturate ((nf : ℚ) * a) + saturate ((nb : ℚ) * (1 - a)))
    unfold mulAdd
    rw [hn]; exact holds_byte n n0 n1
  · unfold mulAdd
    rw [e1, e2]
    have d1 := Props.npRound_dist ((nf : ℚ) * a)
    have d2 := Props.npRound_dist ((nb : ℚ) * (1 - a))
    have p1 : (0 : ℚ) ≤ npRound ((nf : ℚ) * a) := by exact_mod_cast Props.npRound_nonneg (by positivity)
    have p2 : (0 : ℚ) ≤ npRound ((nb : ℚ) * (1 - a)) := by exact_mod_cast Props.npRound_nonneg (mul_nonneg b0 (by linarith))
    have hs : saturate ((npRound ((nf : ℚ) * a) : ℚ) + (npRound ((nb : ℚ) * (1 - a)) : ℚ)) =
        min ((npRound ((nf : ℚ) * a) : ℚ) + (npRound ((nb : ℚ) * (1 - a)) : ℚ)) 255 := by
      unfold saturate
      rw [← Int.cast_add, Props.npRound_int]
      push_cast
      rw [max_eq_left (by linarith)]
    rw [hs]
    have he : mix a nf nb = (nf : ℚ) * a + (nb : ℚ) * (1 - a) := by unfold mix; ring
    rw [abs_le] at d1 d2 ⊢
    constructor
    · rcases min_choice ((npRound ((nf : ℚ) * a) : ℚ) + (npRound ((nb : ℚ) * (1 - a)) : ℚ)) 255 with h | h <;> rw [h] <;> linarith
    · have := min_le_left ((npRound ((nf : ℚ) * a) : ℚ) + (npRound ((nb : ℚ) * (1 - a)) : ℚ)) 255
      linarith
  · rintro rfl
    unfold mulAdd
    have h2 : saturate ((nb : ℚ) * (1 - 1)) = 0 := by
      rw [show (nb : ℚ) * (1 - 1) = ((0 : Int) : ℚ) by simp, saturate_byte _ (by simp) (by norm_num), Props.npRound_int]; simp
    rw [h2, mul_one, add_zero, saturate_byte _ f0 f1, Props.npRound_int, saturate_byte _ f0 f1, Props.npRound_int]
  · rintro rfl
    unfold mulAdd
    have h2 : saturate ((nf : ℚ) * 0) = 0 := by
      rw [show (nf : ℚ) * 0 = ((0 : Int) : ℚ) by simp, saturate_byte _ (by simp) (by norm_num), Props.npRound_int]; simp
    rw [h2, sub_zero, mul_one, zero_add, saturate_byte _ b0 b1, Props.npRound_int, saturate_byte _ b0 b1, Props.npRound_int]

theorem weighted_facts (a f b : ℚ) (h0 : 0 ≤ a) (h1 : a ≤ 1) (hf : Holds ⟨.u, 1⟩ f) (hb : Holds ⟨.u, 1⟩ b) :
    Holds ⟨.u, 1⟩ (weighted a f b) ∧ |weighted a f b - mix a f b| ≤ 1 ∧ (a = 1 → weighted a f b = f) ∧
      (a = 0 → weighted a f b = b) := by
  have hw := weighted_mix a f b h0 h1 hf hb
  obtain ⟨f0, f1, nf, rfl⟩ := byte_range f hf
  obtain ⟨b0, b1, nb, rfl⟩ := byte_range b hb
  refine ⟨?_, ?_, ?_, ?_⟩
  · obtain ⟨n, hn, n0, n1⟩ := saturate_int ((nf : ℚ) * a + nb * (1 - a))
    unfold weighted
    rw [hn]; exact holds_byte n n0 n1
  · rw [hw, nearest, if_neg (by decide)]
    exact le_trans (Props.npRound_dist _) (by norm_num)
  · rintro rfl
    rw [hw, nearest, if_neg (by decide), mix]
    simp [Props.npRound_int]
  · rintro rfl
    rw [hw, nearest, if_neg (by decide), mix]
    simp [Props.npRound_int]

theorem map_alpha (fg : Img) (hv : fg.vals.length = fg.h * fg.w * fg.c) (a : Alpha) (ha : Documented fg a) (hm : a.IsMap) (i : Nat)
    (hi : i < fg.vals.length) :
    (a.shape = [1, 1, fg.c] → a.vals.getD (i % fg.c) 0 = alphaAt fg a i) ∧
    (alphaChannels a = 1 → a.vals.getD (i / fg.c) 0 = alphaAt fg a i) ∧
    tiled a (alphaChannels a) fg.c i = alphaAt fg a i ∧
    (if alphaChannels a = fg.c then a.vals.length else a.vals.length * fg.c) = fg.vals.length := by
  obtain ⟨h2, h1⟩ := hm
  cases ha with
  | number shape x => exact absurd rfl h1
  | channels l h => simp at h2
  | map2 l h =>
    have h1 : l.length ≠ 1 := h1
    have hA : alphaAt fg ⟨[fg.h, fg.w], l⟩ i = l.getD (i / fg.c) 0 := by simp [alphaAt, h1]
    have hC : alphaChannels ⟨[fg.h, fg.w], l⟩ = 1 := by simp [alphaChannels]
    rw [hA, hC, tiled]
    refine ⟨by simp, fun _ => rfl, ?_, ?_⟩
    · split
      · rename_i h'; rw [← h', Nat.div_one]
      · simp [Nat.mod_one]
    · split
      · rename_i h'; rw [hv, h, ← h', Nat.mul_one]
      · rw [hv, h]
  | map1 l h =>
    have h1 : l.length ≠ 1 := h1
    have hA : alphaAt fg ⟨[fg.h, fg.w, 1], l⟩ i = l.getD (i / fg.c) 0 := by
      by_cases hc : 1 = fg.c
      · simp [alphaAt, h1, ← hc]
      · simp [alphaAt, h1, hc]
    have hC : alphaChannels ⟨[fg.h, fg.w, 1], l⟩ = 1 := by simp [alphaChannels]
    rw [hA, hC, tiled]
    refine ⟨?_, fun _ => rfl, ?_, ?_⟩
    · intro hs
      simp only [List.cons.injEq] at hs
      exfalso
      apply h1
      rw [h, hs.1, hs.2.1]
    · split
      · rename_i h'; rw [← h', Nat.div_one]
      · simp [Nat.mod_one]
    · split
      · rename_i h'; rw [hv, h, ← h', Nat.mul_one]
      · rw [hv, h]
  | map3 l h =>
    have h1 : l.length ≠ 1 := h1
    have hA : alphaAt fg ⟨[fg.h, fg.w, fg.c], l⟩ i = l.getD i 0 := by simp [alphaAt, h1]
    have hC : alphaChannels ⟨[fg.h, fg.w, fg.c], l⟩ = fg.c := by simp [alphaChannels]
    rw [hA, hC, tiled, if_pos rfl, if_pos rfl]
    refine ⟨?_, ?_, rfl, by rw [hv, h]⟩
    · intro hs
      simp only [List.cons.injEq, and_true] at hs
      rw [hv, hs.1, hs.2, Nat.one_mul] at hi
      rw [Nat.mod_eq_of_lt hi]
    · intro h'
      rw [h', Nat.div_one]

end Imgaug.Blend
