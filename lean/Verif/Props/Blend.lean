import Verif.Proofs.Blend
/-! Property C69: alpha blending. -/
namespace Imgaug.Blend.Props
open Imgaug Imgaug.Dtypes Imgaug.AddMul Imgaug.Blend

/-- C69 (partial): blending two images with documented alphas in `[0, 1]`, except for maps of alphas for uint8 images (see
`blend_uint8_maps_partial`) and for bool images (see `blend_bool_partial`): it succeeds, and each component is the documented
mixture `a * fg + (1 - a) * bg`, rounded to the nearest integer for integer dtypes. If all alphas are at least `1 - eps`, it is the foreground,
otherwise if all are at most `eps`, it is the background. The array of the background is unchanged. The dtype is the larger one of the two (but
see `blend_dtype_depends_on_alpha`). -/
theorem blend_partial (eps : ℚ) (fg bg : Img) (hb : Blendable fg bg) (hk : fg.dt.kind ≠ .b) (a : Alpha) (ha : Documented fg a)
    (hr : ∀ x ∈ a.vals, 0 ≤ x ∧ x ≤ 1) (hm : ¬ (fg.dt = ⟨.u, 1⟩ ∧ bg.dt = ⟨.u, 1⟩ ∧ a.IsMap)) (hne : fg.vals ≠ []) :
    ∃ o, blend eps fg bg a = some o ∧ o.vals.length = fg.vals.length ∧ o.background = bg.vals ∧
      o.dt = (if ∀ x ∈ a.vals, 1 - eps ≤ x then fg.dt else if ∀ x ∈ a.vals, x ≤ eps then bg.dt else larger fg.dt bg.dt) ∧
      ∀ (i : Nat) (f b : ℚ), fg.vals[i]? = some f → bg.vals[i]? = some b →
        o.vals[i]? = some (if ∀ x ∈ a.vals, 1 - eps ≤ x then f else if ∀ x ∈ a.vals, x ≤ eps then b
          else nearest fg.dt (mix (alphaAt fg a i) f b)) := by
  obtain ⟨⟨fd, fl, ff, fv⟩, ⟨bd, bl, bf, bv⟩, e1, e2, e3, e4, ek, n1, n2⟩ := hb
  obtain ⟨na, hna, hvals, ⟨al, hal, hali⟩, hch, -⟩ := norm_documented fg fl a ha
  have hlen : fg.vals.length = bg.vals.length := by rw [fl, bl, e2, e3, e4]
  have hlt : ∀ (i : Nat) (f : ℚ), fg.vals[i]? = some f → i < fg.vals.length := fun i f h => (List.getElem?_eq_some_iff.1 h).1
  have hblend : blend eps fg bg a = blendNormed eps fg bg na := by
    unfold blend
    rw [if_neg (by tauto), if_neg (by simp [ek]), if_neg (by tauto), if_neg (by simpa using hne), hna]
    rfl
  rw [hblend]
  unfold blendNormed
  by_cases h1 : ∀ x ∈ a.vals, 1 - eps ≤ x
  · rw [if_pos ⟨hk, by rw [hvals]; simpa using h1⟩]
    refine ⟨_, rfl, rfl, rfl, by rw [if_pos h1], fun i f b hf _ => ?_⟩
    rw [if_pos h1]; exact hf
  rw [if_neg (by rw [hvals]; simpa [hk] using h1)]
  by_cases h2 : ∀ x ∈ a.vals, x ≤ eps
  · rw [if_pos ⟨hk, by rw [hvals]; simpa using h2⟩]
    refine ⟨_, rfl, hlen.symm, rfl, by rw [if_neg h1, if_pos h2], fun i f b _ hb => ?_⟩
    rw [if_neg h1, if_pos h2]; exact hb
  rw [if_neg (by rw [hvals]; simpa [hk] using h2)]
  rw [if_neg (by
    rintro ⟨h3, h4⟩
    exact h4 (hr _ (by rw [← hvals]; exact getD_mem _ _ h3)))]
  simp only [if_neg h1, if_neg h2]
  have hpl := promote_larger fg.dt bg.dt fd bd ek
  have hmem : ∀ (i : Nat) (f : ℚ), fg.vals[i]? = some f → 0 ≤ alphaAt fg a i ∧ alphaAt fg a i ≤ 1 :=
    fun i f h => hr _ (alphaAt_mem fg fl a ha i (hlt i f h))
  by_cases h8 : fg.dt = ⟨.u, 1⟩ ∧ bg.dt = ⟨.u, 1⟩
  · rw [if_pos h8]
    have hnm : ¬ a.IsMap := fun h => hm ⟨h8.1, h8.2, h⟩
    have hll : fg.dt = larger fg.dt bg.dt := by rw [h8.1, h8.2]; rfl
    unfold blendUint8
    by_cases h1' : na.vals.length = 1
    · rw [if_pos h1']
      refine ⟨_, rfl, by dsimp only; exact combine_length _ _ _ hlen, rfl, hll, fun i f b hf hb => ?_⟩
      dsimp only
      rw [combine_get _ _ _ i f b hf hb]
      have hA : na.vals.getD 0 0 = alphaAt fg a i := by
        unfold alphaAt; rw [if_pos (by rw [← hvals]; exact h1'), hvals]
      rw [hA, weighted_mix _ f b (hmem i f hf).1 (hmem i f hf).2 (h8.1 ▸ fv f (List.mem_of_getElem? hf))
        (h8.2 ▸ bv b (List.mem_of_getElem? hb)), h8.1]
    · have h1'' : a.vals.length ≠ 1 := by rw [← hvals]; exact h1'
      rw [if_neg h1', if_pos (hch h1'' hnm).1]
      refine ⟨_, rfl, by dsimp only; exact combine_length _ _ _ hlen, rfl, hll, fun i f b hf hb => ?_⟩
      dsimp only
      rw [combine_get _ _ _ i f b hf hb]
      rw [hvals, (hch h1'' hnm).2 i, weighted_mix _ f b (hmem i f hf).1 (hmem i f hf).2 (h8.1 ▸ fv f (List.mem_of_getElem? hf))
        (h8.2 ▸ bv b (List.mem_of_getElem? hb)), h8.1]
  · rw [if_neg h8, if_neg hk]
    unfold blendOther
    rw [hal, hpl]
    refine ⟨_, rfl, by dsimp only; exact combine_length _ _ _ hlen, rfl, rfl, fun i f b hf hb => ?_⟩
    dsimp only
    rw [combine_get _ _ _ i f b hf hb, hali i (hlt i f hf)]
    obtain ⟨k1, -, k3, k4, k5, k6⟩ := larger_range fg.dt bg.dt fd bd ek
    rw [restored_mix (larger fg.dt bg.dt) fg.dt bg.dt _ f b (hmem i f hf).1 (hmem i f hf).2 (fv f (List.mem_of_getElem? hf))
      (bv b (List.mem_of_getElem? hb)) k3 k4 k5 k6 k1]

/-- C69 (partial): in the cases of `blend_partial` each component lies between those of foreground and background. -/
theorem blend_between_partial (eps : ℚ) (fg bg : Img) (hb : Blendable fg bg) (hk : fg.dt.kind ≠ .b) (a : Alpha) (ha : Documented fg a)
    (hr : ∀ x ∈ a.vals, 0 ≤ x ∧ x ≤ 1) (hm : ¬ (fg.dt = ⟨.u, 1⟩ ∧ bg.dt = ⟨.u, 1⟩ ∧ a.IsMap)) (o : Out) (ho : blend eps fg bg a = some o)
    (i : Nat) (f b r : ℚ) (hf : fg.vals[i]? = some f) (hbi : bg.vals[i]? = some b) (hri : o.vals[i]? = some r) :
    min f b ≤ r ∧ r ≤ max f b := by
  have hne : fg.vals ≠ [] := by rintro h; simp [h] at hf
  obtain ⟨o', ho', -, -, -, hg⟩ := blend_partial eps fg bg hb hk a ha hr hm hne
  rw [ho] at ho'
  cases ho'
  have := hg i f b hf hbi
  rw [hri] at this
  have hr' := Option.some.inj this
  rw [hr']
  split
  · exact ⟨min_le_left _ _, le_max_left _ _⟩
  · split
    · exact ⟨min_le_right _ _, le_max_right _ _⟩
    · have hx := hr _ (alphaAt_mem fg hb.1.2.1 a ha i (List.getElem?_eq_some_iff.1 hf).1)
      have hmx := mix_bounds (alphaAt fg a i) f b hx.1 hx.2
      have hF := hb.1.2.2.2 f (List.mem_of_getElem? hf)
      have hB := hb.2.1.2.2.2 b (List.mem_of_getElem? hbi)
      unfold nearest
      split
      · exact hmx
      · rename_i hkf
        obtain ⟨n, rfl⟩ := hF.2.2 hkf
        obtain ⟨m, rfl⟩ := hB.2.2 (by rw [← hb.2.2.2.2.2.2.1]; exact hkf)
        rw [← Int.cast_min, ← Int.cast_max] at hmx ⊢
        exact ⟨by exact_mod_cast Imgaug.Props.le_npRound hmx.1, by exact_mod_cast Imgaug.Props.npRound_le hmx.2⟩

/-- C69 (partial): maps of alphas for uint8 images: foreground and background are multiplied and rounded separately, so each component is the
documented mixture up to an error of one. It may lie outside of the interval between foreground and background, see
`blend_maps_change_equal_images`. Where the alpha is 0 or 1, the result is exact. -/
theorem blend_uint8_maps_partial (eps : ℚ) (fg bg : Img) (hb : Blendable fg bg) (h8 : fg.dt = ⟨.u, 1⟩ ∧ bg.dt = ⟨.u, 1⟩) (a : Alpha)
    (ha : Documented fg a) (hr : ∀ x ∈ a.vals, 0 ≤ x ∧ x ≤ 1) (hm : a.IsMap) (hne : fg.vals ≠ []) :
    ∃ o, blend eps fg bg a = some o ∧ o.vals.length = fg.vals.length ∧ o.dt = ⟨.u, 1⟩ ∧
      ∀ (i : Nat) (f b : ℚ), fg.vals[i]? = some f → bg.vals[i]? = some b → ∃ r, o.vals[i]? = some r ∧ Holds ⟨.u, 1⟩ r ∧
        ((∀ x ∈ a.vals, 1 - eps ≤ x) → r = f) ∧
        (¬ (∀ x ∈ a.vals, 1 - eps ≤ x) → (∀ x ∈ a.vals, x ≤ eps) → r = b) ∧
        (¬ (∀ x ∈ a.vals, 1 - eps ≤ x) → ¬ (∀ x ∈ a.vals, x ≤ eps) →
          |r - mix (alphaAt fg a i) f b| ≤ 1 ∧ (alphaAt fg a i = 1 → r = f) ∧ (alphaAt fg a i = 0 → r = b)) := by
  obtain ⟨⟨fd, fl, ff, fv⟩, ⟨bd, bl, bf, bv⟩, e1, e2, e3, e4, ek, n1, n2⟩ := hb
  obtain ⟨na, hna, hvals, -, -, hmap⟩ := norm_documented fg fl a ha
  obtain rfl := hmap hm
  have hlen : fg.vals.length = bg.vals.length := by rw [fl, bl, e2, e3, e4]
  have hlt : ∀ (i : Nat) (f : ℚ), fg.vals[i]? = some f → i < fg.vals.length := fun i f h => (List.getElem?_eq_some_iff.1 h).1
  have hblend : blend eps fg bg na = blendNormed eps fg bg na := by
    unfold blend
    rw [if_neg (by tauto), if_neg (by simp [ek]), if_neg (by tauto), if_neg (by simpa using hne), hna]
    rfl
  have hk : fg.dt.kind ≠ .b := by rw [h8.1]; decide
  have hF : ∀ (i : Nat) (f : ℚ), fg.vals[i]? = some f → Holds ⟨.u, 1⟩ f := fun i f h => h8.1 ▸ fv f (List.mem_of_getElem? h)
  have hB : ∀ (i : Nat) (f : ℚ), bg.vals[i]? = some f → Holds ⟨.u, 1⟩ f := fun i f h => h8.2 ▸ bv f (List.mem_of_getElem? h)
  have hmem : ∀ (i : Nat) (f : ℚ), fg.vals[i]? = some f → 0 ≤ alphaAt fg na i ∧ alphaAt fg na i ≤ 1 :=
    fun i f h => hr _ (alphaAt_mem fg fl na ha i (hlt i f h))
  rw [hblend]
  unfold blendNormed
  by_cases h1 : ∀ x ∈ na.vals, 1 - eps ≤ x
  · rw [if_pos ⟨hk, by simpa using h1⟩]
    exact ⟨_, rfl, rfl, h8.1, fun i f b hf _ => ⟨f, hf, hF i f hf, fun _ => rfl, fun h => absurd h1 h, fun h => absurd h1 h⟩⟩
  rw [if_neg (by simpa [hk] using h1)]
  by_cases h2 : ∀ x ∈ na.vals, x ≤ eps
  · rw [if_pos ⟨hk, by simpa using h2⟩]
    exact ⟨_, rfl, hlen.symm, h8.2, fun i f b _ hb => ⟨b, hb, hB i b hb, fun h => absurd h h1, fun _ _ => rfl, fun _ h => absurd h2 h⟩⟩
  rw [if_neg (by simpa [hk] using h2)]
  rw [if_neg (by
    rintro ⟨h3, h4⟩
    exact h4 (hr _ (getD_mem _ _ h3))), if_pos h8]
  have fin : ∀ (g : Nat → ℚ → ℚ → ℚ) (bg' : List ℚ),
      (∀ (i : Nat) (f b : ℚ), fg.vals[i]? = some f → bg.vals[i]? = some b → g i f b = mulAdd (alphaAt fg na i) f b ∨
        g i f b = weighted (alphaAt fg na i) f b) →
      ∃ o, some (⟨fg.dt, combine g fg.vals bg.vals, bg'⟩ : Out) = some o ∧ o.vals.length = fg.vals.length ∧ o.dt = ⟨.u, 1⟩ ∧
      ∀ (i : Nat) (f b : ℚ), fg.vals[i]? = some f → bg.vals[i]? = some b → ∃ r, o.vals[i]? = some r ∧ Holds ⟨.u, 1⟩ r ∧
        ((∀ x ∈ na.vals, 1 - eps ≤ x) → r = f) ∧
        (¬ (∀ x ∈ na.vals, 1 - eps ≤ x) → (∀ x ∈ na.vals, x ≤ eps) → r = b) ∧
        (¬ (∀ x ∈ na.vals, 1 - eps ≤ x) → ¬ (∀ x ∈ na.vals, x ≤ eps) →
          |r - mix (alphaAt fg na i) f b| ≤ 1 ∧ (alphaAt fg na i = 1 → r = f) ∧ (alphaAt fg na i = 0 → r = b)) := by
    intro g bg' hg
    refine ⟨_, rfl, by dsimp only; exact combine_length _ _ _ hlen, h8.1, fun i f b hf hb => ⟨g i f b, ?_, ?_⟩⟩
    · dsimp only
      exact combine_get _ _ _ i f b hf hb
    · rcases hg i f b hf hb with h | h
      · rw [h]
        obtain ⟨k1, k2, k3, k4⟩ := mulAdd_mix (alphaAt fg na i) f b (hmem i f hf).1 (hmem i f hf).2 (hF i f hf) (hB i b hb)
        exact ⟨k1, fun h => absurd h h1, fun _ h => absurd h h2, fun _ _ => ⟨k2, k3, k4⟩⟩
      · rw [h]
        obtain ⟨k1, k2, k3, k4⟩ := weighted_facts (alphaAt fg na i) f b (hmem i f hf).1 (hmem i f hf).2 (hF i f hf) (hB i b hb)
        exact ⟨k1, fun h => absurd h h1, fun _ h => absurd h h2, fun _ _ => ⟨k2, k3, k4⟩⟩
  unfold blendUint8
  rw [if_neg hm.2]
  by_cases hs : na.shape = [1, 1, fg.c]
  · rw [if_pos hs]
    refine fin _ _ (fun i f b hf _ => Or.inr ?_)
    rw [(map_alpha fg fl na ha hm i (hlt i f hf)).1 hs]
  · rw [if_neg hs]
    unfold elementwise
    by_cases hc : alphaChannels na = 1 ∧ fg.h * fg.w ≥ 64 * 64
    · rw [if_pos hc]
      refine fin _ _ (fun i f b hf _ => Or.inl ?_)
      rw [(map_alpha fg fl na ha hm i (hlt i f hf)).2.1 hc.1]
    · rw [if_neg hc, if_pos (map_alpha fg fl na ha hm 0 (by
        rcases Nat.eq_zero_or_pos fg.vals.length with h | h
        · exact absurd (List.length_eq_zero_iff.1 h) hne
        · exact h)).2.2.2]
      refine fin _ _ (fun i f b hf _ => Or.inl ?_)
      rw [(map_alpha fg fl na ha hm i (hlt i f hf)).2.2.1]

/-- C69 (partial): bool images: a component is true iff the mixture is larger than one half. There is no tolerance `eps`. -/
theorem blend_bool_partial (eps : ℚ) (fg bg : Img) (hb : Blendable fg bg) (hk : fg.dt.kind = .b) (a : Alpha) (ha : Documented fg a)
    (hr : ∀ x ∈ a.vals, 0 ≤ x ∧ x ≤ 1) (hne : fg.vals ≠ []) :
    ∃ o, blend eps fg bg a = some o ∧ o.vals.length = fg.vals.length ∧ o.background = bg.vals ∧ o.dt = ⟨.b, 1⟩ ∧
      ∀ (i : Nat) (f b : ℚ), fg.vals[i]? = some f → bg.vals[i]? = some b →
        o.vals[i]? = some (if mix (alphaAt fg a i) f b > 1 / 2 then 1 else 0) := by
  obtain ⟨⟨fd, fl, ff, fv⟩, ⟨bd, bl, bf, bv⟩, e1, e2, e3, e4, ek, n1, n2⟩ := hb
  obtain ⟨na, hna, hvals, ⟨al, hal, hali⟩, -, -⟩ := norm_documented fg fl a ha
  have hlen : fg.vals.length = bg.vals.length := by rw [fl, bl, e2, e3, e4]
  have hblend : blend eps fg bg a = blendNormed eps fg bg na := by
    unfold blend
    rw [if_neg (by tauto), if_neg (by simp [ek]), if_neg (by tauto), if_neg (by simpa using hne), hna]
    rfl
  rw [hblend]
  unfold blendNormed
  rw [if_neg (by tauto), if_neg (by tauto)]
  rw [if_neg (by
    rintro ⟨h3, h4⟩
    exact h4 (hr _ (by rw [← hvals]; exact getD_mem _ _ h3)))]
  rw [if_neg (by rintro ⟨h, -⟩; rw [h] at hk; exact absurd hk (by decide)), if_pos hk]
  unfold blendBool blendOther
  rw [hal]
  refine ⟨_, rfl, ?_, rfl, rfl, fun i f b hf hb => ?_⟩
  · dsimp only
    rw [List.length_map]
    exact combine_length _ _ _ hlen
  · dsimp only
    rw [List.getElem?_map, combine_get _ _ _ i f b hf hb, hali i (List.getElem?_eq_some_iff.1 hf).1]
    have he : (f - b) * alphaAt fg a i + b = mix (alphaAt fg a i) f b := by unfold mix; ring
    rw [he]
    rfl

/-- C69 is false for maps of alphas for uint8 images: blending an image with itself changes it, and the result is not between foreground and
background. With one alpha for all it does not change. -/
theorem blend_maps_change_equal_images :
    let im : Img := ⟨⟨.u, 1⟩, false, 1, 2, 1, [1, 3]⟩
    Blendable im im ∧ (blend (1 / 100) im im ⟨[1, 2], [1 / 2, 1 / 2]⟩).map Out.vals = some [0, 4] ∧
      (blend (1 / 100) im im ⟨[], [1 / 2]⟩).map Out.vals = some [1, 3] := by
  have hv : Img.Valid ⟨⟨.u, 1⟩, false, 1, 2, 1, [1, 3]⟩ := by
    refine ⟨by decide, rfl, by simp, ?_⟩
    intro v hv
    simp only [List.mem_cons, List.not_mem_nil, or_false] at hv
    rcases hv with rfl | rfl
    · exact_mod_cast holds_byte 1 (by norm_num) (by norm_num)
    · exact_mod_cast holds_byte 3 (by norm_num) (by norm_num)
  exact ⟨⟨hv, hv, rfl, rfl, rfl, rfl, rfl, by decide, by decide⟩, by decide +kernel, by decide +kernel⟩

/-- C69 is false for the array of the background, of which the documentation does not say that it is changed: for maps of alphas and small
uint8 images it is overwritten, also by `blend_alpha`, which only copies the foreground. -/
theorem blend_overwrites_background :
    (blend (1 / 100) ⟨⟨.u, 1⟩, false, 1, 2, 1, [100, 100]⟩ ⟨⟨.u, 1⟩, false, 1, 2, 1, [10, 200]⟩ ⟨[1, 2], [1 / 2, 1 / 4]⟩) =
      some ⟨⟨.u, 1⟩, [55, 175], [5, 150]⟩ := by decide +kernel

/-- C69 is false for alphas outside of `[0, 1]`: only the first one is checked, and then values may wrap around (here int16). -/
theorem blend_checks_first_alpha_only :
    (blend (1 / 100) ⟨⟨.i, 2⟩, false, 1, 1, 2, [100, 30000]⟩ ⟨⟨.i, 2⟩, false, 1, 1, 2, [0, 0]⟩ ⟨[2], [1 / 2, 3]⟩).map Out.vals =
      some [50, 24464] := by decide +kernel

/-- C69 is false for the dtype: for images of different sizes of dtype it depends on the alphas. -/
theorem blend_dtype_depends_on_alpha :
    let fg : Img := ⟨⟨.u, 1⟩, false, 1, 1, 1, [100]⟩
    let bg : Img := ⟨⟨.u, 2⟩, false, 1, 1, 1, [1000]⟩
    (blend (1 / 100) fg bg ⟨[], [1]⟩).map Out.dt = some ⟨.u, 1⟩ ∧ (blend (1 / 100) fg bg ⟨[], [1 / 2]⟩).map Out.dt = some ⟨.u, 2⟩ := by
  decide +kernel

/-- C69 is false for a wrong number of alphas, which should be rejected: a list with one alpha per pixel is accepted for uint8 images and
is applied to the components in the wrong order: here the components of the first pixel get the alphas of the first two pixels. -/
theorem blend_accepts_one_alpha_per_pixel :
    (blend (1 / 100) ⟨⟨.u, 1⟩, false, 1, 3, 2, [100, 100, 100, 100, 100, 100]⟩ ⟨⟨.u, 1⟩, false, 1, 3, 2, [0, 0, 0, 0, 0, 0]⟩
        ⟨[3], [1 / 2, 1, 1 / 5]⟩).map Out.vals = some [50, 100, 20, 50, 100, 20] := by
  decide +kernel

/-- C69: what is rejected: images of different shapes or kinds of dtype, float128, maps of alphas of another size than the image; and a first
alpha outside of `[0, 1]` (unless all alphas are at least `1 - eps` or all are at most `eps`). -/
theorem blend_rejects (eps : ℚ) (fg bg : Img) (a : Alpha) :
    (¬ (fg.flat = bg.flat ∧ fg.h = bg.h ∧ fg.w = bg.w ∧ fg.c = bg.c) → blend eps fg bg a = none) ∧
    (fg.dt.kind ≠ bg.dt.kind → blend eps fg bg a = none) ∧
    (fg.dt = ⟨.f, 16⟩ ∨ bg.dt = ⟨.f, 16⟩ → blend eps fg bg a = none) ∧
    (fg.vals ≠ [] → a.vals.length ≠ 1 → (∃ x y, a.shape = [x, y] ∧ (x, y) ≠ (fg.h, fg.w)) → blend eps fg bg a = none) ∧
    (fg.vals ≠ [] → a.vals.length ≠ 1 →
      (∃ x y z, a.shape = [x, y, z] ∧ ((x, y) ≠ (fg.h, fg.w) ∨ (z ≠ fg.c ∧ z ≠ 1))) → blend eps fg bg a = none) ∧
    (∀ x l, fg.vals ≠ [] → a.vals = x :: l → (x < 0 ∨ 1 < x) → ¬ (∀ y ∈ a.vals, 1 - eps ≤ y) → ¬ (∀ y ∈ a.vals, y ≤ eps) →
      blend eps fg bg a = none) := by
  have hnorm : fg.vals ≠ [] → normAlpha fg a = none → blend eps fg bg a = none := by
    intro hne hn
    unfold blend
    split_ifs with h1 h2 h3 h4
    · rfl
    · rfl
    · exact absurd (List.length_eq_zero_iff.1 h4) hne
    · rw [hn]; rfl
    · rfl
  refine ⟨?_, ?_, ?_, ?_, ?_, ?_⟩
  · intro h
    unfold blend
    rw [if_pos h]
  · intro h
    unfold blend
    split_ifs <;> rfl
  · intro h
    unfold blend
    split_ifs <;> rfl
  · rintro hne h1 ⟨x, y, hs, hxy⟩
    refine hnorm hne ?_
    unfold normAlpha
    rw [if_neg h1, if_pos (by rw [hs]; rfl), if_neg]
    rw [hs]
    rintro h
    simp only [List.cons.injEq, and_true] at h
    exact hxy (by rw [h.1, h.2])
  · rintro hne h1 ⟨x, y, z, hs, h⟩
    refine hnorm hne ?_
    unfold normAlpha
    rw [if_neg h1, if_neg (by rw [hs]; simp), if_pos (by rw [hs]; rfl), if_neg]
    rw [hs]
    rintro (h' | h') <;> simp only [List.cons.injEq, and_true] at h'
    · rcases h with h | h
      · exact h (by rw [h'.1, h'.2.1])
      · exact h.1 h'.2.2
    · rcases h with h | h
      · exact h (by rw [h'.1, h'.2.1])
      · exact h.2 h'.2.2
  · intro x l hne ha hx h1 h2
    cases hn : normAlpha fg a with
    | none => exact hnorm hne hn
    | some na =>
      have hv : na.vals = a.vals := by
        unfold normAlpha at hn
        split_ifs at hn <;> cases hn <;> rfl
      unfold blend
      split_ifs with g1 g2 g3 g4
      · rfl
      · rfl
      · exact absurd (List.length_eq_zero_iff.1 g4) hne
      · rw [hn]
        show blendNormed eps fg bg na = none
        unfold blendNormed
        rw [if_neg (by rw [hv]; rintro ⟨-, h⟩; exact h1 (by simpa using h)),
          if_neg (by rw [hv]; rintro ⟨-, h⟩; exact h2 (by simpa using h)), if_pos]
        rw [hv, ha]
        refine ⟨by simp, ?_⟩
        simp only [List.getD_cons_zero]
        rintro ⟨p, q⟩
        rcases hx with h | h <;> linarith
      · rfl

/-- C69: empty images are returned as they are (i.e. the foreground), whatever the alphas. -/
theorem blend_empty (eps : ℚ) (fg bg : Img) (hb : Blendable fg bg) (a : Alpha) (he : fg.vals = []) :
    blend eps fg bg a = some ⟨fg.dt, [], bg.vals⟩ := by
  obtain ⟨-, -, e1, e2, e3, e4, ek, n1, n2⟩ := hb
  unfold blend
  rw [if_neg (by tauto), if_neg (by simp [ek]), if_neg (by tauto), if_pos (by simp [he]), he]

/-- The hypotheses of the theorems above are met: int16 images with one alpha per channel. -/
example : let fg : Img := ⟨⟨.i, 2⟩, false, 1, 2, 2, [100, 100, -7, 7]⟩
    let bg : Img := ⟨⟨.i, 2⟩, false, 1, 2, 2, [0, 0, 0, 0]⟩
    let a : Alpha := ⟨[2], [1 / 2, 1 / 4]⟩
    Documented fg a ∧ (∀ x ∈ a.vals, 0 ≤ x ∧ x ≤ 1) ∧
    (blend (1 / 100) fg bg a).map Out.vals = some [50, 25, -4, 2] :=
  ⟨.channels [1 / 2, 1 / 4] rfl, by decide +kernel, by decide +kernel⟩

/-- Bool images. -/
example : (blend (1 / 100) ⟨⟨.b, 1⟩, true, 1, 2, 1, [1, 0]⟩ ⟨⟨.b, 1⟩, true, 1, 2, 1, [0, 1]⟩ ⟨[], [1 / 2]⟩).map Out.vals = some [0, 0] := by
  decide +kernel

end Imgaug.Blend.Props
