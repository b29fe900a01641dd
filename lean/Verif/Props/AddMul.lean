import Verif.Proofs.AddMul
/-! Adding to images and multiplying them. -/
namespace Imgaug.AddMul
open Imgaug Imgaug.Dtypes

/-- C66: adding one number, or one per channel, to a uint8 image gives every component plus the rounded number of its channel, limited to
0 and 255. -/
theorem add_uint8 (img : Img) (o : Operand) (hd : img.dt = ⟨.u, 1⟩) (hi0 : img.vals ≠ []) (hf : o.Fits img)
    (hsize : img.flat = false → ∃ n, img.vals.length = n * img.c) (hiv : ∀ v ∈ img.vals, Holds img.dt v) (hov : ∀ x ∈ o.vals, Holds o.dt x) :
    addScalar img o = some (img.vals.zipIdx.map (fun p => clamp ⟨.u, 1⟩ (p.1 + npRound (o.at img.c p.2)))) := by
  have hround : ∀ x ∈ o.vals, (if o.dt.kind = .f then (npRound x : ℚ) else x) = npRound x := by
    intro x hx
    split
    · rfl
    · rename_i h
      obtain ⟨n, rfl⟩ := (hov x hx).2.2 h
      rw [Props.npRound_int]
  have hmap : o.vals.map (fun x => if o.dt.kind = .f then (npRound x : ℚ) else x) = o.vals.map (fun x => (npRound x : ℚ)) :=
    List.map_congr_left hround
  have hget : ∀ i, (o.vals.map (fun x => (npRound x : ℚ))).getD i 0 = (npRound (o.vals.getD i 0) : ℚ) := by
    intro i
    rw [List.getD_eq_getElem?_getD, List.getD_eq_getElem?_getD, List.getElem?_map]
    cases o.vals[i]? with
    | none =>
      have := Props.npRound_int 0
      simp at this
      simp [this]
    | some a => rfl
  have hstep : ∀ v ∈ img.vals, ∀ x, saturate (v + (npRound x : ℚ)) = clamp ⟨.u, 1⟩ (v + npRound x) := by
    intro v hv x
    obtain ⟨n, rfl⟩ := (hiv v hv).2.2 (by simp [hd])
    rw [← Int.cast_add, saturate_int]
  rw [addScalar, if_neg (by simpa using hi0), if_neg (by rw [hd]; decide), if_pos hd, addUint8]
  simp only [hmap]
  split
  · rename_i h
    refine congrArg some ?_
    rw [← mapIdx_const]
    apply List.map_congr_left
    rintro ⟨v, i⟩ hp
    have hv : v ∈ img.vals := List.fst_mem_of_mem_zipIdx hp
    simp only
    rw [hget, hstep v hv, Operand.at, if_pos h]
  · rename_i h
    obtain ⟨hflat, hc⟩ := hf.resolve_left h
    obtain ⟨n, hn⟩ := hsize hflat
    have hc0 : img.c ≠ 0 := by
      intro h0; rw [h0, Nat.mul_zero, List.length_eq_zero_iff] at hn; exact hi0 hn
    rw [List.length_map, if_pos ⟨by omega, by rw [hc, hn, Nat.mul_div_cancel _ (Nat.pos_of_ne_zero hc0)]⟩]
    refine congrArg some (List.map_congr_left ?_)
    rintro ⟨v, i⟩ hp
    have hv : v ∈ img.vals := List.fst_mem_of_mem_zipIdx hp
    simp only
    rw [hget, hstep v hv, Operand.at, if_neg h, hc]

/-- C66: a wrong number of numbers is not always rejected for uint8 images: three numbers for two channels are distributed over the
components in turn, although other dtypes reject them. -/
theorem add_uint8_wrong_count :
    addScalar ⟨⟨.u, 1⟩, false, 2, [0, 0, 0, 0, 0, 0]⟩ ⟨⟨.i, 4⟩, false, [1, 2, 3]⟩ = some [1, 2, 3, 1, 2, 3] ∧
    addScalar ⟨⟨.i, 1⟩, false, 2, [0, 0, 0, 0, 0, 0]⟩ ⟨⟨.i, 4⟩, false, [1, 2, 3]⟩ = none := by decide +kernel

/-- C66: for the other dtypes, exactly these additions are accepted: three-dimensional arrays; one number, or one per channel; an operand which
is not boolean, not a 64 bit integer, and not unsigned for int16 images; numbers that fit into the dtype of the operand's kind with twice the
size of the image's. -/
theorem add_other_accepts (img : Img) (o : Operand) (hi0 : img.vals ≠ []) (hu : img.dt ≠ ⟨.u, 1⟩) (ho : o.dt ∈ all) (hov : ∀ x ∈ o.vals, Holds o.dt x) :
    (addScalar img o).isSome = true ↔ img.dt ∈ gated ∧ img.flat = false ∧ o.vals ≠ [] ∧ (o.vals.length = 1 ∨ o.vals.length = img.c) ∧
      o.dt.kind ≠ .b ∧ o.dt ≠ ⟨.i, 8⟩ ∧ o.dt ≠ ⟨.u, 8⟩ ∧ ¬ (img.dt = ⟨.i, 2⟩ ∧ o.dt.kind = .u) ∧
      ∀ x ∈ o.vals, (lo ⟨o.dt.kind, img.dt.bytes * 2⟩ : ℚ) ≤ x ∧ x ≤ hi ⟨o.dt.kind, img.dt.bytes * 2⟩ := by
  rw [addScalar, if_neg (by simpa using hi0)]
  by_cases hg : img.dt ∈ gated
  · rw [if_neg (by simpa using hg), if_neg hu]
    by_cases hb : o.dt.kind = .b
    · have hT : ¬ (⟨o.dt.kind, img.dt.bytes * 2⟩ : DType) ∈ all := by
        have := (add_target_mem img.dt o.dt hg ho).not.mpr (by simpa using hb)
        exact this
      have e : opNonUint8 (· + ·) ⟨o.dt.kind, img.dt.bytes * 2⟩ img o = none := by
        rw [opNonUint8]
        split
        · rfl
        · split
          · rfl
          · rfl
      rw [e]
      simp [hb]
    · have hP := (add_target img.dt o.dt hg ho).resolve_right hb
      have hT := (add_target_mem img.dt o.dt hg ho).mpr hb
      have key := opNonUint8_isSome (· + ·) img o (targetAdd img.dt o.dt) hP hi0 (fun h => fits_add img.dt o.dt hg ho h) hov
      have hcl : clippable o.dt = true ↔ o.dt ≠ ⟨.i, 8⟩ ∧ o.dt ≠ ⟨.u, 8⟩ := by
        revert ho; generalize o.dt = vd; revert vd; decide +kernel
      rw [add_promoted img.dt o.dt hg hu ho hb, hcl] at key
      refine key.trans ?_
      constructor
      · rintro ⟨a, b, _, ⟨c1, c2⟩, ⟨d1, d2⟩, e⟩
        exact ⟨hg, a, d1, b, hb, c1, c2, e, d2⟩
      · rintro ⟨_, a, d1, b, _, c1, c2, e, d2⟩
        exact ⟨a, b, hT, ⟨c1, c2⟩, ⟨d1, d2⟩, e⟩
  · simp [hg]

/-- C66: what is accepted gives the exact sum, rounded and limited to the range of the image's dtype, if the numbers are at most 32000 in
absolute value. Missing: larger numbers, for which the sum can wrap around (`add_wraps`). -/
theorem add_other_partial (img : Img) (o : Operand) (hi0 : img.vals ≠ []) (hu : img.dt ≠ ⟨.u, 1⟩) (ho : o.dt ∈ all)
    (hiv : ∀ v ∈ img.vals, Holds img.dt v) (hov : ∀ x ∈ o.vals, Holds o.dt x) (hacc : (addScalar img o).isSome = true)
    (hsmall : ∀ x ∈ o.vals, |x| ≤ 32000) :
    addScalar img o = some (img.vals.zipIdx.map (fun p => fitted img.dt (p.1 + o.at img.c p.2))) := by
  obtain ⟨hg, hflat, hne, hf, hb, h1, h2, h3, hr⟩ := (add_other_accepts img o hi0 hu ho hov).mp hacc
  have hcl : clippable o.dt = true := by
    revert h1 h2 ho; generalize o.dt = vd; revert vd; decide +kernel
  have hT := (add_target_mem img.dt o.dt hg ho).mpr hb
  rw [addScalar, if_neg (by simpa using hi0), if_neg (by simpa using hg), if_neg hu]
  refine opNonUint8_eq (· + ·) (fun m n => ⟨m + n, by push_cast; rfl⟩) img o (targetAdd img.dt o.dt) (gated_all _ hg) rfl
    (nice_add img.dt o.dt hg ho hu hT hcl h3) hT hcl (fits_add img.dt o.dt hg ho hT) hflat hf hne hiv hov hr ?_
  intro v hv x hx
  obtain ⟨r1, r2, _, _⟩ := add_room img.dt o.dt hg hu ho hcl hb h3
  obtain ⟨v1, v2, _⟩ := hiv v hv
  obtain ⟨x1, x2⟩ := abs_le.mp (hsmall x hx)
  have r1' : (32000 : ℚ) + hi img.dt ≤ hi (promote img.dt (targetAdd img.dt o.dt)) := by exact_mod_cast r1
  refine ⟨?_, by linarith⟩
  rcases r2 with r2 | ⟨hk, r2⟩
  · have r2' : (lo (promote img.dt (targetAdd img.dt o.dt)) : ℚ) ≤ lo img.dt - 32000 := by exact_mod_cast r2
    linarith
  · have r2' : (lo (promote img.dt (targetAdd img.dt o.dt)) : ℚ) ≤ lo img.dt := by exact_mod_cast r2
    have hx0 := (hov x hx).1
    have : lo o.dt = 0 := by rw [lo, hk]
    rw [this] at hx0
    push_cast at hx0
    linarith

/-- C66: adding the largest accepted number to an int16 image gives the smallest value instead of the largest. -/
theorem add_wraps : addScalar ⟨⟨.i, 2⟩, false, 1, [1]⟩ ⟨⟨.i, 4⟩, false, [2147483647]⟩ = some [-32768] := by decide +kernel

/-- C66: Python integers are accepted for uint8 images only; two-dimensional arrays are accepted for uint8 images only. -/
theorem add_python_int (img : Img) (hi0 : img.vals ≠ []) (n : Int) (hn : Holds ⟨.i, 8⟩ n) :
    (addScalar img ⟨⟨.i, 8⟩, true, [(n : ℚ)]⟩).isSome = true ↔ img.dt = ⟨.u, 1⟩ := by
  by_cases hu : img.dt = ⟨.u, 1⟩
  · simp only [hu, iff_true]
    rw [addScalar, if_neg (by simpa using hi0), if_neg (by rw [hu]; decide), if_pos hu, addUint8]
    simp
  · rw [add_other_accepts img _ hi0 hu (by change (⟨.i, 8⟩ : DType) ∈ all; decide) (by intro x hx; simp at hx; rw [hx]; exact hn)]
    simp [hu]

/-- C66: a flat array is accepted with a single number only if it is uint8. -/
theorem add_flat (img : Img) (hi0 : img.vals ≠ []) (hflat : img.flat = true) (o : Operand) (ho : o.dt ∈ all) (hov : ∀ x ∈ o.vals, Holds o.dt x)
    (h1 : o.vals.length = 1) : (addScalar img o).isSome = true ↔ img.dt = ⟨.u, 1⟩ := by
  by_cases hu : img.dt = ⟨.u, 1⟩
  · simp only [hu, iff_true]
    rw [addScalar, if_neg (by simpa using hi0), if_neg (by rw [hu]; decide), if_pos hu, addUint8]
    simp [h1]
  · rw [add_other_accepts img _ hi0 hu ho hov]
    simp [hu, hflat]

/-- C66: uint8 images and other images round differently: 1 plus 0.5 is 1 or 2. -/
theorem add_rounding :
    addScalar ⟨⟨.u, 1⟩, false, 1, [1]⟩ ⟨⟨.f, 4⟩, false, [1 / 2]⟩ = some [1] ∧
    addScalar ⟨⟨.u, 2⟩, false, 1, [1]⟩ ⟨⟨.f, 4⟩, false, [1 / 2]⟩ = some [2] := by decide +kernel

/-- C66: the elementwise addition to a uint8 component is within one half of the exact sum limited to the range, and exact for integers,
for every number of channels. -/
theorem add_elementwise_uint8 (flat : Bool) (c : Nat) (vd : DType) (v x : ℚ) (hv : Holds ⟨.u, 1⟩ v) (hx : Holds vd x) :
    |addElemUint8 flat c vd v x - clamp ⟨.u, 1⟩ (v + x)| ≤ 1 / 2 ∧
    ((∃ n : Int, x = n) → addElemUint8 flat c vd v x = clamp ⟨.u, 1⟩ (v + x)) := by
  have hb : lo ⟨.u, 1⟩ = 0 ∧ hi ⟨.u, 1⟩ = 255 := by decide +kernel
  obtain ⟨m, rfl⟩ := hv.2.2 (by simp)
  obtain ⟨v1, v2, _⟩ := hv
  rw [hb.1] at v1
  rw [hb.2] at v2
  push_cast at v1 v2
  simp only [addElemUint8, clamp, hb.1, hb.2]
  push_cast
  split
  · rw [saturate]
    constructor
    · have := abs_le.mp (Props.npRound_dist (m + x))
      rw [abs_le]
      grind
    · rintro ⟨n, rfl⟩
      rw [← Int.cast_add, Props.npRound_int]
  · have hr : |(if vd.kind = .f then (npRound x : ℚ) else x) - x| ≤ 1 / 2 := by
      split
      · exact Props.npRound_dist x
      · simp
    constructor
    · have := abs_le.mp hr
      rw [abs_le]
      grind
    · rintro ⟨n, rfl⟩
      rw [Props.npRound_int]
      simp only [ite_self]
      grind

/-- C66: for fractional numbers the elementwise result depends on the number of channels. -/
theorem add_elementwise_channels :
    addElemUint8 false 512 ⟨.f, 4⟩ 1 (1 / 2) = 2 ∧ addElemUint8 false 513 ⟨.f, 4⟩ 1 (1 / 2) = 1 := by decide +kernel

/-- C67: multiplying a uint8 image by one number, or one per channel, gives every component times the number of its channel, limited to 0 and
255, up to less than one. Missing: rounding to the nearest integer, which is not done for large images (`mul_uint8_rounding`). -/
theorem mul_uint8_partial (img : Img) (o : Operand) (hd : img.dt = ⟨.u, 1⟩) (hi0 : img.vals ≠ []) (hf : o.Fits img) (hpy : o.py = false)
    (hne : o.vals ≠ []) :
    ∃ r, mulScalar img o = some r ∧ r.length = img.vals.length ∧
      ∀ i v w, img.vals[i]? = some v → r[i]? = some w →
        |w - clamp ⟨.u, 1⟩ (v * o.at img.c i)| < 1 ∧ (∃ n : Int, w = n) ∧ 0 ≤ w ∧ w ≤ 255 := by
  have hb : lo ⟨.u, 1⟩ = 0 ∧ hi ⟨.u, 1⟩ = 255 := by decide +kernel
  have hsat : ∀ x : ℚ, |saturate x - clamp ⟨.u, 1⟩ x| < 1 ∧ (∃ n : Int, saturate x = n) ∧ 0 ≤ saturate x ∧ saturate x ≤ 255 := by
    intro x
    simp only [saturate, clamp, hb.1, hb.2]
    push_cast
    have := abs_le.mp (Props.npRound_dist x)
    refine ⟨by rw [abs_lt]; grind, ⟨min (max (npRound x) 0) 255, by push_cast; rfl⟩, by grind, by grind⟩
  have hlut : ∀ x v : ℚ, |lutEntry x v - clamp ⟨.u, 1⟩ (v * x)| < 1 ∧ (∃ n : Int, lutEntry x v = n) ∧ 0 ≤ lutEntry x v ∧ lutEntry x v ≤ 255 := by
    intro x v
    simp only [lutEntry, clamp, hb.1, hb.2]
    push_cast
    set y := min (max (v * x) 0) 255 with hy
    have h0 : 0 ≤ y := le_min (le_max_right _ _) (by norm_num)
    have h1 : y ≤ 255 := min_le_right _ _
    have e : pyInt y = ⌊y⌋ := by rw [pyInt, if_neg (by linarith)]
    rw [e]
    have f1 := Int.floor_le y
    have f2 := Int.lt_floor_add_one y
    refine ⟨by rw [abs_lt]; constructor <;> linarith, ⟨_, rfl⟩, ?_, by linarith⟩
    have : 0 ≤ ⌊y⌋ := Int.floor_nonneg.mpr h0
    exact_mod_cast this
  rw [mulScalar, if_neg (by simpa using hi0), if_neg (by rw [hd]; decide), if_pos hd]
  have hpos : 0 < o.vals.length := List.length_pos_of_ne_nil hne
  split
  · rw [mulUint8Lut]
    split
    · rename_i h
      refine ⟨_, rfl, by simp, ?_⟩
      intro i v w hv hw
      simp only [List.getElem?_map, hv, Option.map_some, Option.some.injEq] at hw
      rw [← hw, Operand.at, if_pos h]
      exact hlut _ _
    · rename_i h
      obtain ⟨h1, h2⟩ := hf.resolve_left h
      rw [if_pos (by simp [h1, h2])]
      refine ⟨_, rfl, by simp, ?_⟩
      intro i v w hv hw
      simp only [List.getElem?_map, List.getElem?_zipIdx, hv, Option.map_some, Option.some.injEq, Nat.zero_add] at hw
      rw [← hw, Operand.at, if_neg h]
      exact hlut _ _
  · rw [mulUint8Cv2, if_neg (by simp [hpy])]
    split
    · rename_i h
      obtain ⟨h1, h2⟩ := hf.resolve_left (by omega)
      rw [if_pos (by simp [h1, h2])]
      refine ⟨_, rfl, by simp, ?_⟩
      intro i v w hv hw
      simp only [List.getElem?_map, List.getElem?_zipIdx, hv, Option.map_some, Option.some.injEq, Nat.zero_add] at hw
      rw [← hw, Operand.at, if_neg (by omega)]
      exact hsat _
    · rename_i h
      have h1 : o.vals.length = 1 := by omega
      rw [if_pos h1]
      refine ⟨_, rfl, by simp, ?_⟩
      intro i v w hv hw
      simp only [List.getElem?_map, hv, Option.map_some, Option.some.injEq] at hw
      rw [← hw, Operand.at, if_pos h1]
      exact hsat _

/-- C67: uint8 images with fewer than 224*224*3 components are rounded to nearest, larger ones are truncated: the same component with the same
multiplier gives different results. -/
theorem mul_uint8_rounding (n : Nat) (hn : 0 < n) :
    mulScalar ⟨⟨.u, 1⟩, false, 1, List.replicate n 1⟩ ⟨⟨.f, 4⟩, false, [9 / 10]⟩ =
      some (List.replicate n (if n < 224 * 224 * 3 then 1 else 0)) := by
  have e1 : lutEntry (9 / 10) 1 = 0 := by decide +kernel
  have e2 : saturate (1 * (9 / 10)) = 1 := by decide +kernel
  rw [mulScalar, if_neg (by simp; omega), if_neg (by simp [gated]), if_pos rfl]
  by_cases h : n < 224 * 224 * 3
  · rw [if_neg (by simp; omega), if_pos h, mulUint8Cv2]
    simp only [List.length_cons, List.length_nil, Bool.false_eq_true, if_false, List.getD_cons_zero, List.map_replicate, e2]
    simp
  · rw [if_pos (by simp; omega), if_neg h, mulUint8Lut]
    simp only [List.length_cons, List.length_nil, if_true, List.getD_cons_zero, List.map_replicate, e1]

/-- C67: a Python number is accepted for uint8 images only if they have at least 224*224*3 components. -/
theorem mul_uint8_python (img : Img) (o : Operand) (hd : img.dt = ⟨.u, 1⟩) (hi0 : img.vals ≠ []) (hpy : o.py = true) (h1 : o.vals.length = 1) :
    (mulScalar img o).isSome = true ↔ 224 * 224 * 3 ≤ img.vals.length := by
  rw [mulScalar, if_neg (by simpa using hi0), if_neg (by rw [hd]; decide), if_pos hd]
  split
  · rename_i h; simp [mulUint8Lut, h1]; omega
  · rename_i h; simp [mulUint8Cv2, hpy]; omega

/-- C67: a wrong number of multipliers is rejected for uint8 images of any size. -/
theorem mul_uint8_count (img : Img) (o : Operand) (hd : img.dt = ⟨.u, 1⟩) (hi0 : img.vals ≠ []) (hpy : o.py = false) :
    (mulScalar img o).isSome = true → o.Fits img := by
  rw [mulScalar, if_neg (by simpa using hi0), if_neg (by rw [hd]; decide), if_pos hd]
  split
  · rw [mulUint8Lut]
    split
    · rename_i h; intro _; exact Or.inl h
    · split
      · rename_i h
        simp only [Bool.and_eq_true, Bool.not_eq_true', decide_eq_true_eq] at h
        intro _; exact Or.inr ⟨h.1, h.2.symm⟩
      · intro h; simp at h
  · rw [mulUint8Cv2, if_neg (by simp [hpy])]
    split
    · split
      · rename_i h
        simp only [Bool.and_eq_true, Bool.not_eq_true', decide_eq_true_eq] at h
        intro _; exact Or.inr ⟨h.1, h.2.symm⟩
      · intro h; simp at h
    · split
      · rename_i h; intro _; exact Or.inl h
      · intro h; simp at h

/-- C67: for the other dtypes, exactly these multiplications are accepted: three-dimensional arrays; one number, or one per channel; an operand
which is not a 64 bit integer, and boolean only if the components have one byte; numbers that fit into the dtype of the operand's kind with the
size of the image's. -/
theorem mul_other_accepts (img : Img) (o : Operand) (hi0 : img.vals ≠ []) (hu : img.dt ≠ ⟨.u, 1⟩) (ho : o.dt ∈ all) (hov : ∀ x ∈ o.vals, Holds o.dt x) :
    (mulScalar img o).isSome = true ↔ img.dt ∈ gated ∧ img.flat = false ∧ o.vals ≠ [] ∧ (o.vals.length = 1 ∨ o.vals.length = img.c) ∧
      ¬ (o.dt.kind = .b ∧ img.dt.bytes ≠ 1) ∧ o.dt ≠ ⟨.i, 8⟩ ∧ o.dt ≠ ⟨.u, 8⟩ ∧
      ∀ x ∈ o.vals, (lo (targetMul img.dt o.dt) : ℚ) ≤ x ∧ x ≤ hi (targetMul img.dt o.dt) := by
  rw [mulScalar, if_neg (by simpa using hi0)]
  by_cases hg : img.dt ∈ gated
  · rw [if_neg (by simpa using hg), if_neg hu]
    obtain ⟨hP, hP1, hP2⟩ := mul_promoted img.dt o.dt hg ho
    have hcl : clippable o.dt = true ↔ o.dt ≠ ⟨.i, 8⟩ ∧ o.dt ≠ ⟨.u, 8⟩ := by
      revert ho; generalize o.dt = vd; revert vd; decide +kernel
    have hT := mul_target_mem img.dt o.dt hg ho
    have := opNonUint8_isSome (· * ·) img o (targetMul img.dt o.dt) hP hi0 (fun h => fits_mul img.dt o.dt hg ho h) hov
    rw [hcl, hT] at this
    refine this.trans ?_
    constructor
    · rintro ⟨a, b, t, ⟨c1, c2⟩, ⟨d1, d2⟩, _⟩
      exact ⟨hg, a, d1, b, t, c1, c2, d2⟩
    · rintro ⟨_, a, d1, b, t, c1, c2, d2⟩
      exact ⟨a, b, t, ⟨c1, c2⟩, ⟨d1, d2⟩, Or.inr ⟨hP1, hP2⟩⟩
  · simp [hg]

/-- C67: what is accepted gives the exact product, rounded and limited to the range of the image's dtype, if the product can be represented in
the dtype to which numpy promotes both. Missing: other products, which wrap around (`mul_wraps`). -/
theorem mul_other_partial (img : Img) (o : Operand) (hi0 : img.vals ≠ []) (hu : img.dt ≠ ⟨.u, 1⟩) (ho : o.dt ∈ all)
    (hiv : ∀ v ∈ img.vals, Holds img.dt v) (hov : ∀ x ∈ o.vals, Holds o.dt x) (hacc : (mulScalar img o).isSome = true)
    (hsmall : ∀ v ∈ img.vals, ∀ x ∈ o.vals,
      (lo (promote img.dt (targetMul img.dt o.dt)) : ℚ) ≤ v * x ∧ v * x ≤ hi (promote img.dt (targetMul img.dt o.dt))) :
    mulScalar img o = some (img.vals.zipIdx.map (fun p => fitted img.dt (p.1 * o.at img.c p.2))) := by
  obtain ⟨hg, hflat, hne, hf, hb, h1, h2, hr⟩ := (mul_other_accepts img o hi0 hu ho hov).mp hacc
  have hcl : clippable o.dt = true := by
    revert h1 h2 ho; generalize o.dt = vd; revert vd; decide +kernel
  have hT := (mul_target_mem img.dt o.dt hg ho).mpr hb
  rw [mulScalar, if_neg (by simpa using hi0), if_neg (by simpa using hg), if_neg hu]
  exact opNonUint8_eq (· * ·) (fun m n => ⟨m * n, by push_cast; rfl⟩) img o (targetMul img.dt o.dt) (gated_all _ hg) rfl
    (nice_mul img.dt o.dt hg ho hu hT hcl) hT hcl (fits_mul img.dt o.dt hg ho hT) hflat hf hne hiv hov hr hsmall

/-- C67: multiplying an int16 image by an integer wraps around; multiplying it by a float saturates. -/
theorem mul_wraps :
    mulScalar ⟨⟨.i, 2⟩, false, 1, [20000]⟩ ⟨⟨.i, 4⟩, false, [2]⟩ = some [-25536] ∧
    mulScalar ⟨⟨.i, 2⟩, false, 1, [20000]⟩ ⟨⟨.f, 4⟩, false, [2]⟩ = some [32767] := by decide +kernel

/- The hypotheses are met. -/
example : addScalar ⟨⟨.u, 1⟩, false, 2, [250, 1, 7, 9]⟩ ⟨⟨.f, 8⟩, false, [10, -5 / 2]⟩ = some [255, 0, 17, 7] := by decide +kernel
example : addScalar ⟨⟨.i, 2⟩, false, 2, [32000, -32000, 7, 9]⟩ ⟨⟨.f, 4⟩, false, [1000, -1000]⟩ = some [32767, -32768, 1007, -991] := by decide +kernel
example : addScalar ⟨⟨.b, 1⟩, false, 1, [0, 1]⟩ ⟨⟨.i, 4⟩, false, [1]⟩ = some [1, 1] := by decide +kernel
example : mulScalar ⟨⟨.u, 2⟩, false, 2, [100, 1, 7, 9]⟩ ⟨⟨.f, 4⟩, false, [1 / 2, 30000]⟩ = some [50, 30000, 4, 65535] := by decide +kernel
example : mulScalar ⟨⟨.u, 1⟩, false, 2, [100, 1, 7, 9]⟩ ⟨⟨.f, 4⟩, false, [1 / 2, 300]⟩ = some [50, 255, 4, 255] := by decide +kernel

end Imgaug.AddMul
