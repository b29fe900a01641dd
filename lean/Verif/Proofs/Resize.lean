import Verif.Spec.Resize
import Verif.Proofs.Dtypes
import Verif.Proofs.Num
/-! Helper lemmas for resizing. -/
namespace Imgaug.Resize
open Imgaug Imgaug.Dtypes Imgaug.Props

/-- `viaCv` resizes every channel and keeps the axes. -/
theorem viaCv_eq (cv : Cv) (i : Inter) (a : Im) (h' w' : Nat) :
    viaCv cv i a h' w' =
      some ⟨a.dt, h', w', a.c, fun y x k => cv i a.dt a.h a.w h' w' (fun y x => a.px y x k) y x⟩ := by
  obtain ⟨d, h, w, c, px⟩ := a
  simp only [viaCv, cvResize]
  by_cases hc : c.getD 1 > 512
  · simp only [if_pos hc]
  · simp only [if_neg hc, Option.map_some]
    by_cases h1 : c = some 1
    · simp [h1]
    · simp [h1]

/-- `core` on an image of the wanted size. -/
theorem core_same (cv : Cv) (ip : Option Inter) (sz : Size × Size) (a : Im)
    (h1 : target a.h sz.1 = a.h ∧ target a.w sz.2 = a.w) : core cv ip sz a = some a := by
  simp only [core, if_pos h1]

/-- `core` with an empty result. -/
theorem core_empty (cv : Cv) (ip : Option Inter) (sz : Size × Size) (a : Im)
    (h1 : ¬ (target a.h sz.1 = a.h ∧ target a.w sz.2 = a.w))
    (h2 : target a.h sz.1 = 0 ∨ target a.w sz.2 = 0 ∨ a.c = some 0) :
    core cv ip sz a = some ⟨a.dt, target a.h sz.1, target a.w sz.2, a.c, fun _ _ _ => 0⟩ := by
  simp only [core, if_neg h1, if_pos h2]

/-- The real resizing of `core`. -/
theorem core_real (cv : Cv) (ip : Option Inter) (sz : Size × Size) (a : Im)
    (h1 : ¬ (target a.h sz.1 = a.h ∧ target a.w sz.2 = a.w))
    (h2 : ¬ (target a.h sz.1 = 0 ∨ target a.w sz.2 = 0 ∨ a.c = some 0))
    (h3 : ¬ (a.h = 0 ∨ a.w = 0 ∨ a.c = some 0))
    (h4 : a.dt ∈ allowed (chosen a.h a.w (target a.h sz.1) (target a.w sz.2) ip)) :
    core cv ip sz a = some ⟨a.dt, target a.h sz.1, target a.w sz.2, a.c, fun y x k =>
      (after (chosen a.h a.w (target a.h sz.1) (target a.w sz.2) ip) a.dt
        (cv (chosen a.h a.w (target a.h sz.1) (target a.w sz.2) ip)
          (inner (chosen a.h a.w (target a.h sz.1) (target a.w sz.2) ip) a.dt) a.h a.w (target a.h sz.1) (target a.w sz.2)
          (fun y x => before a.dt (a.px y x k)) y x)).getD 0⟩ := by
  simp only [core, if_neg h1, if_neg h2, if_neg h3, viaCv_eq, Option.bind_some, not_not.mpr h4, if_false, if_true]

/-- `core` in cases. -/
theorem core_cases (cv : Cv) (ip : Option Inter) (sz : Size × Size) (a r : Im) (hr : core cv ip sz a = some r) :
    r.dt = a.dt ∧ r.h = target a.h sz.1 ∧ r.w = target a.w sz.2 ∧ r.c = a.c := by
  by_cases h1 : target a.h sz.1 = a.h ∧ target a.w sz.2 = a.w
  · simp only [core, if_pos h1, Option.some.injEq] at hr
    subst hr
    exact ⟨rfl, h1.1.symm, h1.2.symm, rfl⟩
  by_cases h2 : target a.h sz.1 = 0 ∨ target a.w sz.2 = 0 ∨ a.c = some 0
  · simp only [core, if_neg h1, if_pos h2, Option.some.injEq] at hr
    subst hr
    exact ⟨rfl, rfl, rfl, rfl⟩
  by_cases h3 : a.h = 0 ∨ a.w = 0 ∨ a.c = some 0
  · simp only [core, if_neg h1, if_neg h2, if_pos h3] at hr
    cases hr
  by_cases h4 : a.dt ∈ allowed (chosen a.h a.w (target a.h sz.1) (target a.w sz.2) ip)
  · rw [core_real cv ip sz a h1 h2 h3 h4, Option.some.injEq] at hr
    subst hr
    exact ⟨rfl, rfl, rfl, rfl⟩
  · simp only [core, if_neg h1, if_neg h2, if_neg h3, if_pos h4] at hr
    cases hr

theorem core_isSome (cv : Cv) (ip : Option Inter) (sz : Size × Size) (a : Im) :
    (core cv ip sz a).isSome ↔
      (target a.h sz.1 = a.h ∧ target a.w sz.2 = a.w) ∨ target a.h sz.1 = 0 ∨ target a.w sz.2 = 0 ∨ a.c = some 0 ∨
      (0 < a.h ∧ 0 < a.w ∧ a.dt ∈ allowed (chosen a.h a.w (target a.h sz.1) (target a.w sz.2) ip)) := by
  by_cases h1 : target a.h sz.1 = a.h ∧ target a.w sz.2 = a.w
  · simp only [core, if_pos h1, Option.isSome_some, true_iff]
    exact Or.inl h1
  by_cases h2 : target a.h sz.1 = 0 ∨ target a.w sz.2 = 0 ∨ a.c = some 0
  · simp only [core, if_neg h1, if_pos h2, Option.isSome_some, true_iff]
    tauto
  by_cases h3 : a.h = 0 ∨ a.w = 0 ∨ a.c = some 0
  · simp only [core, if_neg h1, if_neg h2, if_pos h3, Option.isSome_none, Bool.false_eq_true, false_iff]
    have : ¬ (0 < a.h ∧ 0 < a.w) := by
      rcases h3 with h | h | h
      · omega
      · omega
      · exact absurd (Or.inr (Or.inr h)) h2
    tauto
  by_cases h4 : a.dt ∈ allowed (chosen a.h a.w (target a.h sz.1) (target a.w sz.2) ip)
  · rw [core_real cv ip sz a h1 h2 h3 h4]
    simp only [Option.isSome_some, true_iff]
    have : 0 < a.h ∧ 0 < a.w := by
      constructor
      · exact Nat.pos_of_ne_zero (fun h => h3 (Or.inl h))
      · exact Nat.pos_of_ne_zero (fun h => h3 (Or.inr (Or.inl h)))
    tauto
  · simp only [core, if_neg h1, if_neg h2, if_neg h3, if_pos h4, Option.isSome_none, Bool.false_eq_true, false_iff]
    tauto

/-- `before` makes values of the inner dtype. -/
theorem before_holds (i : Inter) (d : DType) (hd : d ∈ allowed i) (v : ℚ) (hv : Holds d v) : Holds (inner i d) (before d v) := by
  unfold inner before
  split_ifs with h1 h2 h3
  · subst h1
    obtain ⟨a, b, c⟩ := hv
    obtain ⟨n, rfl⟩ := c (by decide)
    have e1 : (lo ⟨.b, 1⟩ : ℚ) = 0 := by norm_num [lo]
    have e2 : (hi ⟨.b, 1⟩ : ℚ) = 1 := by norm_num [hi]
    rw [e1] at a
    rw [e2] at b
    have f1 : (lo ⟨.u, 1⟩ : ℚ) = 0 := by norm_num [lo]
    have f2 : (hi ⟨.u, 1⟩ : ℚ) = 255 := by norm_num [hi]
    refine ⟨by rw [f1]; linarith, by rw [f2]; linarith, fun _ => ⟨n * 255, by push_cast; ring⟩⟩
  · obtain ⟨rfl, _⟩ := h2
    obtain ⟨a, b, c⟩ := hv
    have e1 : (lo ⟨.i, 1⟩ : ℚ) = -128 := by norm_num [lo]
    have e2 : (hi ⟨.i, 1⟩ : ℚ) = 127 := by norm_num [hi]
    have f1 : (lo ⟨.i, 2⟩ : ℚ) = -32768 := by norm_num [lo]
    have f2 : (hi ⟨.i, 2⟩ : ℚ) = 32767 := by norm_num [hi]
    rw [e1] at a
    rw [e2] at b
    exact ⟨by rw [f1]; linarith, by rw [f2]; linarith, fun _ => c (by decide)⟩
  · subst h3
    obtain ⟨a, b, _⟩ := hv
    have e1 : (lo ⟨.f, 4⟩ : ℚ) ≤ (lo ⟨.f, 2⟩ : ℚ) := by exact_mod_cast (by decide +kernel : lo ⟨.f, 4⟩ ≤ lo ⟨.f, 2⟩)
    have e2 : (hi ⟨.f, 2⟩ : ℚ) ≤ (hi ⟨.f, 4⟩ : ℚ) := by exact_mod_cast (by decide +kernel : hi ⟨.f, 2⟩ ≤ hi ⟨.f, 4⟩)
    exact ⟨e1.trans a, b.trans e2, fun h => absurd rfl h⟩
  · exact hv

/-- The conversion after `cv2.resize` never fails and gives values of the dtype. -/
theorem after_some (i : Inter) (d : DType) (v : ℚ) (hv : Holds (inner i d) v) :
    ∃ r, after i d v = some r ∧ Holds d r ∧ (d ≠ ⟨.b, 1⟩ → r = clamp d v ∨ (inner i d = d ∧ r = v)) := by
  unfold inner at hv ⊢
  unfold after
  split_ifs at hv ⊢ with h1 hv' h2 h3
  · subst h1
    exact ⟨_, rfl, ⟨by norm_num [lo], by norm_num [hi], fun _ => ⟨1, by norm_num⟩⟩, fun h => absurd rfl h⟩
  · subst h1
    exact ⟨_, rfl, ⟨by norm_num [lo], by norm_num [hi], fun _ => ⟨0, by norm_num⟩⟩, fun h => absurd rfl h⟩
  · obtain ⟨rfl, _⟩ := h2
    obtain ⟨r, a, b, c⟩ := changeDtype_eq ⟨.i, 2⟩ ⟨.i, 1⟩ (by decide) (by decide) (by decide)
      ⟨by decide, by decide⟩ v hv
    exact ⟨r, a, b, fun _ => Or.inl (by rw [c]; simp)⟩
  · subst h3
    obtain ⟨r, a, b, c⟩ := changeDtype_eq ⟨.f, 4⟩ ⟨.f, 2⟩ (by decide) (by decide) (by decide)
      ⟨by decide +kernel, by decide +kernel⟩ v hv
    exact ⟨r, a, b, fun _ => Or.inl (by rw [c]; simp)⟩
  · exact ⟨v, rfl, hv, fun _ => Or.inr ⟨rfl, rfl⟩⟩

/-- Converting there and back changes nothing. -/
theorem after_before (i : Inter) (d : DType) (hd : d ∈ allowed i) (v : ℚ) (hv : Holds d v) :
    after i d (before d v) = some v := by
  by_cases h1 : d = ⟨.b, 1⟩
  · subst h1
    obtain ⟨a, b, c⟩ := hv
    obtain ⟨n, rfl⟩ := c (by decide)
    have e1 : (lo ⟨.b, 1⟩ : ℚ) = 0 := by norm_num [lo]
    have e2 : (hi ⟨.b, 1⟩ : ℚ) = 1 := by norm_num [hi]
    rw [e1] at a
    rw [e2] at b
    have a' : 0 ≤ n := by exact_mod_cast a
    have b' : n ≤ 1 := by exact_mod_cast b
    have : n = 0 ∨ n = 1 := by omega
    rcases this with rfl | rfl <;> norm_num [after, before]
  · have hb := before_holds i d hd v hv
    obtain ⟨r, e, _, h⟩ := after_some i d _ hb
    have hv' : before d v = v := by simp [before, h1]
    rw [hv'] at e h ⊢
    rw [e]
    rcases h h1 with h | ⟨_, h⟩
    · rw [h, clamp, max_eq_left hv.1, min_eq_left hv.2.1]
    · rw [h]

theorem target_asks (axis : Nat) (s : Size) (hs : 0 ≤ s.val) : AsksFor axis s (target axis s) := by
  cases s with
  | int n =>
    have : 0 ≤ n := by simpa [Size.val] using hs
    simp only [AsksFor, target]
    omega
  | float q =>
    have hq : 0 ≤ q := hs
    have h0 : 0 ≤ npRound (axis * q) := npRound_nonneg (mul_nonneg (by positivity) hq)
    have h1 := npRound_dist (axis * q)
    simp only [AsksFor, target]
    have e : (((npRound ((axis : ℚ) * q)).toNat : Nat) : ℚ) = (npRound ((axis : ℚ) * q) : ℚ) := by
      exact_mod_cast Int.toNat_of_nonneg h0
    rw [e]
    exact h1

theorem pair_nonneg (sizes : Sizes) (sz : Size × Size) (h : pair sizes = some sz) : 0 ≤ sz.1.val ∧ 0 ≤ sz.2.val := by
  cases sizes with
  | one s =>
    simp only [pair] at h
    split_ifs at h with hp
    cases h
    push Not at hp
    exact ⟨hp.le, hp.le⟩
  | tuple l =>
    match l, h with
    | [a, b], h =>
      simp only [pair] at h
      split_ifs at h with hp
      cases h
      exact hp

/-- `single` calls `core` on the image with a channel axis. -/
theorem single_eq (cv : Cv) (ip : Option Inter) (sizes : Sizes) (a r : Im) (h : single cv ip sizes a = some r) :
    ∃ sz r', pair sizes = some sz ∧ core cv ip sz { a with c := some (a.c.getD 1) } = some r' ∧ r = { r' with c := a.c } := by
  obtain ⟨d, ih, iw, c, px⟩ := a
  cases c with
  | none =>
    simp only [single] at h
    cases hp : pair sizes with
    | none => simp [hp] at h
    | some sz =>
      simp only [hp, Option.bind_some] at h
      cases hc : core cv ip sz ⟨d, ih, iw, some 1, px⟩ with
      | none => simp [hc] at h
      | some r' =>
        simp only [hc, Option.map_some, Option.some.injEq] at h
        exact ⟨sz, r', rfl, hc, h.symm⟩
  | some n =>
    simp only [single] at h
    cases hp : pair sizes with
    | none => simp [hp] at h
    | some sz =>
      simp only [hp, Option.bind_some] at h
      refine ⟨sz, r, rfl, h, ?_⟩
      have := (core_cases cv ip sz _ r h).2.2.2
      obtain ⟨rd, rh, rw', rc, rp⟩ := r
      simp only at this
      simp [this]

theorem single_isSome (cv : Cv) (ip : Option Inter) (sizes : Sizes) (sz : Size × Size) (a : Im) (hp : pair sizes = some sz) :
    (single cv ip sizes a).isSome = (core cv ip sz { a with c := some (a.c.getD 1) }).isSome := by
  obtain ⟨d, ih, iw, c, px⟩ := a
  cases c with
  | none => simp [single, hp]
  | some n => simp [single, hp]

theorem npArray_same (a : Im) (l : List Im) (hd : ∀ b ∈ l, b.dt = a.dt) (ha : a.dt ∈ Dtypes.all)
    (hv : ∀ b ∈ a :: l, Valid b) : npArray (a :: l) = a :: l := by
  have pself : ∀ d ∈ Dtypes.all, AddMul.promote d d = d := by decide
  have hf : ∀ l' : List Im, (∀ b ∈ l', b.dt = a.dt) → l'.foldl (fun d b => AddMul.promote d b.dt) a.dt = a.dt := by
    intro l'
    induction l' with
    | nil => intro _; rfl
    | cons b l' ih =>
      intro h
      rw [List.foldl_cons, h b (by simp), pself _ ha]
      exact ih (fun b hb => h b (List.mem_cons_of_mem _ hb))
  have hmap : ∀ b ∈ a :: l, ({ b with dt := a.dt, px := fun y x k => astype a.dt (b.px y x k) } : Im) = b := by
    intro b hb
    have hbd : b.dt = a.dt := by
      rcases List.mem_cons.mp hb with rfl | h
      · rfl
      · exact hd b h
    have hpx : (fun y x k => astype a.dt (b.px y x k)) = b.px := by
      funext y x k
      obtain ⟨h1, h2, h3⟩ := hv b hb y x k
      rw [hbd] at h1 h2 h3
      by_cases hk : a.dt.kind = .f
      · simp [astype, hk]
      · obtain ⟨n, hn⟩ := h3 hk
        rw [hn] at h1 h2 ⊢
        exact astype_int a.dt n (by exact_mod_cast h1) (by exact_mod_cast h2)
    obtain ⟨bd, bh, bw, bc, bp⟩ := b
    simp only at hbd hpx
    simp only [hbd, hpx]
  simp only [npArray, hf l hd]
  conv_rhs => rw [← List.map_id (a :: l)]
  exact List.map_congr_left (fun b hb => by rw [hmap b hb]; rfl)

end Imgaug.Resize
