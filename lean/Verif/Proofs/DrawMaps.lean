import Mathlib.Tactic.Linarith
import Mathlib.Tactic.NormNum
import Verif.Props.Resize
import Verif.Proofs.Blend
import Verif.Proofs.Draw
import Verif.Spec.DrawMaps
/-! Helper lemmas for Props/DrawMaps.lean. -/
namespace Imgaug.DrawMaps
open Imgaug Imgaug.Dtypes Imgaug.Resize

/-- Nearest neighbours, with the rows and columns given. -/
theorem nearest_px {cv : Cv} {im r : Im} {m n : Nat} {sy sx : Nat → Nat} (hs : Shows cv im.h im.w m n sy sx) (hv : Valid im) (hc0 : im.c ≠ some 0)
    (hr : single cv (some .nearest) (.tuple [.int m, .int n]) im = some r) :
    (r.h = m ∧ r.w = n ∧ r.c = im.c) ∧ ∀ y < m, ∀ x < n, ∀ k, r.px y x k = im.px (sy y) (sx x) k := by
  obtain ⟨sz, r1, hp, hc, rfl⟩ := single_eq cv _ _ im r hr
  have hp' : pair (.tuple [.int m, .int n]) = some (.int m, .int n) := by simp [pair, Size.val]
  rw [hp', Option.some.injEq] at hp
  subst hp
  have t1 : target im.h (.int m) = m := by simp [target]
  have t2 : target im.w (.int n) = n := by simp [target]
  by_cases h1 : target im.h (.int m) = im.h ∧ target im.w (.int n) = im.w
  · have : r1 = { im with c := some (im.c.getD 1) } := by
      rw [core_same cv _ _ { im with c := some (im.c.getD 1) } h1, Option.some.injEq] at hc
      exact hc.symm
    subst this
    rw [t1, t2] at h1
    have h2 := hs.2.2
    rw [if_pos h1] at h2
    exact ⟨⟨h1.1.symm, h1.2.symm, rfl⟩, fun y _ x _ k => by rw [h2.1, h2.2]⟩
  have hne : ¬ (some (im.c.getD 1) = some 0) := by
    intro h
    cases h' : im.c with
    | none => simp [h'] at h
    | some n => rw [h'] at h; exact hc0 (by rw [h']; simpa using h)
  by_cases hz : m = 0 ∨ n = 0
  · rw [core_empty cv _ _ { im with c := some (im.c.getD 1) } h1 (by rw [t1, t2]; tauto), Option.some.injEq] at hc
    subst hc
    refine ⟨⟨t1, t2, rfl⟩, fun y hy x hx k => ?_⟩
    omega
  have h2 : ¬ (target im.h (.int m) = 0 ∨ target im.w (.int n) = 0 ∨ some (im.c.getD 1) = some 0) := by
    rw [t1, t2]
    rintro (h | h | h)
    · omega
    · omega
    · exact hne h
  have hsome : (core cv (some .nearest) (.int m, .int n) { im with c := some (im.c.getD 1) }).isSome := by rw [hc]; rfl
  rw [core_isSome] at hsome
  simp only at hsome
  have h3 : 0 < im.h ∧ 0 < im.w ∧
      im.dt ∈ allowed (chosen im.h im.w (target im.h (.int m)) (target im.w (.int n)) (some .nearest)) := by tauto
  have h3' : ¬ (im.h = 0 ∨ im.w = 0 ∨ some (im.c.getD 1) = some 0) := by
    rintro (h | h | h)
    · omega
    · omega
    · exact hne h
  rw [core_real cv _ _ { im with c := some (im.c.getD 1) } h1 h2 h3' h3.2.2, Option.some.injEq] at hc
  subst hc
  have hpick := hs.2.2
  rw [t1, t2] at h1
  rw [if_neg h1] at hpick
  refine ⟨⟨t1, t2, rfl⟩, fun y _ x _ k => ?_⟩
  simp only [t1, t2, chosen]
  rw [hpick]
  have := after_before .nearest im.dt h3.2.2 _ (hv (sy y) (sx x) k)
  simp only [this, Option.getD_some]

theorem isByte_holds {v : ℚ} (h : IsByte v) : Holds u8 v := by
  obtain ⟨z, rfl, h0, h1⟩ := h
  exact Blend.holds_byte z h0 h1

theorem holds_bool {v : ℚ} (h : v = 0 ∨ v = 1) : Holds ⟨.b, 1⟩ v := by
  rcases h with rfl | rfl
  · exact ⟨by decide +kernel, by decide +kernel, fun _ => ⟨0, by norm_num⟩⟩
  · exact ⟨by decide +kernel, by decide +kernel, fun _ => ⟨1, by norm_num⟩⟩

theorem byte_isByte (v : ℚ) : IsByte (byte v) := by
  refine ⟨clipI (npRound (v * 255)) 0 255, rfl, ?_, ?_⟩ <;> unfold clipI <;> omega

theorem shown_byte {v : ℚ} (h : IsByte v) : shown (v / 255) = v := by
  obtain ⟨z, rfl, h0, h1⟩ := h
  unfold shown
  have e : (z : ℚ) / 255 * 255 = z := by ring
  have a : (0 : ℚ) ≤ z := by exact_mod_cast h0
  have b : (z : ℚ) ≤ 255 := by exact_mod_cast h1
  rw [e, min_eq_right b, max_eq_right a, pyInt_intCast]

theorem pyInt_nonneg {q : ℚ} (h : 0 ≤ q) : pyInt q = ⌊q⌋ := by
  unfold pyInt
  exact if_neg (not_lt.2 h)

theorem pyInt_isByte (q : ℚ) : IsByte (pyInt (max 0 (min 255 q))) := by
  refine ⟨_, rfl, ?_, ?_⟩
  · rw [pyInt_nonneg (le_max_left _ _)]
    exact Int.floor_nonneg.2 (le_max_left _ _)
  · rw [pyInt_nonneg (le_max_left _ _)]
    have : max 0 (min 255 q) ≤ 255 := max_le (by norm_num) (min_le_left _ _)
    have h2 : ⌊max 0 (min 255 q)⌋ < 256 := Int.floor_lt.2 (by push_cast; linarith)
    omega

theorem shown_isByte (v : ℚ) : IsByte (shown v) := pyInt_isByte _

theorem squeezed_two {h w : Nat} (h1 : h ≠ 1) (h2 : w ≠ 1) : squeezed h w = [h, w] := by
  simp [squeezed, h1, h2]

/-- The mix of two bytes. -/
theorem blended_mixed {a f b : ℚ} (hf : IsByte f) (hb : IsByte b) : Mixed a f b (blended a f b) := by
  unfold blended
  refine ⟨fun h => if_pos (by linarith), fun h => ?_, fun h1 h2 => ?_⟩
  · rw [if_neg (by linarith), if_pos h]
  · rw [if_neg (by linarith), if_neg (by linarith)]
    rw [Blend.weighted]
    obtain ⟨y, rfl, y0, y1⟩ := hf
    obtain ⟨z, rfl, z0, z1⟩ := hb
    have q1 : (0 : ℚ) ≤ y := by exact_mod_cast y0
    have q2 : (0 : ℚ) ≤ z := by exact_mod_cast z0
    have q3 : (y : ℚ) ≤ 255 := by exact_mod_cast y1
    have q4 : (z : ℚ) ≤ 255 := by exact_mod_cast z1
    rw [Blend.saturate_byte _ (by nlinarith) (by nlinarith)]
    refine ⟨_, rfl, ?_⟩
    have := Props.npRound_dist ((y : ℚ) * a + z * (1 - a))
    have e : a * (y : ℚ) + (1 - a) * z = y * a + z * (1 - a) := by ring
    rw [e]
    exact this

/-- `blended` is what the model of `blend_alpha` computes for every component. -/
theorem blend_component (fg bg : Blend.Img) (a : ℚ) (h : fg.flat = bg.flat ∧ fg.h = bg.h ∧ fg.w = bg.w ∧ fg.c = bg.c) (hd : fg.dt = u8 ∧ bg.dt = u8)
    (hl : fg.vals.length = bg.vals.length) (hn : fg.vals ≠ []) : ∃ o, Blend.blend (1 / 100) fg bg ⟨[1], [a]⟩ = some o ∧
      o.vals = (fg.vals.zip bg.vals).map (fun p => blended a p.1 p.2) := by
  unfold Blend.blend
  rw [if_neg (by simpa using h), if_neg (by rw [hd.1, hd.2]; simp), if_neg (by rw [hd.1, hd.2]; decide), if_neg (by simpa using hn)]
  simp only [Blend.normAlpha, List.length_singleton, if_true, Option.bind_some, Blend.blendNormed, List.all_cons, List.all_nil, Bool.and_true,
    decide_eq_true_eq]
  have k1 : fg.dt.kind ≠ .b := by rw [hd.1]; decide
  by_cases h1 : a ≥ 1 - 1 / 100
  · rw [if_pos ⟨k1, h1⟩]
    refine ⟨_, rfl, ?_⟩
    simp only
    have : (fun p : ℚ × ℚ => blended a p.1 p.2) = Prod.fst := by
      funext p; unfold blended; rw [if_pos h1]
    rw [this, List.map_fst_zip (by omega)]
  · rw [if_neg (fun g => h1 g.2)]
    by_cases h2 : a ≤ 1 / 100
    · rw [if_pos ⟨k1, h2⟩]
      refine ⟨_, rfl, ?_⟩
      simp only
      have : (fun p : ℚ × ℚ => blended a p.1 p.2) = Prod.snd := by
        funext p; unfold blended; rw [if_neg h1, if_pos h2]
      rw [this, List.map_snd_zip (by omega)]
    · rw [if_neg (fun g => h2 g.2)]
      rw [if_neg (by
        push Not
        intro _
        simp only [List.getD_cons_zero]
        exact ⟨by linarith, by linarith⟩)]
      rw [if_pos ⟨hd.1, hd.2⟩]
      simp only [Blend.blendUint8, List.length_singleton, if_true]
      refine ⟨_, rfl, ?_⟩
      simp only [Blend.combine, List.getD_cons_zero]
      refine List.ext_getElem (by simp) (fun i _ _ => ?_)
      simp only [List.getElem_map, List.getElem_zipIdx, List.getElem_zip]
      unfold blended
      rw [if_neg h1, if_neg h2]

theorem drawable_iff {im : Im} {a : ℚ} : drawable im a = true ↔ im.c = some 3 ∧ im.dt = u8 ∧ -(1 / 10 ^ 8) ≤ a ∧ a ≤ 1 + 1 / 10 ^ 8 := by
  unfold drawable
  simp only [Bool.and_eq_true, decide_eq_true_eq, zero_sub, and_assoc]

theorem shows_exists {cv : Cv} (hcv : PicksPixels cv) {h w : Nat} (hh : 0 < h) (hw : 0 < w) (m n : Nat) : ∃ sy sx, Shows cv h w m n sy sx := by
  by_cases g : m = h ∧ n = w
  · refine ⟨id, id, fun y hy => by show y < h; omega, fun x hx => by show x < w; omega, ?_⟩
    rw [if_pos g]
    exact ⟨fun _ => rfl, fun _ => rfl⟩
  · obtain ⟨sy, sx, h1, h2, h3⟩ := hcv h w m n hh hw
    refine ⟨sy, sx, fun y _ => h1 y, fun x _ => h2 x, ?_⟩
    rw [if_neg g]
    exact h3

theorem nbClasses_le {l : List Int} {n : Int} (h : nbClasses l = some n) : l ≠ [] ∧ (∀ v ∈ l, v < n) ∧ (n - 1) ∈ l := by
  unfold nbClasses at h
  obtain ⟨a, h1, rfl⟩ := Option.map_eq_some_iff.1 h
  have h2 := List.max?_eq_some_iff.1 h1
  refine ⟨by rintro rfl; simp at h1, fun v hv => ?_, ?_⟩
  · have := h2.2 v hv
    omega
  · have : 1 + a - 1 = a := by omega
    rw [this]; exact h2.1

theorem mem_ids {m : Map Int} {k : Nat} {v : Int} : v ∈ ids m k ↔ HasId m k v := by
  unfold ids HasId
  simp only [List.mem_flatMap, List.mem_map, List.mem_range]

theorem ids_nil {m : Map Int} {k : Nat} : ids m k = [] ↔ m.h = 0 ∨ m.w = 0 := by
  constructor
  · intro h
    by_contra g
    have : m.at' 0 0 k ∈ ids m k := mem_ids.2 ⟨0, by omega, 0, by omega, rfl⟩
    rw [h] at this
    simp at this
  · intro h
    rw [List.eq_nil_iff_forall_not_mem]
    intro v hv
    obtain ⟨y, hy, x, hx, -⟩ := mem_ids.1 hv
    omega

theorem mapM_fails {α β : Type} (f : α → Option β) (l : List α) : l.mapM f = none ↔ ∃ a ∈ l, f a = none := by
  induction l with
  | nil => simp
  | cons a t ih =>
    rw [List.mapM_cons]
    cases h : f a with
    | none => simp [h]
    | some b =>
      cases h2 : t.mapM f with
      | none =>
        obtain ⟨c, c1, c2⟩ := ih.1 h2
        simp only [Option.bind_eq_bind, Option.bind_some, Option.bind_none, true_iff]
        exact ⟨c, List.mem_cons_of_mem _ c1, c2⟩
      | some r =>
        simp only [Option.bind_eq_bind, Option.bind_some, Option.pure_def, reduceCtorEq, List.mem_cons, exists_eq_or_imp, h, false_or, false_iff]
        rw [← ih, h2]
        simp

theorem single_works {cv : Cv} {im : Im} {m n : Nat} (h : 0 < im.h) (w : 0 < im.w) (hd : im.dt = u8 ∨ im.dt = ⟨.b, 1⟩) :
    ∃ r, single cv (some .nearest) (.tuple [.int m, .int n]) im = some r := by
  rw [← Option.isSome_iff_exists, resize_succeeds]
  refine Or.inr (Or.inr (Or.inr (Or.inr ⟨h, w, ?_⟩)))
  rcases hd with e | e <;> rw [e] <;> decide

theorem segChannel_fails (cv : Cv) (m : Map Int) (im : Im) (alpha : ℚ) (colors : List (List Int)) (background : Bool) (bgId : Int) (k : Nat) :
    segChannel cv m im alpha colors background bgId k = none ↔ m.h = 0 ∨ m.w = 0 ∨ ∃ id, HasId m k id ∧ (colors.length : Int) ≤ id := by
  unfold segChannel
  cases hn : nbClasses (ids m k) with
  | none =>
    have : ids m k = [] := by
      unfold nbClasses at hn
      rw [Option.map_eq_none_iff, List.max?_eq_none_iff] at hn
      exact hn
    simp only [Option.bind_none, true_iff]
    rcases ids_nil.1 this with h | h
    · exact Or.inl h
    · exact Or.inr (Or.inl h)
  | some n =>
    obtain ⟨n1, n2, n3⟩ := nbClasses_le hn
    have hz : ¬ (m.h = 0 ∨ m.w = 0) := fun g => n1 (ids_nil.2 g)
    rw [Option.bind_some]
    by_cases hc : n ≤ colors.length
    · rw [if_pos hc]
      simp only
      obtain ⟨d, hd⟩ := single_works (cv := cv) (m := im.h) (n := im.w) (im := ⟨u8, m.h, m.w, some 3, fun y x j =>
        if 0 ≤ m.at' y x k ∧ m.at' y x k < n then astype u8 ((colors.getD (m.at' y x k).toNat []).getD j 0 : ℚ) else 0⟩)
        (by show 0 < m.h; omega) (by show 0 < m.w; omega) (Or.inl rfl)
      obtain ⟨f, hf⟩ := single_works (cv := cv) (m := im.h) (n := im.w) (im := ⟨⟨.b, 1⟩, m.h, m.w, none, fun y x _ => if m.at' y x k ≠ bgId then 1 else 0⟩)
        (by show 0 < m.h; omega) (by show 0 < m.w; omega) (Or.inr rfl)
      rw [hd, Option.bind_some, hf]
      constructor
      · intro g
        exfalso
        split at g <;> simp at g
      · rintro (g | g | ⟨id, g1, g2⟩)
        · exact absurd (Or.inl g) hz
        · exact absurd (Or.inr g) hz
        · have := n2 id (mem_ids.2 g1)
          omega
    · rw [if_neg hc]
      simp only [true_iff]
      exact Or.inr (Or.inr ⟨n - 1, mem_ids.1 n3, by omega⟩)

end Imgaug.DrawMaps
