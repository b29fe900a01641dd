import Verif.Spec.Elastic
import Verif.Proofs.Manhattan
import Verif.Props.Manhattan
import Verif.Proofs.Num
import Mathlib.Tactic.Linarith
import Mathlib.Tactic.FieldSimp
import Mathlib.Algebra.BigOperators.Group.List.Basic
import Mathlib.Algebra.Order.BigOperators.Group.List
/-! Helper lemmas for Props/Elastic.lean. -/
namespace Imgaug.Elastic
open Imgaug Imgaug.Dtypes

theorem splitChunks_flatten {β : Type} (n : Nat) (hn : n ≠ 0) (l : List β) : (splitChunks n l).flatten = l := by
  induction l using splitChunks.induct n with
  | case1 l h =>
    rw [splitChunks, dif_pos h]
    rcases h with h | h
    · exact absurd h hn
    · subst h; rfl
  | case2 l h ih =>
    rw [splitChunks, dif_neg h, List.flatten_cons, ih, List.take_append_drop]

theorem splitChunks_short {β : Type} (n : Nat) (l : List β) : ∀ c ∈ splitChunks n l, c.length ≤ n := by
  induction l using splitChunks.induct n with
  | case1 l h => rw [splitChunks, dif_pos h]; simp
  | case2 l h ih =>
    rw [splitChunks, dif_neg h]
    intro c hc
    rcases List.mem_cons.mp hc with rfl | hc
    · simp
    · exact ih c hc

theorem configs_length : configs.length = 32 := by decide

/-- What each pair of maps has, given its row. -/
theorem rowMaps_good (noise : Nat → Nat → ℚ) (hn : ∀ k i, 0 ≤ noise k i ∧ noise k i ≤ 1) (smooth : ℚ → Map → Map)
    (hs : Averages smooth) (c : Config) (r : Row) (ha : 0 ≤ r.alpha) :
    ((rowMaps noise smooth c r (r.alpha * 2)).1.h = r.h ∧ (rowMaps noise smooth c r (r.alpha * 2)).1.w = r.w ∧
      Within r.alpha (rowMaps noise smooth c r (r.alpha * 2)).1) ∧
    ((rowMaps noise smooth c r (r.alpha * 2)).2.h = r.h ∧ (rowMaps noise smooth c r (r.alpha * 2)).2.w = r.w ∧
      Within r.alpha (rowMaps noise smooth c r (r.alpha * 2)).2) := by
  have key : ∀ (k : Nat) (lr ud : Bool), Within r.alpha
      (scaled (r.alpha * 2) (flipped lr ud (reshaped r.h r.w (fun i => noise k i - 1 / 2)))) := by
    intro k lr ud y x _ _
    simp only [scaled, flipped, reshaped]
    generalize (if ud = true then r.h - 1 - y else y) * r.w + (if lr = true then r.w - 1 - x else x) = i
    obtain ⟨h0, h1⟩ := hn k i
    rw [abs_le]
    constructor <;> nlinarith
  unfold rowMaps
  by_cases h : r.h * r.w = 0
  · simp only [if_pos h]
    refine ⟨⟨trivial, trivial, ?_⟩, trivial, trivial, ?_⟩ <;>
    · intro y x _ _
      simpa using ha
  · simp only [if_neg h]
    refine ⟨⟨(hs _ _).1, (hs _ _).2.1, (hs _ _).2.2 _ (key _ _ _)⟩, (hs _ _).1, (hs _ _).2.1, (hs _ _).2.2 _ (key _ _ _)⟩

theorem forall₂_zip_map {β γ δ : Type} (P : β → γ → Prop) (cs : List δ) (l : List β) (f : δ → β → γ) (h : ∀ d, ∀ b ∈ l, P b (f d b))
    (hl : l.length ≤ cs.length) : List.Forall₂ P l ((cs.zip l).map (fun p => f p.1 p.2)) := by
  induction l generalizing cs with
  | nil => simp
  | cons b l ih =>
    cases cs with
    | nil => simp at hl
    | cons c cs =>
      simp only [List.zip_cons_cons, List.map_cons]
      exact List.Forall₂.cons (h c b (by simp)) (ih cs (fun d b hb => h d b (by simp [hb])) (by simpa using hl))

theorem forall₂_append' {β γ : Type} {P : β → γ → Prop} {a c : List β} {b d : List γ} (h : List.Forall₂ P a b) (h' : List.Forall₂ P c d) :
    List.Forall₂ P (a ++ c) (b ++ d) := by
  induction h with
  | nil => exact h'
  | cons h1 _ ih => exact List.Forall₂.cons h1 ih

theorem areaMax_le (rows : List Row) (r : Row) (hr : r ∈ rows) : r.h * r.w ≤ areaMax rows := by
  unfold areaMax
  have key : ∀ (l : List Nat) (a x : Nat), x ≤ a ∨ x ∈ l → x ≤ l.foldl max a := by
    intro l
    induction l with
    | nil => intro a x h; simpa using h
    | cons y l ih =>
      intro a x h
      rw [List.foldl_cons]
      apply ih
      rcases h with h | h
      · exact Or.inl (le_trans h (le_max_left _ _))
      · rcases List.mem_cons.mp h with rfl | h
        · exact Or.inl (le_max_right _ _)
        · exact Or.inr h
  exact key _ 0 _ (Or.inr (List.mem_map.mpr ⟨r, hr, rfl⟩))

theorem chunksMaps_shift (draw : Nat → ℚ) (smooth : ℚ → Map → Map) (n : Nat) (cs : List (List Row)) (pos : Nat) :
    chunksMaps draw smooth (n + pos) cs = chunksMaps (fun i => draw (n + i)) smooth pos cs := by
  induction cs generalizing pos with
  | nil => rfl
  | cons c cs ih =>
    simp only [chunksMaps, Nat.add_assoc]
    rw [← ih]

theorem chunksMaps_rel (P : Row → Map × Map → Prop) (draw : Nat → ℚ) (hd : ∀ i, 0 ≤ draw i ∧ draw i ≤ 1) (smooth : ℚ → Map → Map) (cs : List (List Row))
    (hP : ∀ noise : Nat → Nat → ℚ, (∀ k i, 0 ≤ noise k i ∧ noise k i ≤ 1) → ∀ c, ∀ g ∈ cs, ∀ r ∈ g, P r (rowMaps noise smooth c r (r.alpha * 2)))
    (hl : ∀ c ∈ cs, c.length ≤ configs.length) (pos : Nat) :
    List.Forall₂ P cs.flatten (chunksMaps draw smooth pos cs) := by
  induction cs generalizing pos with
  | nil => simp [chunksMaps]
  | cons c cs ih =>
    rw [List.flatten_cons, chunksMaps]
    apply forall₂_append'
    · apply forall₂_zip_map P configs c
        (fun d r => rowMaps (fun k i => draw (pos + (k * areaMax c + i))) smooth d r (r.alpha * 2))
      · intro d r hr
        exact hP _ (fun k i => hd _) d c (by simp) r hr
      · exact hl c (by simp)
    · exact ih (fun noise hn d g hg => hP noise hn d g (by simp [hg])) (fun g hg => hl g (by simp [hg])) _

theorem shiftMaps_rel (P : Row → Map × Map → Prop) (draw : Nat → ℚ) (hd : ∀ i, 0 ≤ draw i ∧ draw i ≤ 1) (smooth : ℚ → Map → Map) (rows : List Row)
    (hP : ∀ noise : Nat → Nat → ℚ, (∀ k i, 0 ≤ noise k i ∧ noise k i ≤ 1) → ∀ c, ∀ r ∈ rows, P r (rowMaps noise smooth c r (r.alpha * 2))) :
    List.Forall₂ P rows (shiftMaps draw smooth rows) := by
  have hfl := splitChunks_flatten configs.length (by rw [configs_length]; decide) rows
  have := chunksMaps_rel P draw hd smooth (splitChunks configs.length rows)
    (fun noise hn c g hg r hr => hP noise hn c r (by rw [← hfl]; exact List.mem_flatten.mpr ⟨g, hg, hr⟩))
    (splitChunks_short _ _) 0
  rw [hfl] at this
  exact this

/-! Channels. -/

theorem groups_get (s : Sampler) (cval : ℚ) (dx dy : Map) (ps : Planes) (c : Nat) :
    (groups s cval dx dy ps)[c]? = (ps[c]?).map (remapped s (threeValues cval (c % 4)) dx dy) := by
  unfold groups
  induction ps using splitChunks.induct 4 generalizing c with
  | case1 l h =>
    rw [splitChunks, dif_pos h]
    rcases h with h | h
    · omega
    · subst h; simp
  | case2 l h ih =>
    rw [splitChunks, dif_neg h, List.flatMap_cons]
    by_cases hc : c < (l.take 4).length
    · rw [List.getElem?_append_left (by simpa using hc)]
      rw [List.length_take] at hc
      rw [List.getElem?_map, List.getElem?_zipIdx, List.getElem?_take_of_lt (by omega), Nat.mod_eq_of_lt (by omega : c < 4)]
      cases l[c]? <;> simp
    · have hlen : (List.map (fun p : (Nat → Nat → ℚ) × Nat => remapped s (threeValues cval p.2) dx dy p.1) (l.take 4).zipIdx).length = (l.take 4).length := by simp
      rw [List.getElem?_append_right (by rw [hlen]; omega), hlen, ih]
      rw [List.length_take] at hc ⊢
      by_cases h4 : 4 ≤ l.length
      · rw [Nat.min_eq_left h4] at hc ⊢
        rw [List.getElem?_drop, show 4 + (c - 4) = c by omega, show (c - 4) % 4 = c % 4 by omega]
      · rw [List.drop_of_length_le (by omega)]
        rw [show l[c]? = none from by rw [List.getElem?_eq_none_iff]; omega]
        simp

/-! The median. -/

theorem dist_nonneg (p q : ℝ × ℝ) : 0 ≤ dist p q := Real.sqrt_nonneg _

theorem dist_self (p : ℝ × ℝ) : dist p p = 0 := by simp [dist]

theorem dist_eq_zero {p q : ℝ × ℝ} (h : dist p q = 0) : p = q := by
  unfold dist at h
  rw [Real.sqrt_eq_zero (by positivity)] at h
  have h1 : p.1 - q.1 = 0 := by nlinarith [sq_nonneg (p.1 - q.1), sq_nonneg (p.2 - q.2)]
  have h2 : p.2 - q.2 = 0 := by nlinarith [sq_nonneg (p.1 - q.1), sq_nonneg (p.2 - q.2)]
  ext
  · linarith
  · linarith

theorem sumBy_le (f g : ℝ × ℝ → ℝ) (l : List (ℝ × ℝ)) (h : ∀ p ∈ l, f p ≤ g p) : sumBy f l ≤ sumBy g l := by
  unfold sumBy
  exact List.sum_le_sum h

theorem sumBy_mul (f : ℝ × ℝ → ℝ) (c : ℝ) (l : List (ℝ × ℝ)) : sumBy (fun p => f p * c) l = sumBy f l * c := by
  unfold sumBy
  induction l with
  | nil => simp
  | cons p l ih => simp only [List.map_cons, List.sum_cons, ih]; ring

theorem sumBy_const (c : ℝ) (l : List (ℝ × ℝ)) : sumBy (fun _ => c) l = l.length * c := by
  unfold sumBy
  simp

/-- A weighted mean with non-negative weights that sum to one lies between the bounds. -/
theorem convex_between (w f : ℝ × ℝ → ℝ) (l : List (ℝ × ℝ)) (a b : ℝ) (hw : ∀ p ∈ l, 0 ≤ w p) (h1 : sumBy w l = 1)
    (hf : ∀ p ∈ l, a ≤ f p ∧ f p ≤ b) : a ≤ sumBy (fun p => w p * f p) l ∧ sumBy (fun p => w p * f p) l ≤ b := by
  constructor
  · calc a = sumBy w l * a := by rw [h1]; ring
      _ = sumBy (fun p => w p * a) l := (sumBy_mul w a l).symm
      _ ≤ _ := sumBy_le _ _ l (fun p hp => mul_le_mul_of_nonneg_left (hf p hp).1 (hw p hp))
  · calc _ ≤ sumBy (fun p => w p * b) l := sumBy_le _ _ l (fun p hp => mul_le_mul_of_nonneg_left (hf p hp).2 (hw p hp))
      _ = sumBy w l * b := sumBy_mul w b l
      _ = b := by rw [h1]; ring

theorem others_mem {l : List (ℝ × ℝ)} {y p : ℝ × ℝ} (h : p ∈ others l y) : p ∈ l ∧ 0 < dist p y := by
  unfold others at h
  rw [List.mem_filter] at h
  refine ⟨h.1, ?_⟩
  have := of_decide_eq_true h.2
  exact lt_of_le_of_ne (dist_nonneg _ _) (Ne.symm this)

theorem weightSum_pos {l : List (ℝ × ℝ)} {y : ℝ × ℝ} (h : others l y ≠ []) : 0 < sumBy (fun p => 1 / dist p y) (others l y) := by
  have : ∀ m : List (ℝ × ℝ), m ≠ [] → (∀ p ∈ m, 0 < dist p y) → 0 < sumBy (fun p => 1 / dist p y) m := by
    intro m
    induction m with
    | nil => intro h; exact absurd rfl h
    | cons p m ih =>
      intro _ hp
      unfold sumBy
      rw [List.map_cons, List.sum_cons]
      have h1 : 0 < 1 / dist p y := one_div_pos.mpr (hp p (by simp))
      have h2 : 0 ≤ (m.map (fun p => 1 / dist p y)).sum := by
        apply List.sum_nonneg
        intro v hv
        obtain ⟨q, hq, rfl⟩ := List.mem_map.mp hv
        exact (one_div_pos.mpr (hp q (by simp [hq]))).le
      linarith
  exact this _ h (fun p hp => (others_mem hp).2)

theorem weight_facts {l : List (ℝ × ℝ)} {y : ℝ × ℝ} (h : others l y ≠ []) :
    (∀ p ∈ others l y, 0 ≤ 1 / dist p y / sumBy (fun p => 1 / dist p y) (others l y)) ∧
    sumBy (fun p => 1 / dist p y / sumBy (fun p => 1 / dist p y) (others l y)) (others l y) = 1 := by
  have hs := weightSum_pos h
  constructor
  · intro p hp
    exact div_nonneg (one_div_pos.mpr (others_mem hp).2).le hs.le
  · have : sumBy (fun p => 1 / dist p y / sumBy (fun p => 1 / dist p y) (others l y)) (others l y) =
        sumBy (fun p => 1 / dist p y) (others l y) * (sumBy (fun p => 1 / dist p y) (others l y))⁻¹ := by
      rw [← sumBy_mul]
      rfl
    rw [this]
    exact mul_inv_cancel₀ hs.ne'

theorem weighted_inBox {l : List (ℝ × ℝ)} {y : ℝ × ℝ} {a b c d : ℝ} (h : others l y ≠ []) (hl : ∀ p ∈ l, InBox a b c d p) :
    InBox a b c d (weighted l y) := by
  obtain ⟨hw, h1⟩ := weight_facts h
  have e1 := convex_between _ Prod.fst _ a b hw h1 (fun p hp => ⟨(hl p (others_mem hp).1).1, (hl p (others_mem hp).1).2.1⟩)
  have e2 := convex_between _ Prod.snd _ c d hw h1 (fun p hp => ⟨(hl p (others_mem hp).1).2.2.1, (hl p (others_mem hp).1).2.2.2⟩)
  exact ⟨e1.1, e1.2, e2.1, e2.2⟩

theorem mean_inBox {l : List (ℝ × ℝ)} {a b c d : ℝ} (h : l ≠ []) (hl : ∀ p ∈ l, InBox a b c d p) : InBox a b c d (mean l) := by
  have hn : (0 : ℝ) < l.length := by exact_mod_cast List.length_pos_of_ne_nil h
  have e : ∀ (f : ℝ × ℝ → ℝ) (u v : ℝ), (∀ p ∈ l, u ≤ f p ∧ f p ≤ v) → u ≤ sumBy f l / l.length ∧ sumBy f l / l.length ≤ v := by
    intro f u v hf
    have h1 := sumBy_le (fun _ => u) f l (fun p hp => (hf p hp).1)
    have h2 := sumBy_le f (fun _ => v) l (fun p hp => (hf p hp).2)
    rw [sumBy_const] at h1 h2
    constructor
    · rw [le_div_iff₀ hn]; linarith
    · rw [div_le_iff₀ hn]; linarith
  have e1 := e Prod.fst a b (fun p hp => ⟨(hl p hp).1, (hl p hp).2.1⟩)
  have e2 := e Prod.snd c d (fun p hp => ⟨(hl p hp).2.2.1, (hl p hp).2.2.2⟩)
  exact ⟨e1.1, e1.2, e2.1, e2.2⟩

theorem others_length_le (l : List (ℝ × ℝ)) (y : ℝ × ℝ) : (others l y).length ≤ l.length := by
  unfold others
  exact List.length_filter_le _ _

/-- One blend coordinate: `max(0, 1-v)·T + min(1, v)·y`. -/
theorem blend_between (v T y a b : ℝ) (hv : 0 ≤ v) (hT : a ≤ T ∧ T ≤ b) (hy : a ≤ y ∧ y ≤ b) :
    a ≤ max 0 (1 - v) * T + min 1 v * y ∧ max 0 (1 - v) * T + min 1 v * y ≤ b := by
  rcases le_total v 1 with h | h
  · rw [max_eq_right (by linarith), min_eq_right h]
    constructor <;> nlinarith
  · rw [max_eq_left (by linarith), min_eq_left h]
    constructor <;> linarith

theorem step_inBox {l : List (ℝ × ℝ)} {y : ℝ × ℝ} {a b c d : ℝ} (hne : l ≠ []) (hl : ∀ p ∈ l, InBox a b c d p) (hy : InBox a b c d y) :
    InBox a b c d (step l y) := by
  have hlen := others_length_le l y
  have hpos := List.length_pos_of_ne_nil hne
  unfold step
  simp only
  by_cases h0 : l.length - (others l y).length = 0
  · rw [if_pos h0]
    apply weighted_inBox _ hl
    intro e
    rw [e] at h0
    simp at h0
    exact hne h0
  · rw [if_neg h0]
    by_cases h1 : l.length - (others l y).length = l.length
    · rw [if_pos h1]; exact hy
    · rw [if_neg h1]
      have ho : others l y ≠ [] := by
        intro e
        rw [e] at h1
        simp at h1
      have hT := weighted_inBox ho hl
      have hv : ∀ r : ℝ, 0 ≤ r → 0 ≤ (if r = 0 then (0 : ℝ) else ((l.length - (others l y).length : Nat) : ℝ) / r) := by
        intro r hr
        split_ifs
        · exact le_refl _
        · positivity
      have e1 := fun r hr => blend_between _ (weighted l y).1 y.1 a b (hv r hr) ⟨hT.1, hT.2.1⟩ ⟨hy.1, hy.2.1⟩
      have e2 := fun r hr => blend_between _ (weighted l y).2 y.2 c d (hv r hr) ⟨hT.2.2.1, hT.2.2.2⟩ ⟨hy.2.2.1, hy.2.2.2⟩
      exact ⟨(e1 _ (dist_nonneg _ _)).1, (e1 _ (dist_nonneg _ _)).2, (e2 _ (dist_nonneg _ _)).1, (e2 _ (dist_nonneg _ _)).2⟩

theorem returns_inBox {l : List (ℝ × ℝ)} {a b c d e : ℝ} (hne : l ≠ []) (hl : ∀ p ∈ l, InBox a b c d p) {y r : ℝ × ℝ}
    (h : Returns l e y r) (hy : InBox a b c d y) : InBox a b c d r := by
  induction h with
  | done y h => exact step_inBox hne hl hy
  | more y r _ _ ih => exact ih (step_inBox hne hl hy)

theorem returns_fixed {l : List (ℝ × ℝ)} {e : ℝ} (he : 0 < e) {y r : ℝ × ℝ} (hy : step l y = y) : Returns l e y r ↔ r = y := by
  constructor
  · intro h
    cases h with
    | done => exact hy
    | more =>
      rename_i hh _
      exact absurd (by rw [hy, dist_self]; exact he) hh
  · rintro rfl
    have := Returns.done (l := l) (eps := e) r (by rw [hy, dist_self]; exact he)
    rwa [hy] at this

/-! Symmetric points. -/

theorem mirror_mirror (c p : ℝ × ℝ) : mirror c (mirror c p) = p := by
  unfold mirror
  ext <;> simp

theorem dist_mirror (c p : ℝ × ℝ) : dist (mirror c p) c = dist p c := by
  unfold dist mirror
  congr 1
  ring

theorem sumBy_perm (f : ℝ × ℝ → ℝ) {l m : List (ℝ × ℝ)} (h : l.Perm m) : sumBy f l = sumBy f m := by
  unfold sumBy
  exact (h.map f).sum_eq

theorem sumBy_map (f : ℝ × ℝ → ℝ) (g : ℝ × ℝ → ℝ × ℝ) (l : List (ℝ × ℝ)) : sumBy f (l.map g) = sumBy (fun p => f (g p)) l := by
  unfold sumBy
  rw [List.map_map]
  rfl

theorem sumBy_add (f g : ℝ × ℝ → ℝ) (l : List (ℝ × ℝ)) : sumBy f l + sumBy g l = sumBy (fun p => f p + g p) l := by
  unfold sumBy
  induction l with
  | nil => simp
  | cons p l ih => simp only [List.map_cons, List.sum_cons]; rw [← ih]; ring

theorem others_mirror (c : ℝ × ℝ) (l : List (ℝ × ℝ)) : others (l.map (mirror c)) c = (others l c).map (mirror c) := by
  unfold others
  rw [List.filter_map]
  congr 1
  apply List.filter_congr
  intro p _
  simp only [Function.comp, dist_mirror]

/-- Weighted sums over symmetric points are sums over the centre. -/
theorem sum_symmetric {l : List (ℝ × ℝ)} {c : ℝ × ℝ} (h : (l.map (mirror c)).Perm l) (w : ℝ × ℝ → ℝ) (hw : ∀ p, w (mirror c p) = w p) :
    sumBy (fun p => w p * p.1) l = sumBy w l * c.1 ∧ sumBy (fun p => w p * p.2) l = sumBy w l * c.2 := by
  constructor
  · have e := sumBy_perm (fun p => w p * p.1) h
    rw [sumBy_map] at e
    have s := sumBy_add (fun p => w (mirror c p) * (mirror c p).1) (fun p => w p * p.1) l
    rw [e] at s
    have : (fun p => w (mirror c p) * (mirror c p).1 + w p * p.1) = (fun p => w p * (2 * c.1)) := by
      funext p
      rw [hw]
      simp only [mirror]
      ring
    rw [this, sumBy_mul] at s
    linarith
  · have e := sumBy_perm (fun p => w p * p.2) h
    rw [sumBy_map] at e
    have s := sumBy_add (fun p => w (mirror c p) * (mirror c p).2) (fun p => w p * p.2) l
    rw [e] at s
    have : (fun p => w (mirror c p) * (mirror c p).2 + w p * p.2) = (fun p => w p * (2 * c.2)) := by
      funext p
      rw [hw]
      simp only [mirror]
      ring
    rw [this, sumBy_mul] at s
    linarith

theorem mean_symmetric {l : List (ℝ × ℝ)} {c : ℝ × ℝ} (hne : l ≠ []) (h : (l.map (mirror c)).Perm l) : mean l = c := by
  have hn : (l.length : ℝ) ≠ 0 := by
    have := List.length_pos_of_ne_nil hne
    positivity
  obtain ⟨h1, h2⟩ := sum_symmetric h (fun _ => 1) (fun _ => rfl)
  simp only [one_mul, sumBy_const, mul_one] at h1 h2
  unfold mean
  ext
  · show sumBy (fun p => p.1) l / _ = _
    rw [h1]; field_simp
  · show sumBy (fun p => p.2) l / _ = _
    rw [h2]; field_simp

theorem others_perm {l m : List (ℝ × ℝ)} (h : l.Perm m) (y : ℝ × ℝ) : (others l y).Perm (others m y) := by
  unfold others
  exact h.filter _

theorem weighted_symmetric {l : List (ℝ × ℝ)} {c : ℝ × ℝ} (ho : others l c ≠ []) (h : (l.map (mirror c)).Perm l) : weighted l c = c := by
  have h' : ((others l c).map (mirror c)).Perm (others l c) := by
    rw [← others_mirror]
    exact others_perm h c
  obtain ⟨_, h1⟩ := weight_facts ho
  obtain ⟨e1, e2⟩ := sum_symmetric h' (fun p => 1 / dist p c / sumBy (fun p => 1 / dist p c) (others l c)) (fun p => by rw [dist_mirror])
  rw [h1, one_mul] at e1 e2
  unfold weighted
  ext
  · exact e1
  · exact e2

theorem step_symmetric {l : List (ℝ × ℝ)} {c : ℝ × ℝ} (hne : l ≠ []) (h : (l.map (mirror c)).Perm l) : step l c = c := by
  unfold step
  simp only
  by_cases h0 : l.length - (others l c).length = 0
  · rw [if_pos h0]
    apply weighted_symmetric _ h
    intro e
    rw [e] at h0
    simp at h0
    exact hne h0
  · rw [if_neg h0]
    by_cases h1 : l.length - (others l c).length = l.length
    · rw [if_pos h1]
    · rw [if_neg h1]
      have ho : others l c ≠ [] := by
        intro e
        rw [e] at h1
        simp at h1
      rw [weighted_symmetric ho h]
      simp [dist]

/-! Neighbours. -/

theorem mem_neighbours (h w : Nat) (p : Pt) (q : Int × Int) : q ∈ neighbours h w p ↔
    (∃ i j : ℤ, |i| + |j| ≤ 3 ∧ q = (npRound (p.x + i), npRound (p.y + j))) ∧ 0 ≤ q.1 ∧ q.1 < w ∧ 0 ≤ q.2 ∧ q.2 < h := by
  unfold neighbours
  simp only [List.mem_filter, List.mem_map, Bool.and_eq_true, decide_eq_true_eq]
  constructor
  · rintro ⟨⟨r, hr, rfl⟩, hb⟩
    obtain ⟨i, j, hij, hx, hy⟩ := (Imgaug.Props.manhattan_points p 3 1 r).mp hr
    refine ⟨⟨i, j, by exact_mod_cast hij, ?_⟩, hb.1.1, hb.1.2, hb.2.1, hb.2.2⟩
    rw [hx, hy, mul_one, mul_one]
  · rintro ⟨⟨i, j, hij, rfl⟩, h1, h2, h3, h4⟩
    refine ⟨⟨⟨p.x + i, p.y + j⟩, ?_, rfl⟩, ⟨h1, h2⟩, h3, h4⟩
    rw [Imgaug.Props.manhattan_points]
    exact ⟨i, j, by exact_mod_cast hij, by simp, by simp⟩

/-- The offsets of the neighbourhood. -/
def offsets : List (Int × Int) :=
  (List.range 7).flatMap (fun (iy : Nat) => (List.range (2 * Imgaug.Props.halfWidth 3 iy + 1)).map
    (fun (i : Nat) => ((i : Int) - Imgaug.Props.halfWidth 3 iy, (iy : Int) - 3)))

theorem offsets_neg : offsets.map (fun o => (-o.1, -o.2)) = offsets.reverse := by decide

theorem offsets_near : ∀ o ∈ offsets, -3 ≤ o.1 ∧ o.1 ≤ 3 ∧ -3 ≤ o.2 ∧ o.2 ≤ 3 := by decide

theorem manhattan_offsets (p : Pt) : generateManhattan p 3 1 = offsets.map (fun o => (⟨p.x + o.1, p.y + o.2⟩ : Pt)) := by
  rw [Imgaug.Props.generateManhattan_eq, offsets, List.map_flatMap]
  congr 1
  funext iy
  rw [List.map_map]
  congr 1
  funext i
  simp

theorem npRound_shift (q : ℚ) (i : Int) (h : |(npRound q : ℚ) - q| ≠ 1 / 2) : npRound (q + i) = npRound q + i := by
  apply Imgaug.Props.npRound_unique
  have := lt_of_le_of_ne (Imgaug.Props.npRound_dist q) h
  push_cast
  rwa [show (npRound q : ℚ) + i - (q + i) = npRound q - q by ring]

theorem neighbours_interior (h w : Nat) (p : Pt) (hx : |(npRound p.x : ℚ) - p.x| ≠ 1 / 2) (hy : |(npRound p.y : ℚ) - p.y| ≠ 1 / 2)
    (h1 : 3 ≤ npRound p.x) (h2 : npRound p.x + 3 < w) (h3 : 3 ≤ npRound p.y) (h4 : npRound p.y + 3 < h) :
    neighbours h w p = offsets.map (fun o => (npRound p.x + o.1, npRound p.y + o.2)) := by
  unfold neighbours
  rw [manhattan_offsets, List.map_map]
  have e : offsets.map ((fun q : Pt => (npRound q.x, npRound q.y)) ∘ fun o => (⟨p.x + o.1, p.y + o.2⟩ : Pt)) =
      offsets.map (fun o => (npRound p.x + o.1, npRound p.y + o.2)) := by
    apply List.map_congr_left
    intro o _
    simp only [Function.comp, npRound_shift _ _ hx, npRound_shift _ _ hy]
  rw [e, List.filter_eq_self]
  intro q hq
  obtain ⟨o, ho, rfl⟩ := List.mem_map.mp hq
  obtain ⟨a, b, c, d⟩ := offsets_near o ho
  simp only [Bool.and_eq_true, decide_eq_true_eq]
  omega

theorem pair_tail (A B : Map × Map) (L : List (Map × Map)) (h : B.1 = A.1) : ∃ dx dy dy' tail, A :: B :: L = (dx, dy) :: (dx, dy') :: tail :=
  ⟨A.1, A.2, B.2, L, by rw [← show B = (A.1, B.2) from by rw [← h]]⟩

theorem npRound_neg_half : npRound (-1 / 2) = 0 := by
  have : ⌊(-1 / 2 : ℚ)⌋ = -1 := by rw [Int.floor_eq_iff]; norm_num
  norm_num [npRound, this]

theorem shiftMaps_short (draw : Nat → ℚ) (smooth : ℚ → Map → Map) (rows : List Row) (hne : rows ≠ []) (hl : rows.length ≤ 32) :
    shiftMaps draw smooth rows = chunkMaps draw smooth rows := by
  unfold shiftMaps
  rw [configs_length, splitChunks, dif_neg (by simp [hne]), List.take_of_length_le hl, List.drop_of_length_le hl, splitChunks, dif_pos (by simp)]
  simp [chunksMaps]

end Imgaug.Elastic
