import Verif.Spec.Intensity
import Verif.Proofs.Num
import Mathlib.Tactic.Ring
import Mathlib.Tactic.FieldSimp
import Mathlib.Tactic.Linarith
import Mathlib.Data.List.Basic
import Mathlib.Data.List.Nodup
namespace Imgaug.Intensity
open Imgaug Imgaug.Color Imgaug.Spec.Intensity

variable {α β γ : Type}

theorem scatter_length (f : Option α → β → α) (todo : List (Nat × β)) :
    ∀ base : List (Option α), (scatter f base todo).length = base.length := by
  induction todo with
  | nil => intro b; rfl
  | cons p ps ih => intro b; simp only [scatter, List.foldl_cons] at ih ⊢; rw [ih]; simp

theorem scatter_other (f : Option α → β → α) (todo : List (Nat × β)) (i : Nat) :
    ∀ base : List (Option α), i ∉ todo.map (·.1) → (scatter f base todo)[i]? = base[i]? := by
  induction todo with
  | nil => intro b _; rfl
  | cons p ps ih =>
    intro b h
    simp only [List.map_cons, List.mem_cons, not_or] at h
    simp only [scatter, List.foldl_cons] at ih ⊢
    rw [ih _ h.2, List.getElem?_set_ne (fun e => h.1 e.symm)]

theorem scatter_here (f : Option α → β → α) (todo : List (Nat × β)) (i : Nat) (v : β) :
    ∀ base : List (Option α), (todo.map (·.1)).Nodup → (i, v) ∈ todo → i < base.length →
      (scatter f base todo)[i]? = some (some (f (base.getD i none) v)) := by
  induction todo with
  | nil => intro b _ h; simp at h
  | cons p ps ih =>
    intro b hn hm hl
    simp only [List.map_cons, List.nodup_cons] at hn
    rcases List.mem_cons.1 hm with e | e
    · subst e
      have := scatter_other f ps i (b.set i (some (f (b.getD i none) v))) hn.1
      simp only [scatter, List.foldl_cons] at this ⊢
      rw [this]; simp [hl]
    · have hne : p.1 ≠ i := fun e' => hn.1 (e' ▸ List.mem_map.2 ⟨_, e, rfl⟩)
      have := ih (b.set p.1 (some (f (b.getD p.1 none) p.2))) hn.2 e (by simpa using hl)
      simp only [scatter, List.foldl_cons] at this ⊢
      rw [this]
      simp [List.getD_eq_getElem?_getD, List.getElem?_set_ne hne]

theorem zipIdx_filter_fst (p : α → Bool) : ∀ (l : List α) (k : Nat),
    ((l.zipIdx k).filter (fun q => p q.1)).map (·.1) = l.filter p
  | [], _ => rfl
  | x :: xs, k => by
    simp only [List.zipIdx_cons, List.filter_cons]
    by_cases h : p x
    · simp [h, zipIdx_filter_fst p xs (k+1)]
    · simp [h, zipIdx_filter_fst p xs (k+1)]

theorem keys_nodup (p : α → Bool) (l : List α) : ((l.zipIdx.filter (fun q => p q.1)).map (·.2)).Nodup := by
  have h : (l.zipIdx.map (·.2)).Nodup := by
    rw [List.zipIdx_map_snd]; exact List.nodup_range'
  exact h.sublist ((List.filter_sublist).map _)

/-- Scattering the values of the entries that fulfil `p` is a map over the entries. -/
theorem scatter_map (f : Option α → β → α) (p : γ → Bool) (v : γ → β) (b : γ → Option α) (l : List γ) :
    scatter f (l.map b) (((l.zipIdx.filter (fun q => p q.1)).map (·.2)).zip ((l.filter p).map v))
      = l.map (fun x => if p x then some (f (b x) (v x)) else b x) := by
  have hz : ((l.zipIdx.filter (fun q => p q.1)).map (·.2)).zip ((l.filter p).map v)
      = (l.zipIdx.filter (fun q => p q.1)).map (fun q => (q.2, v q.1)) := by
    rw [← zipIdx_filter_fst p l 0, List.map_map, List.zip_map']; rfl
  rw [hz]
  apply List.ext_getElem?
  intro i
  by_cases hl : i < l.length
  · by_cases hp : p l[i]
    · rw [scatter_here f _ i (v l[i])]
      · simp [hl, hp]
      · rw [List.map_map]; exact keys_nodup p l
      · refine List.mem_map.2 ⟨(l[i], i), List.mem_filter.2 ⟨?_, hp⟩, rfl⟩
        rw [List.mk_mem_zipIdx_iff_getElem?]; simp [hl]
      · simpa using hl
    · rw [scatter_other]
      · simp [hl, hp]
      · rw [List.map_map]
        intro hm
        obtain ⟨⟨x, j⟩, hq, hj⟩ := List.mem_map.1 hm
        obtain ⟨h1, h2⟩ := List.mem_filter.1 hq
        rw [List.mk_mem_zipIdx_iff_getElem?] at h1
        simp only [Function.comp] at hj
        subst hj
        rw [List.getElem?_eq_getElem hl] at h1
        simp only [Option.some.injEq] at h1
        subst h1
        exact hp h2
  · rw [List.getElem?_eq_none (by rw [scatter_length]; simpa using hl), List.getElem?_eq_none (by simpa using hl)]

theorem mapM_id_some (l : List α) : (l.map some).mapM id = some l := by
  induction l with
  | nil => rfl
  | cons x xs ih => simp [List.mapM_cons, ih]

theorem channel_at {t : Space} (h : validTo t) : channel t = some (at' t) := by
  cases t <;> simp_all [validTo, channel, at']

theorem coloured_iff (im : Im) : coloured im = true ↔ (im.ch.length = 3 ∨ im.ch.length = 4) := by simp [coloured]

/-- The converted image. -/
def inTarget (conv : Conv) (a : Applier) (im : Im) : Im := { im with ch := conv a.source a.target (im.ch.take 3) }

theorem newCs_eq (conv : Conv) (a : Applier) (images : List Im) :
    newCs conv a images = (images.filter coloured).map (inTarget conv a) := by
  simp [newCs, converted, firstThree, inTarget, Function.comp_def]

theorem normalized_eq (conv : Conv) (a : Applier) (images : List Im) :
    normalized conv a (at' a.target) images = (images.map (intensity conv a.source a.target)).map some := by
  unfold normalized indices
  rw [newCs_eq, scatter_map (fun _ im => only (at' a.target) im) coloured (inTarget conv a), List.map_map]
  apply List.map_congr_left
  intro im _
  by_cases h : coloured im
  · have h' := (coloured_iff im).1 h
    simp only [h, if_true, Function.comp, intensity, h', only, inTarget]
  · have h' := mt (coloured_iff im).2 h
    simp only [h, if_false, Function.comp, intensity, h', Bool.false_eq_true]

theorem afterConversion_eq (conv : Conv) (a : Applier) (images : List Im) :
    afterConversion conv a images = images.map (fun im => if coloured im then some (inTarget conv a im) else none) := by
  unfold afterConversion indices
  have : List.replicate images.length (none : Option Im) = images.map (fun _ => none) := by simp
  rw [newCs_eq, this, scatter_map (fun _ im => im) coloured (inTarget conv a)]

theorem rows_eq (conv : Conv) (a : Applier) (images aug : List Im) :
    images.zip ((afterConversion conv a images).zip aug)
      = (images.zip aug).map (fun q => (q.1, (if coloured q.1 then some (inTarget conv a q.1) else none), q.2)) := by
  rw [afterConversion_eq]
  induction images generalizing aug with
  | nil => rfl
  | cons x xs ih =>
    cases aug with
    | nil => simp
    | cons y ys => simp [ih]

theorem mapM_some_map' (f : α → Option β) (g : α → β) (l : List α) (h : ∀ x ∈ l, f x = some (g x)) : l.mapM f = some (l.map g) := by
  induction l with
  | nil => rfl
  | cons x xs ih =>
    rw [List.mapM_cons, h x List.mem_cons_self, ih (fun y hy => h y (List.mem_cons_of_mem _ hy))]
    rfl

theorem rest_of_three {im : Im} (h : im.ch.length = 3) : im.ch.drop 3 = [] := by
  rw [List.drop_eq_nil_iff]; omega

theorem denormalize_eq (conv : Conv) (a : Applier) (images aug : List Im) (h : aug.length = images.length)
    (hone : ∀ q ∈ images.zip aug, (q.1.ch.length = 3 ∨ q.1.ch.length = 4) → q.2.ch.length = 1) :
    denormalize conv a (at' a.target) images aug
      = some (List.zipWith (restored conv a.source a.target) images aug) := by
  unfold denormalize
  rw [rows_eq]
  set P := images.zip aug with hP
  have h1 : (P.map (fun q => (q.1, (if coloured q.1 then some (inTarget conv a q.1) else none), q.2))).filter (fun q => coloured q.1)
      = (P.filter (fun q => coloured q.1)).map (fun q => (q.1, (if coloured q.1 then some (inTarget conv a q.1) else none), q.2)) := by
    rw [List.filter_map]; rfl
  dsimp only
  rw [h1, List.mapM_map]
  rw [mapM_some_map' _ (fun q : Im × Im => put (at' a.target) (inTarget conv a q.1) q.2)]
  swap
  · intro q hq
    have := (List.mem_filter.1 hq).2
    simp [changed, this]
  simp only [Option.bind_eq_bind, Option.bind_some, converted, List.map_map]
  have h2 : indices (List.map ((fun x => x.1) ∘ fun q : Im × Im => (q.1, (if coloured q.1 then some (inTarget conv a q.1) else none), q.2)) P)
      = (P.zipIdx.filter (fun q => coloured q.1.1)).map (·.2) := by
    have : (List.map ((fun x => x.1) ∘ fun q : Im × Im => (q.1, (if coloured q.1 then some (inTarget conv a q.1) else none), q.2)) P)
      = P.map (·.1) := rfl
    rw [this, indices, List.zipIdx_map, List.filter_map, List.map_map]; rfl
  rw [h2, scatter_map stack (fun q : Im × Im => coloured q.1)]
  have h3 : List.zipWith (restored conv a.source a.target) images aug = P.map (fun q => restored conv a.source a.target q.1 q.2) := by
    rw [hP, List.map_zip_eq_zipWith]; rfl
  rw [h3, ← mapM_id_some, List.map_map]
  congr 1
  apply List.map_congr_left
  rintro ⟨im, new⟩ hq
  by_cases hc : coloured im
  · have hc' := (coloured_iff im).1 hc
    have h1 := hone _ hq hc'
    obtain ⟨dt', h', w', chs⟩ := new
    obtain ⟨p, rfl⟩ := List.length_eq_one_iff.1 h1
    simp only [hc, if_true, Function.comp, started, restored, hc', put]
    rcases hc' with e | e
    · rw [if_pos e, rest_of_three e]; simp [stack, inTarget]
    · rw [if_neg (by omega)]
      have : (im.ch.drop 3).take 1 = im.ch.drop 3 := by
        apply List.take_of_length_le; simp [e]
      simp [stack, inTarget, only, this]
  · have hc' := mt (coloured_iff im).2 hc
    simp only [hc, Function.comp, started, restored, hc', Bool.false_eq_true, if_false]

theorem make_some {f t : Space} {a : Applier} (h : Applier.make f t = some a) : a = ⟨f, t⟩ ∧ validTo t = true := by
  unfold Applier.make at h
  by_cases hv : validFrom f ∧ validTo t
  · rw [if_pos hv] at h; simp only [Option.some.injEq] at h; exact ⟨h.symm, hv.2⟩
  · rw [if_neg hv] at h; cases h

theorem apply_eq (conv : Conv) {f t : Space} {a : Applier} (ha : Applier.make f t = some a) (func : List Im → Option (List Im)) (images : List Im) :
    a.apply conv func images
      = (func (images.map (intensity conv f t))).bind (denormalize conv a (at' t) images) := by
  obtain ⟨rfl, hv⟩ := make_some ha
  unfold Applier.apply
  simp only [channel_at hv, Option.bind_eq_bind, Option.bind_some]
  have := normalized_eq conv ⟨f, t⟩ images
  simp only at this
  rw [this, mapM_id_some]
  rfl

theorem take_drop_one {l : List Plane} (h : l.length = 3) {k : Nat} (hk : k < 3) : ((l.drop k).take 1).length = 1 := by
  simp [h]; omega

theorem at'_lt (t : Space) : at' t < 3 := by unfold at'; split_ifs <;> omega

theorem intensity_one (conv : Conv) (hk : Keeps conv) (f t : Space) (im : Im) (h : im.ch.length = 3 ∨ im.ch.length = 4) :
    (intensity conv f t im).ch.length = 1 := by
  unfold intensity
  rw [if_pos h]
  exact take_drop_one (hk f t _ (by simp; omega)) (at'_lt t)

theorem restored_shape (conv : Conv) (hk : Keeps conv) (f t : Space) (im new : Im)
    (h : ¬ (im.ch.length = 3 ∨ im.ch.length = 4) → SameShape new im) : SameShape (restored conv f t im new) im := by
  unfold restored
  by_cases hc : im.ch.length = 3 ∨ im.ch.length = 4
  · rw [if_pos hc]
    refine ⟨rfl, rfl, rfl, ?_⟩
    have := hk t f ((conv f t (im.ch.take 3)).set (at' t) (new.ch.headD [])) (by rw [List.length_set]; exact hk f t _ (by simp; omega))
    simp only [List.length_append, this, List.length_drop]
    omega
  · rw [if_neg hc]; exact h hc

/-! ### CLAHE -/

theorem claheLoop_eq (cv : CvClahe) (h w : Nat) (row : List Sample) (pc : Bool) (ps : List Plane) :
    ∀ k, (∀ c < ps.length, (if pc then k + c else k) < row.length) →
      ∃ out, claheLoop cv h w row pc k ps = some out ∧ out.length = ps.length ∧
        ∀ c (hc : c < ps.length), ∃ s, row[if pc then k + c else k]? = some s ∧ out[c]? = some (claheChannel cv h w s ps[c]) := by
  induction ps with
  | nil => intro k _; exact ⟨[], rfl, rfl, by simp⟩
  | cons p ps ih =>
    intro k hk
    have h0 := hk 0 (by simp)
    simp only [Nat.add_zero, ite_self] at h0
    obtain ⟨out, ho, hl, hall⟩ := ih (if pc then k + 1 else k) (by
      intro c hc
      have := hk (c + 1) (by simpa using hc)
      revert this; cases pc <;> simp <;> omega)
    refine ⟨claheChannel cv h w row[k] p :: out, ?_, by simp [hl], ?_⟩
    · simp [claheLoop, List.getElem?_eq_getElem h0, ho]
    · intro c hc
      cases c with
      | zero => exact ⟨row[k], by simp [List.getElem?_eq_getElem h0], by simp⟩
      | succ c =>
        obtain ⟨s, hs, hso⟩ := hall c (by simpa using hc)
        refine ⟨s, ?_, by simpa using hso⟩
        rw [← hs]
        cases pc <;> simp [Nat.add_assoc, Nat.add_comm 1 c]

theorem foldl_max_ge (l : List Nat) : ∀ m, m ≤ l.foldl max m ∧ ∀ x ∈ l, x ≤ l.foldl max m := by
  induction l with
  | nil => intro m; simp
  | cons y ys ih =>
    intro m
    have h := ih (max m y)
    refine ⟨le_trans (le_max_left _ _) h.1, ?_⟩
    intro x hx
    rcases List.mem_cons.1 hx with e | e
    · subst e; exact le_trans (le_max_right _ _) h.1
    · exact h.2 x e

theorem le_maxChannels {images : List Im} {im : Im} (h : im ∈ images) : im.ch.length ≤ maxChannels images :=
  (foldl_max_ge _ 0).2 _ (List.mem_map.2 ⟨im, h, rfl⟩)

theorem noPixels_iff (im : Im) : im.noPixels = true ↔ (im.h = 0 ∨ im.w = 0) ∨ im.ch = [] := by
  simp [Im.noPixels]

theorem drawn_get (draw : Nat → Nat → Sample) (m n i k : Nat) (h : k < n) : (drawn draw m n i)[k]? = some (atLeast m (draw i k)) := by
  simp [drawn, h]

theorem claheImage_eq (cv : CvClahe) (draw : Nat → Nat → Sample) (perChannel : Nat → Bool) (m n i : Nat) (im : Im) (hn : im.ch.length ≤ n) :
    claheImage cv (drawn draw m n i) (perChannel i) im = some (claheOne cv draw perChannel m i im) := by
  unfold claheImage claheOne
  by_cases hz : im.noPixels
  · rw [if_pos hz]
    rcases (noPixels_iff im).1 hz with e | e
    · rw [if_pos e]
    · obtain ⟨dt, h, w, ch⟩ := im
      simp only at e; subst e
      split_ifs <;> rfl
  · rw [if_neg hz]
    have hz' := mt (noPixels_iff im).2 hz
    rw [if_neg (fun e => hz' (Or.inl e))]
    have hne : 0 < im.ch.length := List.length_pos_iff.2 (fun e => hz' (Or.inr e))
    obtain ⟨out, ho, hl, hall⟩ := claheLoop_eq cv im.h im.w (drawn draw m n i) (perChannel i) im.ch 0 (by
      intro c hc
      have : (drawn draw m n i).length = n := by simp [drawn]
      rw [this]; split_ifs <;> omega)
    rw [ho]
    simp only [Option.map_some, Option.some.injEq, Im.mk.injEq, true_and]
    apply List.ext_getElem?
    intro c
    by_cases hc : c < im.ch.length
    · obtain ⟨s, hs, hso⟩ := hall c hc
      rw [drawn_get _ _ _ _ _ (by split_ifs <;> omega)] at hs
      simp only [Option.some.injEq, Nat.zero_add] at hs
      rw [hso, ← hs]
      simp [hc]
    · rw [List.getElem?_eq_none (by omega), List.getElem?_eq_none (by simpa using hc)]

theorem claheFrom_eq (cv : CvClahe) (draw : Nat → Nat → Sample) (perChannel : Nat → Bool) (m n : Nat) (images : List Im) :
    ∀ i, (∀ im ∈ images, im.ch.length ≤ n) →
      claheFrom cv draw perChannel m n i images = some ((images.zipIdx i).map (fun q => claheOne cv draw perChannel m q.2 q.1)) := by
  induction images with
  | nil => intro i _; rfl
  | cons im rest ih =>
    intro i h
    simp only [claheFrom]
    rw [claheImage_eq _ _ _ _ _ _ _ (h im List.mem_cons_self), ih (i + 1) (fun x hx => h x (List.mem_cons_of_mem _ hx))]
    simp [List.zipIdx_cons]

theorem claheOne_shape (cv : CvClahe) (draw : Nat → Nat → Sample) (perChannel : Nat → Bool) (m i : Nat) (im : Im) :
    SameShape (claheOne cv draw perChannel m i im) im := by
  unfold claheOne
  by_cases h : im.h = 0 ∨ im.w = 0
  · rw [if_pos h]; exact ⟨rfl, rfl, rfl, rfl⟩
  · rw [if_neg h]; exact ⟨rfl, rfl, rfl, by simp⟩

theorem equalizeImage_shape (im : Im) : SameShape (equalizeImage im) im := by
  unfold equalizeImage
  split_ifs
  · exact ⟨rfl, rfl, rfl, rfl⟩
  · exact ⟨rfl, rfl, rfl, by simp⟩

theorem intensity_dt (conv : Conv) (f t : Space) (im : Im) : (intensity conv f t im).dt = im.dt := by
  unfold intensity; split_ifs <;> rfl

theorem zip_mem {l : List α} {l' : List β} {q : α × β} (h : q ∈ l.zip l') :
    ∃ i, ∃ h1 : i < l.length, ∃ h2 : i < l'.length, q = (l[i], l'[i]) := by
  obtain ⟨i, hi', e⟩ := List.getElem_of_mem h
  simp only [List.length_zip, lt_min_iff] at hi'
  exact ⟨i, hi'.1, hi'.2, by rw [← e]; simp⟩

/-! ### Histogram equalization -/

theorem foldl_min_le (l : List Nat) : ∀ m, l.foldl min m ≤ m ∧ (∀ x ∈ l, l.foldl min m ≤ x) ∧ (l.foldl min m = m ∨ l.foldl min m ∈ l) := by
  induction l with
  | nil => intro m; simp
  | cons y ys ih =>
    intro m
    obtain ⟨h1, h2, h3⟩ := ih (min m y)
    refine ⟨le_trans h1 (min_le_left _ _), ?_, ?_⟩
    · intro x hx
      rcases List.mem_cons.1 hx with e | e
      · subst e; exact le_trans h1 (min_le_right _ _)
      · exact h2 x e
    · simp only [List.foldl_cons]
      rcases h3 with e | e
      · rw [e]
        rcases le_total m y with hm | hm
        · rw [min_eq_left hm]; exact Or.inl rfl
        · rw [min_eq_right hm]; exact Or.inr List.mem_cons_self
      · exact Or.inr (List.mem_cons_of_mem _ e)

theorem smallest_le {p : Plane} {x : Nat} (h : x ∈ p) : smallest p ≤ x := by
  cases p with
  | nil => cases h
  | cons y ys =>
    rcases List.mem_cons.1 h with e | e
    · subst e; exact (foldl_min_le ys x).1
    · exact (foldl_min_le ys y).2.1 x e

theorem smallest_mem {p : Plane} (h : p ≠ []) : smallest p ∈ p := by
  cases p with
  | nil => exact absurd rfl h
  | cons y ys =>
    rcases (foldl_min_le ys y).2.2 with e | e
    · simp only [smallest]; rw [e]; exact List.mem_cons_self
    · exact List.mem_cons_of_mem _ e

theorem sum_count (p : Plane) (a : Nat) : ∀ n, ((List.range' a n).map (fun j => p.count j)).sum = p.countP (fun x => a ≤ x ∧ x < a + n)
  | 0 => by
    simp only [List.range'_zero, List.map_nil, List.sum_nil, Nat.add_zero]
    symm; rw [List.countP_eq_zero]; intro x _; simp
  | n + 1 => by
    rw [List.range'_concat, List.map_append, List.sum_append, sum_count p a n]
    simp only [List.map_cons, List.map_nil, List.sum_cons, List.sum_nil, Nat.add_zero, Nat.one_mul]
    induction p with
    | nil => rfl
    | cons x xs ih =>
      simp only [List.countP_cons, List.count_cons, decide_eq_true_eq, beq_iff_eq] at ih ⊢
      split_ifs <;> omega

theorem cumulated_eq (p : Plane) (v : Nat) : cumulated p v = p.countP (fun x => smallest p < x ∧ x ≤ v) := by
  unfold cumulated
  rw [sum_count]
  apply List.countP_congr
  intro x _
  simp only [decide_eq_true_eq]
  omega

theorem others_eq (p : Plane) : p.length - p.count (smallest p) = p.countP (fun x => smallest p < x) := by
  have h : ∀ (s : Nat) (l : List Nat), (∀ x ∈ l, s ≤ x) → l.count s + l.countP (fun x => s < x) = l.length := by
    intro s l
    induction l with
    | nil => intro _; rfl
    | cons x xs ih =>
      intro hall
      have := ih (fun y hy => hall y (List.mem_cons_of_mem _ hy))
      have hx := hall x List.mem_cons_self
      simp only [List.countP_cons, List.count_cons, decide_eq_true_eq, beq_iff_eq, List.length_cons] at this ⊢
      split_ifs <;> omega
  have := h (smallest p) p (fun x hx => smallest_le hx)
  omega

theorem one_value_iff (p : Plane) : p.count (smallest p) = p.length ↔ ∀ x ∈ p, x = smallest p := by
  rw [List.count_eq_length]
  constructor
  · intro h x hx; exact (h x hx).symm
  · intro h x hx; exact (h x hx).symm

end Imgaug.Intensity
