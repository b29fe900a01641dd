import Verif.Spec.ScalarBatch
import Verif.Props.AddMul
import Verif.Props.Invert
import Verif.Proofs.AffineArgs
import Verif.Proofs.Channels
/-! Lemmas for C108. -/
namespace Imgaug.ScalarBatch
open Imgaug Imgaug.Dtypes Imgaug.Params Imgaug.AffineArgs
open Imgaug.AddMul (Img Operand)
variable {σ : Type}

theorem le_foldl_max (l : List Nat) : ∀ a, a ≤ l.foldl max a := by
  induction l with
  | nil => intro a; exact le_rfl
  | cons b t ih => intro a; exact le_trans (le_max_left a b) (ih _)

theorem mem_le_foldl (l : List Nat) : ∀ a, ∀ x ∈ l, x ≤ l.foldl max a := by
  induction l with
  | nil => intro a x hx; simp at hx
  | cons b t ih =>
    intro a x hx
    rcases List.mem_cons.1 hx with rfl | h
    · exact le_trans (le_max_right a x) (le_foldl_max t _)
    · exact ih _ x h

theorem le_maxChannels (l : List Nat) (x : Nat) (h : x ∈ l) : x ≤ maxChannels l := mem_le_foldl l 0 x h

theorem foldl_max_le (l : List Nat) : ∀ a m, a ≤ m → (∀ x ∈ l, x ≤ m) → l.foldl max a ≤ m := by
  induction l with
  | nil => intro a m h _; exact h
  | cons b t ih => intro a m h hx; exact ih _ m (max_le h (hx b (by simp))) (fun x hxt => hx x (List.mem_cons_of_mem _ hxt))

theorem maxChannels_eq (l : List Nat) (m : Nat) (h1 : ∀ x ∈ l, x ≤ m) (h2 : m ∈ l) : maxChannels l = m :=
  le_antisymm (foldl_max_le l 0 m (by omega) h1) (le_maxChannels l m h2)

theorem rowOf_length (l : List ℚ) (n c i : Nat) (hl : l.length = n * c) (hi : i < n) : (rowOf l c i).length = c := by
  have h : i * c + c ≤ n * c := by
    have := Nat.mul_le_mul_right c (Nat.succ_le_of_lt hi)
    rwa [Nat.succ_mul] at this
  rw [rowOf, List.length_take, List.length_drop]
  omega

theorem rowOf_getD (l : List ℚ) (c i k : Nat) (hk : k < c) (z : ℚ) : (rowOf l c i).getD k z = l.getD (i * c + k) z := by
  simp only [rowOf, List.getD, List.getElem?_take_of_lt hk, List.getElem?_drop]

theorem rowOf_lt (n c i k : Nat) (hi : i < n) (hk : k < c) : i * c + k < n * c := by
  have := Nat.mul_le_mul_right c (Nat.succ_le_of_lt hi)
  rw [Nat.succ_mul] at this
  omega

theorem operand_at (dt : DType) (l : List ℚ) (n cmax i c : Nat) (pc : ℚ) (hl : l.length = n * cmax) (hi : i < n) (hc : c ≤ cmax) (h1 : 1 ≤ c) (j : Nat) :
    (operand dt (rowOf l cmax i) pc c).at c j = l.getD (i * cmax + (if pc > 1 / 2 then j % c else 0)) 0 := by
  have hr := rowOf_length l n cmax i hl hi
  have hj : j % c < c := Nat.mod_lt _ (by omega)
  have hget : ∀ m k, k < m → ((rowOf l cmax i).take m).getD k 0 = (rowOf l cmax i).getD k 0 := by
    intro m k hk
    simp only [List.getD, List.getElem?_take_of_lt hk]
  by_cases hp : pc > 1 / 2
  · simp only [operand, if_pos hp, Operand.at, List.length_take, hr]
    by_cases h : min c cmax = 1
    · rw [if_pos h, hget c 0 (by omega), rowOf_getD _ _ _ _ (by omega)]
      have : j % c = 0 := by omega
      rw [this]
    · rw [if_neg h, hget c _ hj, rowOf_getD _ _ _ _ (by omega)]
  · simp only [operand, if_neg hp, Operand.at, List.length_take, hr]
    rw [if_pos (by omega), hget 1 0 (by omega), rowOf_getD _ _ _ _ (by omega)]

theorem operand_fits (dt : DType) (l : List ℚ) (n cmax i : Nat) (im : Img) (pc : ℚ) (hl : l.length = n * cmax) (hi : i < n) (hc : im.c ≤ cmax)
    (h1 : 1 ≤ im.c) (hf : im.flat = false) : (operand dt (rowOf l cmax i) pc im.c).Fits im := by
  have hr := rowOf_length l n cmax i hl hi
  simp only [operand, Operand.Fits]
  by_cases hp : pc > 1 / 2
  · rw [if_pos hp, List.length_take, hr]; right; exact ⟨hf, by omega⟩
  · rw [if_neg hp, List.length_take, hr]; left; omega

theorem operand_mem (dt : DType) (l : List ℚ) (cmax i c : Nat) (pc x : ℚ) (h : x ∈ (operand dt (rowOf l cmax i) pc c).vals) : x ∈ l := by
  have hr : ∀ m, x ∈ (rowOf l cmax i).take m → x ∈ l := fun m h => List.mem_of_mem_drop (List.mem_of_mem_take (List.mem_of_mem_take h))
  simp only [operand] at h
  split at h
  · exact hr _ h
  · exact hr _ h

theorem probability_supports (P : Values ℚ) (a : Val) (d : Handled) (v : ℚ) (h : handleProbability a false false = some d) (hv : Supports P d v) :
    Outcome a (decide (v > 1 / 2)) := by
  rcases a with x | l | l
  · cases x with
    | bool b =>
      simp only [handleProbability, Option.some.injEq] at h
      subst h
      simp only [Supports] at hv
      subst hv
      cases b <;> simp only [Outcome] <;> decide +kernel
    | num n =>
      simp only [handleProbability] at h
      simp only [Outcome]
      by_cases h0 : n.q = 0 ∨ n.q = 1
      · rw [if_pos h0] at h
        simp only [Option.some.injEq] at h
        subst h
        simp only [Supports] at hv
        subst hv
        constructor
        · intro e; rw [e]; decide +kernel
        · intro e; rw [e]; decide +kernel
      · push Not at h0
        exact ⟨fun e => absurd e h0.1, fun e => absurd e h0.2⟩
    | _ => trivial
  · trivial
  · trivial

theorem init_some (value per : Val) (c : Handled × Handled) (h : init value per = some c) :
    handleContinuous value .none true true = some c.1 ∧ handleProbability per false false = some c.2 := by
  simp only [init, Option.bind_eq_bind, Option.bind_eq_some_iff, Option.pure_def, Option.some.injEq] at h
  obtain ⟨v, h1, p, h2, rfl⟩ := h
  exact ⟨h1, h2⟩

/-- The numbers that were drawn for image `i`. -/
def channelValues (l : List ℚ) (cmax i : Nat) (pc : ℚ) (k : Nat) : ℚ := l.getD (i * cmax + (if pc > 1 / 2 then k else 0)) 0

theorem channelValues_drawn (P : Values ℚ) (S : Sampler σ Handled ℚ) (hS : Ok (Supports P) S) (value per : Val) (hf : AffineArgs.Val.Filled value)
    (c : Handled × Handled) (h : init value per = some c) (n cmax i k : Nat) (hi : i < n) (hk : k ≤ cmax) (g g' : σ) :
    Drawn P value per k (channelValues (S c.1 (n * cmax) g).1 cmax i ((S c.2 n g').1.getD i 0)) := by
  obtain ⟨h1, h2⟩ := init_some value per c h
  refine ⟨decide ((S c.2 n g').1.getD i 0 > 1 / 2), probability_supports P per c.2 _ h2 (sample_ok hS c.2 n g' i hi 0), ?_, ?_⟩
  · intro m hm
    refine continuous_supports P value _ c.1 _ h1 hf (sample_ok hS c.1 (n * cmax) g _ ?_ 0)
    split
    · exact rowOf_lt n cmax i m hi (by omega)
    · exact rowOf_lt n cmax i 0 hi (by omega)
  · intro hb m
    simp only [decide_eq_false_iff_not] at hb
    simp only [channelValues, if_neg hb]

/-- The batch, image by image. -/
theorem augment_images (op : Img → Operand → Option (List ℚ)) (S : Sampler σ Handled ℚ) (dtOf : Handled → DType) (conf : Handled × Handled)
    (l : List Img) (g : σ) (F : Nat → Img → List ℚ)
    (h : ∀ (i : Nat) (im : Img), l[i]? = some im →
      op im (operand (dtOf conf.1) (rowOf (S conf.1 (l.length * maxChannels (l.map (fun im => im.c))) (S conf.2 l.length g).2).1
        (maxChannels (l.map (fun im => im.c))) i) ((S conf.2 l.length g).1.getD i 0) im.c) = some (F i im)) :
    augment op S dtOf conf (some l) g = some (some (l.zipIdx.map (fun p => { p.1 with vals := F p.2 p.1 }))) := by
  simp only [augment]
  rw [Dtypes.mapM_some _ (fun p => { p.1 with vals := F p.2 p.1 })]
  · rfl
  · rintro ⟨im, i⟩ hp
    simp only
    rw [h i im (by simpa using List.mem_zipIdx_iff_getElem?.1 hp)]
    rfl

theorem zipIdx_map_get {α β : Type} (l : List α) (f : α × Nat → β) (i : Nat) (x : α) (h : l[i]? = some x) : (l.zipIdx.map f)[i]? = some (f (x, i)) := by
  rw [List.getElem?_map, List.getElem?_zipIdx, h]
  simp

/-! Inversion -/
open Imgaug.Invert (Good Acceptable Fits)

theorem good_nil : Good [] := by intro p hp; simp at hp

theorem reachable_good (c : Invert.Cache) (h : Reachable c) : Good c := by
  induction h with
  | start => exact good_nil
  | call c d a shape vals _ ih => exact (Invert.invert_good c ih d a shape vals).2

/-- Inversion works component by component. -/
theorem invert_pointwise (d : DType) (hd : d ∈ all) (a : Invert.Args) (hf : Fits d a) (ha : Acceptable d a) :
    ∃ f : ℚ → ℚ, ∀ (c : Invert.Cache), Good c → ∀ (shape : List Nat) (vals : List ℚ), (∀ v ∈ vals, Holds d v) →
      (Invert.invert c d a shape vals).1 = some (vals.map f) := by
  rcases ht : a.threshold with - | t
  · exact ⟨_, fun c hc shape vals hv => Invert.invert_none c hc d hd a hf ha shape ht vals hv⟩
  by_cases hu : d = ⟨.u, 1⟩
  · subst hu
    refine ⟨fun v => ((Invert.table (Invert.lower ⟨.u, 1⟩ a) (Invert.upper ⟨.u, 1⟩ a) (some t) a.above)[(pyInt v).toNat]?).getD 0,
      fun c hc shape vals hv => ?_⟩
    rw [(Invert.invert_good c hc _ a shape vals).1, Invert.invert]
    split
    · rename_i h; rw [List.length_eq_zero_iff] at h; subst h; rfl
    have hacc := (Invert.accepted_iff _ hd a).mpr ha
    simp only [Invert.lower, Invert.upper] at hacc
    simp only [hacc, if_true, Invert.invertUint8, ht, Invert.validForCv2, Option.isNone_some, Bool.false_and, Bool.false_eq_true, if_false]
    rw [(Invert.getTable_good [] good_nil _ _ _ _).1]
    refine Invert.lookup_all _ _ _ _ _ _ hv ?_
    intro n hn _
    have hl := Invert.table_length (a.minV.getD (lo ⟨.u, 1⟩)) (a.maxV.getD (hi ⟨.u, 1⟩)) (some t) a.above
    have hp : (pyInt (n : ℚ)).toNat = n := by
      have := pyInt_intCast (n : Int)
      rw [Int.cast_natCast] at this
      rw [this]; rfl
    simp only [hp, Invert.lower, Invert.upper]
    rw [List.getElem?_eq_getElem (by rw [hl]; exact hn)]
    rfl
  · exact ⟨_, fun c hc shape vals hv => Invert.invert_some c hc d hd a ha shape t ht (fun e => absurd e hu) vals hv⟩

/-- The components in chosen channels are replaced, the others stay. -/
theorem put_picked (mask : List Bool) (c : Nat) (f : ℚ → ℚ) : ∀ (vals : List ℚ) (i : Nat),
    put mask c i vals (((vals.zipIdx i).filter (fun p => mask.getD (p.2 % c) false)).map (fun p => f p.1)) =
      (vals.zipIdx i).map (fun p => if mask.getD (p.2 % c) false then f p.1 else p.1) := by
  intro vals
  induction vals with
  | nil => intro i; rfl
  | cons v vs ih =>
    intro i
    rw [List.zipIdx_cons, List.filter_cons, List.map_cons]
    by_cases hm : mask.getD (i % c) false = true
    · simp only [hm, if_true, List.map_cons, put]
      rw [ih (i + 1)]
    · simp only [hm, Bool.false_eq_true, if_false]
      rw [← ih (i + 1)]
      cases hr : List.map (fun p => f p.1) (List.filter (fun p => mask.getD (p.2 % c) false) (vs.zipIdx (i + 1))) with
      | nil => rfl
      | cons w ws => simp only [put]; rw [if_neg hm]

theorem picked_map (mask : List Bool) (c : Nat) (f : ℚ → ℚ) (vals : List ℚ) :
    (picked mask c vals).map f = ((vals.zipIdx 0).filter (fun p => mask.getD (p.2 % c) false)).map (fun p => f p.1) := by
  rw [picked, List.map_map]; rfl

theorem picked_mem (mask : List Bool) (c : Nat) (vals : List ℚ) (v : ℚ) (h : v ∈ picked mask c vals) : v ∈ vals := by
  rw [picked, List.mem_map] at h
  obtain ⟨p, hp, rfl⟩ := h
  have := List.mem_zipIdx_iff_getElem?.1 (List.mem_of_mem_filter hp)
  exact List.mem_of_getElem? (by simpa using this)

/-- The channels of an image that a sample chooses. -/
def chosen (s : InvertSample) (k : Nat) : Bool := if s.perChannel then s.p.getD k false else s.p.getD 0 false

/-- One image. -/
theorem step_image (s : InvertSample) (im : Pic) (hok : im.Ok) (hf : Fits im.dt s.args) (ha : Acceptable im.dt s.args) (f : ℚ → ℚ)
    (hpf : ∀ (c : Invert.Cache), Good c → ∀ (shape : List Nat) (vals : List ℚ), (∀ v ∈ vals, Holds im.dt v) →
      (Invert.invert c im.dt s.args shape vals).1 = some (vals.map f)) (cache : Invert.Cache) (hc : Good cache) :
    (invertStep cache s im).1 = some { im with vals := im.vals.zipIdx.map (fun p => if chosen s (p.2 % im.c) then f p.1 else p.1) } ∧
      Good (invertStep cache s im).2 := by
  obtain ⟨hd, hlen, hh⟩ := hok
  unfold invertStep
  by_cases he : im.h = 0 ∨ im.w = 0 ∨ im.c = 0
  · rw [if_pos he]
    refine ⟨?_, hc⟩
    have : im.vals = [] := by
      rw [← List.length_eq_zero_iff, hlen]
      rcases he with h | h | h <;> simp [h]
    obtain ⟨dt, h, w, c, vals⟩ := im
    simp only at this
    subst this
    rfl
  rw [if_neg he]
  have hc0 : im.c ≠ 0 := by tauto
  by_cases hp : s.perChannel = true
  · rw [if_pos hp]
    refine ⟨?_, (Invert.invert_good cache hc _ _ _ _).2⟩
    simp only
    rw [hpf cache hc _ _ (fun v hv => hh v (picked_mem _ _ _ _ hv)), Option.map_some, picked_map, put_picked]
    congr 2
    refine List.map_congr_left (fun p _ => ?_)
    have hk : p.2 % im.c < im.c := Nat.mod_lt _ (by omega)
    simp only [chosen, hp, if_true, List.getD, List.getElem?_take_of_lt hk]
  · rw [if_neg hp]
    by_cases h0 : s.p.getD 0 false = true
    · rw [if_pos h0]
      refine ⟨?_, (Invert.invert_good cache hc _ _ _ _).2⟩
      simp only
      rw [hpf cache hc _ _ hh, Option.map_some]
      congr 2
      rw [show im.vals.map f = (im.vals.zipIdx.map (fun p => p.1)).map f by simp, List.map_map]
      refine List.map_congr_left (fun p _ => ?_)
      simp only [chosen, hp, h0, Bool.false_eq_true, if_false, if_true, Function.comp]
    · rw [if_neg h0]
      refine ⟨?_, hc⟩
      obtain ⟨dt, h, w, c, vals⟩ := im
      simp only [chosen, hp, h0, Bool.false_eq_true, if_false, Option.some.injEq, Pic.mk.injEq, true_and]
      simp

/-- A batch whose images can all be handled. -/
theorem all_images (G : InvertSample → Pic → Pic) : ∀ (l : List (InvertSample × Pic)) (cache : Invert.Cache), Good cache →
    (∀ p ∈ l, ∀ c, Good c → (invertStep c p.1 p.2).1 = some (G p.1 p.2) ∧ Good (invertStep c p.1 p.2).2) →
    (invertAll cache l).1 = some (l.map (fun p => G p.1 p.2)) := by
  intro l
  induction l with
  | nil => intro cache _ _; rfl
  | cons p t ih =>
    intro cache hc h
    obtain ⟨s, im⟩ := p
    obtain ⟨h1, h2⟩ := h (s, im) (by simp) cache hc
    simp only at h1 h2
    simp only [invertAll, h1]
    rw [ih _ h2 (fun p hp => h p (List.mem_cons_of_mem _ hp))]
    rfl

theorem initInvert_some (a : InvertArgs) (conf : InvertConf) (h : initInvert a = some conf) :
    handleProbability a.p false false = some conf.p ∧ handleProbability a.perChannel false false = some conf.perChannel ∧
    conf.minV = a.minV ∧ conf.maxV = a.maxV ∧ (a.threshold = none → conf.threshold = none) ∧
    (∀ v, a.threshold = some v → ∃ d, conf.threshold = some d ∧ handleContinuous v .none true true = some d) ∧
    handleProbability a.above false false = some conf.above := by
  rcases a with ⟨p, pc, mn, mx, t, ab⟩
  cases t with
  | none =>
    simp only [initInvert, Option.bind_eq_bind, Option.bind_eq_some_iff, Option.pure_def, Option.some.injEq] at h
    obtain ⟨q, h1, r, h2, t, rfl, u, h4, rfl⟩ := h
    exact ⟨h1, h2, rfl, rfl, fun _ => rfl, fun v hv => by simp at hv, h4⟩
  | some v =>
    simp only [initInvert, Option.bind_eq_bind, Option.bind_eq_some_iff, Option.pure_def, Option.some.injEq, Option.map_eq_some_iff] at h
    obtain ⟨q, h1, r, h2, t, ⟨d, h3, rfl⟩, u, h4, rfl⟩ := h
    refine ⟨h1, h2, rfl, rfl, fun hv => by simp at hv, fun w hw => ?_, h4⟩
    simp only [Option.some.injEq] at hw
    subst hw
    exact ⟨d, rfl, h3⟩

theorem drawInvert_length (S : Sampler σ Handled ℚ) (conf : InvertConf) (n c : Nat) (g : σ) : (drawInvert S conf n c g).length = n := by
  simp [drawInvert]

/-- What is drawn for image `i`. -/
theorem drawn_meant (P : Values ℚ) (S : Sampler σ Handled ℚ) (hS : Ok (Supports P) S) (a : InvertArgs)
    (hfill : ∀ v, a.threshold = some v → AffineArgs.Val.Filled v) (conf : InvertConf) (h : initInvert a = some conf) (n cmax i c : Nat) (hi : i < n)
    (hc : c ≤ cmax) (g : σ) : ∃ s, (drawInvert S conf n cmax g)[i]? = some s ∧ Selected a.p a.perChannel c (chosen s) ∧ Meant P a s.args := by
  obtain ⟨h1, h2, h3, h4, h5, h6, h7⟩ := initInvert_some a conf h
  refine ⟨_, by rw [drawInvert, List.getElem?_map, List.getElem?_range hi]; rfl, ?_, ?_⟩
  · refine ⟨_, probability_supports P _ _ _ h2 (sample_ok hS conf.perChannel n (S conf.p (n * cmax) g).2 i hi 0), ?_, ?_⟩
    · intro k hk
      have hget : ∀ m, m < cmax → (((rowOf (S conf.p (n * cmax) g).1 cmax i).map (fun v => decide (v > 1 / 2))).getD m false) =
          decide ((S conf.p (n * cmax) g).1.getD (i * cmax + m) 0 > 1 / 2) := by
        intro m hm
        have hl := rowOf_length _ n cmax i (hS.length conf.p (n * cmax) g) hi
        have := rowOf_getD (S conf.p (n * cmax) g).1 cmax i m hm 0
        rw [← this]
        generalize rowOf (S conf.p (n * cmax) g).1 cmax i = r at hl
        have e : r[m]? = some (r[m]'(by rw [hl]; exact hm)) := List.getElem?_eq_getElem _
        simp only [List.getD, List.getElem?_map, e, Option.map_some, Option.getD_some]
      have hsup : ∀ m, m < cmax → Outcome a.p (decide ((S conf.p (n * cmax) g).1.getD (i * cmax + m) 0 > 1 / 2)) :=
        fun m hm => probability_supports P _ _ _ h1 (sample_ok hS conf.p (n * cmax) g _ (rowOf_lt n cmax i m hi hm) 0)
      simp only [chosen]
      split
      · rw [hget k (by omega)]; exact hsup k (by omega)
      · rw [hget 0 (by omega)]; exact hsup 0 (by omega)
    · intro hb k
      simp only [chosen, hb, Bool.false_eq_true, if_false]
  · refine ⟨h3, h4, ?_, ?_, ?_⟩
    · intro ht
      simp only [h5 ht, List.getD, List.getElem?_replicate, hi, if_true, Option.getD_some]
    · intro v hv
      obtain ⟨d, e1, e2⟩ := h6 v hv
      simp only [e1]
      refine ⟨(S d n (S conf.perChannel n (S conf.p (n * cmax) g).2).2).1.getD i 0, ?_, continuous_supports P v _ d _ e2 (hfill v hv) (sample_ok hS d n _ i hi 0)⟩
      have hl := hS.length d n (S conf.perChannel n (S conf.p (n * cmax) g).2).2
      simp only [List.getD, List.getElem?_map]
      rw [List.getElem?_eq_getElem (by rw [hl]; exact hi)]
      rfl
    · exact probability_supports P _ _ _ h7 (sample_ok hS conf.above n _ i hi 0)

theorem augment_apart (op : Img → Operand → Option (List ℚ)) (S : Sampler σ Handled ℚ) (dtOf : Handled → DType) (conf : Handled × Handled) (l : List Img)
    (rs : List Img) (g : σ) (h : augment op S dtOf conf (some l) g = some (some rs)) (i : Nat) (im : Img) (hi : l[i]? = some im) (hc : 1 ≤ im.c) :
    augment op (replay [[(S conf.2 l.length g).1.getD i 0],
      ((S conf.1 (l.length * maxChannels (l.map (fun im => im.c))) (S conf.2 l.length g).2).1.drop (i * maxChannels (l.map (fun im => im.c)))).take im.c])
      dtOf conf (some [im]) 0 = some (rs[i]?.map (fun r => [r])) := by
  have hm := le_maxChannels (l.map (fun im => im.c)) im.c (List.mem_map.2 ⟨im, List.mem_of_getElem? hi, rfl⟩)
  simp only [augment, Option.map_eq_some_iff, Option.some.injEq] at h
  obtain ⟨rs', h1, rfl⟩ := h
  have hz : l.zipIdx[i]? = some (im, i) := by rw [List.getElem?_zipIdx, hi]; simp
  obtain ⟨r, hr2, hr1⟩ := Dtypes.mapM_nth _ _ _ h1 i _ hz
  rw [hr2]
  simp only [Option.map_eq_some_iff] at hr1
  obtain ⟨q, hq, rfl⟩ := hr1
  have e : operand (dtOf conf.1) (rowOf (((S conf.1 (l.length * maxChannels (l.map (fun im => im.c))) (S conf.2 l.length g).2).1.drop
      (i * maxChannels (l.map (fun im => im.c)))).take im.c) im.c 0) ((S conf.2 l.length g).1.getD i 0) im.c =
      operand (dtOf conf.1) (rowOf (S conf.1 (l.length * maxChannels (l.map (fun im => im.c))) (S conf.2 l.length g).2).1
        (maxChannels (l.map (fun im => im.c))) i) ((S conf.2 l.length g).1.getD i 0) im.c := by
    simp only [operand, rowOf, Nat.zero_mul, List.drop_zero, List.take_take]
    rw [show min im.c (min im.c im.c) = im.c by omega, show min 1 (min im.c im.c) = 1 by omega,
      show min im.c (maxChannels (l.map (fun im => im.c))) = im.c by omega, show min 1 (maxChannels (l.map (fun im => im.c))) = 1 by omega]
  simp only [augment, replay, List.map_cons, List.map_nil, maxChannels, List.foldl_cons, List.foldl_nil, Nat.zero_max, List.zipIdx_cons, List.zipIdx_nil,
    List.mapM_cons, List.mapM_nil, List.getD_cons_zero, List.getD_cons_succ]
  simp only [maxChannels] at e hq
  simp only [e, hq]
  rfl

theorem step_good (c : Invert.Cache) (hc : Good c) (s : InvertSample) (im : Pic) :
    (invertStep c s im).1 = (invertStep [] s im).1 ∧ Good (invertStep c s im).2 := by
  unfold invertStep
  split
  · exact ⟨rfl, hc⟩
  · split
    · have := Invert.invert_good c hc im.dt s.args [im.h, im.w, ((s.p.take im.c).filter (fun b => b)).length] (picked (s.p.take im.c) im.c im.vals)
      simp only
      exact ⟨by rw [this.1], this.2⟩
    · split
      · have := Invert.invert_good c hc im.dt s.args [im.h, im.w, im.c] im.vals
        simp only
        exact ⟨by rw [this.1], this.2⟩
      · exact ⟨rfl, hc⟩

theorem invertAll_get : ∀ (l : List (InvertSample × Pic)) (c : Invert.Cache), Good c → ∀ rs, (invertAll c l).1 = some rs → ∀ (i : Nat) (p : InvertSample × Pic),
    l[i]? = some p → ∃ r, rs[i]? = some r ∧ (invertStep [] p.1 p.2).1 = some r := by
  intro l
  induction l with
  | nil => intro c _ rs _ i p hp; simp at hp
  | cons q t ih =>
    intro c hc rs h i p hp
    obtain ⟨s, im⟩ := q
    obtain ⟨e1, e2⟩ := step_good c hc s im
    simp only [invertAll] at h
    cases hs : (invertStep c s im).1 with
    | none => rw [hs] at h; simp at h
    | some im' =>
      rw [hs] at h
      simp only [Option.map_eq_some_iff] at h
      obtain ⟨ims, h1, rfl⟩ := h
      cases i with
      | zero =>
        simp only [List.getElem?_cons_zero, Option.some.injEq] at hp
        subst hp
        exact ⟨im', rfl, by rw [← e1, hs]⟩
      | succ i =>
        rw [List.getElem?_cons_succ] at hp ⊢
        exact ih _ e2 ims h1 i p hp

end Imgaug.ScalarBatch
