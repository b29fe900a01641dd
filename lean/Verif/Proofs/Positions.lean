import Verif.Spec.Positions
import Verif.Proofs.Size2
import Verif.Props.Size
/-! Helper lemmas for Props/Positions.lean. -/
namespace Imgaug.Positions
open Imgaug Imgaug.Size
variable {α : Type} {P : Values}

theorem entryDist_some {e : Entry} {d : Dist} (h : entryDist e = some d) {v : ℚ} (hv : d.Supports P v) : e.Allows P v := by
  cases e with
  | num q =>
    simp only [entryDist] at h
    split at h
    · simp at h
    · simp at h; subst h; exact hv
  | par i => simp [entryDist] at h; subst h; exact hv
  | other => simp [entryDist] at h

theorem handled_two {pos : Position} {x y : Dist} (h : handlePosition pos = some (.two x y)) {p : ℚ × ℚ} (hx : x.Supports P p.1)
    (hy : y.Supports P p.2) : pos.Allows P p := by
  cases pos with
  | uniform => simp [handlePosition] at h; obtain ⟨rfl, rfl⟩ := h; exact ⟨hx, hy⟩
  | normal => simp [handlePosition] at h; obtain ⟨rfl, rfl⟩ := h; exact ⟨hx, hy⟩
  | center =>
    simp only [handlePosition, Option.some.injEq, Handled.two.injEq] at h
    obtain ⟨rfl, rfl⟩ := h
    exact Prod.ext hx hy
  | named a b =>
    simp only [handlePosition, Option.some.injEq, Handled.two.injEq] at h
    obtain ⟨rfl, rfl⟩ := h
    constructor
    · cases a <;> exact hx
    · cases b <;> exact hy
  | par i => simp [handlePosition] at h
  | other => simp [handlePosition] at h
  | tuple l =>
    match l, h with
    | [a, b], h =>
      simp only [handlePosition, Option.bind_eq_some_iff, Option.map_eq_some_iff] at h
      obtain ⟨x', h1, y', h2, e⟩ := h
      simp only [Handled.two.injEq] at e
      obtain ⟨rfl, rfl⟩ := e
      exact ⟨a, b, rfl, entryDist_some h1 hx, entryDist_some h2 hy⟩
    | [], h => simp [handlePosition] at h
    | [_], h => simp [handlePosition] at h
    | _ :: _ :: _ :: _, h => simp [handlePosition] at h

theorem handled_joint {pos : Position} {i : Nat} (h : handlePosition pos = some (.joint i)) : pos = .par i := by
  cases pos with
  | par j => simp [handlePosition] at h; rw [h]
  | uniform => simp [handlePosition] at h
  | normal => simp [handlePosition] at h
  | center => simp [handlePosition] at h
  | named a b => simp [handlePosition] at h
  | other => simp [handlePosition] at h
  | tuple l =>
    match l, h with
    | [a, b], h => simp [handlePosition, Option.bind_eq_some_iff] at h
    | [], h => simp [handlePosition] at h
    | [_], h => simp [handlePosition] at h
    | _ :: _ :: _ :: _, h => simp [handlePosition] at h

theorem getD_mem (l : List ℚ) (i : Nat) (h : i < l.length) : l.getD i 0 ∈ l := by
  simp [List.getD, List.getElem?_eq_getElem h]

theorem drawn {σ : Type} {S : Sampler σ} (hS : Ok P S) {pos : Position} {h : Handled} (hp : handlePosition pos = some h) (n : Nat) (g : σ) :
    (drawPositions S h n g).length = n ∧ ∀ p ∈ drawPositions S h n g, pos.Allows P p := by
  cases h with
  | two x y =>
    simp only [drawPositions]
    refine ⟨by rw [List.length_zip, hS.length, hS.length, Nat.min_self], ?_⟩
    intro p hpm
    have := List.of_mem_zip (a := p.1) (b := p.2) hpm
    exact handled_two hp (hS.values _ _ _ _ this.1) (hS.values _ _ _ _ this.2)
  | joint i =>
    simp only [drawPositions]
    refine ⟨by simp, ?_⟩
    intro p hpm
    obtain ⟨k, hk, rfl⟩ := List.mem_map.mp hpm
    rw [List.mem_range] at hk
    have hl := hS.length (.par i) (n * 2) g
    rw [handled_joint hp]
    exact ⟨hS.values (.par i) (n * 2) g _ (getD_mem _ (2 * k) (by omega)), hS.values (.par i) (n * 2) g _ (getD_mem _ (2 * k + 1) (by omega))⟩

theorem accepts {pos : Position} : handlePosition pos ≠ none ↔ pos.Documented := by
  have e1 : ∀ e, entryDist e ≠ none ↔ (∃ q, e = .num q ∧ 0 ≤ q ∧ q ≤ 1) ∨ ∃ i, e = .par i := by
    intro e
    cases e with
    | num q =>
      simp only [entryDist]
      split
      · rename_i h
        simp
        intro h1
        rcases h with h | h <;> linarith
      · rename_i h
        simp only [not_or, not_lt, gt_iff_lt] at h
        simp [h.1, h.2]
    | par i => simp [entryDist]
    | other => simp [entryDist]
  cases pos with
  | tuple l =>
    match l with
    | [a, b] =>
      simp only [handlePosition, Position.Documented, List.mem_cons, List.not_mem_nil, or_false, forall_eq_or_imp, forall_eq, ← e1]
      cases entryDist a <;> cases entryDist b <;> simp
    | [] => simp [handlePosition, Position.Documented]
    | [_] => simp [handlePosition, Position.Documented]
    | _ :: _ :: _ :: _ => simp [handlePosition, Position.Documented]
  | _ => simp [handlePosition, Position.Documented]

theorem in_unit (hP : Unit01 P) {pos : Position} (hd : pos.Documented) {p : ℚ × ℚ} (h : pos.Allows P p) :
    (0 ≤ p.1 ∧ p.1 ≤ 1) ∧ 0 ≤ p.2 ∧ p.2 ≤ 1 := by
  cases pos with
  | uniform => exact h
  | normal => exact h
  | center => rw [show p = (1 / 2, 1 / 2) from h]; norm_num
  | named x y =>
    obtain ⟨h1, h2⟩ := h
    constructor
    · cases x <;> simp only at h1 <;> rw [h1] <;> norm_num
    · cases y <;> simp only at h2 <;> rw [h2] <;> norm_num
  | par i => exact ⟨hP _ _ h.1, hP _ _ h.2⟩
  | other => exact absurd h id
  | tuple l =>
    obtain ⟨a, b, rfl, ha, hb⟩ := h
    have key : ∀ e ∈ [a, b], ∀ v, e.Allows P v → 0 ≤ v ∧ v ≤ 1 := by
      intro e he v hv
      rcases hd.2 e he with ⟨q, rfl, h1, h2⟩ | ⟨i, rfl⟩
      · rw [show v = q from hv]; exact ⟨h1, h2⟩
      · exact hP _ _ hv
    exact ⟨key a (by simp) _ ha, key b (by simp) _ hb⟩

theorem pyInt_share (q : ℚ) (hq : 0 ≤ q) : (pyInt q : ℚ) ≤ q ∧ q < pyInt q + 1 := by
  have : pyInt q = ⌊q⌋ := by
    unfold pyInt
    simp [hq]
  rw [this]
  exact ⟨Int.floor_le q, Int.lt_floor_add_one q⟩

theorem padsAt (n : Nat) (m : Option Int) (p : ℚ) (hp : 0 ≤ p ∧ p ≤ 1) :
    let lr : Int × Int := match m with
      | some m => if (n : Int) < m then (pyInt ((1 - p) * ((m - n : Int) : ℚ)), (m - n) - pyInt ((1 - p) * ((m - n : Int) : ℚ))) else (0, 0)
      | none => (0, 0)
    PadsAt n m p lr.1 lr.2 := by
  intro lr
  obtain ⟨h1, h2, h3, -⟩ := fixedPad_axis n m p hp
  refine ⟨h1, h2, h3, ?_⟩
  cases m with
  | none => simp [lr]
  | some m =>
    by_cases hm : (n : Int) < m
    · have hr : lr = (pyInt ((1 - p) * ((m - n : Int) : ℚ)), (m - n) - pyInt ((1 - p) * ((m - n : Int) : ℚ))) := by simp only [lr, if_pos hm]
      have hs : lr.1 + lr.2 = m - n := by rw [hr]; simp only; omega
      rw [hs, hr]
      have hmn : (0 : ℚ) ≤ ((m - n : Int) : ℚ) := by exact_mod_cast (by omega : (0 : Int) ≤ m - n)
      exact pyInt_share _ (mul_nonneg (by linarith [hp.2]) hmn)
    · have hr : lr = (0, 0) := by simp only [lr, if_neg hm]
      rw [hr]; simp

theorem cropsAt (n : Nat) (m : Option Int) (p : ℚ) (hp : 0 ≤ p ∧ p ≤ 1) :
    let lr : Int × Int := match m with
      | some m => if (n : Int) > m then (pyInt ((1 - p) * ((n : ℚ) - m)), n - m - pyInt ((1 - p) * ((n : ℚ) - m))) else (0, 0)
      | none => (0, 0)
    CropsAt n m p lr.1 lr.2 := by
  intro lr
  obtain ⟨h1, h2, h3, -⟩ := fixedCrop_axis n m (1 - p) ⟨by linarith [hp.2], by linarith [hp.1]⟩
  refine ⟨h1, h2, h3, ?_⟩
  cases m with
  | none => simp [lr]
  | some m =>
    by_cases hm : (n : Int) > m
    · have hr : lr = (pyInt ((1 - p) * ((n : ℚ) - m)), n - m - pyInt ((1 - p) * ((n : ℚ) - m))) := by simp only [lr, if_pos hm]
      have hs : lr.1 + lr.2 = n - m := by rw [hr]; simp only; omega
      rw [hs, hr]
      have e : (((n : Int) - m : Int) : ℚ) = (n : ℚ) - m := by push_cast; ring
      have hmn : (0 : ℚ) ≤ (n : ℚ) - m := by rw [← e]; exact_mod_cast (by omega : (0 : Int) ≤ n - m)
      rw [e]
      exact pyInt_share _ (mul_nonneg (by linarith [hp.2]) hmn)
    · have hr : lr = (0, 0) := by simp only [lr, if_neg hm]
      rw [hr]; simp

theorem paddings_at (s : Shape) (h w : Option Int) (px py : ℚ) (hx : 0 ≤ px ∧ px ≤ 1) (hy : 0 ≤ py ∧ py ≤ 1) :
    PadsAt s.h h py (fixedPaddings s h w px py).top (fixedPaddings s h w px py).bottom ∧
    PadsAt s.w w px (fixedPaddings s h w px py).left (fixedPaddings s h w px py).right :=
  ⟨padsAt s.h h py hy, padsAt s.w w px hx⟩

theorem croppings_at (s : Shape) (h w : Option Int) (px py : ℚ) (hx : 0 ≤ px ∧ px ≤ 1) (hy : 0 ≤ py ∧ py ≤ 1) :
    CropsAt s.h h py (fixedCroppings s h w (1 - py) (1 - px)).top (fixedCroppings s h w (1 - py) (1 - px)).bottom ∧
    CropsAt s.w w px (fixedCroppings s h w (1 - py) (1 - px)).left (fixedCroppings s h w (1 - py) (1 - px)).right :=
  ⟨cropsAt s.h h py hy, cropsAt s.w w px hx⟩

theorem share_unique {n : Int} {q : ℚ} {a b a' b' : Int} (e : a + b = n) (e' : a' + b' = n) (h1 : a ≤ q * (a + b : Int)) (h2 : q * (a + b : Int) < a + 1)
    (h1' : a' ≤ q * (a' + b' : Int)) (h2' : q * (a' + b' : Int) < a' + 1) : a = a' ∧ b = b' := by
  rw [e] at h1 h2
  rw [e'] at h1' h2'
  have l1 : (a : ℚ) < a' + 1 := by linarith
  have l2 : (a' : ℚ) < a + 1 := by linarith
  have l1 : a < a' + 1 := by exact_mod_cast l1
  have l2 : a' < a + 1 := by exact_mod_cast l2
  omega

theorem zero_crop (s : Shape) : cropXyxy s ⟨0, 0, 0, 0⟩ = ⟨0, 0, s.w, s.h⟩ := by
  have z : ∀ n : Nat, preventZero n 0 0 = (0, 0) := by
    intro n
    by_cases h : n = 0
    · subst h; exact prevent_zero_size_empty 0 0 (le_refl _) (le_refl _)
    · exact prevent_zero_size_unchanged n 0 0 (le_refl _) (le_refl _) (by omega)
  simp only [cropXyxy, z]
  simp

theorem padded_img (border : Nat → Nat → α) (a : Img α) (p : Trbl) (hp : NonNeg p) :
    ∃ b, cropPadArr border none a ⟨0, 0, 0, 0⟩ p = some b ∧ Padded a b p := by
  obtain ⟨p1, p2, p3, p4⟩ := hp
  refine ⟨_, by simp only [cropPadArr, pad, if_pos (show 0 ≤ p.top ∧ 0 ≤ p.right ∧ 0 ≤ p.bottom ∧ 0 ≤ p.left from ⟨p1, p2, p3, p4⟩), Option.map_some]; rfl, ?_⟩
  simp only [cropArr, zero_crop]
  constructor
  · simp only; omega
  · simp only; omega
  · intro y x y' x' hy hx ey ex
    simp only
    rw [if_pos (by omega)]
    congr 1 <;> omega

theorem cropped_img (border : Nat → Nat → α) (a : Img α) (c : Trbl) (hc : NonNeg c) (h1 : c.top + c.bottom < a.h) (h2 : c.left + c.right < a.w) :
    ∃ b, cropPadArr border none a c ⟨0, 0, 0, 0⟩ = some b ∧ Cropped a b c := by
  refine ⟨_, by simp only [cropPadArr, pad, le_refl, and_self, if_true, Option.map_some]; rfl, ?_⟩
  have hb := crop_bounds ⟨a.h, a.w⟩ c hc h1 h2
  obtain ⟨c1, c2, c3, c4⟩ := hc
  simp only [cropArr, hb]
  constructor
  · simp only; omega
  · simp only; omega
  · intro y x y' x' hy hx ey ex
    simp only at hy hx ⊢
    rw [if_pos (by omega)]
    congr 1 <;> omega

theorem padded_kps (k : KPsOnImage) (p : Trbl) (hp : NonNeg p) :
    ∃ r, cropPadKps false k ⟨0, 0, 0, 0⟩ p = some r ∧ Moved k r p.left p.top ∧ (r.shape.h : Int) = k.shape.h + p.top + p.bottom ∧
      (r.shape.w : Int) = k.shape.w + p.left + p.right := by
  obtain ⟨p1, p2, p3, p4⟩ := hp
  refine ⟨_, by simp only [cropPadKps, Bool.false_eq_true, if_false]; rfl, ?_⟩
  simp only [zero_crop, shapeAfter]
  refine ⟨?_, by omega, by omega⟩
  simp [Moved, KPsOnImage.shift, Pt.shift]

theorem cropped_kps (k : KPsOnImage) (c : Trbl) (hc : NonNeg c) (h1 : c.top + c.bottom < k.shape.h) (h2 : c.left + c.right < k.shape.w) :
    ∃ r, cropPadKps false k c ⟨0, 0, 0, 0⟩ = some r ∧ Moved k r (-c.left) (-c.top) ∧ (r.shape.h : Int) = k.shape.h - c.top - c.bottom ∧
      (r.shape.w : Int) = k.shape.w - c.left - c.right := by
  have hb := crop_bounds k.shape c hc h1 h2
  obtain ⟨c1, c2, c3, c4⟩ := hc
  refine ⟨_, by simp only [cropPadKps, Bool.false_eq_true, if_false]; rfl, ?_⟩
  simp only [hb, shapeAfter]
  refine ⟨?_, by omega, by omega⟩
  simp [Moved, KPsOnImage.shift, Pt.shift]

theorem padded_map (border : Nat → Nat → α) (m : Map α) (p : Trbl) (hp : NonNeg p) (hh : 1 ≤ m.shape.h) (hw : 1 ≤ m.shape.w) (ha : 1 ≤ m.arr.h)
    (hb : 1 ≤ m.arr.w) :
    ∃ r, cropPadMap border none m ⟨0, 0, 0, 0⟩ p = some r ∧ (r.shape.h : Int) = m.shape.h + p.top + p.bottom ∧
      (r.shape.w : Int) = m.shape.w + p.left + p.right ∧ (m.shape = ⟨m.arr.h, m.arr.w⟩ → Padded m.arr r.arr p) := by
  have hz : NonNeg ⟨0, 0, 0, 0⟩ := ⟨le_refl _, le_refl _, le_refl _, le_refl _⟩
  obtain ⟨r, e, -⟩ := crop_pad_maps_not_empty border m ⟨0, 0, 0, 0⟩ p hz hp hh hw ha hb
  obtain ⟨h1, h2⟩ := crop_pad_maps border m _ p hz hp hh hw r e
  obtain ⟨p1, p2, p3, p4⟩ := hp
  refine ⟨r, e, ?_, ?_, ?_⟩
  · rw [h1]; simp only [shapeAfter, zero_crop]; omega
  · rw [h1]; simp only [shapeAfter, zero_crop]; omega
  · intro hs
    obtain ⟨b, e1, e2⟩ := padded_img border m.arr p ⟨p1, p2, p3, p4⟩
    rw [(h2 hs).1, Option.some.injEq] at e1
    rw [e1]; exact e2

theorem cropped_map (border : Nat → Nat → α) (m : Map α) (c : Trbl) (hc : NonNeg c) (h1 : c.top + c.bottom < m.shape.h)
    (h2 : c.left + c.right < m.shape.w) (ha : 1 ≤ m.arr.h) (hb : 1 ≤ m.arr.w) :
    ∃ r, cropPadMap border none m c ⟨0, 0, 0, 0⟩ = some r ∧ (r.shape.h : Int) = m.shape.h - c.top - c.bottom ∧
      (r.shape.w : Int) = m.shape.w - c.left - c.right ∧ (m.shape = ⟨m.arr.h, m.arr.w⟩ → Cropped m.arr r.arr c) := by
  have hz : NonNeg ⟨0, 0, 0, 0⟩ := ⟨le_refl _, le_refl _, le_refl _, le_refl _⟩
  have hc' := hc
  have hbd := crop_bounds m.shape c hc h1 h2
  obtain ⟨c1, c2, c3, c4⟩ := hc'
  obtain ⟨r, e, -⟩ := crop_pad_maps_not_empty border m c ⟨0, 0, 0, 0⟩ hc hz (by omega) (by omega) ha hb
  obtain ⟨g1, g2⟩ := crop_pad_maps border m c _ hc hz (by omega) (by omega) r e
  refine ⟨r, e, ?_, ?_, ?_⟩
  · rw [g1]; simp only [shapeAfter, hbd]; omega
  · rw [g1]; simp only [shapeAfter, hbd]; omega
  · intro hs
    have s1 : m.shape.h = m.arr.h := by rw [hs]
    have s2 : m.shape.w = m.arr.w := by rw [hs]
    obtain ⟨b, e1, e2⟩ := cropped_img border m.arr c hc (by omega) (by omega)
    rw [(g2 hs).1, Option.some.injEq] at e1
    rw [e1]; exact e2

/-- A loop over the rows of a column: every row is treated with its own sample. -/
theorem mapM_rows {β γ : Type} (f : β → γ → Option β) (l : List β) (samples : List γ) (hl : l.length = samples.length)
    (h : ∀ x ∈ l, ∀ s ∈ samples, f x s ≠ none) :
    ∃ r, (l.zip samples).mapM (fun p => f p.1 p.2) = some r ∧ r.length = l.length ∧
      ∀ (i : Nat) x s, l[i]? = some x → samples[i]? = some s → ∃ y, f x s = some y ∧ r[i]? = some y := by
  induction l generalizing samples with
  | nil => exact ⟨[], by simp, rfl, by simp⟩
  | cons x xs ih =>
    cases samples with
    | nil => simp at hl
    | cons s ss =>
      obtain ⟨r, e, e2, e3⟩ := ih ss (by simpa using hl) (fun a ha b hb => h a (by simp [ha]) b (by simp [hb]))
      obtain ⟨y, hy⟩ := Option.ne_none_iff_exists'.mp (h x (by simp) s (by simp))
      refine ⟨y :: r, by simp [List.mapM_cons, hy, e], by simp [e2], ?_⟩
      intro i a b ha hb
      cases i with
      | zero => simp at ha hb; subst ha hb; exact ⟨y, hy, rfl⟩
      | succ i => exact e3 i a b (by simpa using ha) (by simpa using hb)

theorem column_rows {β γ : Type} (f : β → γ → Option β) (l : Option (List β)) (samples : List γ) (hl : ∀ c, l = some c → c.length = samples.length)
    (h : ∀ c, l = some c → ∀ x ∈ c, ∀ s ∈ samples, f x s ≠ none) :
    ∃ r, column f l samples = some r ∧ (l = none → r = none) ∧ ∀ c, l = some c → ∃ d, r = some d ∧ d.length = c.length ∧
      ∀ (i : Nat) x s, c[i]? = some x → samples[i]? = some s → ∃ y, f x s = some y ∧ d[i]? = some y := by
  cases l with
  | none => exact ⟨none, rfl, fun _ => rfl, by simp⟩
  | some c =>
    obtain ⟨r, e1, e2, e3⟩ := mapM_rows f c samples (hl c rfl) (h c rfl)
    refine ⟨some r, by simp [column, e1], by simp, ?_⟩
    rintro c' hc'
    rw [Option.some.injEq] at hc'
    subst hc'
    exact ⟨r, rfl, e2, e3⟩

theorem quarter_ok : Ok (fun _ v => v = 1 / 4) quarter := by
  constructor
  · intro d n g; cases d <;> simp [quarter]
  · intro d n g v hv
    cases d <;> simp only [quarter, List.mem_replicate] at hv <;> rw [hv.2]
    · exact ⟨by norm_num, by norm_num⟩
    · exact ⟨by norm_num, by norm_num⟩
    · rfl
    · rfl

theorem far_ok : Ok (fun _ v => v = 2) far := by
  constructor
  · intro d n g; cases d <;> simp [far, quarter]
  · intro d n g v hv
    cases d <;> simp only [far, quarter, List.mem_replicate] at hv <;> rw [hv.2]
    · exact ⟨by norm_num, by norm_num⟩
    · exact ⟨by norm_num, by norm_num⟩
    · rfl
    · rfl

end Imgaug.Positions
