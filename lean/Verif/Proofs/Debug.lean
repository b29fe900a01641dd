import Verif.Spec.Debug
import Verif.Proofs.Num
import Verif.Proofs.Dtypes
/-! Helper lemmas for debug images. -/
namespace Imgaug.Debug
open Imgaug Imgaug.Props
variable {α : Type}

theorem mapM_ex {β γ : Type} (f : β → Option γ) : ∀ (l : List β), (∀ a ∈ l, ∃ b, f a = some b) → ∃ r, l.mapM f = some r := by
  intro l
  induction l with
  | nil => intro _; exact ⟨[], rfl⟩
  | cons a t ih =>
    intro h
    obtain ⟨b, hb⟩ := h a (by simp)
    obtain ⟨r, hr⟩ := ih (fun x hx => h x (by simp [hx]))
    exact ⟨b :: r, by simp [List.mapM_cons, hb, hr]⟩

/-- Stacked pictures. -/
theorem vstack_spec (W : Nat) : ∀ (l : List (Pic α)), l ≠ [] → (∀ p ∈ l, p.w = W) →
    ∃ p, vstack l = some p ∧ p.w = W ∧ p.h = (l.map Pic.h).sum ∧
      ∀ (r : Nat) (q : Pic α), l[r]? = some q → ∀ y x, y < q.h → p.px (((l.take r).map Pic.h).sum + y) x = q.px y x
  | [], h, _ => absurd rfl h
  | [a], _, hw => by
    refine ⟨a, rfl, hw a (by simp), by simp, ?_⟩
    intro r q hr y x _
    cases r with
    | zero => simp at hr; subst hr; simp
    | succ r => simp at hr
  | a :: b :: l, _, hw => by
    obtain ⟨p, h1, h2, h3, h4⟩ := vstack_spec W (b :: l) (by simp) (fun p hp => hw p (by simp at hp ⊢; tauto))
    have ha := hw a (by simp)
    refine ⟨⟨a.h + p.h, a.w, fun y x => if y < a.h then a.px y x else p.px (y - a.h) x⟩, ?_, ha, ?_, ?_⟩
    · rw [vstack, h1, Option.bind_some, if_pos (by rw [ha, h2])]
    · simp [h3]
    · intro r q hr y x hy
      cases r with
      | zero =>
        simp at hr; subst hr
        simp [hy]
      | succ r =>
        have := h4 r q (by simpa using hr) y x hy
        simp only [List.take_succ_cons, List.map_cons, List.sum_cons]
        rw [if_neg (by omega)]
        rw [show a.h + (List.map Pic.h (List.take r (b :: l))).sum + y - a.h = (List.map Pic.h (List.take r (b :: l))).sum + y by omega]
        exact this

theorem hstack_spec (H : Nat) : ∀ (l : List (Pic α)), l ≠ [] → (∀ p ∈ l, p.h = H) →
    ∃ p, hstack l = some p ∧ p.h = H ∧ p.w = (l.map Pic.w).sum ∧
      ∀ (r : Nat) (q : Pic α), l[r]? = some q → ∀ y x, x < q.w → p.px y (((l.take r).map Pic.w).sum + x) = q.px y x
  | [], h, _ => absurd rfl h
  | [a], _, hw => by
    refine ⟨a, rfl, hw a (by simp), by simp, ?_⟩
    intro r q hr y x _
    cases r with
    | zero => simp at hr; subst hr; simp
    | succ r => simp at hr
  | a :: b :: l, _, hw => by
    obtain ⟨p, h1, h2, h3, h4⟩ := hstack_spec H (b :: l) (by simp) (fun p hp => hw p (by simp at hp ⊢; tauto))
    have ha := hw a (by simp)
    refine ⟨⟨a.h, a.w + p.w, fun y x => if x < a.w then a.px y x else p.px y (x - a.w)⟩, ?_, ha, ?_, ?_⟩
    · rw [hstack, h1, Option.bind_some, if_pos (by rw [ha, h2])]
    · simp [h3]
    · intro r q hr y x hy
      cases r with
      | zero =>
        simp at hr; subst hr
        simp [hy]
      | succ r =>
        have := h4 r q (by simpa using hr) y x hy
        simp only [List.take_succ_cons, List.map_cons, List.sum_cons]
        rw [if_neg (by omega)]
        rw [show a.w + (List.map Pic.w (List.take r (b :: l))).sum + x - a.w = (List.map Pic.w (List.take r (b :: l))).sum + x by omega]
        exact this

theorem pad_nat (a : Pic α) (t r b l : Nat) (c : α) : pad a t r b l c = some ⟨t + a.h + b, l + a.w + r, fun y x =>
      if t ≤ y ∧ y < t + a.h ∧ l ≤ x ∧ x < l + a.w then a.px (y - t) (x - l) else c⟩ := by
  unfold pad
  rw [if_pos (by refine ⟨?_, ?_, ?_, ?_⟩ <;> exact Int.natCast_nonneg _)]
  simp only [Int.toNat_natCast]

/-! ### Image cells -/

theorem npRound_nat (n : Nat) : npRound (n : ℚ) = n := by simpa using npRound_int (n : Int)

theorem rsSize_same (h wimg w : Nat) (hh : 0 < h) (hw : 0 < wimg) (hle : wimg ≤ w) : rsSize h wimg h w = some (h, wimg) := by
  have hq : (h : ℚ) ≠ 0 := by exact_mod_cast hh.ne'
  have wq : (wimg : ℚ) ≠ 0 := by exact_mod_cast hw.ne'
  unfold rsSize
  rw [if_neg hh.ne']
  by_cases hc : (h : Int) - h < (w : Int) - wimg
  · rw [if_pos hc]
    have e : (h : ℚ) * ((wimg : ℚ) / h) = wimg := by field_simp
    rw [e, npRound_nat, npRound_nat]
    congr 2 <;> omega
  · have e0 : w = wimg := by omega
    subst e0
    rw [if_neg hc, if_neg hw.ne']
    have e : (w : ℚ) / ((w : ℚ) / h) = h := by field_simp
    rw [e, npRound_nat, npRound_nat]
    congr 2 <;> omega

theorem half_floor (n : Nat) : ⌊(n : ℚ) / 2⌋ = ((n / 2 : Nat) : Int) := by
  have : ⌊(n : ℚ) / 2⌋ = (n : Int) / 2 := by
    have := Rat.floor_intCast_div_natCast (n : Int) 2
    simpa using this
  rw [this]; omega

theorem half_ceil (n : Nat) : ⌈(n : ℚ) / 2⌉ = ((n - n / 2 : Nat) : Int) := by
  have h := half_floor n
  rw [Int.ceil_eq_iff]
  have h1 : ((n / 2 : Nat) : ℚ) * 2 ≤ n := by exact_mod_cast Nat.div_mul_le_self n 2
  have h2 : (n : ℚ) ≤ ((n / 2 : Nat) : ℚ) * 2 + 1 := by
    have : n ≤ n / 2 * 2 + 1 := by omega
    exact_mod_cast this
  have h3 : ((n - n / 2 : Nat) : ℚ) = n - ((n / 2 : Nat) : ℚ) := by
    rw [Nat.cast_sub (by omega)]
  rw [Int.cast_natCast, h3]
  constructor <;> linarith

theorem paddings_same (h wimg w : Nat) (hle : wimg ≤ w) : paddings h w (h, wimg) =
    (((0 : Nat) : Int), ((w - wimg - (w - wimg) / 2 : Nat) : Int), ((0 : Nat) : Int), (((w - wimg) / 2 : Nat) : Int)) := by
  unfold paddings
  have e : (w : ℚ) - wimg = ((w - wimg : Nat) : ℚ) := by rw [Nat.cast_sub hle]
  simp only [sub_self, zero_div, Int.floor_zero, Int.ceil_zero, e, half_floor, half_ceil]
  rfl

/-- A picture in an area with its own height and a width that is at least its own. -/
theorem resizePad_same (L : Lib α) (hL : LibOk L) (a : Pic α) (w : Nat) (hh : 0 < a.h) (hw : 0 < a.w) (hle : a.w ≤ w) :
    ∃ r, resizePad L a a.h w = some (r, (a.h, a.w), paddings a.h w (a.h, a.w)) ∧ r.h = a.h ∧ r.w = w ∧
      ∀ y x, y < a.h → x < w → r.px y x = (centred a w L.pink).px y x := by
  unfold resizePad
  rw [rsSize_same a.h a.w w hh hw hle, Option.bind_some, paddings_same a.h a.w w hle]
  simp only
  rw [pad_nat]
  refine ⟨_, rfl, ?_, ?_, ?_⟩
  · simp [(hL.size a a.h a.w).1]
  · simp only [(hL.size a a.h a.w).2]; omega
  · intro y x hy hx
    simp only [(hL.size a a.h a.w).1, (hL.size a a.h a.w).2, centred, Nat.zero_le, true_and, Nat.zero_add, Nat.sub_zero]
    by_cases hc : (w - a.w) / 2 ≤ x ∧ x < (w - a.w) / 2 + a.w
    · rw [if_pos ⟨hy, hc⟩, if_pos hc, hL.same a _ _ hy (by omega)]
    · rw [if_neg (fun h => hc h.2), if_neg hc]

/-- What a cell draws in an area with the height of the image. -/
theorem cellOf_draw (L : Lib α) (hL : LibOk L) (a : Pic α) (hh : 0 < a.h) (hw : 0 < a.w) (c : Content α) (hc : c.Ok) (w : Nat) (hle : a.w ≤ w) :
    ∃ p, (cellOf L a c).draw a.h w = some p ∧ p.h = a.h ∧ p.w = w ∧
      ∀ y x, y < a.h → x < w → c.Shows L a w y x (p.px y x) := by
  obtain ⟨r, h1, h2, h3, h4⟩ := resizePad_same L hL a w hh hw hle
  cases c with
  | plain =>
    exact ⟨r, by simp [cellOf, imageCell, h1], h2, h3, h4⟩
  | overlay o =>
    have hs := hL.sizeN o a.h a.w
    have hs2 : ∀ b : Pic α, (L.resizeNearest b a.h a.w).h = a.h ∧ (L.resizeNearest b a.h a.w).w = a.w := fun b => hL.sizeN b a.h a.w
    simp only [cellOf, imageCell, h1, Option.bind_some]
    rw [paddings_same a.h a.w w hle]
    simp only
    rw [pad_nat, Option.bind_some]
    unfold blend
    rw [if_pos (by simp only [(hs2 _).1, (hs2 _).2, h2, h3]; omega)]
    refine ⟨_, rfl, h2, h3, ?_⟩
    intro y x hy hx
    simp only [Content.Shows]
    rw [h4 y x hy hx]
    congr 1
    simp only [(hs2 _).1, (hs2 _).2, centred, Nat.zero_le, true_and, Nat.zero_add, Nat.sub_zero]
    by_cases hc : (w - a.w) / 2 ≤ x ∧ x < (w - a.w) / 2 + a.w
    · rw [if_pos ⟨hy, hc⟩, if_pos hc]
      have := hL.sameN (L.resizeNearest o a.h a.w) y (x - (w - a.w) / 2) (by rw [hs.1]; exact hy) (by rw [hs.2]; omega)
      rw [hs.1, hs.2] at this
      exact this
    · rw [if_neg (fun h => hc h.2), if_neg hc]
  | anns paint an =>
    obtain ⟨c1, c2, c3⟩ := hc
    simp only [cellOf, annsCell, h1, Option.bind_some, placed]
    rw [if_neg (by rintro ⟨h | h, -⟩ <;> omega), Option.map_some]
    refine ⟨_, rfl, by rw [(c3 _ _).1, h2], by rw [(c3 _ _).2, h3], ?_⟩
    intro y x hy hx
    refine ⟨r, h2, h3, h4, ?_⟩
    rw [paddings_same a.h a.w w hle]
    simp only [Nat.cast_zero, Int.cast_zero, add_zero, Int.cast_natCast]

/-! ### Rows and columns -/

theorem foldl_max_spec : ∀ (l : List Nat) (a : Nat), a ≤ l.foldl max a ∧ (∀ x ∈ l, x ≤ l.foldl max a) ∧ (l.foldl max a = a ∨ l.foldl max a ∈ l)
  | [], a => ⟨le_refl _, by simp, .inl rfl⟩
  | b :: l, a => by
    obtain ⟨h1, h2, h3⟩ := foldl_max_spec l (max a b)
    simp only [List.foldl_cons]
    refine ⟨by omega, ?_, ?_⟩
    · intro x hx
      rcases List.mem_cons.1 hx with rfl | hx
      · omega
      · exact h2 x hx
    · rcases h3 with h3 | h3
      · rcases le_total a b with h | h
        · right; rw [h3, max_eq_right h]; simp
        · left; rw [h3, max_eq_left h]
      · right; simp [h3]

theorem maxWidth_spec (cells : List (Cell α)) : (∀ c ∈ cells, c.minW ≤ maxWidth cells) ∧
    (cells ≠ [] → ∃ c ∈ cells, c.minW = maxWidth cells) := by
  obtain ⟨h1, h2, h3⟩ := foldl_max_spec (cells.map Cell.minW) 0
  refine ⟨fun c hc => h2 _ (List.mem_map_of_mem hc), fun hne => ?_⟩
  unfold maxWidth
  rcases h3 with h3 | h3
  · obtain ⟨c, hc⟩ := List.exists_mem_of_ne_nil _ hne
    refine ⟨c, hc, ?_⟩
    have := h2 _ (List.mem_map_of_mem (f := Cell.minW) hc)
    omega
  · obtain ⟨c, hc, e⟩ := List.mem_map.1 h3
    exact ⟨c, hc, e⟩

theorem heights_fold (n : Nat) : ∀ (cols : List (List (Cell α))) (hs : List Nat), (∀ c ∈ cols, c.length = n) → hs.length = n →
    ∀ r, r < n → ∃ v v0, (cols.foldl (fun (hs : List Nat) (col : List (Cell α)) => List.zipWith max hs (col.map Cell.minH)) hs)[r]? = some v ∧
      hs[r]? = some v0 ∧ v0 ≤ v ∧ (∀ col ∈ cols, ∀ c, col[r]? = some c → c.minH ≤ v) ∧
      (v = v0 ∨ ∃ col ∈ cols, ∃ c, col[r]? = some c ∧ v = c.minH)
  | [], hs, _, hl, r, hr => by
    obtain ⟨v, hv⟩ : ∃ v, hs[r]? = some v := ⟨hs[r], List.getElem?_eq_getElem (by omega)⟩
    exact ⟨v, v, hv, hv, le_refl _, by simp, .inl rfl⟩
  | col :: cols, hs, hc, hl, r, hr => by
    have h0 := hc col (by simp)
    obtain ⟨v, v0, h1, h2, h3, h4, h5⟩ := heights_fold n cols (List.zipWith max hs (col.map Cell.minH)) (fun c h => hc c (by simp [h]))
      (by simp [hl, h0]) r hr
    obtain ⟨u, hu⟩ : ∃ v, hs[r]? = some v := ⟨hs[r], List.getElem?_eq_getElem (by omega)⟩
    obtain ⟨c, hcr⟩ : ∃ v, col[r]? = some v := ⟨col[r], List.getElem?_eq_getElem (by omega)⟩
    have e : v0 = max u c.minH := by
      rw [List.getElem?_zipWith, hu, List.getElem?_map, hcr] at h2
      simpa using h2.symm
    refine ⟨v, u, by simpa using h1, hu, by omega, ?_, ?_⟩
    · intro col' hcol' c' hc'
      rcases List.mem_cons.1 hcol' with rfl | hcol'
      · rw [hcr] at hc'; cases hc'; omega
      · exact h4 col' hcol' c' hc'
    · rcases h5 with h5 | ⟨col', hcol', c', hc', e'⟩
      · rcases le_total u c.minH with h | h
        · right; exact ⟨col, by simp, c, hcr, by rw [h5, e, max_eq_right h]⟩
        · left; rw [h5, e, max_eq_left h]
      · right; exact ⟨col', by simp [hcol'], c', hc', e'⟩

theorem heights_length (n : Nat) : ∀ (cols : List (List (Cell α))) (hs : List Nat), (∀ c ∈ cols, c.length = n) → hs.length = n →
    (cols.foldl (fun (hs : List Nat) (col : List (Cell α)) => List.zipWith max hs (col.map Cell.minH)) hs).length = n
  | [], hs, _, hl => hl
  | col :: cols, hs, hc, hl => by
    have h0 := hc col (by simp)
    exact heights_length n cols _ (fun c h => hc c (by simp [h])) (by simp [hl, h0])

/-- The heights of the rows. -/
theorem rowHeights_spec (n : Nat) (cols : List (List (Cell α))) (hne : cols ≠ []) (hc : ∀ c ∈ cols, c.length = n) :
    (rowHeights cols).length = n ∧ ∀ r, r < n → ∃ v, (rowHeights cols)[r]? = some v ∧
      (∀ col ∈ cols, ∀ c, col[r]? = some c → c.minH ≤ v) ∧ ∃ col ∈ cols, ∃ c, col[r]? = some c ∧ v = c.minH := by
  have hh : (cols.head?.getD []).length = n := by
    cases cols with
    | nil => exact absurd rfl hne
    | cons c cs => exact hc c (by simp)
  unfold rowHeights
  refine ⟨heights_length n cols _ hc (by simp [hh]), fun r hr => ?_⟩
  obtain ⟨v, v0, h1, h2, h3, h4, h5⟩ := heights_fold n cols (List.replicate ((cols.head?.getD []).length) 0) hc (by simp [hh]) r hr
  refine ⟨v, h1, h4, ?_⟩
  rcases h5 with h5 | h5
  · obtain ⟨col, hcol⟩ := List.exists_mem_of_ne_nil _ hne
    have hl := hc col hcol
    have hcr : col[r]? = some (col[r]'(by omega)) := List.getElem?_eq_getElem (by omega)
    refine ⟨col, hcol, _, hcr, ?_⟩
    have := h4 col hcol _ hcr
    have h0 : v0 = 0 := by
      rw [List.getElem?_replicate] at h2
      split at h2
      · exact (Option.some.inj h2).symm
      · cases h2
    omega
  · exact h5

/-- A column whose cells can all be drawn, with a border around the requested area. -/
theorem drawColumn_spec (cells : List (Cell α)) (hs : List Nat) (hl : hs.length = cells.length) (hne : cells ≠ [])
    (hd : ∀ (r : Nat) (c : Cell α) (h : Nat), cells[r]? = some c → hs[r]? = some h → ∃ p, c.draw h (maxWidth cells) = some p ∧ p.h = h + 2 ∧
      p.w = maxWidth cells + 2) :
    ∃ p, drawColumn cells hs = some p ∧ p.w = maxWidth cells + 2 ∧ p.h = rowTop hs hs.length ∧
      ∀ (r : Nat) (c : Cell α) (h : Nat) (q : Pic α), cells[r]? = some c → hs[r]? = some h → c.draw h (maxWidth cells) = some q →
        ∀ y x, y < q.h → p.px (rowTop hs r + y) x = q.px y x := by
  have hz : ∀ (r : Nat) (d : Cell α × Nat), (cells.zip hs)[r]? = some d → cells[r]? = some d.1 ∧ hs[r]? = some d.2 := by
    intro r d h
    rw [List.getElem?_zip_eq_some] at h
    exact h
  obtain ⟨ps, hps⟩ := mapM_ex (fun (p : Cell α × Nat) => p.1.draw p.2 (maxWidth cells)) (cells.zip hs) (by
    intro d hd'
    obtain ⟨r, hr⟩ := List.getElem?_of_mem hd'
    obtain ⟨h1, h2⟩ := hz r d hr
    obtain ⟨p, hp, -⟩ := hd r d.1 d.2 h1 h2
    exact ⟨p, hp⟩)
  have hlen : ps.length = cells.length := by
    rw [Imgaug.Dtypes.mapM_len _ _ _ hps, List.length_zip, hl, min_self]
  have hnth : ∀ (r : Nat) (c : Cell α) (h : Nat), cells[r]? = some c → hs[r]? = some h → ∃ p, ps[r]? = some p ∧ c.draw h (maxWidth cells) = some p :=
    fun r c h hc hh => Imgaug.Dtypes.mapM_nth _ _ _ hps r (c, h) (by rw [List.getElem?_zip_eq_some]; exact ⟨hc, hh⟩)
  have hsz : ∀ (r : Nat) (p : Pic α), ps[r]? = some p → ∃ h, hs[r]? = some h ∧ p.h = h + 2 ∧ p.w = maxWidth cells + 2 := by
    intro r p hp
    have hr : r < ps.length := (List.getElem?_eq_some_iff.1 hp).1
    obtain ⟨c, hc⟩ : ∃ v, cells[r]? = some v := ⟨cells[r], List.getElem?_eq_getElem (by omega)⟩
    obtain ⟨h, hh⟩ : ∃ v, hs[r]? = some v := ⟨hs[r], List.getElem?_eq_getElem (by omega)⟩
    obtain ⟨p', hp', e⟩ := hnth r c h hc hh
    rw [hp] at hp'; cases hp'
    obtain ⟨q, hq, q1, q2⟩ := hd r c h hc hh
    rw [e] at hq; cases hq
    exact ⟨h, hh, q1, q2⟩
  have hmap : ps.map Pic.h = hs.map (· + 2) := by
    apply List.ext_getElem?
    intro r
    rw [List.getElem?_map, List.getElem?_map]
    cases hp : ps[r]? with
    | none =>
      have : hs[r]? = none := by rw [List.getElem?_eq_none_iff] at hp ⊢; omega
      simp [this]
    | some p =>
      obtain ⟨h, hh, e, -⟩ := hsz r p hp
      simp [hh, e]
  obtain ⟨p, h1, h2, h3, h4⟩ := vstack_spec (maxWidth cells + 2) ps (by intro e; rw [e] at hlen; exact hne (List.length_eq_zero_iff.1 hlen.symm))
    (by
      intro p hp
      obtain ⟨r, hr⟩ := List.getElem?_of_mem hp
      obtain ⟨h, -, -, e⟩ := hsz r p hr
      exact e)
  refine ⟨p, ?_, h2, ?_, ?_⟩
  · unfold drawColumn; rw [hps, Option.bind_some, h1]
  · rw [h3, hmap]; unfold rowTop; rw [List.take_length]
  · intro r c h q hc hh hq y x hy
    obtain ⟨q', hq', e⟩ := hnth r c h hc hh
    rw [hq] at e; cases e
    have := h4 r q hq' y x hy
    rw [List.map_take, hmap, ← List.map_take] at this
    exact this

theorem drawGrid_spec (cols : List (List (Cell α))) (hne : cols ≠ []) (n : Nat) (hn : 0 < n) (hc : ∀ c ∈ cols, c.length = n)
    (hd : ∀ col ∈ cols, ∀ (r : Nat) (c : Cell α) (h : Nat), col[r]? = some c → (rowHeights cols)[r]? = some h →
      ∃ p, c.draw h (maxWidth col) = some p ∧ p.h = h + 2 ∧ p.w = maxWidth col + 2) :
    ∃ g, drawGrid cols = some g ∧ g.h = rowTop (rowHeights cols) n ∧ g.w = (cols.map (fun c => maxWidth c + 2)).sum ∧
      ∀ (k r : Nat) (col : List (Cell α)) (c : Cell α) (h : Nat) (q : Pic α), cols[k]? = some col → col[r]? = some c →
        (rowHeights cols)[r]? = some h → c.draw h (maxWidth col) = some q → ∀ y x, y < q.h → x < q.w →
        g.px (rowTop (rowHeights cols) r + y) (((cols.take k).map (fun c => maxWidth c + 2)).sum + x) = q.px y x := by
  obtain ⟨hlen, -⟩ := rowHeights_spec n cols hne hc
  have hcol : ∀ col ∈ cols, _ := fun col hcol => drawColumn_spec col (rowHeights cols) (by rw [hlen, hc col hcol])
    (by intro e; have := hc col hcol; rw [e] at this; simp at this; omega) (hd col hcol)
  obtain ⟨ps, hps⟩ := mapM_ex (fun (c : List (Cell α)) => drawColumn c (rowHeights cols)) cols (fun col h => by
    obtain ⟨p, hp, -⟩ := hcol col h; exact ⟨p, hp⟩)
  have hplen := Imgaug.Dtypes.mapM_len _ _ _ hps
  have hnth := Imgaug.Dtypes.mapM_nth _ _ _ hps
  have hsz : ∀ (k : Nat) (p : Pic α), ps[k]? = some p → ∃ col, cols[k]? = some col ∧ drawColumn col (rowHeights cols) = some p ∧
      p.w = maxWidth col + 2 ∧ p.h = rowTop (rowHeights cols) n := by
    intro k p hp
    have hk : k < ps.length := (List.getElem?_eq_some_iff.1 hp).1
    have hck : cols[k]? = some (cols[k]'(by omega)) := List.getElem?_eq_getElem (by omega)
    obtain ⟨p', hp', e⟩ := hnth k _ hck
    rw [hp] at hp'; cases hp'
    obtain ⟨q, hq, q1, q2, -⟩ := hcol _ (List.mem_of_getElem? hck)
    rw [e] at hq; cases hq
    exact ⟨_, hck, e, q1, by rw [q2, hlen]⟩
  have hmap : ps.map Pic.w = cols.map (fun c => maxWidth c + 2) := by
    apply List.ext_getElem?
    intro r
    rw [List.getElem?_map, List.getElem?_map]
    cases hp : ps[r]? with
    | none =>
      have : cols[r]? = none := by rw [List.getElem?_eq_none_iff] at hp ⊢; omega
      simp [this]
    | some p =>
      obtain ⟨col, hcol, -, e, -⟩ := hsz r p hp
      simp [hcol, e]
  obtain ⟨g, g1, g2, g3, g4⟩ := hstack_spec (rowTop (rowHeights cols) n) ps
    (by intro e; rw [e] at hplen; exact hne (List.length_eq_zero_iff.1 hplen.symm))
    (by
      intro p hp
      obtain ⟨r, hr⟩ := List.getElem?_of_mem hp
      obtain ⟨_, -, -, -, e⟩ := hsz r p hr
      exact e)
  refine ⟨g, ?_, g2, by rw [g3, hmap], ?_⟩
  · unfold drawGrid
    rw [if_neg, hps, Option.bind_some, g1]
    rintro (h | h)
    · exact hne h
    · obtain ⟨c, hcm, hcl⟩ := List.any_eq_true.1 h
      have h1 := hc c hcm
      have h2 : (cols.head?.getD []).length = n := by
        cases cols with
        | nil => exact absurd rfl hne
        | cons c cs => exact hc c (by simp)
      rw [h1, h2] at hcl; simp at hcl
  · intro k r col c h q hk hr hh hq y x hy hx
    obtain ⟨p, hp, e⟩ := hnth k col hk
    obtain ⟨p', hp', q1, q2, q3⟩ := hcol col (List.mem_of_getElem? hk)
    rw [e] at hp'; cases hp'
    have hqw : q.w = maxWidth col + 2 := by
      obtain ⟨q', hq', -, e'⟩ := hd col (List.mem_of_getElem? hk) r c h hr hh
      rw [hq] at hq'; cases hq'; exact e'
    have := g4 k p hp (rowTop (rowHeights cols) r + y) x (by rw [q1, ← hqw]; exact hx)
    rw [List.map_take, hmap, ← List.map_take] at this
    rw [this]
    exact q3 r c h q hr hh hq y x hy

theorem border_draw (L : Lib α) (c : Cell α) (h w : Nat) (p : Pic α) (hp : c.draw h w = some p) :
    ∃ q, (border L c).draw h w = some q ∧ q.h = p.h + 2 ∧ q.w = p.w + 2 ∧
      ∀ y x, y < p.h → x < p.w → q.px (1 + y) (1 + x) = p.px y x := by
  simp only [border, hp, Option.bind_some]
  rw [show (1 : Int) = ((1 : Nat) : Int) from rfl, pad_nat]
  refine ⟨_, rfl, by simp only; omega, by simp only; omega, ?_⟩
  intro y x hy hx
  simp only
  rw [if_pos ⟨by omega, by omega, by omega, by omega⟩]
  congr 1 <;> omega

end Imgaug.Debug
