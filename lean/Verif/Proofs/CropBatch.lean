import Verif.Spec.CropBatch
import Verif.Props.Pad
import Verif.Props.Size
namespace Imgaug.CropBatch
open Imgaug Imgaug.Dtypes Imgaug.Size Imgaug.Pad

theorem col_nth {α : Type} {f : Row → α → Option α} {rows : List Row} {x y : Option (List α)} (h : col f rows x = some y) (i : Nat) (r : Row)
    (hr : rows[i]? = some r) (hl : ∀ l, x = some l → l.length = rows.length) : ColFollows (fun a a' => f r a = some a') i x y := by
  cases x with
  | none => simp only [col] at h; injection h with h; subst h; trivial
  | some l =>
    simp only [col, Option.map_eq_some_iff] at h
    obtain ⟨l', h1, rfl⟩ := h
    refine ⟨by rw [mapM_len _ _ _ h1, List.length_zip, ← hl l rfl, min_self], ?_⟩
    intro a ha
    obtain ⟨b, e1, e2⟩ := mapM_nth _ _ _ h1 i (a, r) (by rw [List.getElem?_zip_eq_some]; exact ⟨ha, hr⟩)
    exact ⟨b, e1, e2⟩

theorem ColFollows.mono {α : Type} {F G : α → α → Prop} {i : Nat} {x y : Option (List α)} (h : ColFollows F i x y)
    (hg : ∀ l a a', x = some l → l[i]? = some a → F a a' → G a a') : ColFollows G i x y := by
  cases x <;> cases y <;> simp only [ColFollows] at h ⊢
  obtain ⟨h1, h2⟩ := h
  refine ⟨h1, ?_⟩
  intro a ha
  obtain ⟨a', h3, h4⟩ := h2 a ha
  exact ⟨a', h3, hg _ a a' rfl ha h4⟩

/-- A column that agrees with the shapes. -/
def Agrees (sh : List Shape) : Dropout.Col → Prop
  | .array s => ∀ t ∈ sh, s = [t.h, t.w]
  | .items l => l = sh.map (fun s => some [s.h, s.w])

theorem setFound_all (sh : List Shape) (acc : List (Option (List Nat) × Bool)) (h : acc.length = sh.length) :
    (acc.zipIdx.map (Dropout.setFound (sh.map (fun s => some [s.h, s.w])))).map (·.1) = sh.map (fun s => some [s.h, s.w]) := by
  apply List.ext_getElem?
  intro i
  simp only [List.getElem?_map, List.getElem?_zipIdx]
  by_cases hi : i < sh.length
  · have hi' : i < acc.length := by omega
    simp [hi, hi', Dropout.setFound, List.getD_eq_getElem?_getD]
  · have hi' : ¬ i < acc.length := by omega
    simp [hi, hi']

theorem rowShapes_agree (sh : List Shape) : ∀ (cs : List Dropout.Col) (acc : List (Option (List Nat) × Bool)), acc.length = sh.length →
    (∀ c ∈ cs, Agrees sh c) → (cs ≠ [] ∨ acc.map (·.1) = sh.map (fun s => some [s.h, s.w])) →
    Dropout.rowShapes cs acc = sh.map (fun s => some [s.h, s.w]) := by
  intro cs
  induction cs with
  | nil =>
    intro acc _ _ h
    simpa [Dropout.rowShapes] using h
  | cons c t ih =>
    intro acc hl hc _
    have hc1 := hc c (by simp)
    cases c with
    | array s =>
      simp only [Dropout.rowShapes]
      have e : (acc.map (fun a => (some s, a.2))).map (·.1) = sh.map (fun s => some [s.h, s.w]) := by
        apply List.ext_getElem?
        intro i
        simp only [List.getElem?_map]
        by_cases hi : i < sh.length
        · have hi' : i < acc.length := by omega
          simp only [List.getElem?_eq_getElem hi, List.getElem?_eq_getElem hi', Option.map_some]
          rw [hc1 _ (List.getElem_mem hi)]
        · have hi' : ¬ i < acc.length := by omega
          simp [hi, hi']
      split
      · exact e
      · exact ih _ (by simpa using hl) (fun c h => hc c (by simp [h])) (Or.inr e)
    | items l =>
      simp only [Agrees] at hc1
      subst hc1
      simp only [Dropout.rowShapes]
      have e := setFound_all sh acc hl
      split
      · exact e
      · exact ih _ (by simpa using hl) (fun c h => hc c (by simp [h])) (Or.inr e)

theorem mapM_toShape (sh : List Shape) : (sh.map (fun s => some [s.h, s.w])).mapM toShape = some sh := by
  induction sh with
  | nil => rfl
  | cons s t ih => simp [List.mapM_cons, ih, toShape]

theorem cols_mem {α : Type} {f : α → Shape} {x : Option (List α)} {sh : List Shape} (h : HasShapes f x sh) {c : List Shape} (hc : c ∈ cols f x) : c = sh := by
  cases x with
  | none => simp [cols] at hc
  | some l => simp only [cols, List.mem_singleton] at hc; rw [hc]; exact h l rfl

theorem cols_ne {α : Type} {f : α → Shape} {x : Option (List α)} (h : x.isSome) : cols f x ≠ [] := by
  cases x with
  | none => simp at h
  | some l => simp [cols]

theorem columns_mem {b : Batch} {sh : List Shape} (h : Consistent b sh) {c : Bool × List Shape} (hc : c ∈ columns b) :
    c.2 = sh ∧ (c.1 = true → ∀ s ∈ sh, ∀ s' ∈ sh, s = s') := by
  obtain ⟨-, -, h1, h1', h2, h3, h4, h5, h6, h7⟩ := h
  unfold columns at hc
  rw [List.mem_append] at hc
  rcases hc with hc | hc
  · split at hc
    · simp at hc
    · rename_i l e
      simp only [List.mem_singleton] at hc
      subst hc
      exact ⟨h1 l (by rw [e]; rfl), fun _ => h1' l e⟩
    · rename_i l e
      simp only [List.mem_singleton] at hc
      subst hc
      exact ⟨h1 l (by rw [e]; rfl), fun h => by simp at h⟩
  · simp only [List.mem_map, List.mem_append] at hc
    obtain ⟨l, hl, rfl⟩ := hc
    refine ⟨?_, fun h => by simp at h⟩
    rcases hl with ((((hl | hl) | hl) | hl) | hl) | hl
    · exact cols_mem h2 hl
    · exact cols_mem h3 hl
    · exact cols_mem h4 hl
    · exact cols_mem h5 hl
    · exact cols_mem h6 hl
    · exact cols_mem h7 hl

theorem columns_ne {b : Batch} {sh : List Shape} (h : Consistent b sh) : columns b ≠ [] := by
  obtain ⟨-, h, -⟩ := h
  unfold columns
  intro e
  rw [List.append_eq_nil_iff, List.map_eq_nil_iff] at e
  obtain ⟨e1, e2⟩ := e
  simp only [List.append_eq_nil_iff] at e2
  obtain ⟨⟨⟨⟨⟨e2, e3⟩, e4⟩, e5⟩, e6⟩, e7⟩ := e2
  rcases h with h | h | h | h | h | h | h
  · cases hi : b.images with
    | none => simp [hi] at h
    | some o => rw [hi] at e1; cases o <;> simp at e1
  · exact cols_ne h e2
  · exact cols_ne h e3
  · exact cols_ne h e4
  · exact cols_ne h e5
  · exact cols_ne h e6
  · exact cols_ne h e7

theorem nbRows_eq {b : Batch} {sh : List Shape} (h : Consistent b sh) : nbRows b = sh.length := by
  unfold nbRows
  cases e : columns b with
  | nil => exact absurd e (columns_ne h)
  | cons c t =>
    have := (columns_mem h (c := c) (by rw [e]; simp)).1
    simp [this]

theorem rowShapes_eq {b : Batch} {sh : List Shape} (h : Consistent b sh) : rowShapes b = some sh := by
  unfold rowShapes Dropout.rowwiseShapes
  have hf : (columns b).filter (fun c => c.2 ≠ []) = columns b := by
    rw [List.filter_eq_self]
    intro c hc
    rw [(columns_mem h hc).1]
    simpa using h.1
  rw [hf, nbRows_eq h, rowShapes_agree sh, mapM_toShape]
  · simp
  · intro c hc
    rw [List.mem_map] at hc
    obtain ⟨d, hd, rfl⟩ := hc
    obtain ⟨e1, e2⟩ := columns_mem h hd
    unfold toCol
    split
    · rename_i ht
      have e3 := e2 ht
      simp only [Agrees]
      intro t hmem
      rw [e1]
      cases sh with
      | nil => simp at hmem
      | cons s l => rw [e3 t hmem s (by simp)]
    · simp only [Agrees, e1]
  · left
    simp only [ne_eq, List.map_eq_nil_iff]
    exact columns_ne h

theorem drawFours_len {σ : Type} (S : CropArgs.Sampler σ) (hS : ∀ d n g, (S d n g).1.length = n) (ind : Bool) (sd : CropArgs.Sides) (n : Nat) (g : σ) :
    (CropArgs.drawFours S ind sd n g).1.length = n := by
  unfold CropArgs.drawFours
  cases sd with
  | all d => cases ind <;> simp [CropArgs.rowsOf4, hS]
  | each t r b l => simp

theorem drawRows_nth {σ : Type} {S : Samplers σ} (hS : S.Ok) {c : Conf} {sh : List Shape} {g : σ} {rows : List Row} (h : drawRows S c sh g = some rows) :
    rows.length = sh.length ∧ ∀ (i : Nat) (s : Shape), sh[i]? = some s → ∃ (t : Trbl) (m : Mode) (v : ℚ) (g1 g2 : σ), rows[i]? = some (⟨croppings s t, paddings t, m, v⟩ : Row) ∧
      m ∈ (S.mode c.mode sh.length g1).1 ∧ v ∈ (S.cval c.cval sh.length g2).1 := by
  obtain ⟨h1, h2, h3⟩ := hS
  simp only [drawRows, Option.map_eq_some_iff, CropArgs.drawSamples] at h
  obtain ⟨l, e1, rfl⟩ := h
  have hl := mapM_len _ _ _ e1
  rw [List.length_zip, drawFours_len _ h1, min_self] at hl
  refine ⟨by simp [h2, h3, hl], ?_⟩
  intro i s hs
  have hi : i < sh.length := (List.getElem?_eq_some_iff.mp hs).1
  set F := (CropArgs.drawFours S.sides c.independently c.sides.2 sh.length g).1 with hF
  have hFl : F.length = sh.length := drawFours_len _ h1 _ _ _ _
  set G1 := (CropArgs.drawFours S.sides c.independently c.sides.2 sh.length g).2
  set M := S.mode c.mode sh.length G1 with hM
  set V := S.cval c.cval sh.length M.2 with hV
  have hMl : M.1.length = sh.length := h2 _ _ _
  have hVl : V.1.length = sh.length := h3 _ _ _
  obtain ⟨q, e3, e4⟩ := mapM_nth _ _ _ e1 i (s, F[i]'(by omega)) (by
    rw [List.getElem?_zip_eq_some]; exact ⟨hs, List.getElem?_eq_getElem _⟩)
  simp only [Option.map_eq_some_iff] at e4
  obtain ⟨t, -, rfl⟩ := e4
  refine ⟨t, M.1[i]'(by omega), V.1[i]'(by omega), G1, M.2, ?_, List.getElem_mem _, List.getElem_mem _⟩
  rw [List.getElem?_map]
  have : (l.zip (M.1.zip V.1))[i]? = some ((croppings s t, paddings t), (M.1[i]'(by omega), V.1[i]'(by omega))) := by
    rw [List.getElem?_zip_eq_some, List.getElem?_zip_eq_some]
    exact ⟨e3, List.getElem?_eq_getElem _, List.getElem?_eq_getElem _⟩
  rw [this]
  rfl

/-- The plan for a row. -/
def planOf (s : Shape) (r : Row) : Plan :=
  ⟨(cropXyxy s r.crop).y1.toNat, (cropXyxy s r.crop).y2.toNat, (cropXyxy s r.crop).x1.toNat, (cropXyxy s r.crop).x2.toNat, r.pad⟩

/-- The bounds of a crop. -/
theorem crop_facts (s : Shape) (c : Trbl) (hc : NonNeg c) (hh : 1 ≤ s.h) (hw : 1 ≤ s.w) :
    0 ≤ (cropXyxy s c).y1 ∧ (cropXyxy s c).y1 < (cropXyxy s c).y2 ∧ (cropXyxy s c).y2 ≤ s.h ∧
    0 ≤ (cropXyxy s c).x1 ∧ (cropXyxy s c).x1 < (cropXyxy s c).x2 ∧ (cropXyxy s c).x2 ≤ s.w := by
  obtain ⟨h1, h2, h3, h4⟩ := hc
  obtain ⟨t, b, e1, p1, p2, p3, p4, p5⟩ := prevent_zero_size s.h c.top c.bottom (by omega) h1 h3
  obtain ⟨l, r, e2, q1, q2, q3, q4, q5⟩ := prevent_zero_size s.w c.left c.right (by omega) h4 h2
  simp only [cropXyxy, e1, e2]
  omega

theorem croppings_nonneg (s : Shape) (t : Trbl) (hh : 1 ≤ s.h) (hw : 1 ≤ s.w) : NonNeg (croppings s t) := by
  obtain ⟨t', b', e1, p1, p2, p3, p4, p5⟩ := prevent_zero_size s.h (max (-1 * t.top) 0) (max (-1 * t.bottom) 0) (by omega)
    (le_max_right _ _) (le_max_right _ _)
  obtain ⟨l', r', e2, q1, q2, q3, q4, q5⟩ := prevent_zero_size s.w (max (-1 * t.left) 0) (max (-1 * t.right) 0) (by omega)
    (le_max_right _ _) (le_max_right _ _)
  simp only [croppings, preventZeroTrbl, e1, e2]
  exact ⟨p1, q3, p3, q1⟩

theorem paddings_nonneg (t : Trbl) : NonNeg (paddings t) := ⟨le_max_right _ _, le_max_right _ _, le_max_right _ _, le_max_right _ _⟩

/-- A row as it is drawn for a shape. -/
def Row.Good (r : Row) : Prop := NonNeg r.crop ∧ NonNeg r.pad

theorem plan_fits (s : Shape) (r : Row) (hr : r.Good) (hh : 1 ≤ s.h) (hw : 1 ≤ s.w) : (planOf s r).Fits s := by
  have := crop_facts s r.crop hr.1 hh hw
  exact ⟨by simp only [planOf]; omega, by simp only [planOf]; omega, by simp only [planOf]; omega, by simp only [planOf]; omega, hr.2⟩

theorem plan_size (s : Shape) (r : Row) (hr : r.Good) (hh : 1 ≤ s.h) (hw : 1 ≤ s.w) : shapeAfter s r.crop r.pad = (planOf s r).size := by
  have := crop_facts s r.crop hr.1 hh hw
  simp only [shapeAfter, planOf, Plan.size]
  congr 1 <;> congr 1 <;> omega

theorem cropImg_idem (a : Draw.Img) (c : Trbl) (hc : NonNeg c) (hh : 1 ≤ a.h) (hw : 1 ≤ a.w) :
    cropImg a (preventZeroTrbl a.h a.w c) = cropImg a c := by
  rw [cropImg, cropImg, cropXyxy_idem ⟨a.h, a.w⟩ c hc hh hw]

/-- What is padded. -/
theorem middle_cut {a b : Draw.Img} {r : Row} (hr : r.Good) (hh : 1 ≤ a.h) (hw : 1 ≤ a.w) (h : InMiddle (cropImg a r.crop) b r.pad) :
    (planOf ⟨a.h, a.w⟩ r).Cut a b := by
  have hf := crop_facts ⟨a.h, a.w⟩ r.crop hr.1 hh hw
  obtain ⟨n1, n2, n3, n4⟩ := hr.2
  obtain ⟨h1, h2, h3, h4, h5, h6⟩ := h
  simp only [cropImg] at h1 h2 h3 h4 h5 h6
  refine ⟨h1, h2, h3, ?_, ?_⟩
  · simp only [Plan.size, planOf]
    congr 1 <;> omega
  · intro y x ch hy1 hy2 hx1 hx2 hc
    simp only [planOf] at hy1 hy2 hx1 hx2 ⊢
    have e := h6 (y - (cropXyxy ⟨a.h, a.w⟩ r.crop).y1.toNat) (x - (cropXyxy ⟨a.h, a.w⟩ r.crop).x1.toNat) ch (by omega) (by omega) hc
    rw [add_comm _ r.pad.top.toNat, add_comm _ r.pad.left.toNat, e]
    congr 1 <;> omega

/-- The border of what is padded. -/
theorem border_cut {np : Np} {a b : Draw.Img} {r : Row} {m : Mode} {v : ℚ} (hr : r.Good) (hh : 1 ≤ a.h) (hw : 1 ≤ a.w)
    (h : Pad.pad np (cropImg a r.crop) r.pad m (.one v) = some b) (hd : a.dt ∈ all) (hwf : WellFormed a) : (planOf ⟨a.h, a.w⟩ r).Border m v a b := by
  have hf := crop_facts ⟨a.h, a.w⟩ r.crop hr.1 hh hw
  obtain ⟨n1, n2, n3, n4⟩ := hr.2
  intro y x hy hx hn
  have ho : OnBorder (cropImg a r.crop) r.pad y x := by
    simp only [Plan.New, planOf] at hn
    simp only [OnBorder, cropImg]
    omega
  constructor
  · intro hm ch hc
    exact constant_border np (cropImg a r.crop) b r.pad m (.one v) hd hwf trivial (by simp [hm]) (Or.inl hm) h y x ch hy hx hc ho
  · intro hm
    obtain ⟨j, i, h1, h2, h3, h4, h5⟩ := mirrored_border np (cropImg a r.crop) b r.pad m (.one v) hwf trivial hm (by simp only [cropImg]; omega)
      (by simp only [cropImg]; omega) h y x hy hx ho
    simp only [cropImg] at h1 h2 h3 h4 h5
    have e1 : ((cropXyxy ⟨a.h, a.w⟩ r.crop).y2 - (cropXyxy ⟨a.h, a.w⟩ r.crop).y1).toNat =
      (cropXyxy ⟨a.h, a.w⟩ r.crop).y2.toNat - (cropXyxy ⟨a.h, a.w⟩ r.crop).y1.toNat := by omega
    have e2 : ((cropXyxy ⟨a.h, a.w⟩ r.crop).x2 - (cropXyxy ⟨a.h, a.w⟩ r.crop).x1).toNat =
      (cropXyxy ⟨a.h, a.w⟩ r.crop).x2.toNat - (cropXyxy ⟨a.h, a.w⟩ r.crop).x1.toNat := by omega
    rw [e1] at h3
    rw [e2] at h4
    refine ⟨j, i, ?_, ?_, h3, h4, h5⟩
    · simp only [planOf]; omega
    · simp only [planOf]; omega

theorem arrStep_follows {np : Np} {rs : Resizer} {keep : Bool} {r : Row} {a a' : Draw.Img} (h : arrStep np rs keep r a = some a') (hr : r.Good)
    (hh : 1 ≤ a.h) (hw : 1 ≤ a.w) : (planOf ⟨a.h, a.w⟩ r).ArrFollows keep rs r.mode r.cval a a' := by
  simp only [arrStep, Option.map_eq_some_iff] at h
  obtain ⟨b, h1, rfl⟩ := h
  exact ⟨b, middle_cut hr hh hw (pad_middle h1).2, border_cut hr hh hw h1, rfl⟩

theorem mapStep_follows {np : Np} {rs : Resizer} {keep : Bool} {mode : Option Mode} {cval : Option ℚ} {r : Row} {m m' : MapOn}
    (h : mapStep np rs keep mode cval r m = some m') (hr : r.Good) (hh : 1 ≤ m.shape.h) (hw : 1 ≤ m.shape.w) :
    (planOf m.shape r).MapFollows keep rs (mode.getD r.mode) (cval.getD r.cval) m m' := by
  simp only [mapStep] at h
  split at h
  · rename_i cp pp e1 e2
    simp only [Option.map_eq_some_iff] at h
    obtain ⟨b, h1, rfl⟩ := h
    refine ⟨?_, ?_, ?_⟩
    · cases keep
      · simp only [Plan.newShape]; exact plan_size _ _ hr hh hw
      · rfl
    · intro hs
      have hs' : m.shape.h = m.arr.h ∧ m.shape.w = m.arr.w := by rw [← hs]; exact ⟨rfl, rfl⟩
      rw [projectSizeChanges, if_pos hs.symm] at e1 e2
      injection e1 with e1
      injection e2 with e2
      subst e1 e2
      rw [cropImg_idem _ _ hr.1 (by omega) (by omega)] at h1
      rw [← hs]
      refine ⟨b, middle_cut hr (by omega) (by omega) (pad_middle h1).2, border_cut hr (by omega) (by omega) h1, ?_⟩
      cases keep <;> rfl
    · rintro rfl
      exact ⟨b, rfl⟩
  · simp at h

theorem on_eq (q : KPsOnImage) (s : Shape) (h1 : 0 < q.shape.h) (h2 : 0 < q.shape.w) (h3 : 0 < s.h) (h4 : 0 < s.w) :
    q.on s = some ⟨q.kps.map (fun p => (⟨p.x / q.shape.w * s.w, p.y / q.shape.h * s.h⟩ : Pt)), s⟩ := by
  unfold KPsOnImage.on
  by_cases hc : s = q.shape
  · have hw' : (q.shape.w : ℚ) ≠ 0 := by exact_mod_cast h2.ne'
    have hh' : (q.shape.h : ℚ) ≠ 0 := by exact_mod_cast h1.ne'
    rw [if_pos hc, hc]
    have : q.kps.map (fun p => (⟨p.x / q.shape.w * q.shape.w, p.y / q.shape.h * q.shape.h⟩ : Pt)) = q.kps := by
      conv_rhs => rw [← List.map_id q.kps]
      apply List.map_congr_left
      intro p _
      rw [div_mul_cancel₀ _ hw', div_mul_cancel₀ _ hh']
      rfl
    rw [this]
  · rw [if_neg hc, mapM_some _ (fun p => (⟨p.x / q.shape.w * s.w, p.y / q.shape.h * s.h⟩ : Pt))]
    · rfl
    · intro p _
      simp only [projectPt, if_neg (Ne.symm hc)]
      rw [if_pos ⟨h1, h2, h3, h4⟩]

theorem ptsStep_eq (keep : Bool) (r : Row) (s : Shape) (l : List Pt) (hr : r.Good) (hh : 1 ≤ s.h) (hw : 1 ≤ s.w) :
    ptsStep keep r s l = some (l.map ((planOf s r).place keep s)) := by
  have hf := crop_facts s r.crop hr.1 hh hw
  obtain ⟨n1, n2, n3, n4⟩ := hr.2
  have e1 : (((cropXyxy s r.crop).x1.toNat : Nat) : ℚ) = ((cropXyxy s r.crop).x1 : ℚ) := by exact_mod_cast Int.toNat_of_nonneg hf.2.2.2.1
  have e2 : (((cropXyxy s r.crop).y1.toNat : Nat) : ℚ) = ((cropXyxy s r.crop).y1 : ℚ) := by exact_mod_cast Int.toNat_of_nonneg hf.1
  have hsz := plan_size s r hr hh hw
  have hpos : 0 < (planOf s r).size.h ∧ 0 < (planOf s r).size.w := by
    rw [← hsz]; simp only [shapeAfter]; omega
  unfold ptsStep cropPadKps
  simp only
  cases keep
  · simp only [Bool.false_eq_true, if_false, Option.map_some, KPsOnImage.shift]
    congr 1
    apply List.map_congr_left
    intro q _
    simp only [Pt.shift, Plan.place, planOf, Bool.false_eq_true, if_false, e1, e2]
    congr 1 <;> push_cast <;> ring
  · simp only [if_true]
    rw [on_eq _ _ (by simp only; rw [hsz]; exact hpos.1) (by simp only; rw [hsz]; exact hpos.2) (by omega) (by omega)]
    simp only [Option.map_some, KPsOnImage.shift, List.map_map]
    congr 1
    apply List.map_congr_left
    intro q _
    simp only [Function.comp, Pt.shift, Plan.place, if_true, hsz]
    simp only [planOf, e1, e2]
    congr 2 <;> congr 1 <;> push_cast <;> ring

theorem itemsStep_eq (keep : Bool) (r : Row) (o : OnImage) (hr : r.Good) (hh : 1 ≤ o.shape.h) (hw : 1 ≤ o.shape.w) :
    ∃ o', itemsStep keep r o = some o' ∧ (planOf o.shape r).ItemsFollow keep o o' := by
  unfold itemsStep
  rw [mapM_some _ (fun l => l.map ((planOf o.shape r).place keep o.shape)) _ (fun l _ => ptsStep_eq keep r o.shape l hr hh hw)]
  refine ⟨_, rfl, ?_, rfl⟩
  cases keep
  · exact plan_size _ _ hr hh hw
  · rfl

/-- A box stays a box. -/
theorem place_mono (p : Plan) (keep : Bool) (s : Shape) (a b c d : ℚ) (h1 : a ≤ c) (h2 : b ≤ d) :
    (p.place keep s ⟨a, b⟩).x ≤ (p.place keep s ⟨c, d⟩).x ∧ (p.place keep s ⟨a, b⟩).y ≤ (p.place keep s ⟨c, d⟩).y ∧
    (p.place keep s ⟨c, b⟩).x = (p.place keep s ⟨c, d⟩).x ∧ (p.place keep s ⟨c, b⟩).y = (p.place keep s ⟨a, b⟩).y ∧
    (p.place keep s ⟨a, d⟩).x = (p.place keep s ⟨a, b⟩).x ∧ (p.place keep s ⟨a, d⟩).y = (p.place keep s ⟨c, d⟩).y := by
  unfold Plan.place
  cases keep
  · refine ⟨?_, ?_, rfl, rfl, rfl, rfl⟩
    · simp only [Bool.false_eq_true, if_false]; linarith
    · simp only [Bool.false_eq_true, if_false]; linarith
  · refine ⟨?_, ?_, rfl, rfl, rfl, rfl⟩
    · simp only [if_true]
      exact mul_le_mul_of_nonneg_right (div_le_div_of_nonneg_right (by linarith) (by positivity)) (by positivity)
    · simp only [if_true]
      exact mul_le_mul_of_nonneg_right (div_le_div_of_nonneg_right (by linarith) (by positivity)) (by positivity)

theorem boxesStep_eq (keep : Bool) (r : Row) (o : Boxes) (hr : r.Good) (hh : 1 ≤ o.shape.h) (hw : 1 ≤ o.shape.w) (ho : o.Ordered) :
    ∃ o', boxesStep keep r o = some o' ∧ (planOf o.shape r).BoxesFollow keep o o' ∧ o'.Ordered := by
  unfold boxesStep
  have hb : ∀ b ∈ o.boxes, (ptsStep keep r o.shape (corners b)).bind around =
      some ((((planOf o.shape r).place keep o.shape ⟨b.1, b.2.1⟩).x, ((planOf o.shape r).place keep o.shape ⟨b.1, b.2.1⟩).y,
        ((planOf o.shape r).place keep o.shape ⟨b.2.2.1, b.2.2.2⟩).x, ((planOf o.shape r).place keep o.shape ⟨b.2.2.1, b.2.2.2⟩).y)) := by
    intro b hb
    obtain ⟨h1, h2⟩ := ho b hb
    obtain ⟨m1, m2, m3, m4, m5, m6⟩ := place_mono (planOf o.shape r) keep o.shape b.1 b.2.1 b.2.2.1 b.2.2.2 h1 h2
    rw [ptsStep_eq keep r o.shape _ hr hh hw]
    simp only [corners, List.map_cons, List.map_nil, Option.bind_some, around, m3, m4, m5, m6]
    congr 1
    simp only [Prod.mk.injEq]
    refine ⟨?_, ?_, ?_, ?_⟩
    · simp [m1]
    · simp [m2]
    · simp [m1]
    · simp [m2]
  rw [mapM_some _ _ _ hb]
  refine ⟨_, rfl, ⟨?_, rfl⟩, ?_⟩
  · cases keep
    · exact plan_size _ _ hr hh hw
    · rfl
  · intro b hb
    simp only [List.mem_map] at hb
    obtain ⟨a, ha, rfl⟩ := hb
    obtain ⟨h1, h2⟩ := ho a ha
    obtain ⟨m1, m2, -⟩ := place_mono (planOf o.shape r) keep o.shape a.1 a.2.1 a.2.2.1 a.2.2.2 h1 h2
    exact ⟨m1, m2⟩

/-- What a batch of several rows becomes. -/
theorem augment_cols {σ : Type} {np : Np} {ri rh rg : Resizer} {S : Samplers σ} {c : Conf} {b b' : Batch} {g : σ} {sh : List Shape} (hb : Consistent b sh)
    (h : augment np ri rh rg S c b g = some b') :
    ∃ rows images, drawRows S c sh g = some rows ∧ col (arrStep np ri c.keep) rows (b.images.map Images.rows) = some images ∧
      b'.images = b.images.bind (fun o => images.map (collect c.keep o)) ∧
      col (mapStep np rh c.keep c.modeHeat c.cvalHeat) rows b.heatmaps = some b'.heatmaps ∧
      col (mapStep np rg c.keep c.modeSeg c.cvalSeg) rows b.segmaps = some b'.segmaps ∧
      col (itemsStep c.keep) rows b.kps = some b'.kps ∧ col (boxesStep c.keep) rows b.boxes = some b'.boxes ∧
      col (itemsStep c.keep) rows b.polys = some b'.polys ∧ col (itemsStep c.keep) rows b.lines = some b'.lines := by
  unfold augment at h
  have hn : nbRows b ≠ 0 := by
    rw [nbRows_eq hb]
    have := hb.1
    intro e
    exact this (List.length_eq_zero_iff.mp e)
  rw [if_neg hn, rowShapes_eq hb] at h
  simp only [Option.bind_eq_bind, Option.bind_some, Option.bind_eq_some_iff, Option.pure_def] at h
  obtain ⟨rows, h1, images, h2, hm, h3, sm, h4, k, h5, bx, h6, po, h7, ls, h8, h9⟩ := h
  injection h9 with h9
  subst h9
  exact ⟨rows, images, h1, h2, rfl, h3, h4, h5, h6, h7, h8⟩

theorem hasShapes_len {α : Type} {f : α → Shape} {x : Option (List α)} {sh : List Shape} (h : HasShapes f x sh) {n : Nat} (hn : n = sh.length) :
    ∀ l, x = some l → l.length = n := by
  intro l hl
  rw [hn, ← h l hl, List.length_map]

theorem hasShapes_nth {α : Type} {f : α → Shape} {x : Option (List α)} {sh : List Shape} (h : HasShapes f x sh) {l : List α} (hl : x = some l) {i : Nat} {a : α}
    (ha : l[i]? = some a) {s : Shape} (hs : sh[i]? = some s) : f a = s := by
  rw [← h l hl, List.getElem?_map, ha] at hs
  exact Option.some.inj hs

theorem collect_rows (keep : Bool) (o : Images) (l : List Draw.Img) : (collect keep o l).rows = l := by
  unfold collect
  cases o
  · simp only
    split <;> rfl
  · rfl

theorem col_some {α : Type} {f : Row → α → Option α} {rows : List Row} {x : Option (List α)} (h : ∀ l, x = some l → ∀ p ∈ l.zip rows, ∃ a, f p.2 p.1 = some a) :
    ∃ y, col f rows x = some y := by
  cases x with
  | none => exact ⟨none, rfl⟩
  | some l =>
    have : ∃ l', (l.zip rows).mapM (fun p => f p.2 p.1) = some l' := by
      have hl := h l rfl
      generalize l.zip rows = z at hl
      induction z with
      | nil => exact ⟨[], rfl⟩
      | cons q z ih =>
        obtain ⟨a, ha⟩ := hl q List.mem_cons_self
        obtain ⟨l', e⟩ := ih (fun p hp => hl p (List.mem_cons_of_mem _ hp))
        exact ⟨a :: l', by simp [List.mapM_cons, ha, e]⟩
    obtain ⟨l', e⟩ := this
    exact ⟨some l', by simp [col, e]⟩

theorem stored_zero {d : DType} (hd : d ∈ all) {r : ℚ} (h : StoredAs d 0 r) : r = 0 := by
  have hz : clamp d 0 = 0 := by
    obtain ⟨h1, h2⟩ := zero_within d hd
    have h1' : ((lo d : Int) : ℚ) ≤ 0 := by exact_mod_cast h1
    have h2' : (0 : ℚ) ≤ hi d := by exact_mod_cast h2
    unfold clamp
    grind
  unfold StoredAs at h
  rw [hz] at h
  split at h
  · exact h
  · rcases h with h | h
    · exact h.2
    · exact absurd rfl h.1
  · obtain ⟨n, -, h1, -⟩ := h
    simpa using h1

theorem augment_rows_len {σ : Type} {S : Samplers σ} (hS : S.Ok) {c : Conf} {sh : List Shape} {g : σ} {rows : List Row} (h : drawRows S c sh g = some rows) :
    rows.length = sh.length := (drawRows_nth hS h).1

theorem oneShape_iff (l : List Draw.Img) (h : l ≠ []) :
    oneShape l = true ↔ ∀ a ∈ l, ∀ a' ∈ l, a.h = a'.h ∧ a.w = a'.w ∧ a.flat = a'.flat ∧ (a.flat = false → a.c = a'.c) := by
  have key : ∀ a b : Draw.Img, dims b = dims a ↔ a.h = b.h ∧ a.w = b.w ∧ a.flat = b.flat ∧ (a.flat = false → a.c = b.c) := by
    intro a b
    unfold dims
    cases a.flat <;> cases b.flat <;> simp <;> grind
  cases l with
  | nil => exact absurd rfl h
  | cons a t =>
    simp only [oneShape, List.all_eq_true, beq_iff_eq]
    constructor
    · intro h x hx y hy
      have h' : ∀ z ∈ a :: t, dims z = dims a := by
        intro z hz
        rcases List.mem_cons.mp hz with rfl | hz
        · rfl
        · exact h z hz
      rw [← key]
      rw [h' x hx, h' y hy]
    · intro h b hb
      exact (key a b).mpr (h a List.mem_cons_self b (List.mem_cons_of_mem _ hb))

theorem named_iff (s : String) : named s ≠ none ↔
    s ∈ ["constant", "edge", "linear_ramp", "maximum", "mean", "median", "minimum", "reflect", "symmetric", "wrap"] := by
  simp [named, available, List.lookup_eq_none_iff]
  grind

theorem named_list (l : List String) : l.mapM named ≠ none ↔
    ∀ s ∈ l, s ∈ ["constant", "edge", "linear_ramp", "maximum", "mean", "median", "minimum", "reflect", "symmetric", "wrap"] := by
  induction l with
  | nil => simp
  | cons a t ih =>
    rw [List.mapM_cons]
    have h1 := named_iff a
    cases ha : named a with
    | none => rw [ha] at h1; simp at h1 ⊢; grind
    | some m =>
      rw [ha] at h1
      cases ht : t.mapM named with
      | none => rw [ht] at ih; simp at ih h1 ⊢; grind
      | some q => rw [ht] at ih; simp at ih h1 ⊢; exact ⟨h1, ih⟩

theorem drawRows_pairs {σ : Type} {S : Samplers σ} {c : Conf} {sh : List Shape} {g : σ} {rows : List Row} (h : drawRows S c sh g = some rows) :
    ∃ l, CropArgs.drawSamples S.sides c.independently c.sides sh g = some l ∧ ∀ (i : Nat) (r : Row), rows[i]? = some r → l[i]? = some (r.crop, r.pad) := by
  simp only [drawRows, Option.map_eq_some_iff] at h
  obtain ⟨l, e1, rfl⟩ := h
  refine ⟨l, e1, ?_⟩
  intro i r hr
  rw [List.getElem?_map, Option.map_eq_some_iff] at hr
  obtain ⟨q, hq, rfl⟩ := hr
  rw [List.getElem?_zip_eq_some] at hq
  exact hq.1

/-- Croppings that leave something are done as they are. -/
theorem crop_exact (s : Shape) (c : Trbl) (hc : NonNeg c) (h1 : c.top + c.bottom < s.h) (h2 : c.left + c.right < s.w) :
    cropXyxy s c = ⟨c.left, c.top, s.w - c.right, s.h - c.bottom⟩ := by
  obtain ⟨n1, n2, n3, n4⟩ := hc
  simp only [cropXyxy, prevent_zero_size_unchanged s.h c.top c.bottom n1 n3 h1, prevent_zero_size_unchanged s.w c.left c.right n4 n2 h2]
  rw [max_eq_left (by omega), max_eq_left (by omega)]

end Imgaug.CropBatch
