import Verif.Spec.Dropout
import Verif.Props.MulElem
import Verif.Props.Resize
/-! Helper lemmas for the dropout augmenters. -/
namespace Imgaug.Dropout
open Imgaug Imgaug.Dtypes Imgaug.Resize Imgaug.MulElem
open Imgaug.AddMul (gated)

theorem sub_length (ps : List ℚ) (chans : List Nat) (i c : Nat) (hc : chans[i]? = some c) (hp : ps.length = chans.sum) :
    ((ps.drop (chans.take i).sum).take c).length = c := by
  have h : (chans.take i).sum + c ≤ chans.sum := by
    have hi' : i < chans.length := (List.getElem?_eq_some_iff.mp hc).1
    have e : chans = chans.take i ++ chans.drop i := (List.take_append_drop i chans).symm
    have e2 : chans.drop i = c :: chans.drop (i + 1) := by
      rw [List.drop_eq_getElem_cons hi']
      congr 1
      exact (List.getElem?_eq_some_iff.mp hc).2
    have e3 : chans.sum = (chans.take i).sum + (c + (chans.drop (i + 1)).sum) := by
      conv_lhs => rw [e, e2]
      rw [List.sum_append, List.sum_cons]
    omega
  rw [List.length_take, List.length_drop]
  omega

theorem sub_getD (ps : List ℚ) (off c j : Nat) (hj : j < c) (h : off + j < ps.length) :
    ((ps.drop off).take c).getD j 0 = ps.getD (off + j) 1 := by
  simp only [List.getD_eq_getElem?_getD]
  rw [List.getElem?_take_of_lt hj, List.getElem?_drop, List.getElem?_eq_getElem h]
  rfl

theorem dropIds_spec (ps : List ℚ) (chans : List Nat) (keep i c : Nat) (hc : chans[i]? = some c) (hp : ps.length = chans.sum)
    (shuffle : List Nat → List Nat) (hs : ∀ l, (shuffle l).Perm l) :
    Drops ps chans keep i c (dropIds keep shuffle ((ps.drop (chans.take i).sum).take c) c) := by
  have hlen := sub_length ps chans i c hc hp
  have hle : (chans.take i).sum + c ≤ ps.length := by
    rw [List.length_take, List.length_drop] at hlen
    by_contra hcon
    have : ps.length < (chans.take i).sum + c := by omega
    rcases Nat.eq_zero_or_pos c with h0 | h0
    · subst h0
      have hi' : i < chans.length := (List.getElem?_eq_some_iff.mp hc).1
      have e3 : chans.sum = (chans.take i).sum + (chans.drop i).sum := by
        conv_lhs => rw [← List.take_append_drop i chans]
        rw [List.sum_append]
      omega
    · omega
  have hfil' : (List.range ((ps.drop (chans.take i).sum).take c).length).filter
        (fun j => decide (((ps.drop (chans.take i).sum).take c).getD j 0 < 1 / 2)) =
      (List.range c).filter (fun j => decide (sampleAt ps chans i j < 1 / 2)) := by
    rw [hlen]
    apply List.filter_congr
    intro j hj
    rw [List.mem_range] at hj
    rw [sub_getD ps _ c j hj (by omega)]
    rfl
  unfold dropIds
  simp only [hfil']
  set ids := (List.range c).filter (fun j => decide (sampleAt ps chans i j < 1 / 2)) with hids
  have hnd : ids.Nodup := List.nodup_range.filter _
  have hmem : ∀ j ∈ ids, j < c ∧ sampleAt ps chans i j < 1 / 2 := by
    intro j hj
    rw [hids, List.mem_filter, List.mem_range, decide_eq_true_eq] at hj
    exact hj
  have hcount : ids.length = (List.range c).countP (fun j => decide (sampleAt ps chans i j < 1 / 2)) := by
    rw [hids, List.countP_eq_length_filter]
  split_ifs with h
  · refine ⟨((hs ids).nodup_iff.mpr hnd).sublist (List.take_sublist _ _), ?_, ?_⟩
    · intro j hj
      exact hmem j ((hs ids).mem_iff.mp (List.mem_of_mem_take hj))
    · rw [List.length_take, (hs ids).length_eq, hcount]
      omega
  · refine ⟨hnd, hmem, ?_⟩
    rw [hcount] at h ⊢
    omega

theorem dealOut_get (keep : Nat) (shuffle : Nat → List Nat → List Nat) (ps : List ℚ) (chans : List Nat) (i c : Nat) (hc : chans[i]? = some c) :
    (dealOut keep shuffle ps chans)[i]? = some (dropIds keep (shuffle i) ((ps.drop (chans.take i).sum).take c) c) := by
  simp [dealOut, List.getElem?_map, List.getElem?_zipIdx, hc]

theorem mem_allDropped (chans : List Nat) (drops : List (List Nat)) (i c : Nat) (D : List Nat) (hc : chans[i]? = some c) (hd : drops[i]? = some D) :
    i ∈ allDropped chans drops ↔ D.length = c := by
  have hi' : i < chans.length := (List.getElem?_eq_some_iff.mp hc).1
  have e : chans[i] = c := (List.getElem?_eq_some_iff.mp hc).2
  simp [allDropped, List.mem_filter, hi', List.getD_eq_getElem?_getD, hd, e]

theorem zeroed (D : List Nat) (a : Img) : Zeroed D a (zeroChannels D a) := by
  refine ⟨rfl, by simp [zeroChannels], ?_⟩
  intro n p q hp hq
  simp only [zeroChannels, List.getElem?_map, hp, Option.map_some, Option.some.injEq] at hq
  subst hq
  refine ⟨by simp, ?_⟩
  intro j v hv
  simp [List.getElem?_map, List.getElem?_zipIdx, hv]

theorem fillRows_get (drop : Nat → Bool) (l : List (List ℚ)) (i : Nat) :
    (fillRows drop l)[i]? = if drop i then l[i]?.map (List.map (fun _ => 0)) else l[i]? := by
  simp only [fillRows, List.getElem?_map, List.getElem?_zipIdx, Nat.zero_add, Option.map_map]
  cases l[i]? with
  | none => simp
  | some v =>
    simp only [Option.map_some, Function.comp]
    split_ifs <;> rfl

theorem emptyRows_get {α : Type} (drop : Nat → Bool) (l : List (List α)) (i : Nat) :
    (emptyRows drop l)[i]? = if drop i then l[i]?.map (fun _ => []) else l[i]? := by
  simp only [emptyRows, List.getElem?_map, List.getElem?_zipIdx, Nat.zero_add, Option.map_map]
  cases l[i]? with
  | none => simp
  | some v =>
    simp only [Option.map_some, Function.comp]
    split_ifs <;> rfl

theorem coords_get {α : Type} (drop : Nat → Bool) (b : Batch α) (n : Nat) (l l' : List (List α)) (h : b.coords[n]? = some (some l))
    (h' : (dropRows drop b).coords[n]? = some (some l')) : l' = emptyRows drop l := by
  simp only [dropRows, List.getElem?_map, h, Option.map_some, Option.some.injEq] at h'
  exact h'.symm

theorem dropRows_row {α : Type} (drop : Nat → Bool) (b : Batch α) (i : Nat) :
    (drop i = true → RowDropped b (dropRows drop b) i) ∧ (drop i = false → RowKept b (dropRows drop b) i) := by
  constructor
  · intro hd
    refine ⟨?_, ?_, ?_⟩
    · intro l l' h h'
      simp only [dropRows, h, Option.map_some, Option.some.injEq] at h'
      rw [← h', fillRows_get, if_pos hd]
    · intro l l' h h'
      simp only [dropRows, h, Option.map_some, Option.some.injEq] at h'
      rw [← h', fillRows_get, if_pos hd]
    · intro n l l' h h'
      rw [coords_get drop b n l l' h h', emptyRows_get, if_pos hd]
  · intro hd
    refine ⟨?_, ?_, ?_⟩
    · intro l l' h h'
      simp only [dropRows, h, Option.map_some, Option.some.injEq] at h'
      rw [← h', fillRows_get, hd]; rfl
    · intro l l' h h'
      simp only [dropRows, h, Option.map_some, Option.some.injEq] at h'
      rw [← h', fillRows_get, hd]; rfl
    · intro n l l' h h'
      rw [coords_get drop b n l l' h h', emptyRows_get, hd]; rfl

theorem dropRows_columns {α : Type} (drop : Nat → Bool) (b : Batch α) : SameColumns b (dropRows drop b) := by
  refine ⟨rfl, ?_, ?_, ?_⟩
  · cases h : b.heatmaps <;> simp [dropRows, h, fillRows]
  · cases h : b.segmaps <;> simp [dropRows, h, fillRows]
  · simp only [dropRows, List.map_map]
    apply List.map_congr_left
    intro a _
    cases a <;> simp [emptyRows]

/-- A mask with one component per pixel and channel, or one per pixel. -/
theorem masked (binom : Bool) (m img : Im) (c : Nat) (pc : ℚ) (hc : img.c = some c) (hd : img.dt ∈ gated) (hv : Valid img)
    (hm1 : m.dt = ⟨.i, 4⟩) (hm2 : m.h = img.h) (hm3 : m.w = img.w) (hm4 : m.c = some (if pc > 1 / 2 then c else 1))
    (hm5 : ∀ y x k, m.px y x k = 0 ∨ m.px y x k = 1) :
    ∃ r, augImage binom (fun _ _ _ => m) pc img = some r ∧ r.dt = img.dt ∧ r.shape = img.shape ∧
      ∀ y x k, In img y x k → r.px y x k = if m.px y x (if pc > 1 / 2 then k else 0) = 1 then img.px y x k else 0 := by
  have hmatch : ∀ m' : Im, m'.h = m.h → m'.w = m.w → m'.c = m.c → Matches img m' := by
    intro m' a b e
    refine ⟨by rw [a, hm2], by rw [b, hm3], ?_⟩
    rw [e, hm4, hc]
    split_ifs
    · exact Or.inr rfl
    · exact Or.inl rfl
  have hfac : ∀ m' : Im, m'.c = m.c → ∀ y x k, In img y x k → factor m' y x k = m'.px y x (if pc > 1 / 2 then k else 0) := by
    rintro m' e y x k ⟨_, _, hk⟩
    rw [hc, Option.getD_some] at hk
    unfold factor
    rw [e, hm4]
    split_ifs with h1 h2 h2
    · have : c = 1 := by simpa using h2
      have : k = 0 := by omega
      rw [this]
    · rfl
    · rfl
    · exact absurd rfl h2
  have hbool : ∀ a b e, astype ⟨.b, 1⟩ (m.px a b e) = m.px a b e := by
    intro a b e
    rcases hm5 a b e with h | h <;> rw [h] <;> simp [astype]
  simp only [augImage, hc]
  have hkb : m.dt.kind ≠ .b := by rw [hm1]; decide
  cases binom with
  | true =>
    rw [if_pos ⟨hkb, rfl⟩]
    obtain ⟨r, e1, e2, e3, e4⟩ := mask_product img ⟨⟨.b, 1⟩, m.h, m.w, m.c, fun y x k => astype ⟨.b, 1⟩ (m.px y x k)⟩ c hc hd
      (hmatch _ rfl rfl rfl) rfl (fun y x k => by simp only [hbool]; exact hm5 y x k)
    refine ⟨r, e1, e2, e3, fun y x k hin => ?_⟩
    rw [e4 y x k hin, hfac ⟨⟨.b, 1⟩, m.h, m.w, m.c, fun y x k => astype ⟨.b, 1⟩ (m.px y x k)⟩ rfl y x k hin]
    simp only [hbool]
  | false =>
    have hcond : ¬ (m.dt.kind ≠ .b ∧ (false : Bool) = true) := by simp
    rw [if_neg hcond]
    by_cases he : img.h = 0 ∨ img.w = 0 ∨ img.c = some 0
    · refine ⟨img, (gate_first img m).2 hd he, rfl, rfl, ?_⟩
      rintro y x k ⟨i1, i2, i3⟩
      exfalso
      rcases he with h | h | h
      · omega
      · omega
      · rw [h] at i3; simp at i3
    have hpos : 0 < img.h ∧ 0 < img.w ∧ 0 < c := by
      rw [hc] at he
      simp only [Option.some.injEq] at he
      omega
    have hz : ∀ d : DType, d ∈ gated → Holds d 0 := by
      intro d h
      refine ⟨?_, ?_, fun _ => ⟨0, by norm_num⟩⟩
      · have : lo d ≤ 0 := by revert h; revert d; decide +kernel
        exact_mod_cast this
      · have : 0 ≤ hi d := by revert h; revert d; decide +kernel
        exact_mod_cast this
    have hfit : ∀ v, Holds img.dt v → AddMul.fitted img.dt v = v := by
      intro v h
      unfold AddMul.fitted
      have e : (if img.dt.kind = .f then v else (npRound v : ℚ)) = v := by
        split_ifs with hf
        · rfl
        · obtain ⟨n, rfl⟩ := h.2.2 hf
          rw [Props.npRound_int]
      rw [e, clamp, max_eq_left h.1, min_eq_left h.2.1]
    have hprod : ∀ y x k, In img y x k → Holds img.dt (img.px y x k * factor m y x k) ∧
        img.px y x k * factor m y x k = if m.px y x (if pc > 1 / 2 then k else 0) = 1 then img.px y x k else 0 := by
      intro y x k hin
      rw [hfac m rfl y x k hin]
      rcases hm5 y x (if pc > 1 / 2 then k else 0) with h | h
      · rw [h]; simp only [mul_zero]
        exact ⟨hz _ hd, by norm_num⟩
      · rw [h, mul_one, if_pos rfl]
        exact ⟨hv y x k, rfl⟩
    have hmv : Valid m := by
      intro y x k
      have e1 : lo ⟨.i, 4⟩ = -2147483648 := by decide +kernel
      have e2 : hi ⟨.i, 4⟩ = 2147483647 := by decide +kernel
      rw [hm1]
      rcases hm5 y x k with h | h <;> rw [h]
      · exact ⟨by rw [e1]; norm_num, by rw [e2]; norm_num, fun _ => ⟨0, by norm_num⟩⟩
      · exact ⟨by rw [e1]; norm_num, by rw [e2]; norm_num, fun _ => ⟨1, by norm_num⟩⟩
    by_cases hu : img.dt = ⟨.u, 1⟩
    · obtain ⟨r, e1, e2, e3, e4⟩ := product_uint8_partial img m c hc hu hpos (hmatch m rfl rfl rfl) hmv (by
        intro y x k
        refine Or.inr (Or.inl ⟨by rw [hm1], ?_⟩)
        rcases hm5 y x k with h | h <;> rw [h] <;> norm_num)
      refine ⟨r, e1, e2, e3, fun y x k hin => ?_⟩
      rw [e4 y x k hin, hfit _ (hprod y x k hin).1, (hprod y x k hin).2]
    · obtain ⟨r, e1, e2, e3, e4⟩ := product_other_partial img m c hc hd hu hpos (hmatch m rfl rfl rfl) hv (by rw [hm1]; decide) hmv
        hkb ⟨by rw [hm1]; decide, by rw [hm1]; decide⟩ (by
          intro y x k _
          have a1 : lo (MulElem.target img.dt m.dt) ≤ 0 ∧ 1 ≤ hi (MulElem.target img.dt m.dt) := by
            rw [hm1]; revert hd; generalize img.dt = d; revert d; decide +kernel
          have a2 : (lo (MulElem.target img.dt m.dt) : ℚ) ≤ 0 := by exact_mod_cast a1.1
          have a3 : (1 : ℚ) ≤ hi (MulElem.target img.dt m.dt) := by exact_mod_cast a1.2
          rcases hm5 y x k with h | h <;> rw [h]
          · exact ⟨a2, le_trans zero_le_one a3⟩
          · exact ⟨le_trans a2 zero_le_one, a3⟩)
        (fun y x k hin => Or.inr (Or.inl ⟨(hprod y x k hin).1.1, (hprod y x k hin).1.2.1⟩))
      refine ⟨r, e1, e2, e3, fun y x k hin => ?_⟩
      rw [e4 y x k hin, hfit _ (hprod y x k hin).1, (hprod y x k hin).2]

end Imgaug.Dropout
