import Verif.Spec.Normalize
import Mathlib.Tactic.Common
/-! Helper lemmas for Props/Normalize.lean. -/
namespace Imgaug.Props
open Imgaug
variable {ε ω : Type}

theorem mapM_map {α β γ : Type} (f : α → Option β) (g : β → γ) (h : α → γ) (l : List α) (r : List β)
    (hm : l.mapM f = some r) (hfg : ∀ a ∈ l, ∀ b, f a = some b → g b = h a) : r.map g = l.map h := by
  induction l generalizing r with
  | nil => simp at hm; simp [hm]
  | cons a l ih =>
    rw [List.mapM_cons] at hm
    cases ha : f a with
    | none => simp [ha] at hm
    | some b =>
      cases hl : l.mapM f with
      | none => simp [ha, hl] at hm
      | some bs =>
        simp [ha, hl] at hm
        subst hm
        simp only [List.map_cons]
        rw [hfg a (by simp) b ha, ih bs hl (fun x hx y hy => hfg x (by simp [hx]) y hy)]

theorem mapM_length' {α β : Type} (f : α → Option β) (l : List α) (r : List β) (hm : l.mapM f = some r) :
    r.length = l.length := by
  have := congrArg List.length (mapM_map f (fun _ => ()) (fun _ => ()) l r hm (fun _ _ _ _ => rfl))
  simpa using this

theorem mapM_nums (l : List (PyVal ε ω)) (r : List ℚ) (h : l.mapM PyVal.toNum = some r) : l = r.map .num := by
  have := mapM_map PyVal.toNum (fun q => (.num q : PyVal ε ω)) id l r h (by
    intro a _ b hb; cases a <;> simp [PyVal.toNum] at hb; subst hb; rfl)
  simpa using this.symm

theorem toNums_some (v : PyVal ε ω) (r : List ℚ) (h : v.toNums = some r) : v = .tuple (r.map .num) := by
  cases v <;> simp [PyVal.toNums] at h
  rw [mapM_nums _ _ h]

theorem toEnt_some (v : PyVal ε ω) (e : ε) (h : v.toEnt = some e) : v = .ent e := by
  cases v <;> simp [PyVal.toEnt] at h; rw [h]

theorem toOi_some (v : PyVal ε ω) (e : ω) (h : v.toOi = some e) : v = .oi e := by
  cases v <;> simp [PyVal.toOi] at h; rw [h]

theorem toD2_some (v : PyVal ε ω) (r : List (List ℚ)) (h : v.toD2 = some r) : ∃ dt, v = .arr dt (.d2 r) := by
  cases v with
  | arr dt a => cases a <;> simp [PyVal.toD2] at h; exact ⟨dt, by rw [h]⟩
  | _ => simp [PyVal.toD2] at h

theorem untupleL_eq (l : List (PyVal ε ω)) : untupleL l = l.map untuple := by
  induction l with
  | nil => rfl
  | cons v l ih => simp [untupleL, ih]

theorem subvalsL_eq (l : List (PyVal ε ω)) : subvalsL l = l.flatMap subvals := by
  induction l with
  | nil => rfl
  | cons v l ih => simp [subvalsL, ih]

theorem self_mem_subvals (v : PyVal ε ω) : v ∈ subvals v := by cases v <;> simp [subvals]

theorem mem_subvals_item (v : PyVal ε ω) (l : List (PyVal ε ω)) (h : v.items = some l) (x : PyVal ε ω) (hx : x ∈ l)
    (y : PyVal ε ω) (hy : y ∈ subvals x) : y ∈ subvals v := by
  cases v <;> simp [PyVal.items] at h
  all_goals
    subst h
    simp only [subvals, subvalsL_eq, List.mem_cons, List.mem_flatMap]
    exact Or.inr ⟨x, hx, hy⟩

/-- An iterable that does not consist of numbers is a list up to `untuple`. -/
theorem untuple_items (v : PyVal ε ω) (l : List (PyVal ε ω)) (h : v.items = some l) (hn : ∀ x ∈ l, x.isNum = false) :
    untuple v = .list (l.map untuple) := by
  cases v <;> simp [PyVal.items] at h
  · subst h; simp [untuple, untupleL_eq]
  · subst h
    rename_i l
    rw [untuple, if_neg, untupleL_eq]
    rintro ⟨hne, hall⟩
    cases l with
    | nil => exact hne rfl
    | cons x l =>
      have := hn x (by simp)
      simp [this] at hall

theorem untuple_nums (r : List ℚ) (hr : r ≠ []) : untuple (.tuple (r.map .num) : PyVal ε ω) = .tuple (r.map .num) := by
  rw [untuple, if_pos]
  constructor
  · simpa using hr
  · simp [PyVal.isNum]

/-- What `find_first_nonempty` finds is inside the value. -/
theorem findFirst_mem (v : PyVal ε ω) (ps : List (PyVal ε ω)) (h : (findFirst v ps).success = true) :
    (findFirst v ps).val ∈ subvals v := by
  have key : ∀ n, (∀ v : PyVal ε ω, sizeOf v ≤ n → ∀ ps, (findFirst v ps).success = true → (findFirst v ps).val ∈ subvals v) ∧
      (∀ l : List (PyVal ε ω), sizeOf l ≤ n → ∀ ps best, best.success = false →
        (findFirstIn l ps best).success = true → (findFirstIn l ps best).val ∈ subvalsL l) := by
    intro n
    induction n with
    | zero =>
      constructor
      · intro v hv; cases v <;> simp at hv
      · intro l hl; cases l <;> simp at hl
    | succ n ih =>
      constructor
      · intro v hv ps h
        cases v with
        | list l =>
          simp only [findFirst] at h ⊢
          simp only [subvals, List.mem_cons]
          right
          exact ih.2 l (by simp at hv; omega) _ _ rfl h
        | tuple l =>
          simp only [findFirst] at h ⊢
          simp only [subvals, List.mem_cons]
          right
          exact ih.2 l (by simp at hv; omega) _ _ rfl h
        | _ => simp [findFirst, subvals]
      · intro l hl ps best hb h
        cases l with
        | nil => simp [findFirstIn, hb] at h
        | cons v vs =>
          simp only [List.cons.sizeOf_spec] at hl
          simp only [findFirstIn] at h ⊢
          simp only [subvalsL, List.mem_append]
          split at h
          · rename_i hs
            rw [if_pos hs]
            left; exact ih.1 v (by omega) ps hs
          · rename_i hs
            rw [if_neg hs]
            right
            split at h
            · rename_i hgt; rw [if_pos hgt]
              exact ih.2 vs (by omega) _ _ (by simpa using hs) h
            · rename_i hgt; rw [if_neg hgt]
              exact ih.2 vs (by omega) _ _ hb h
  exact (key (sizeOf v)).1 v le_rfl ps h

theorem findFirst_parents (v : PyVal ε ω) (ps : List (PyVal ε ω)) :
    ps.length ≤ (findFirst v ps).parents.length := by
  have key : ∀ n, (∀ v : PyVal ε ω, sizeOf v ≤ n → ∀ ps, ps.length ≤ (findFirst v ps).parents.length) ∧
      (∀ l : List (PyVal ε ω), sizeOf l ≤ n → ∀ ps best,
        min ps.length best.parents.length ≤ (findFirstIn l ps best).parents.length) := by
    intro n
    induction n with
    | zero =>
      constructor
      · intro v hv; cases v <;> simp at hv
      · intro l hl; cases l <;> simp at hl
    | succ n ih =>
      constructor
      · intro v hv ps
        cases v with
        | list l =>
          simp only [findFirst]
          have := ih.2 l (by simp at hv; omega) (ps ++ [.list l]) ⟨.none, false, ps⟩
          simp at this; omega
        | tuple l =>
          simp only [findFirst]
          have := ih.2 l (by simp at hv; omega) (ps ++ [.tuple l]) ⟨.none, false, ps⟩
          simp at this; omega
        | _ => simp [findFirst]
      · intro l hl ps best
        cases l with
        | nil => simp [findFirstIn]
        | cons v vs =>
          simp only [List.cons.sizeOf_spec] at hl
          simp only [findFirstIn]
          have h1 := ih.1 v (by omega) ps
          split
          · omega
          · split
            · have := ih.2 vs (by omega) ps (findFirst v ps); omega
            · exact ih.2 vs (by omega) ps best
  exact (key (sizeOf v)).1 v le_rfl ps

theorem findFirstIn_unsuccessful (l : List (PyVal ε ω)) (ps : List (PyVal ε ω)) (best : FoundVal ε ω)
    (h : (findFirstIn l ps best).success = false) :
    best.parents.length ≤ (findFirstIn l ps best).parents.length := by
  induction l generalizing best with
  | nil => simp [findFirstIn]
  | cons v vs ih =>
    simp only [findFirstIn] at h ⊢
    split at h
    · rename_i hs; simp [hs] at h
    · rename_i hs
      rw [if_neg hs]
      split at h
      · rename_i hg; rw [if_pos hg]; have := ih _ h; omega
      · rename_i hg; rw [if_neg hg]; exact ih _ h

/-- Type `"iterable[empty]"` means an empty list or tuple. -/
theorem ntype_empty (v : PyVal ε ω) (h : ntype v = some (.of 0 .empty)) : v = .list [] ∨ v = .tuple [] := by
  have aux : ∀ (l : List (PyVal ε ω)) (p : PyVal ε ω),
      toNType (findFirstIn l [p] ⟨.none, false, []⟩) = some (.of 0 .empty) → l = [] := by
    intro l p h
    cases l with
    | nil => rfl
    | cons x xs =>
      exfalso
      unfold toNType at h
      split at h
      · by_cases hs : (findFirstIn (x :: xs) [p] ⟨.none, false, []⟩).success = true
        · simp only [hs] at h
          cases h1 : numTupleSize (findFirstIn (x :: xs) [p] ⟨.none, false, []⟩).parents.getLast? with
          | some n => simp [h1] at h
          | none =>
            simp only [h1] at h
            cases hv : (findFirstIn (x :: xs) [p] ⟨.none, false, []⟩).val <;> simp [hv] at h
        · simp only [Bool.not_eq_true] at hs
          simp only [hs, Bool.not_false, if_true, Option.some.injEq, NType.of.injEq, and_true] at h
          have hx := findFirst_parents x [p]
          simp only [findFirstIn] at h hs
          split at hs
          · rename_i hs'; simp [hs'] at hs
          · rename_i hs'
            rw [if_neg hs'] at h
            simp only [List.length_cons, List.length_nil] at hx
            have hgt : (findFirst x [p]).parents.length > ([] : List (PyVal ε ω)).length := by simp; omega
            rw [if_pos hgt] at h hs
            have := findFirstIn_unsuccessful _ _ _ hs
            simp at hgt
            omega
      · cases h
  cases v with
  | list l => left; rw [aux l _ h]
  | tuple l => right; rw [aux l _ h]
  | _ => simp [ntype, findFirst, toNType, numTupleSize] at h

/-- The dtype in an array type string is the dtype of an array in the value. -/
theorem ntype_arr (v : PyVal ε ω) (d : Nat) (dt : DT) (h : ntype v = some (.of d (.arr dt))) :
    ∃ a, .arr dt a ∈ subvals v := by
  unfold ntype toNType at h
  split at h
  · by_cases hs : (findFirst v []).success = true
    · have hm := findFirst_mem v [] hs
      simp only [hs] at h
      cases h1 : numTupleSize (findFirst v []).parents.getLast? with
      | some n => simp [h1] at h
      | none =>
        simp only [h1] at h
        cases hv : (findFirst v []).val with
        | arr dt' a =>
          simp [hv] at h
          rw [hv, h.2] at hm
          exact ⟨a, hm⟩
        | _ => simp [hv] at h
    · simp [hs] at h
  · cases h

/-- Type `"None"` means that there is a `None` somewhere. -/
theorem ntype_none (v : PyVal ε ω) (h : ntype v = some .none) : .none ∈ subvals v := by
  unfold ntype toNType at h
  split at h
  · by_cases hs : (findFirst v []).success = true
    · have hm := findFirst_mem v [] hs
      simp only [hs] at h
      cases h1 : numTupleSize (findFirst v []).parents.getLast? with
      | some n => simp [h1] at h
      | none =>
        simp only [h1] at h
        cases hv : (findFirst v []).val with
        | none => rw [hv] at hm; exact hm
        | _ => simp [hv] at h
    · simp [hs] at h
  · cases h

theorem map_restore (dt : DT) (r : List ℚ) (h : ∀ q ∈ r, dt.restore q = q) : r.map dt.restore = r := by
  calc r.map dt.restore = r.map id := List.map_congr_left h
    _ = r := by simp

theorem map_restore2 (dt : DT) (rows : List (List ℚ)) (h : ∀ r ∈ rows, ∀ q ∈ r, dt.restore q = q) :
    rows.map (fun r => r.map dt.restore) = rows := by
  calc rows.map (fun r => r.map dt.restore) = rows.map id := List.map_congr_left (fun r hr => map_restore dt r (h r hr))
    _ = rows := by simp

theorem ofRows_rows (F : Fam ε ω) (hF : ∀ l s, F.ents (F.coll l s) = l) (rows : List (List ℚ)) (s : Shape) (o : ω)
    (h : F.ofRows rows s = some o) (hr : ∀ r ∈ rows, ∀ e, F.make r = some e → F.nums e = r) :
    F.rows o = rows ∧ ∀ r ∈ rows, ∃ e, F.make r = some e := by
  unfold Fam.ofRows at h
  obtain ⟨es, hes, rfl⟩ := Option.map_eq_some_iff.1 h
  constructor
  · unfold Fam.rows
    rw [hF]
    have := mapM_map F.make F.nums id rows es hes hr
    simpa using this
  · clear hr h
    induction rows generalizing es with
    | nil => simp
    | cons r rows ih =>
      rw [List.mapM_cons] at hes
      cases ha : F.make r with
      | none => simp [ha] at hes
      | some b =>
        cases hl : rows.mapM F.make with
        | none => simp [ha, hl] at hes
        | some bs =>
          intro x hx
          rcases List.mem_cons.1 hx with rfl | hx
          · exact ⟨b, ha⟩
          · exact ih bs hl x hx

theorem ofRowss_rows (F : Fam ε ω) (hF : ∀ l s, F.ents (F.coll l s) = l) (rowss : List (List (List ℚ)))
    (shapes : Option (List Shape)) (os : List ω) (h : F.ofRowss rowss shapes = some os)
    (hr : ∀ rows ∈ rowss, ∀ r ∈ rows, ∀ e, F.make r = some e → F.nums e = r) :
    os.map F.rows = rowss ∧ ∀ rows ∈ rowss, ∀ r ∈ rows, ∃ e, F.make r = some e := by
  unfold Fam.ofRowss at h
  obtain ⟨ss, hss, h'⟩ := Option.bind_eq_some_iff.1 h
  clear h
  rename' h' => h
  have hlen : ss.length = rowss.length := by
    unfold shapesOf at hss
    cases shapes with
    | none => simp at hss
    | some l => simp at hss; rw [← hss.2, hss.1]
  clear hss
  induction rowss generalizing ss os with
  | nil => simp at h; simp [h]
  | cons rows rowss ih =>
    cases ss with
    | nil => simp at hlen
    | cons s ss =>
      rw [List.zip_cons_cons, List.mapM_cons] at h
      cases ho : F.ofRows rows s with
      | none => simp [ho] at h
      | some o =>
        cases hl : (rowss.zip ss).mapM (fun x => F.ofRows x.1 x.2) with
        | none => simp [ho, hl] at h
        | some os' =>
          simp [ho, hl] at h
          subst h
          obtain ⟨h1, h2⟩ := ofRows_rows F hF rows s o ho (hr rows (by simp))
          obtain ⟨h3, h4⟩ := ih os' (fun x hx => hr x (by simp [hx])) ss hl (by simpa using hlen)
          constructor
          · simp [h1, h3]
          · intro x hx
            rcases List.mem_cons.1 hx with rfl | hx
            · exact h2
            · exact h4 x hx

theorem toTuple_map (F : Fam ε ω) (es : List ε) :
    es.map F.toTuple = (es.map F.nums).map (fun r => (.tuple (r.map .num) : PyVal ε ω)) := by
  simp [Fam.toTuple, List.map_map, Function.comp_def]

theorem not_num_toNums (x : PyVal ε ω) (r) (h : x.toNums = some r) : x.isNum = false := by
  cases x <;> simp [PyVal.toNums] at h; rfl

theorem mapM_mem {α β : Type} (f : α → Option β) (l : List α) (r : List β) (hm : l.mapM f = some r) :
    (∀ a ∈ l, ∃ b ∈ r, f a = some b) ∧ (∀ b ∈ r, ∃ a ∈ l, f a = some b) := by
  induction l generalizing r with
  | nil => simp at hm; simp [hm]
  | cons a l ih =>
    rw [List.mapM_cons] at hm
    cases ha : f a with
    | none => simp [ha] at hm
    | some b =>
      cases hl : l.mapM f with
      | none => simp [ha, hl] at hm
      | some bs =>
        simp [ha, hl] at hm
        subst hm
        obtain ⟨h1, h2⟩ := ih bs hl
        constructor
        · intro x hx
          rcases List.mem_cons.1 hx with rfl | hx
          · exact ⟨b, by simp, ha⟩
          · obtain ⟨y, hy, he⟩ := h1 x hx; exact ⟨y, by simp [hy], he⟩
        · intro y hy
          rcases List.mem_cons.1 hy with rfl | hy
          · exact ⟨a, by simp, ha⟩
          · obtain ⟨x, hx, he⟩ := h2 y hy; exact ⟨x, by simp [hx], he⟩

/-- A list of number tuples, rebuilt from rows. -/
theorem untuple_rows (rows : List (List ℚ)) (hne : ∀ r ∈ rows, r ≠ []) :
    (rows.map (fun r => (.tuple (r.map .num) : PyVal ε ω))).map untuple =
      rows.map (fun r => (.tuple (r.map .num) : PyVal ε ω)) := by
  rw [List.map_map]
  apply List.map_congr_left
  intro r hr
  exact untuple_nums r (hne r hr)

/-- `v` is an iterable of number tuples. -/
theorem items_toNums (v : PyVal ε ω) (l : List (PyVal ε ω)) (rows : List (List ℚ)) (hv : v.items = some l)
    (hm : l.mapM PyVal.toNums = some rows) (hne : ∀ r ∈ rows, r ≠ []) :
    untuple v = .list (rows.map (fun r => (.tuple (r.map .num) : PyVal ε ω))) ∧
    (∀ r ∈ rows, (.tuple (r.map .num) : PyVal ε ω) ∈ subvals v) := by
  have hl : rows.map (fun r => (.tuple (r.map .num) : PyVal ε ω)) = l := by
    have := mapM_map PyVal.toNums (fun r => (.tuple (r.map .num) : PyVal ε ω)) id l rows hm
      (fun a _ b hb => (toNums_some a b hb).symm)
    simpa using this
  constructor
  · rw [untuple_items v l hv, ← hl, untuple_rows rows hne]
    intro x hx
    obtain ⟨r, -, hr⟩ := (mapM_mem _ _ _ hm).1 x hx
    exact not_num_toNums x r hr
  · intro r hr
    apply mem_subvals_item v l hv _ _ _ (self_mem_subvals _)
    rw [← hl]; exact List.mem_map.2 ⟨r, hr, rfl⟩

theorem oneShape_some (shapes : Option (List Shape)) (s : Shape) (h : oneShape shapes = some s) : shapes = some [s] := by
  unfold oneShape shapesOf at h
  cases shapes with
  | none => simp at h
  | some l =>
    cases l with
    | nil => simp at h
    | cons a l => cases l <;> simp at h; rw [h]

theorem kp_make_nums (r : List ℚ) (e : Pt) (h : kpFam.make r = some e) : kpFam.nums e = r := by
  rcases r with _ | ⟨x, _ | ⟨y, _ | ⟨z, r⟩⟩⟩ <;> simp [kpFam] at h
  subst h; rfl

end Imgaug.Props
