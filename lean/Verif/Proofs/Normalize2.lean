import Verif.Proofs.Normalize
import Verif.Spec.Normalize2
namespace Imgaug.Props
open Imgaug
variable {ε ω : Type}

theorem mapM_forall2 {α β : Type} (f : α → Option β) {l : List α} {m : List β} (h : List.Forall₂ (fun a b => f a = some b) l m) :
    l.mapM f = some m := by
  induction h with
  | nil => rfl
  | cons h1 _ ih => rw [List.mapM_cons, h1, ih]; rfl

theorem ofRows_forall2 (F : Fam ε ω) {rows : List (List ℚ)} {es : List ε} (s : Shape)
    (h : List.Forall₂ (fun r e => F.make r = some e) rows es) : F.ofRows rows s = some (F.coll es s) := by
  unfold Fam.ofRows
  rw [mapM_forall2 F.make h]; rfl

theorem ofRowss_forall2 (F : Fam ε ω) {rowss : List (List (List ℚ))} {ess : List (List ε)} (ss : List Shape)
    (hl : ess.length = ss.length)
    (h : List.Forall₂ (List.Forall₂ (fun r e => F.make r = some e)) rowss ess) :
    F.ofRowss rowss (some ss) = some ((ess.zip ss).map (fun x => F.coll x.1 x.2)) := by
  have hlen : rowss.length = ess.length := h.length_eq
  unfold Fam.ofRowss shapesOf
  simp only [hlen, hl, if_true, Option.bind_some]
  clear hlen
  induction h generalizing ss with
  | nil => rfl
  | @cons a b l m h1 _ ih =>
    cases ss with
    | nil => simp at hl
    | cons s ss =>
      simp only [List.zip_cons_cons, List.mapM_cons, List.map_cons]
      rw [ofRows_forall2 F s h1, ih ss (by simpa using hl)]
      rfl

theorem toNums_tuple (r : List ℚ) : (PyVal.tuple (r.map .num) : PyVal ε ω).toNums = some r := by
  simp only [PyVal.toNums]
  induction r with
  | nil => rfl
  | cons q r ih => rw [List.map_cons, List.mapM_cons, ih]; rfl

theorem mapM_toNums (rows : List (List ℚ)) :
    (rows.map (fun r => (PyVal.tuple (r.map .num) : PyVal ε ω))).mapM PyVal.toNums = some rows := by
  induction rows with
  | nil => rfl
  | cons r rows ih => rw [List.map_cons, List.mapM_cons, toNums_tuple, ih]; rfl

theorem mapM_toEnt (es : List ε) : (es.map (fun e => (PyVal.ent e : PyVal ε ω))).mapM PyVal.toEnt = some es := by
  induction es with
  | nil => rfl
  | cons r rows ih => rw [List.map_cons, List.mapM_cons, ih]; rfl

theorem mapM_toD2 (dt : DT) (rowss : List (List (List ℚ))) :
    (rowss.map (fun r => (PyVal.arr dt (.d2 r) : PyVal ε ω))).mapM PyVal.toD2 = some rowss := by
  induction rowss with
  | nil => rfl
  | cons r rows ih => rw [List.map_cons, List.mapM_cons, ih]; rfl

theorem findFirst_tuple (r : List ℚ) (q : ℚ) (ps : List (PyVal ε ω)) :
    findFirst (.tuple ((q :: r).map .num)) ps = ⟨.num q, true, ps ++ [.tuple ((q :: r).map .num)]⟩ := by
  simp [findFirst, findFirstIn]

/-- Skips inner lists without entries. -/
theorem findFirstIn_lists (ls : List (List (PyVal ε ω))) (ps : List (PyVal ε ω)) (best : FoundVal ε ω) 
    (P : FoundVal ε ω → Prop) (hex : ∃ l ∈ ls, l ≠ [])
    (h : ∀ l ∈ ls, l ≠ [] → (findFirst (.list l) ps).success = true ∧ P (findFirst (.list l) ps)) :
    P (findFirstIn (ls.map .list) ps best) := by
  induction ls generalizing best with
  | nil => obtain ⟨l, hl, _⟩ := hex; simp at hl
  | cons l ls ih =>
    simp only [List.map_cons, findFirstIn]
    by_cases hl : l = []
    · subst hl
      have hs : (findFirst (.list [] : PyVal ε ω) ps).success = false := by simp [findFirst, findFirstIn]
      have hex' : ∃ l ∈ ls, l ≠ [] := by
        obtain ⟨l, hl, hne⟩ := hex
        rcases List.mem_cons.1 hl with rfl | hl
        · exact absurd rfl hne
        · exact ⟨l, hl, hne⟩
      simp only [hs, Bool.false_eq_true, if_false]
      split <;> exact ih _ hex' (fun l hl => h l (by simp [hl]))
    · obtain ⟨h1, h2⟩ := h l (by simp) hl
      rw [if_pos h1]; exact h2

theorem ntype_array (dt : DT) (rowss : List (List (List ℚ))) :
    ntype (.arr dt (.d3 rowss) : PyVal ε ω) = some (.of 0 (.arr dt)) := by
  simp [ntype, findFirst, toNType, numTupleSize]

theorem ntype_coords (r : List ℚ) (hr : 0 < r.length) :
    ntype (.tuple (r.map .num) : PyVal ε ω) = some (.of 0 (.tup r.length)) := by
  match r, hr with
  | q :: r, _ =>
    unfold ntype
    rw [findFirst_tuple]
    simp [toNType, numTupleSize, PyVal.isNum]

theorem ntype_object (e : ε) : ntype (.ent e : PyVal ε ω) = some (.of 0 .ent) := by
  simp [ntype, findFirst, toNType, numTupleSize]

theorem ntype_arrays (dt : DT) (rowss : List (List (List ℚ))) (hne : rowss ≠ []) :
    ntype (.list (rowss.map (fun r => .arr dt (.d2 r))) : PyVal ε ω) = some (.of 1 (.arr dt)) := by
  match rowss, hne with
  | r :: rs, _ => simp [ntype, findFirst, findFirstIn, toNType, numTupleSize]

theorem ntype_coordsList (rows : List (List ℚ)) (n : Nat) (hn : 0 < n) (hne : rows ≠ []) (hl : ∀ r ∈ rows, r.length = n) :
    ntype (.list (rows.map (fun r => .tuple (r.map .num))) : PyVal ε ω) = some (.of 1 (.tup n)) := by
  match rows, hne with
  | r :: rs, _ =>
    match r, hl r (by simp) with
    | [], hl' => simp at hl'; omega
    | q :: r, hl' =>
      unfold ntype
      rw [findFirst]
      simp only [List.map_cons, findFirstIn]
      rw [← List.map_cons, findFirst_tuple]
      simp at hl'
      simp [toNType, numTupleSize, hl', hn, PyVal.isNum]

theorem ntype_objects (es : List ε) (hne : es ≠ []) : ntype (.list (es.map .ent) : PyVal ε ω) = some (.of 1 .ent) := by
  match es, hne with
  | e :: es, _ => simp [ntype, findFirst, findFirstIn, toNType, numTupleSize]

theorem ntype_coordsLists (rowss : List (List (List ℚ))) (n : Nat) (hn : 0 < n) (hne : ∃ rows ∈ rowss, rows ≠ [])
    (hl : ∀ rows ∈ rowss, ∀ r ∈ rows, r.length = n) :
    ntype (.list (rowss.map (fun rows => .list (rows.map (fun r => .tuple (r.map .num))))) : PyVal ε ω) =
      some (.of 2 (.tup n)) := by
  unfold ntype
  rw [findFirst]
  have e : rowss.map (fun rows => (.list (rows.map (fun r => .tuple (r.map .num))) : PyVal ε ω)) =
      (rowss.map (fun rows => rows.map (fun r => (.tuple (r.map .num) : PyVal ε ω)))).map .list := by
    rw [List.map_map]; rfl
  rw [e]
  apply findFirstIn_lists _ _ _ (fun fv => toNType fv = some (.of 2 (.tup n)))
  · obtain ⟨rows, hr, hne⟩ := hne
    exact ⟨_, List.mem_map_of_mem hr, by simpa using hne⟩
  · intro l hlm hlne
    obtain ⟨rows, hr, rfl⟩ := List.mem_map.1 hlm
    match rows, hlne with
    | r :: rs, _ =>
      match r, hl _ hr r (by simp) with
      | [], hl' => simp at hl'; omega
      | q :: r, hl' =>
        rw [findFirst]
        simp only [List.map_cons, findFirstIn]
        rw [← List.map_cons, findFirst_tuple]
        simp at hl'
        simp [toNType, numTupleSize, hl', hn, PyVal.isNum]

theorem ntype_objectLists (ess : List (List ε)) (hne : ∃ es ∈ ess, es ≠ []) :
    ntype (.list (ess.map (fun es => .list (es.map .ent))) : PyVal ε ω) = some (.of 2 .ent) := by
  unfold ntype
  rw [findFirst]
  have e : ess.map (fun es => (.list (es.map .ent) : PyVal ε ω)) =
      (ess.map (fun es => es.map (fun e => (.ent e : PyVal ε ω)))).map .list := by
    rw [List.map_map]; rfl
  rw [e]
  apply findFirstIn_lists _ _ _ (fun fv => toNType fv = some (.of 2 .ent))
  · obtain ⟨rows, hr, hne⟩ := hne
    exact ⟨_, List.mem_map_of_mem hr, by simpa using hne⟩
  · intro l hlm hlne
    obtain ⟨rows, hr, rfl⟩ := List.mem_map.1 hlm
    match rows, hlne with
    | r :: rs, _ => simp [findFirst, findFirstIn, toNType, numTupleSize]

/-- The standard form of given objects. -/
def standard (F : Fam ε ω) (ess : List (List ε)) (shapes : Option (List Shape)) : Option (Option (List ω)) :=
  (shapesOf shapes ess.length).map (fun ss => some ((ess.zip ss).map (fun x => F.coll x.1 x.2)))

theorem ofRowss_standard (F : Fam ε ω) {rowss : List (List (List ℚ))} {ess : List (List ε)} (shapes : Option (List Shape))
    (h : List.Forall₂ (List.Forall₂ (fun r e => F.make r = some e)) rowss ess) :
    (F.ofRowss rowss shapes).map some = standard F ess shapes := by
  unfold standard
  cases shapes with
  | none => rfl
  | some ss =>
    by_cases hl : ess.length = ss.length
    · rw [ofRowss_forall2 F ss hl h]; simp [shapesOf, hl]
    · have : rowss.length = ess.length := h.length_eq
      simp only [Fam.ofRowss, shapesOf]
      rw [if_neg (by omega), if_neg (by omega)]; rfl

theorem oneShape_standard (F : Fam ε ω) (es : List ε) (shapes : Option (List Shape)) :
    (oneShape shapes).bind (fun s => some (some [F.coll es s])) = standard F [es] shapes := by
  unfold standard oneShape
  cases shapes with
  | none => rfl
  | some ss =>
    match ss with
    | [] => rfl
    | [s] => rfl
    | s :: s' :: ss => rfl

theorem normalize_standard (F : Fam ε ω) (hsz : 0 < F.size) (v : PyVal ε ω) (ess : List (List ε)) (hm : Means F v ess)
    (shapes : Option (List Shape)) : F.normalize v shapes = standard F ess shapes := by
  cases hm with
  | array dt rowss ess hdt h =>
    simp only [Fam.normalize, ntype_array, if_neg hdt]
    exact ofRowss_standard F shapes h
  | coords r e hl h =>
    simp only [Fam.normalize, ntype_coords r (by omega), hl, if_true, toNums_tuple]
    rw [← oneShape_standard]
    cases oneShape shapes with
    | none => rfl
    | some s =>
      simp only [Option.bind_eq_bind, Option.bind_some]
      rw [ofRows_forall2 F s (List.Forall₂.cons h List.Forall₂.nil)]
      rfl
  | object e =>
    simp only [Fam.normalize, ntype_object]
    rw [← oneShape_standard]
    rfl
  | arrays dt rowss ess hdt hne h =>
    simp only [Fam.normalize, ntype_arrays dt rowss hne, if_neg hdt, PyVal.items, Option.bind_eq_bind, Option.bind_some,
      mapM_toD2]
    rw [← ofRowss_standard F shapes h]
    cases F.ofRowss rowss shapes <;> rfl
  | coordsList rows es hne hl h =>
    simp only [Fam.normalize, ntype_coordsList rows F.size hsz hne hl, if_true, PyVal.items]
    rw [← oneShape_standard]
    cases oneShape shapes with
    | none => rfl
    | some s =>
      simp only [Option.bind_eq_bind, Option.bind_some, mapM_toNums]
      rw [ofRows_forall2 F s h]
      rfl
  | objects es hne =>
    simp only [Fam.normalize, ntype_objects es hne, PyVal.items]
    rw [← oneShape_standard]
    cases oneShape shapes with
    | none => rfl
    | some s => simp only [Option.bind_eq_bind, Option.bind_some, mapM_toEnt]; rfl
  | coordsLists rowss ess hne hl h =>
    have hmap : (rowss.map (fun rows => (.list (rows.map (fun r => .tuple (r.map .num))) : PyVal ε ω))).mapM
        (fun x => x.items.bind (fun y => y.mapM PyVal.toNums)) = some rowss := by
      clear hne hl h
      induction rowss with
      | nil => rfl
      | cons r rs ih =>
        rw [List.map_cons, List.mapM_cons, ih]
        simp only [PyVal.items, Option.bind_some, mapM_toNums]
        rfl
    simp only [Fam.normalize, ntype_coordsLists rowss F.size hsz hne hl, if_true, PyVal.items, Option.bind_eq_bind,
      Option.bind_some]
    simp only [PyVal.items] at hmap
    rw [hmap, ← ofRowss_standard F shapes h]
    cases h' : F.ofRowss rowss shapes <;> simp [h']
  | objectLists _ hne =>
    have hmap : (ess.map (fun es => (.list (es.map .ent) : PyVal ε ω))).mapM
        (fun x => x.items.bind (fun y => y.mapM PyVal.toEnt)) = some ess := by
      clear hne
      induction ess with
      | nil => rfl
      | cons r rs ih =>
        rw [List.map_cons, List.mapM_cons, ih]
        simp only [PyVal.items, Option.bind_some, mapM_toEnt]
        rfl
    simp only [Fam.normalize, ntype_objectLists ess hne, PyVal.items, Option.bind_eq_bind, Option.bind_some]
    simp only [PyVal.items] at hmap
    rw [hmap]
    unfold standard
    simp only [Option.bind_some, List.length_map]
    cases shapesOf shapes ess.length <;> rfl

theorem map_eq_singleton {α β : Type} {f : α → β} {l : List α} {b : β} (h : l.map f = [b]) : ∃ a, l = [a] ∧ f a = b := by
  match l, h with
  | [a], h => exact ⟨a, rfl, by simpa using h⟩
  | [], h => simp at h
  | _ :: _ :: _, h => simp at h

theorem invert_rewritten (F : Fam ε ω) (hsz : 0 < F.size) (v v' : PyVal ε ω) (os : List ω)
    (hr : Rewritten F v (os.map F.ents) v') : F.invert (some os) v = some v' := by
  generalize hos : os.map F.ents = ess at hr
  cases hr with
  | coords r e hl =>
    obtain ⟨o, rfl, ho⟩ := map_eq_singleton hos
    simp only [Fam.invert, ntype_coords r (by omega), Option.bind_some, ho, Fam.toTuple]
  | object e =>
    obtain ⟨o, rfl, ho⟩ := map_eq_singleton hos
    simp only [Fam.invert, ntype_object, Option.bind_some, ho]
  | array dt rows es =>
    obtain ⟨o, rfl, ho⟩ := map_eq_singleton hos
    simp [Fam.invert, ntype_array, Fam.restoreMerge, Fam.rows, ho, List.map_map, Function.comp_def]
  | arrays dt rowss ess hne =>
    subst hos
    simp [Fam.invert, ntype_arrays dt rowss hne, Fam.restoreArr, Fam.rows, List.map_map, Function.comp_def]
  | coordsList rows es hne hl =>
    obtain ⟨o, rfl, ho⟩ := map_eq_singleton hos
    simp only [Fam.invert, ntype_coordsList rows F.size hsz hne hl, Option.bind_some, ho]
    rfl
  | objects es es' hne =>
    obtain ⟨o, rfl, ho⟩ := map_eq_singleton hos
    simp only [Fam.invert, ntype_objects es hne, Option.bind_some, ho]
  | coordsLists rowss ess hne hl =>
    subst hos
    simp only [Fam.invert, ntype_coordsLists rowss F.size hsz hne hl, Option.bind_some, List.map_map,
      Function.comp_def]
    rfl
  | objectLists ess ess' hne =>
    subst hos
    simp only [Fam.invert, ntype_objectLists ess hne, Option.bind_some, List.map_map, Function.comp_def]

end Imgaug.Props
