import Verif.Proofs.Normalize
import Verif.Spec.Normalize
import Mathlib.Tactic.Common
/-! Property C23: normalisation of augmentation inputs. -/
namespace Imgaug.Props
open Imgaug
variable {ε ω : Type}

/-- C23, keypoints and bounding boxes: if an input is accepted, then inverting the normalisation right away gives the input
back, except that outer tuples may have become lists. What is missing: single arrays must contain exactly one image's objects,
and lists must not contain `None`; see the next theorems for what happens otherwise. -/
theorem normalize_roundtrip_partial (F : Fam ε ω) (hF : ∀ l s, F.ents (F.coll l s) = l) (hsz : F.make [] = none)
    (v : PyVal ε ω) (shapes : Option (List Shape)) (n : Option (List ω)) (h : F.normalize v shapes = some n)
    (hv : Faithful F v) (hone : ∀ dt rowss, v = .arr dt (.d3 rowss) → rowss.length = 1)
    (hnone : v ≠ .none → .none ∉ subvals v) :
    ∃ v', F.invert n v = some v' ∧ untuple v' = untuple v := by
  have hne : ∀ r, (∃ e, F.make r = some e) → r ≠ [] := by
    rintro r ⟨e, he⟩ rfl; rw [hsz] at he; cases he
  unfold Fam.normalize at h
  unfold Fam.invert
  split at h <;> (rename_i ht; try rw [ht])
  · cases h
  · have := ntype_none v ht
    have hvn : v = .none := by by_contra hc; exact hnone hc this
    subst hvn
    have : n = none := by
      split at h <;> (simp at h; exact h.symm)
    subst this
    exact ⟨.none, rfl, rfl⟩
  · rename_i dt
    split at h
    · cases h
    · split at h
      · rename_i dt' rowss
        obtain ⟨os, hos, rfl⟩ := Option.map_eq_some_iff.1 h
        have hdt : dt' = dt := by
          simp [ntype, findFirst, toNType, numTupleSize] at ht; exact ht
        subst hdt
        have hm := self_mem_subvals (.arr dt' (.d3 rowss) : PyVal ε ω)
        obtain ⟨h1, -⟩ := ofRowss_rows F hF rowss shapes os hos
          (fun rows hr r hrr => hv.arrRows _ _ hm r (List.mem_flatten.2 ⟨rows, hr, hrr⟩))
        have hl := hone _ _ rfl
        have hlo : os.length = 1 := by rw [← hl, ← h1]; simp
        refine ⟨Fam.restoreMerge dt' (os.map F.rows), by simp only [Option.bind_some, if_pos hlo], ?_⟩
        rw [h1]
        cases rowss with
        | nil => simp at hl
        | cons rows rest =>
          cases rest with
          | cons => simp at hl
          | nil =>
            simp only [Fam.restoreMerge, List.all_nil, if_true, List.map_cons, List.map_nil]
            rw [map_restore2]
            intro r hr
            exact hv.representable _ _ hm r (List.mem_flatten.2 ⟨rows, by simp, hr⟩)
      · cases h
  · rename_i k
    split at h
    · simp only [Option.bind_eq_bind, Option.bind_eq_some_iff, Option.pure_def, Option.some.injEq] at h
      obtain ⟨s, -, row, hrow, o, ho, rfl⟩ := h
      have hvv := toNums_some v row hrow
      obtain ⟨h1, h2⟩ := ofRows_rows F hF [row] s o ho (by
        intro r hr e he
        rw [List.mem_singleton] at hr; subst hr
        exact hv.tupRows v (self_mem_subvals v) _ hvv e he)
      unfold Fam.rows at h1
      cases hes : F.ents o with
      | nil => simp [hes] at h1
      | cons e es =>
        cases es with
        | cons => simp [hes] at h1
        | nil =>
          simp [hes] at h1
          refine ⟨F.toTuple e, by simp [hes], ?_⟩
          unfold Fam.toTuple; rw [h1, hvv]
    · cases h
  · simp only [Option.bind_eq_bind, Option.bind_eq_some_iff, Option.pure_def, Option.some.injEq] at h
    obtain ⟨s, -, e, he, rfl⟩ := h
    refine ⟨.ent e, by simp [hF], ?_⟩
    rw [toEnt_some v e he]
  · simp only [Option.bind_eq_bind, Option.bind_eq_some_iff, Option.pure_def, Option.some.injEq] at h
    obtain ⟨o, ho, rfl⟩ := h
    refine ⟨.oi o, by simp, ?_⟩
    rw [toOi_some v o ho]
  · simp at h; subst h
    refine ⟨.list [], by simp, ?_⟩
    rcases ntype_empty v ht with rfl | rfl <;> simp [untuple, untupleL]
  · rename_i dt
    split at h
    · cases h
    · simp only [Option.bind_eq_bind, Option.bind_eq_some_iff, Option.pure_def, Option.some.injEq] at h
      obtain ⟨l, hl, rowss, hrowss, os, hos, rfl⟩ := h
      obtain ⟨a0, ha0⟩ := ntype_arr v 1 dt ht
      have hl' : rowss.map (fun rows => (.arr dt (.d2 rows) : PyVal ε ω)) = l := by
        have := mapM_map PyVal.toD2 (fun rows => (.arr dt (.d2 rows) : PyVal ε ω)) id l rowss hrowss (by
          intro a ha b hb
          obtain ⟨dt', rfl⟩ := toD2_some a b hb
          have := hv.oneDtype _ _ _ _ ha0 (mem_subvals_item v l hl _ ha _ (self_mem_subvals _))
          rw [this]; rfl)
        simpa using this
      have hm : ∀ rows ∈ rowss, (.arr dt (.d2 rows) : PyVal ε ω) ∈ subvals v := by
        intro rows hr
        apply mem_subvals_item v l hl _ _ _ (self_mem_subvals _)
        rw [← hl']; exact List.mem_map.2 ⟨rows, hr, rfl⟩
      obtain ⟨h1, -⟩ := ofRowss_rows F hF rowss shapes os hos (fun rows hr r hrr => hv.arrRows _ _ (hm rows hr) r hrr)
      refine ⟨_, rfl, ?_⟩
      rw [untuple_items v l hl, ← hl']
      · have : os.map (fun o => (Fam.restoreArr dt (F.rows o) : PyVal ε ω)) =
            rowss.map (fun rows => (.arr dt (.d2 rows) : PyVal ε ω)) := by
          rw [show os.map (fun o => (Fam.restoreArr dt (F.rows o) : PyVal ε ω)) =
            (os.map F.rows).map (fun r => Fam.restoreArr dt r) by simp [List.map_map, Function.comp_def], h1]
          apply List.map_congr_left
          intro rows hr
          unfold Fam.restoreArr
          rw [map_restore2]
          exact hv.representable _ _ (hm rows hr)
        rw [this, untuple, untupleL_eq]
      · intro x hx
        rw [← hl'] at hx
        obtain ⟨rows, -, rfl⟩ := List.mem_map.1 hx
        rfl
  · split at h
    · simp only [Option.bind_eq_bind, Option.bind_eq_some_iff, Option.pure_def, Option.some.injEq] at h
      obtain ⟨s, -, l, hl, rows, hrows, o, ho, rfl⟩ := h
      have hmake : ∀ r ∈ rows, ∃ e, F.make r = some e := by
        unfold Fam.ofRows at ho
        obtain ⟨es, hes, -⟩ := Option.map_eq_some_iff.1 ho
        intro r hr; obtain ⟨e, -, he⟩ := (mapM_mem _ _ _ hes).1 r hr; exact ⟨e, he⟩
      obtain ⟨h3, h4⟩ := items_toNums v l rows hl hrows (fun r hr => hne r (hmake r hr))
      obtain ⟨h1, -⟩ := ofRows_rows F hF rows s o ho (fun r hr e he => hv.tupRows _ (h4 r hr) r rfl e he)
      refine ⟨_, rfl, ?_⟩
      rw [h3, toTuple_map]
      unfold Fam.rows at h1
      rw [h1, untuple, untupleL_eq, untuple_rows rows (fun r hr => hne r (hmake r hr))]
    · cases h
  · simp only [Option.bind_eq_bind, Option.bind_eq_some_iff, Option.pure_def, Option.some.injEq] at h
    obtain ⟨s, -, l, hl, es, hes, rfl⟩ := h
    refine ⟨_, rfl, ?_⟩
    have hl' : es.map (fun e => (.ent e : PyVal ε ω)) = l := by
      have := mapM_map PyVal.toEnt (fun e => (.ent e : PyVal ε ω)) id l es hes (fun a _ b hb => (toEnt_some a b hb).symm)
      simpa using this
    rw [hF, untuple_items v l hl, ← hl', untuple, untupleL_eq]
    rw [← hl']; intro x hx; obtain ⟨e, -, rfl⟩ := List.mem_map.1 hx; rfl
  · simp only [Option.bind_eq_bind, Option.bind_eq_some_iff, Option.pure_def, Option.some.injEq] at h
    obtain ⟨l, hl, os, hos, rfl⟩ := h
    refine ⟨_, rfl, ?_⟩
    have hl' : os.map (fun e => (.oi e : PyVal ε ω)) = l := by
      have := mapM_map PyVal.toOi (fun e => (.oi e : PyVal ε ω)) id l os hos (fun a _ b hb => (toOi_some a b hb).symm)
      simpa using this
    rw [untuple_items v l hl, ← hl', untuple, untupleL_eq]
    rw [← hl']; intro x hx; obtain ⟨e, -, rfl⟩ := List.mem_map.1 hx; rfl
  · simp at h; subst h
    exact ⟨v, by simp, rfl⟩
  · split at h
    · simp only [Option.bind_eq_bind, Option.bind_eq_some_iff, Option.pure_def, Option.some.injEq] at h
      obtain ⟨l, hl, rowss, hrowss, os, hos, rfl⟩ := h
      have hmake : ∀ rows ∈ rowss, ∀ r ∈ rows, ∃ e, F.make r = some e := by
        unfold Fam.ofRowss at hos
        obtain ⟨ss, hss, hos⟩ := Option.bind_eq_some_iff.1 hos
        have hlen : rowss.length ≤ ss.length := by
          unfold shapesOf at hss
          cases shapes with
          | none => simp at hss
          | some l => simp at hss; rw [← hss.2, hss.1]
        intro rows hr r hrr
        have hz : rows ∈ (rowss.zip ss).map Prod.fst := by rw [List.map_fst_zip hlen]; exact hr
        obtain ⟨x, hx, rfl⟩ := List.mem_map.1 hz
        obtain ⟨o, -, ho⟩ := (mapM_mem _ _ _ hos).1 x hx
        unfold Fam.ofRows at ho
        obtain ⟨es, hes, -⟩ := Option.map_eq_some_iff.1 ho
        obtain ⟨e, -, he⟩ := (mapM_mem _ _ _ hes).1 r hrr
        exact ⟨e, he⟩
      have hit : ∀ x ∈ l, ∀ rows, (x.items.bind (fun y => y.mapM PyVal.toNums)) = some rows → rows ∈ rowss →
          untuple x = .list (rows.map (fun r => (.tuple (r.map .num) : PyVal ε ω))) ∧
          (∀ r ∈ rows, (.tuple (r.map .num) : PyVal ε ω) ∈ subvals v) ∧ x.isNum = false := by
        intro x hx rows hxr hmem
        obtain ⟨y, hy, hyr⟩ := Option.bind_eq_some_iff.1 hxr
        obtain ⟨h3, h4⟩ := items_toNums x y rows hy hyr (fun r hr => hne r (hmake rows hmem r hr))
        refine ⟨h3, fun r hr => mem_subvals_item v l hl x hx _ (h4 r hr), ?_⟩
        cases x <;> simp [PyVal.items] at hy <;> rfl
      have hmm := mapM_mem _ _ _ hrowss
      obtain ⟨h1, -⟩ := ofRowss_rows F hF rowss shapes os hos (by
        intro rows hr r hrr e he
        obtain ⟨x, hx, hxr⟩ := hmm.2 rows hr
        exact hv.tupRows _ ((hit x hx rows hxr hr).2.1 r hrr) r rfl e he)
      refine ⟨_, rfl, ?_⟩
      rw [untuple_items v l hl (by
        intro x hx
        obtain ⟨rows, hr, hxr⟩ := hmm.1 x hx
        exact (hit x hx rows hxr hr).2.2)]
      have hmap : rowss.map (fun rows => (.list (rows.map (fun r => (.tuple (r.map .num) : PyVal ε ω))) : PyVal ε ω)) =
          l.map untuple := by
        apply mapM_map _ _ _ _ _ hrowss
        intro a ha b hb
        obtain ⟨rows, hr, hxr⟩ := hmm.1 a ha
        rw [hb] at hxr; cases hxr
        exact (hit a ha b hb hr).1.symm
      rw [← hmap, untuple, untupleL_eq, List.map_map, ← h1, List.map_map]
      congr 1
      apply List.map_congr_left
      intro o ho
      have : F.rows o ∈ rowss := by rw [← h1]; exact List.mem_map.2 ⟨o, ho, rfl⟩
      simp only [Function.comp_apply, untuple, untupleL_eq, toTuple_map]
      congr 1
      exact untuple_rows _ (fun r hr => hne r (hmake _ this r hr))
    · cases h
  · simp only [Option.bind_eq_bind, Option.bind_eq_some_iff, Option.pure_def, Option.some.injEq] at h
    obtain ⟨l, hl, ess, hess, ss, hss, rfl⟩ := h
    have hlen : ess.length ≤ ss.length := by
      have := mapM_length' _ _ _ hess
      unfold shapesOf at hss
      cases shapes with
      | none => simp at hss
      | some l => simp at hss; rw [← hss.2, hss.1, this]
    refine ⟨_, rfl, ?_⟩
    have hit : ∀ x ∈ l, ∀ es, (x.items.bind (fun y => y.mapM PyVal.toEnt)) = some es →
        untuple x = .list (es.map (fun e => (.ent e : PyVal ε ω))) ∧ x.isNum = false := by
      intro x hx es hxe
      obtain ⟨y, hy, hye⟩ := Option.bind_eq_some_iff.1 hxe
      have hy' : es.map (fun e => (.ent e : PyVal ε ω)) = y := by
        have := mapM_map PyVal.toEnt (fun e => (.ent e : PyVal ε ω)) id y es hye (fun a _ b hb => (toEnt_some a b hb).symm)
        simpa using this
      constructor
      · rw [untuple_items x y hy, ← hy', List.map_map]
        · congr 1
        · rw [← hy']; intro z hz; obtain ⟨e, -, rfl⟩ := List.mem_map.1 hz; rfl
      · cases x <;> simp [PyVal.items] at hy <;> rfl
    rw [untuple_items v l hl (by
      intro x hx
      obtain ⟨es, hr, hxr⟩ := (mapM_mem _ _ _ hess).1 x hx
      exact (hit x hx es hxr).2)]
    have hmap : ess.map (fun es => (.list (es.map (fun e => (.ent e : PyVal ε ω))) : PyVal ε ω)) = l.map untuple := by
      apply mapM_map _ _ _ _ _ hess
      intro a ha b hb
      exact (hit a ha b hb).1.symm
    rw [← hmap, untuple, untupleL_eq, List.map_map, List.map_map]
    have hz : ess = (ess.zip ss).map Prod.fst := (List.map_fst_zip hlen).symm
    conv_rhs => rw [hz]
    rw [List.map_map]
    congr 1
    apply List.map_congr_left
    intro x hx
    simp only [Function.comp_apply, hF, untuple, untupleL_eq, List.map_map]
    congr 1
  · cases h

/-- C23, keypoints: see `normalize_roundtrip_partial`. -/
theorem normalize_keypoints_roundtrip_partial (v : PyVal Pt KPsOnImage) (shapes : Option (List Shape))
    (n : Option (List KPsOnImage)) (h : kpFam.normalize v shapes = some n) (hv : Faithful kpFam v)
    (hone : ∀ dt rowss, v = .arr dt (.d3 rowss) → rowss.length = 1) (hnone : v ≠ .none → .none ∉ subvals v) :
    ∃ v', kpFam.invert n v = some v' ∧ untuple v' = untuple v :=
  normalize_roundtrip_partial kpFam (fun _ _ => rfl) rfl v shapes n h hv hone hnone

/-- C23, bounding boxes: see `normalize_roundtrip_partial`. -/
theorem normalize_bounding_boxes_roundtrip_partial (v : PyVal BB BBsOnImage) (shapes : Option (List Shape))
    (n : Option (List BBsOnImage)) (h : bbFam.normalize v shapes = some n) (hv : Faithful bbFam v)
    (hone : ∀ dt rowss, v = .arr dt (.d3 rowss) → rowss.length = 1) (hnone : v ≠ .none → .none ∉ subvals v) :
    ∃ v', bbFam.invert n v = some v' ∧ untuple v' = untuple v :=
  normalize_roundtrip_partial bbFam (fun _ _ => rfl) rfl v shapes n h hv hone hnone

/-- A nested list of tuples, with an image without keypoints, is accepted and is `Faithful`. -/
example : (kpFam.normalize (.list [.list [], .list [.tuple [.num 1, .num 2], .tuple [.num 3, .num 4]]])
    (some [⟨5, 5⟩, ⟨6, 6⟩])) = some (some [⟨[], ⟨5, 5⟩⟩, ⟨[⟨1, 2⟩, ⟨3, 4⟩], ⟨6, 6⟩⟩]) := by
  rfl

/-- For keypoints the conditions on rows always hold; only dtypes matter. -/
example : Faithful kpFam (.list [.list [], .list [.tuple [.num 1, .num 2], .tuple [.num 3, .num 4]]]) where
  representable := by simp [subvals, subvalsL]
  oneDtype := by simp [subvals, subvalsL]
  arrRows := fun _ _ _ r _ e he => kp_make_nums r e he
  tupRows := fun _ _ r _ e he => kp_make_nums r e he

/-- C23 is false for a single `(N, K, 2)` array of keypoints (or `(N, B, 4)` of boxes) with `N ≠ 1`: it is accepted, but
inverting the normalisation fails, whatever the augmentation did as long as it kept the number of images. -/
theorem normalize_array_fails (F : Fam ε ω) (dt : DT) (rowss : List (List (List ℚ))) (os : List ω) (hdt : dt ≠ .bool)
    (hl : rowss.length ≠ 1) (hos : os.length = rowss.length) :
    F.invert (some os) (.arr dt (.d3 rowss)) = none ∧
    ∀ ss : List Shape, ss.length = rowss.length → (∀ rows ∈ rowss, ∀ r ∈ rows, ∃ e, F.make r = some e) →
      ∃ os', F.normalize (.arr dt (.d3 rowss)) (some ss) = some (some os') ∧ os'.length = rowss.length := by
  have ht : ntype (.arr dt (.d3 rowss) : PyVal ε ω) = some (.of 0 (.arr dt)) := by
    simp [ntype, findFirst, toNType, numTupleSize]
  constructor
  · unfold Fam.invert
    rw [ht]
    simp only [Option.bind_some]
    rw [if_neg (by omega)]
  · intro ss hss hmake
    unfold Fam.normalize
    rw [ht]
    simp only [if_neg hdt]
    have key : ∀ (rowss : List (List (List ℚ))) (ss : List Shape), ss.length = rowss.length →
        (∀ rows ∈ rowss, ∀ r ∈ rows, ∃ e, F.make r = some e) →
        ∃ os, (rowss.zip ss).mapM (fun x => F.ofRows x.1 x.2) = some os ∧ os.length = rowss.length := by
      intro rowss
      induction rowss with
      | nil => intro ss _ _; exact ⟨[], by simp, rfl⟩
      | cons rows rowss ih =>
        intro ss hss hmake
        cases ss with
        | nil => simp at hss
        | cons s ss =>
          obtain ⟨os, hos, hlen⟩ := ih ss (by simpa using hss) (fun x hx => hmake x (by simp [hx]))
          have : ∃ es, rows.mapM F.make = some es := by
            have := hmake rows (by simp)
            clear hmake hss
            induction rows with
            | nil => exact ⟨[], rfl⟩
            | cons r rows ih2 =>
              obtain ⟨e, he⟩ := this r (by simp)
              obtain ⟨es, hes⟩ := ih2 (fun x hx => this x (by simp [hx]))
              exact ⟨e :: es, by rw [List.mapM_cons, he, hes]; rfl⟩
          obtain ⟨es, hes⟩ := this
          refine ⟨F.coll es s :: os, ?_, by simp [hlen]⟩
          rw [List.zip_cons_cons, List.mapM_cons, hos]
          simp [Fam.ofRows, hes]
    obtain ⟨os', h1, h2⟩ := key rowss ss hss hmake
    refine ⟨os', ?_, h2⟩
    simp [Fam.ofRowss, shapesOf, hss, h1]

/-- C23 is false for lists with a `None` in first place: for bounding boxes such a list is accepted and comes back as `None`. -/
theorem normalize_none_entry (l : List (PyVal BB BBsOnImage)) (shapes : Option (List Shape)) :
    bbFam.normalize (.list (.none :: l)) shapes = some none ∧ bbFam.invert none (.list (.none :: l)) = some .none := by
  have ht : ntype (.list (.none :: l) : PyVal BB BBsOnImage) = some .none := by
    simp [ntype, findFirst, findFirstIn, toNType, numTupleSize]
  constructor
  · unfold Fam.normalize; rw [ht]; rfl
  · unfold Fam.invert; rw [ht]; rfl

/-- C23 is false for lists of arrays of different dtypes: all results get the dtype of the first array, so that here `0.7`
becomes `1`. -/
theorem normalize_mixed_dtypes :
    let v : PyVal Pt KPsOnImage := .list [.arr (.int (-128) 127) (.d2 [[1, 2]]), .arr .float (.d2 [[7 / 10, 2]])]
    (kpFam.normalize v (some [⟨5, 5⟩, ⟨6, 6⟩])).bind (fun n => kpFam.invert n v) =
      some (.list [.arr (.int (-128) 127) (.d2 [[1, 2]]), .arr (.int (-128) 127) (.d2 [[1, 2]])]) := by
  have h1 : DT.restore (.int (-128) 127) 1 = 1 := by decide +kernel
  have h2 : DT.restore (.int (-128) 127) 2 = 2 := by decide +kernel
  have h3 : DT.restore (.int (-128) 127) (7 / 10) = 1 := by decide +kernel
  simp [Fam.normalize, Fam.invert, ntype, findFirst, findFirstIn, toNType, numTupleSize, PyVal.items, PyVal.toD2,
    Fam.ofRowss, shapesOf, Fam.ofRows, kpFam, Fam.restoreArr, Fam.rows, h1, h2, h3]

/-- C23: only the documented forms are accepted; any other nesting is rejected. -/
theorem normalize_accepts (F : Fam ε ω) (v : PyVal ε ω) (shapes : Option (List Shape)) (n : Option (List ω))
    (h : F.normalize v shapes = some n) :
    ntype v ∈ ([some .none, some (.of 0 (.tup F.size)), some (.of 0 .ent), some (.of 0 .oi), some (.of 0 .empty),
      some (.of 1 (.tup F.size)), some (.of 1 .ent), some (.of 1 .oi), some (.of 1 .empty),
      some (.of 2 (.tup F.size)), some (.of 2 .ent)] : List (Option NType)) ∨
    ∃ dt, dt ≠ .bool ∧ (ntype v = some (.of 0 (.arr dt)) ∨ ntype v = some (.of 1 (.arr dt))) := by
  unfold Fam.normalize at h
  split at h <;> rename_i ht <;> try rw [ht]
  · cases h
  · simp
  · rename_i dt; right; refine ⟨dt, ?_, Or.inl rfl⟩; intro hd; simp [hd] at h
  · split at h
    · rename_i hk; subst hk; simp
    · cases h
  · simp
  · simp
  · simp
  · rename_i dt; right; refine ⟨dt, ?_, Or.inr rfl⟩; intro hd; simp [hd] at h
  · split at h
    · rename_i hk; subst hk; simp
    · cases h
  · simp
  · simp
  · simp
  · split at h
    · rename_i hk; subst hk; simp
    · cases h
  · simp
  · cases h

/-! ### Images -/

/-- C23, images: normalising and inverting gives the images back, for every accepted input of two to four axes. -/
theorem normalize_images_roundtrip (v n : ImVal) (h : normalizeImages v = some n)
    (hdims : ∀ a, v = .arr a → 2 ≤ a.dims.length) : invertNormalizeImages n v = some v := by
  cases v with
  | none => simp [normalizeImages] at h; subst h; rfl
  | arr a =>
    obtain ⟨dims, data⟩ := a
    have := hdims _ rfl
    rcases dims with _ | ⟨a, _ | ⟨b, _ | ⟨c, _ | ⟨d, r⟩⟩⟩⟩ <;> simp at this
    all_goals
      simp [normalizeImages] at h
      subst h
      simp [invertNormalizeImages]
  | list l =>
    simp only [normalizeImages] at h
    obtain ⟨r, hr, rfl⟩ := Option.map_eq_some_iff.1 h
    simp only [invertNormalizeImages, invList]
    have : (r.zip l).mapM (fun x => invImage x.1 x.2) = some l := by
      clear h hdims
      induction l generalizing r with
      | nil => simp
      | cons a l ih =>
        rw [List.mapM_cons] at hr
        cases ha : normImage a with
        | none => simp [ha] at hr
        | some b =>
          cases hl : l.mapM normImage with
          | none => simp [ha, hl] at hr
          | some bs =>
            simp [ha, hl] at hr
            subst hr
            rw [List.zip_cons_cons, List.mapM_cons, ih bs hl]
            have : invImage b a = some a := by
              obtain ⟨dims, data⟩ := a
              rcases dims with _ | ⟨d1, _ | ⟨d2, _ | ⟨d3, _ | ⟨d4, d⟩⟩⟩⟩ <;> simp [normImage] at ha
              all_goals
                subst ha
                simp [invImage]
            simp [this]
    rw [this]; rfl

/-- C23, images: after any augmentation that returns as many images with three axes, and one channel for images that came
without channel axis, inverting succeeds: the result has one image per input image, each has the augmented data, and the
number of axes of the input. -/
theorem invert_images_spec (l news : List ImArr) (hlen : news.length = l.length)
    (hl : ∀ a ∈ l, a.dims.length = 2 ∨ a.dims.length = 3)
    (hk : ∀ i (h1 : i < news.length) (h2 : i < l.length), KeepsOneChannel news[i] l[i]) :
    ∃ r, invertNormalizeImages (.list news) (.list l) = some (.list r) ∧ r.length = l.length ∧
      ∀ i (h1 : i < r.length) (h2 : i < l.length) (h3 : i < news.length),
        r[i].data = news[i].data ∧ r[i].dims.length = l[i].dims.length ∧ r[i].dims.take 2 = news[i].dims.take 2 := by
  simp only [invertNormalizeImages, invList]
  suffices h : ∃ r, (news.zip l).mapM (fun x => invImage x.1 x.2) = some r ∧ r.length = l.length ∧
      ∀ i (h1 : i < r.length) (h2 : i < l.length) (h3 : i < news.length),
        r[i].data = news[i].data ∧ r[i].dims.length = l[i].dims.length ∧ r[i].dims.take 2 = news[i].dims.take 2 by
    obtain ⟨r, hr, h⟩ := h
    exact ⟨r, by rw [hr]; rfl, h⟩
  induction l generalizing news with
  | nil => exact ⟨[], by simp, rfl, by simp⟩
  | cons a l ih =>
    cases news with
    | nil => simp at hlen
    | cons b news =>
      obtain ⟨r, hr, hrl, hri⟩ := ih news (by simpa using hlen) (fun x hx => hl x (by simp [hx]))
        (fun i h1 h2 => hk (i + 1) (by simpa using h1) (by simpa using h2))
      have h0 := hk 0 (by simp) (by simp)
      simp only [List.getElem_cons_zero] at h0
      have : ∃ c, invImage b a = some c ∧ c.data = b.data ∧ c.dims.length = a.dims.length ∧ c.dims.take 2 = b.dims.take 2 := by
        rcases hl a (by simp) with h2 | h3
        · obtain ⟨h, w, hb⟩ := h0.2 h2
          exact ⟨⟨[h, w], b.data⟩, by simp [invImage, h2, hb], rfl, by simp [h2], by simp [hb]⟩
        · obtain ⟨h, w, c, hb⟩ := h0.1
          exact ⟨b, by simp [invImage, h3], rfl, by simp [h3, hb], rfl⟩
      obtain ⟨c, hc, hc1, hc2, hc3⟩ := this
      refine ⟨c :: r, ?_, by simp [hrl], ?_⟩
      · rw [List.zip_cons_cons, List.mapM_cons, hr]; simp [hc]
      · intro i h1 h2 h3
        cases i with
        | zero => exact ⟨hc1, hc2, hc3⟩
        | succ i =>
          simp only [List.getElem_cons_succ]
          exact hri i (by simpa using h1) (by simpa using h2) (by simpa using h3)

/-- C23, images: if an augmentation turned an array into a list of images, the array is treated as a list of its images. -/
theorem invert_images_array_to_list (n h w : Nat) (data : List ℚ) (news : List ImArr) (hlen : news.length = n)
    (hk : ∀ a ∈ news, ∃ h w, a.dims = [h, w, 1]) :
    ∃ r, invertNormalizeImages (.list news) (.arr ⟨[n, h, w], data⟩) = some (.list r) ∧ r.length = n ∧
      ∀ i (h1 : i < r.length) (h3 : i < news.length), r[i].data = news[i].data ∧ r[i].dims.length = 2 := by
  obtain ⟨r, hr, hrl, hri⟩ := invert_images_spec (unstack ⟨[n, h, w], data⟩) news (by simp [unstack, hlen])
    (by simp [unstack]) (by
      intro i h1 h2
      obtain ⟨h, w, ha⟩ := hk news[i] (List.getElem_mem h1)
      exact ⟨⟨h, w, 1, ha⟩, fun _ => ⟨h, w, ha⟩⟩)
  refine ⟨r, ?_, by simpa [unstack] using hrl, ?_⟩
  · simpa [invertNormalizeImages] using hr
  · intro i h1 h3
    obtain ⟨ha, hb, -⟩ := hri i h1 (by rw [hrl] at h1; exact h1) h3
    exact ⟨ha, by rw [hb]; simp [unstack]⟩

example : normalizeImages (.list [⟨[1, 2], [5, 6]⟩, ⟨[1, 1, 3], [7, 8, 9]⟩]) =
    some (.list [⟨[1, 2, 1], [5, 6]⟩, ⟨[1, 1, 3], [7, 8, 9]⟩]) := by decide +kernel

end Imgaug.Props
