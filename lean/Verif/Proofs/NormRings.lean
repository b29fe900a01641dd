import Verif.Spec.NormRings
import Verif.Proofs.Normalize
/-! Lemmas for Props/NormRings.lean. -/
namespace Imgaug.NormRings
open Imgaug Imgaug.Props

theorem Faithful.item {c : Cls} {v : Val} (h : Faithful c v) {l : List Val} (hl : v.items = some l) {x : Val} (hx : x ∈ l) :
    Faithful c x where
  representable := fun dt a ha => h.representable dt a (mem_subvals_item v l hl x hx _ ha)
  oneDtype := fun dt a dt' a' ha ha' => h.oneDtype dt a dt' a' (mem_subvals_item v l hl x hx _ ha) (mem_subvals_item v l hl x hx _ ha')
  rect := fun dt a ha => h.rect dt a (mem_subvals_item v l hl x hx _ ha)
  pairs := fun r hr ha => h.pairs r hr (mem_subvals_item v l hl x hx _ ha)
  openLists := fun y hy => h.openLists y (mem_subvals_item v l hl x hx _ hy)
  openArrays := fun dt a ha => h.openArrays dt a (mem_subvals_item v l hl x hx _ ha)

/-- Reading all entries of an iterable. -/
theorem entries_spec {β : Type} (f : Val → Option β) (g : β → Val) (v : Val) (bs : List β) (h : entries f v = some bs)
    (hf : ∀ l x, v.items = some l → x ∈ l → ∀ b, f x = some b → untuple x = g b ∧ x.isNum = false) :
    untuple v = .list (bs.map g) ∧ v.isNum = false := by
  obtain ⟨l, hl, hm⟩ := Option.bind_eq_some_iff.mp h
  refine ⟨?_, by cases v <;> simp [PyVal.items] at hl <;> rfl⟩
  rw [untuple_items v l hl]
  · rw [mapM_map f g untuple l bs hm (fun a ha b hb => ((hf l a hl ha b hb).1).symm)]
  · intro x hx
    obtain ⟨b, -, hb⟩ := (mapM_mem f l bs hm).1 x hx
    exact (hf l x hl hx b hb).2

theorem items_of_container {c : Cls} {v : Val} {l : List Val} (h : container c v = some l) : v.items = some l := by
  cases v <;> simp [container, PyVal.items] at h ⊢
  · exact h
  · exact h.2

theorem untuple_tupleOf (p : Pt) : untuple (tupleOf p) = tupleOf p := by
  simp [tupleOf, untuple, PyVal.isNum]

theorem toPoint_spec {c : Cls} {x : Val} {p : Pt} (hp : ∀ r : List ℚ, r ≠ [] → .tuple (r.map .num) ∈ subvals x → r.length = 2)
    (h : toPoint c x = some p) : x = tupleOf p := by
  unfold toPoint at h
  cases hr : x.toNums with
  | none => rw [hr] at h; cases c <;> simp at h
  | some r =>
    have hx := toNums_some x r hr
    rw [hr] at h
    have h2 : r.length = 2 := by
      apply hp
      · rintro rfl; cases c <;> simp at h
      · rw [← hx]; exact self_mem_subvals x
    obtain ⟨a, b, rfl⟩ := List.length_eq_two.mp h2
    cases c <;> (simp only [Option.some.injEq] at h; subst h; rw [hx]; rfl)

theorem ofTuples_spec {c : Cls} {v : Val} (hv : Faithful c v) {r : List Pt} (h : ofTuples c v = some r) :
    untuple v = .list (r.map tupleOf) ∧ v.isNum = false := by
  obtain ⟨l, hl, hm⟩ := Option.bind_eq_some_iff.mp h
  obtain ⟨pts, hpts, rfl⟩ := Option.map_eq_some_iff.mp hm
  have hi' := items_of_container hl
  have hl' : pts.map tupleOf = l := by
    have := mapM_map (toPoint c) tupleOf id l pts hpts (fun a ha b hb => (toPoint_spec (hv.item hi' ha).pairs hb).symm)
    simpa using this
  rw [hv.openLists v (self_mem_subvals v) pts (Or.inl (by rw [hi', hl']))]
  refine entries_spec (toPoint c) tupleOf v pts (by unfold entries; rw [hi']; exact hpts) (fun l' x hl'' hx b hb => ?_)
  have := toPoint_spec (hv.item hl'' hx).pairs hb
  subst this
  exact ⟨untuple_tupleOf b, rfl⟩

theorem toKp_spec {x : Val} {p : Pt} (h : toKp x = some p) : x = kpOf p := by
  cases x with
  | ent e => cases e <;> simp [toKp] at h; rw [h]; rfl
  | _ => simp [toKp] at h

theorem toRing_spec {x : Val} {r : List Pt} (h : toRing x = some r) : x = .ent (.inr r) := by
  cases x with
  | ent e => cases e <;> simp [toRing] at h; rw [h]
  | _ => simp [toRing] at h

theorem ofKps_spec {c : Cls} {v : Val} (hv : Faithful c v) {r : List Pt} (h : ofKps c v = some r) :
    untuple v = .list (r.map kpOf) ∧ v.isNum = false := by
  obtain ⟨l, hl, hm⟩ := Option.bind_eq_some_iff.mp h
  by_cases hc : c = .lineString ∧ l ≠ []
  · rw [if_pos hc] at hm; simp at hm
  · rw [if_neg hc] at hm
    obtain ⟨pts, hpts, rfl⟩ := Option.map_eq_some_iff.mp hm
    have hi' := items_of_container hl
    have hl' : pts.map kpOf = l := by
      have := mapM_map toKp kpOf id l pts hpts (fun a ha b hb => (toKp_spec hb).symm)
      simpa using this
    rw [hv.openLists v (self_mem_subvals v) pts (Or.inr (by rw [hi', hl']))]
    refine entries_spec toKp kpOf v pts (by unfold entries; rw [hi']; exact hpts) (fun l' x hl'' hx b hb => ?_)
    have := toKp_spec hb
    subst this
    exact ⟨rfl, rfl⟩

theorem toPt_spec {r : List ℚ} {p : Pt} (h : toPt r = some p) : r = [p.x, p.y] := by
  rcases r with _ | ⟨x, _ | ⟨y, _ | ⟨z, r⟩⟩⟩ <;> simp [toPt] at h
  subst h; rfl

theorem mapM_toPt {rows : List (List ℚ)} {pts : List Pt} (h : rows.mapM toPt = some pts) : pts.map (fun p => [p.x, p.y]) = rows := by
  have := mapM_map toPt (fun p => [p.x, p.y]) id rows pts h (fun a ha b hb => (toPt_spec hb).symm)
  simpa using this

theorem ofRows_spec {c : Cls} {rows : List (List ℚ)} {r : List Pt} (h : ofRows c rows = some r)
    (ho : ∀ pts : List Pt, pts.map (fun p => [p.x, p.y]) = rows → outline c pts = pts) : r.map (fun p => [p.x, p.y]) = rows := by
  obtain ⟨pts, hpts, rfl⟩ := Option.map_eq_some_iff.mp h
  have := mapM_toPt hpts
  rw [ho pts this]
  exact this

theorem rowsOf_eq (dt : DT) (r : List Pt) (rows : List (List ℚ)) (h : r.map (fun p => [p.x, p.y]) = rows)
    (hr : ∀ x ∈ rows, ∀ q ∈ x, dt.restore q = q) : rowsOf dt r = rows := by
  subst h
  unfold rowsOf
  apply List.map_congr_left
  intro p hp
  have := hr [p.x, p.y] (List.mem_map.mpr ⟨p, hp, rfl⟩)
  rw [this p.x (by simp), this p.y (by simp)]

/-- An array of points. -/
theorem d2_spec {c : Cls} {x : Val} (hx : Faithful c x) (dt : DT) (hdt : ∀ dt' a, .arr dt' a ∈ subvals x → dt' = dt) {r : List Pt}
    (h : x.toD2.bind (ofRows c) = some r) : untuple x = restoreOne dt r ∧ x.isNum = false := by
  obtain ⟨rows, hrows, h⟩ := Option.bind_eq_some_iff.mp h
  obtain ⟨dt', rfl⟩ := toD2_some x rows hrows
  have hm := self_mem_subvals (.arr dt' (.d2 rows) : Val)
  have := hdt _ _ hm
  subst this
  have h1 := ofRows_spec h (fun pts hp => hx.openArrays _ _ hm pts (by simp [outlines, hp]))
  refine ⟨?_, rfl⟩
  unfold restoreOne
  rw [rowsOf_eq dt' r rows h1 (hx.representable _ _ hm)]
  simp [untuple]

theorem sameLength_of (rs : List (List Pt)) (hne : rs ≠ []) (k : Nat) (h : ∀ r ∈ rs, r.length = k) : sameLength rs = true := by
  cases rs with
  | nil => exact absurd rfl hne
  | cons r rs =>
    simp only [sameLength, List.all_eq_true, beq_iff_eq]
    intro x hx
    rw [h x (by simp [hx]), h r (by simp)]

theorem mapM_ofRows {c : Cls} {rowss : List (List (List ℚ))} {rs : List (List Pt)} (h : rowss.mapM (ofRows c) = some rs)
    (ho : ∀ rows ∈ rowss, ∀ pts : List Pt, pts.map (fun p => [p.x, p.y]) = rows → outline c pts = pts) :
    rs.map (fun r => r.map (fun p => [p.x, p.y])) = rowss := by
  have := mapM_map (ofRows c) (fun r => r.map (fun p => [p.x, p.y])) id rowss rs h (fun a ha b hb => ofRows_spec hb (ho a ha))
  simpa using this

theorem map_rowsOf (dt : DT) (rs : List (List Pt)) (rowss : List (List (List ℚ))) (h : rs.map (fun r => r.map (fun p => [p.x, p.y])) = rowss)
    (hr : ∀ rows ∈ rowss, ∀ x ∈ rows, ∀ q ∈ x, dt.restore q = q) : rs.map (rowsOf dt) = rowss := by
  subst h
  apply List.map_congr_left
  intro r hrs
  exact rowsOf_eq dt r _ rfl (hr _ (List.mem_map.mpr ⟨r, hrs, rfl⟩))

theorem lengths_of (rs : List (List Pt)) (rowss : List (List (List ℚ))) (h : rs.map (fun r => r.map (fun p => [p.x, p.y])) = rowss)
    (k : Nat) (hk : ∀ x ∈ rowss, x.length = k) : ∀ r ∈ rs, r.length = k := by
  subst h
  intro r hr
  have := hk _ (List.mem_map.mpr ⟨r, hr, rfl⟩)
  simpa using this

/-- An array of objects. -/
theorem d3_spec {c : Cls} {x : Val} (hx : Faithful c x) (dt : DT) (hdt : ∀ dt' a, .arr dt' a ∈ subvals x → dt' = dt)
    {rs : List (List Pt)} (h : (toD3 x).bind (fun r => r.mapM (ofRows c)) = some rs) :
    untuple x = restoreMany dt rs ∧ x.isNum = false := by
  obtain ⟨rowss, hrows, h⟩ := Option.bind_eq_some_iff.mp h
  have hxx : ∃ dt', x = .arr dt' (.d3 rowss) := by
    cases x with
    | arr dt' a => cases a <;> simp [toD3] at hrows; exact ⟨dt', by rw [hrows]⟩
    | _ => simp [toD3] at hrows
  obtain ⟨dt', rfl⟩ := hxx
  have hm := self_mem_subvals (.arr dt' (.d3 rowss) : Val)
  have := hdt _ _ hm
  subst this
  have h1 := mapM_ofRows h (fun rows hr pts hp => hx.openArrays _ _ hm pts (by simp only [outlines]; rw [hp]; exact hr))
  obtain ⟨hne, k, hk⟩ := hx.rect _ _ hm
  refine ⟨?_, rfl⟩
  unfold restoreMany
  rw [if_pos (sameLength_of rs (by rintro rfl; exact hne (by rw [← h1]; rfl)) k (lengths_of rs rowss h1 k hk)),
    map_rowsOf dt' rs rowss h1 (fun rows hr y hy => hx.representable _ _ hm y (List.mem_flatten.mpr ⟨rows, hr, hy⟩))]
  simp [untuple]

theorem perImage_rings {shapes : Option (List Shape)} {rss : List (List (List Pt))} {os : List Rings}
    (h : perImage shapes rss = some os) : os.map Rings.rings = rss := by
  obtain ⟨ss, hss, rfl⟩ := Option.map_eq_some_iff.mp h
  have hlen : rss.length ≤ ss.length := by
    unfold shapesOf at hss
    cases shapes with
    | none => simp at hss
    | some l => simp at hss; rw [← hss.2, hss.1]
  rw [List.map_map]
  have : (Rings.rings ∘ fun x : List (List Pt) × Shape => (⟨x.1, x.2⟩ : Rings)) = Prod.fst := rfl
  rw [this, List.map_fst_zip hlen]

theorem onOne_some {shapes : Option (List Shape)} {rs : List (List Pt)} {os : List Rings} (h : onOne shapes rs = some os) :
    ∃ s, shapes = some [s] ∧ os = [⟨rs, s⟩] := by
  obtain ⟨s, hs, rfl⟩ := Option.map_eq_some_iff.mp h
  exact ⟨s, oneShape_some shapes s hs, rfl⟩

theorem perImage_some {shapes : Option (List Shape)} {rss : List (List (List Pt))} {os : List Rings} (h : perImage shapes rss = some os) :
    ∃ ss, shapes = some ss ∧ ss.length = rss.length ∧ os.length = rss.length ∧
      ∀ (i : Nat) o, os[i]? = some o → rss[i]? = some o.rings ∧ ss[i]? = some o.shape := by
  obtain ⟨ss, hss, rfl⟩ := Option.map_eq_some_iff.mp h
  have hlen : shapes = some ss ∧ ss.length = rss.length := by
    unfold shapesOf at hss
    cases shapes with
    | none => simp at hss
    | some l => simp at hss; rw [← hss.2]; exact ⟨rfl, hss.1⟩
  refine ⟨ss, hlen.1, hlen.2, by simp [hlen.2], fun i o ho => ?_⟩
  simp only [List.getElem?_map, Option.map_eq_some_iff] at ho
  obtain ⟨x, hx, rfl⟩ := ho
  rw [List.getElem?_zip_eq_some] at hx
  exact hx

theorem entries_some {β : Type} {f : Val → Option β} {v : Val} {bs : List β} (h : entries f v = some bs) :
    ∃ l, v.items = some l ∧ l.length = bs.length ∧ ∀ (i : Nat) x b, l[i]? = some x → bs[i]? = some b → x ∈ l ∧ f x = some b := by
  obtain ⟨l, hl, hm⟩ := Option.bind_eq_some_iff.mp h
  refine ⟨l, hl, (mapM_length' f l bs hm).symm, ?_⟩
  clear h hl
  induction l generalizing bs with
  | nil => intro i x b hx; simp at hx
  | cons a l ih =>
    rw [List.mapM_cons] at hm
    cases ha : f a with
    | none => simp [ha] at hm
    | some a' =>
      cases hl : l.mapM f with
      | none => simp [ha, hl] at hm
      | some bs' =>
        simp [ha, hl] at hm
        subst hm
        intro i x b hx hb
        cases i with
        | zero =>
          simp at hx hb
          subst hx hb
          exact ⟨by simp, ha⟩
        | succ i =>
          obtain ⟨h1, h2⟩ := ih hl i x b (by simpa using hx) (by simpa using hb)
          exact ⟨by simp [h1], h2⟩

/-- Objects one by one. -/
theorem shows_entries {f : Val → Option (List Pt)} {v : Val} {rs : List (List Pt)} (h : entries f v = some rs)
    (hf : ∀ l x, v.items = some l → x ∈ l → ∀ r, f x = some r → ShowsOne x r ∨ ∃ dt, x = .arr dt (.d2 (r.map (fun p => [p.x, p.y])))) :
    Shows v rs := by
  obtain ⟨l, hl, hlen, hx⟩ := entries_some h
  exact Or.inl ⟨l, hl, hlen, fun j x r h1 h2 => hf l x hl (hx j x r h1 h2).1 r (hx j x r h1 h2).2⟩

theorem shows_d2 {c : Cls} {x : Val} (hx : Faithful c x) {r : List Pt} (h : x.toD2.bind (ofRows c) = some r) :
    ∃ dt, x = .arr dt (.d2 (r.map (fun p => [p.x, p.y]))) := by
  obtain ⟨rows, hrows, h⟩ := Option.bind_eq_some_iff.mp h
  obtain ⟨dt', rfl⟩ := toD2_some x rows hrows
  have hm := self_mem_subvals (.arr dt' (.d2 rows) : Val)
  exact ⟨dt', by rw [ofRows_spec h (fun pts hp => hx.openArrays _ _ hm pts (by simp [outlines, hp]))]⟩

theorem shows_d3 {c : Cls} {x : Val} (hx : Faithful c x) {rs : List (List Pt)} (h : (toD3 x).bind (fun r => r.mapM (ofRows c)) = some rs) :
    Shows x rs := by
  obtain ⟨rowss, hrows, h⟩ := Option.bind_eq_some_iff.mp h
  have hxx : ∃ dt', x = .arr dt' (.d3 rowss) := by
    cases x with
    | arr dt' a => cases a <;> simp [toD3] at hrows; exact ⟨dt', by rw [hrows]⟩
    | _ => simp [toD3] at hrows
  obtain ⟨dt', rfl⟩ := hxx
  have hm := self_mem_subvals (.arr dt' (.d3 rowss) : Val)
  exact Or.inr ⟨dt', by rw [mapM_ofRows h (fun rows hr pts hp => hx.openArrays _ _ hm pts (by simp only [outlines]; rw [hp]; exact hr))]⟩

end Imgaug.NormRings
