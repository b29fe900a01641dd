import Verif.Proofs.NormRings
/-! C99: polygons and line strings can be passed in many forms and come back in the same form. -/
namespace Imgaug.NormRings
open Imgaug Imgaug.Props

/-- C99 (partial): if an input for polygons or line strings is accepted, inverting the normalisation right away gives the
input back, except that outer tuples may have become lists. What is missing: arrays with an empty axis, polygons that repeat
their first point at the end, lists with arrays of different dtypes or with `None`; see the theorems below. -/
theorem roundtrip_partial (c : Cls) (v : Val) (shapes : Option (List Shape)) (n : Option (List Rings))
    (h : normalize c v shapes = some n) (hv : Faithful c v) (hnone : v ≠ .none → .none ∉ subvals v) :
    ∃ v', invert n v = some v' ∧ untuple v' = untuple v := by
  have hlist : ∀ l : List Val, untuple (.list l : Val) = .list (l.map untuple) := fun l => by rw [untuple, untupleL_eq]
  have hut : ∀ r : List Pt, (r.map tupleOf).map untuple = r.map tupleOf := fun r => by
    rw [List.map_map]; exact List.map_congr_left (fun p _ => untuple_tupleOf p)
  have hkp : ∀ r : List Pt, (r.map kpOf).map untuple = r.map kpOf := fun r => by
    rw [List.map_map]; exact List.map_congr_left (fun p _ => rfl)
  have hrg : ∀ rs : List (List Pt), (rs.map (fun r => (.ent (.inr r) : Val))).map untuple = rs.map (fun r => (.ent (.inr r) : Val)) :=
    fun r => by rw [List.map_map]; exact List.map_congr_left (fun p _ => rfl)
  have hone : ∀ dt r, untuple (restoreOne dt r) = restoreOne dt r := fun dt r => by simp [restoreOne, untuple]
  have hmany : ∀ dt rs, untuple (restoreMany dt rs) = restoreMany dt rs := fun dt rs => by
    unfold restoreMany
    by_cases hs : sameLength rs = true
    · rw [if_pos hs]; simp [untuple]
    · rw [if_neg hs, hlist, List.map_map]
      congr 1
  have hdt : ∀ d dt, ntype v = some (.of d (.arr dt)) → ∀ dt' a, .arr dt' a ∈ subvals v → dt' = dt := by
    intro d dt ht dt' a ha
    obtain ⟨a0, ha0⟩ := ntype_arr v d dt ht
    exact hv.oneDtype _ _ _ _ ha ha0
  unfold normalize at h
  unfold invert
  split at h <;> rename_i ht
  · have := ntype_none v ht
    have hvn : v = .none := by by_contra hc; exact hnone hc this
    subst hvn
    simp only [Option.some.injEq] at h
    subst h
    exact ⟨.none, rfl, rfl⟩
  · rename_i dt
    have hd := hdt 0 dt ht
    by_cases hb : dt = .bool
    · rw [if_pos hb] at h; cases h
    · rw [if_neg hb] at h
      obtain ⟨rss, hrss, h⟩ := Option.bind_eq_some_iff.mp h
      obtain ⟨os, hos, rfl⟩ := Option.map_eq_some_iff.mp h
      obtain ⟨rowsss, hrows, hrss'⟩ := Option.bind_eq_some_iff.mp hrss
      have hvv : ∃ dt', v = .arr dt' (.d4 rowsss) := by
        cases v with
        | arr dt' a => cases a <;> simp [toD4] at hrows; exact ⟨dt', by rw [hrows]⟩
        | _ => simp [toD4] at hrows
      obtain ⟨dt', rfl⟩ := hvv
      have hm := self_mem_subvals (.arr dt' (.d4 rowsss) : Val)
      have := hd _ _ hm
      subst this
      have h1 : rss.map (fun rs => rs.map (fun r => r.map (fun p => [p.x, p.y]))) = rowsss := by
        have := mapM_map (fun r => r.mapM (ofRows c)) (fun rs => rs.map (fun r => r.map (fun p => [p.x, p.y]))) id rowsss rss hrss'
          (fun a ha b hb => mapM_ofRows hb (fun rows hr pts hp => hv.openArrays _ _ hm pts (by
            simp only [outlines]; rw [hp]; exact List.mem_flatten.mpr ⟨a, ha, hr⟩)))
        simpa using this
      obtain ⟨hne, p, k, hp, hk⟩ := hv.rect _ _ hm
      have hlen : ∀ rs ∈ rss, rs.length = p ∧ ∀ r ∈ rs, r.length = k := by
        intro rs hrs
        have h2 := hk _ (by rw [← h1]; exact List.mem_map.mpr ⟨rs, hrs, rfl⟩)
        refine ⟨by simpa using h2.1, lengths_of rs _ rfl k h2.2⟩
      have hall : rss.all sameLength = true := by
        rw [List.all_eq_true]
        intro rs hrs
        obtain ⟨h2, h3⟩ := hlen rs hrs
        exact sameLength_of rs (by rintro rfl; simp at h2; omega) k h3
      have hhead : ∀ rs ∈ rss, (rs.map List.length).head? = some k := by
        intro rs hrs
        obtain ⟨h2, h3⟩ := hlen rs hrs
        cases rs with
        | nil => simp at h2; omega
        | cons r rs => simp [h3 r (by simp)]
      have hshape : sameShape rss = true := by
        cases rss with
        | nil => exact absurd (by rw [← h1]; rfl) hne
        | cons r rss =>
          simp only [sameShape, List.all_eq_true, Bool.and_eq_true, beq_iff_eq]
          intro x hx
          exact ⟨by rw [(hlen x (by simp [hx])).1, (hlen r (by simp)).1], by rw [hhead x (by simp [hx]), hhead r (by simp)]⟩
      refine ⟨.arr dt' (.d4 rowsss), ?_, rfl⟩
      simp only [Option.bind_some]
      rw [perImage_rings hos]
      unfold restoreNested
      rw [if_pos hall, if_pos hshape]
      congr 3
      rw [← h1]
      apply List.map_congr_left
      intro rs hrs
      apply map_rowsOf dt' rs _ rfl
      intro rows hr y hy q hq
      apply hv.representable _ _ hm y _ q hq
      simp only [NArr.rows, List.mem_flatten]
      exact ⟨rows, ⟨_, by rw [← h1]; exact List.mem_map.mpr ⟨rs, hrs, rfl⟩, hr⟩, hy⟩
  · obtain ⟨r, hr, h⟩ := Option.bind_eq_some_iff.mp h
    obtain ⟨os, hos, rfl⟩ := Option.map_eq_some_iff.mp h
    obtain ⟨s, -, rfl⟩ := onOne_some hos
    have := toRing_spec hr
    subst this
    exact ⟨_, rfl, rfl⟩
  · obtain ⟨o, ho, h⟩ := Option.map_eq_some_iff.mp h
    subst h
    have := toOi_some v o ho
    subst this
    exact ⟨_, rfl, rfl⟩
  · simp only [Option.some.injEq] at h
    subst h
    refine ⟨.list [], rfl, ?_⟩
    rcases ntype_empty v ht with rfl | rfl <;> simp [untuple, untupleL]
  · rename_i dt
    have hd := hdt 1 dt ht
    by_cases hb : dt = .bool
    · rw [if_pos hb] at h; cases h
    · rw [if_neg hb] at h
      obtain ⟨rss, hrss, h⟩ := Option.bind_eq_some_iff.mp h
      obtain ⟨os, hos, rfl⟩ := Option.map_eq_some_iff.mp h
      refine ⟨_, rfl, ?_⟩
      have h1 := (entries_spec _ (restoreMany dt) v rss hrss (fun l x hl hx b hb =>
        d3_spec (hv.item hl hx) dt (fun dt' a ha => hd dt' a (mem_subvals_item v l hl x hx _ ha)) hb)).1
      rw [h1, hlist, List.map_map, ← perImage_rings hos, List.map_map]
      congr 1
      exact List.map_congr_left (fun o _ => hmany dt o.rings)
  · rename_i k
    by_cases hk : k = 2
    · rw [if_pos hk] at h
      obtain ⟨r, hr, h⟩ := Option.bind_eq_some_iff.mp h
      obtain ⟨os, hos, rfl⟩ := Option.map_eq_some_iff.mp h
      obtain ⟨s, -, rfl⟩ := onOne_some hos
      refine ⟨_, rfl, ?_⟩
      rw [(ofTuples_spec hv hr).1, hlist, hut]
    · rw [if_neg hk] at h; cases h
  · by_cases hk : leafIsKp v = true
    · rw [if_pos hk] at h ⊢
      obtain ⟨r, hr, h⟩ := Option.bind_eq_some_iff.mp h
      obtain ⟨os, hos, rfl⟩ := Option.map_eq_some_iff.mp h
      obtain ⟨s, -, rfl⟩ := onOne_some hos
      refine ⟨_, rfl, ?_⟩
      rw [(ofKps_spec hv hr).1, hlist, hkp]
    · rw [if_neg hk] at h ⊢
      obtain ⟨rs, hrs, h⟩ := Option.bind_eq_some_iff.mp h
      obtain ⟨os, hos, rfl⟩ := Option.map_eq_some_iff.mp h
      obtain ⟨s, -, rfl⟩ := onOne_some hos
      have hl : rs.length = oldLength v := by
        obtain ⟨l, hl, hm⟩ := Option.bind_eq_some_iff.mp hrs
        rw [oldLength, hl, mapM_length' _ _ _ hm]; rfl
      refine ⟨.list (rs.map (fun r => .ent (.inr r))), by simp [single, hl], ?_⟩
      rw [(entries_spec toRing (fun r => .ent (.inr r)) v rs hrs (fun l x hl hx b hb => by
        have := toRing_spec hb
        subst this
        exact ⟨rfl, rfl⟩)).1, hlist, hrg]
  · obtain ⟨os, hos, rfl⟩ := Option.map_eq_some_iff.mp h
    refine ⟨_, rfl, ?_⟩
    rw [(entries_spec PyVal.toOi .oi v os hos (fun l x hl hx b hb => by
        have := toOi_some x b hb
        subst this
        exact ⟨rfl, rfl⟩)).1, hlist, List.map_map]
    congr 1
  · simp only [Option.some.injEq] at h
    subst h
    exact ⟨v, rfl, rfl⟩
  · rename_i dt
    have hd := hdt 2 dt ht
    by_cases hb : dt = .bool
    · rw [if_pos hb] at h; cases h
    · rw [if_neg hb] at h
      obtain ⟨rss, hrss, h⟩ := Option.bind_eq_some_iff.mp h
      obtain ⟨os, hos, rfl⟩ := Option.map_eq_some_iff.mp h
      refine ⟨_, rfl, ?_⟩
      have h1 := (entries_spec _ (fun rs => .list (rs.map (restoreOne dt))) v rss hrss (fun l x hl hx b hb =>
        entries_spec _ (restoreOne dt) x b hb (fun l' y hl' hy b' hb' =>
          d2_spec ((hv.item hl hx).item hl' hy) dt (fun dt' a ha =>
            hd dt' a (mem_subvals_item v l hl x hx _ (mem_subvals_item x l' hl' y hy _ ha))) hb'))).1
      rw [h1, hlist, List.map_map, ← perImage_rings hos, List.map_map]
      congr 1
      refine List.map_congr_left (fun o _ => ?_)
      simp only [Function.comp_apply, hlist, List.map_map]
      congr 1
  · rename_i k
    by_cases hk : k = 2
    · rw [if_pos hk] at h
      obtain ⟨rs, hrs, h⟩ := Option.bind_eq_some_iff.mp h
      obtain ⟨os, hos, rfl⟩ := Option.map_eq_some_iff.mp h
      obtain ⟨s, -, rfl⟩ := onOne_some hos
      refine ⟨_, rfl, ?_⟩
      rw [(entries_spec _ (fun r => .list (r.map tupleOf)) v rs hrs (fun l x hl hx b hb => ofTuples_spec (hv.item hl hx) hb)).1,
        hlist, List.map_map]
      congr 1
      refine List.map_congr_left (fun r _ => ?_)
      simp only [Function.comp_apply, hlist, hut]
    · rw [if_neg hk] at h; cases h
  · by_cases hk : leafIsKp v = true
    · rw [if_pos hk] at h ⊢
      obtain ⟨rs, hrs, h⟩ := Option.bind_eq_some_iff.mp h
      obtain ⟨os, hos, rfl⟩ := Option.map_eq_some_iff.mp h
      obtain ⟨s, -, rfl⟩ := onOne_some hos
      refine ⟨_, rfl, ?_⟩
      rw [(entries_spec _ (fun r => .list (r.map kpOf)) v rs hrs (fun l x hl hx b hb => ofKps_spec (hv.item hl hx) hb)).1,
        hlist, List.map_map]
      congr 1
      refine List.map_congr_left (fun r _ => ?_)
      simp only [Function.comp_apply, hlist, hkp]
    · rw [if_neg hk] at h ⊢
      obtain ⟨rss, hrss, h⟩ := Option.bind_eq_some_iff.mp h
      obtain ⟨os, hos, rfl⟩ := Option.map_eq_some_iff.mp h
      refine ⟨_, rfl, ?_⟩
      have h1 := (entries_spec _ (fun rs => .list (rs.map (fun r => (.ent (.inr r) : Val)))) v rss hrss (fun l x hl hx b hb =>
        entries_spec toRing (fun r => .ent (.inr r)) x b hb (fun l' y hl' hy b' hb' => by
          have := toRing_spec hb'
          subst this
          exact ⟨rfl, rfl⟩))).1
      rw [h1, hlist, List.map_map, ← perImage_rings hos, List.map_map]
      congr 1
      refine List.map_congr_left (fun o _ => ?_)
      simp only [Function.comp_apply, hlist, hrg]
  · simp only [Option.some.injEq] at h
    subst h
    exact ⟨v, rfl, rfl⟩
  · rename_i k
    by_cases hk : k = 2
    · rw [if_pos hk] at h
      obtain ⟨rss, hrss, h⟩ := Option.bind_eq_some_iff.mp h
      obtain ⟨os, hos, rfl⟩ := Option.map_eq_some_iff.mp h
      refine ⟨_, rfl, ?_⟩
      have h1 := (entries_spec _ (fun rs => .list (rs.map (fun r => .list (r.map tupleOf)))) v rss hrss (fun l x hl hx b hb =>
        entries_spec (ofTuples c) (fun r => .list (r.map tupleOf)) x b hb (fun l' y hl' hy b' hb' =>
          ofTuples_spec ((hv.item hl hx).item hl' hy) hb'))).1
      rw [h1, hlist, List.map_map, ← perImage_rings hos, List.map_map]
      congr 1
      refine List.map_congr_left (fun o _ => ?_)
      simp only [Function.comp_apply, hlist, List.map_map]
      congr 1
      refine List.map_congr_left (fun r _ => ?_)
      have := hut r
      simp only [List.map_map] at this
      simp only [Function.comp_apply, hlist, List.map_map, this]
    · rw [if_neg hk] at h; cases h
  · by_cases hk : leafIsKp v = true
    · rw [if_pos hk] at h
      obtain ⟨rss, hrss, h⟩ := Option.bind_eq_some_iff.mp h
      obtain ⟨os, hos, rfl⟩ := Option.map_eq_some_iff.mp h
      refine ⟨_, rfl, ?_⟩
      have h1 := (entries_spec _ (fun rs => .list (rs.map (fun r => .list (r.map kpOf)))) v rss hrss (fun l x hl hx b hb =>
        entries_spec (ofKps c) (fun r => .list (r.map kpOf)) x b hb (fun l' y hl' hy b' hb' =>
          ofKps_spec ((hv.item hl hx).item hl' hy) hb'))).1
      rw [h1, hlist, List.map_map, ← perImage_rings hos, List.map_map]
      congr 1
      refine List.map_congr_left (fun o _ => ?_)
      simp only [Function.comp_apply, hlist, List.map_map]
      congr 1
      refine List.map_congr_left (fun r _ => ?_)
      have := hkp r
      simp only [List.map_map] at this
      simp only [Function.comp_apply, hlist, List.map_map, this]
    · rw [if_neg hk] at h; cases h
  · cases h

/-- The example has all the properties that are needed. -/
def demoVal : Val := .list [.list [], .list [.list [.tuple [.num 0, .num 0], .tuple [.num 4, .num 0], .tuple [.num 4, .num 4]]]]

example : normalize .polygon demoVal (some [⟨5, 5⟩, ⟨6, 6⟩]) =
    some (some [⟨[], ⟨5, 5⟩⟩, ⟨[[⟨0, 0⟩, ⟨4, 0⟩, ⟨4, 4⟩]], ⟨6, 6⟩⟩]) := by decide +kernel

example : Faithful .lineString demoVal ∧ .none ∉ subvals demoVal where
  left := {
    representable := by simp [demoVal, subvals, subvalsL]
    oneDtype := by simp [demoVal, subvals, subvalsL]
    rect := by simp [demoVal, subvals, subvalsL]
    pairs := by
      intro r hr h
      simp only [demoVal, subvals, subvalsL] at h
      rcases r with _ | ⟨a, _ | ⟨b, _ | ⟨d, r⟩⟩⟩ <;> simp at h hr ⊢
    openLists := fun _ _ _ _ => rfl
    openArrays := fun _ _ _ _ _ => rfl }
  right := by simp [demoVal, subvals, subvalsL]

/-- C99: which object belongs to which image. Either every image has its own entry of the input, in order, and there are as
many shapes as entries; or the input describes objects on one image and there is exactly one shape; or it already consists of
objects on images. -/
theorem standard_form (c : Cls) (v : Val) (shapes : Option (List Shape)) (os : List Rings)
    (h : normalize c v shapes = some (some os)) (hv : Faithful c v) :
    (∃ l ss, v.items = some l ∧ shapes = some ss ∧ ss.length = l.length ∧ os.length = l.length ∧
      ∀ (i : Nat) o x, os[i]? = some o → l[i]? = some x → ss[i]? = some o.shape ∧ Shows x o.rings) ∨
    (∃ dt ss, shapes = some ss ∧ ss = os.map Rings.shape ∧
      v = .arr dt (.d4 (os.map (fun o => o.rings.map (fun r => r.map (fun p => [p.x, p.y])))))) ∨
    (∃ s rs, shapes = some [s] ∧ os = [⟨rs, s⟩] ∧ (Shows v rs ∨ ∃ r, rs = [r] ∧ ShowsOne v r)) ∨
    (∃ o, v = .oi o ∧ os = [o]) ∨ untuple v = .list (os.map .oi) := by
  have images : ∀ (f : Val → Option (List (List Pt))) rss, entries f v = some rss → perImage shapes rss = some os →
      (∀ l x, v.items = some l → x ∈ l → ∀ rs, f x = some rs → Shows x rs) →
      ∃ l ss, v.items = some l ∧ shapes = some ss ∧ ss.length = l.length ∧ os.length = l.length ∧
        ∀ (i : Nat) o x, os[i]? = some o → l[i]? = some x → ss[i]? = some o.shape ∧ Shows x o.rings := by
    intro f rss h1 h2 hf
    obtain ⟨l, hl, hlen, hx⟩ := entries_some h1
    obtain ⟨ss, hs, h3, h4, h5⟩ := perImage_some h2
    refine ⟨l, ss, hl, hs, by omega, by omega, fun i o x ho hi' => ?_⟩
    obtain ⟨h6, h7⟩ := h5 i o ho
    obtain ⟨h8, h9⟩ := hx i x _ hi' h6
    exact ⟨h7, hf l x hl h8 _ h9⟩
  unfold normalize at h
  split at h <;> rename_i ht
  · cases h
  · rename_i dt
    by_cases hb : dt = .bool
    · rw [if_pos hb] at h; cases h
    · rw [if_neg hb] at h
      obtain ⟨rss, hrss, h⟩ := Option.bind_eq_some_iff.mp h
      obtain ⟨os', hos, heq⟩ := Option.map_eq_some_iff.mp h
      rw [Option.some.injEq] at heq
      subst heq
      obtain ⟨rowsss, hrows, hrss'⟩ := Option.bind_eq_some_iff.mp hrss
      have hvv : ∃ dt', v = .arr dt' (.d4 rowsss) := by
        cases v with
        | arr dt' a => cases a <;> simp [toD4] at hrows; exact ⟨dt', by rw [hrows]⟩
        | _ => simp [toD4] at hrows
      obtain ⟨dt', rfl⟩ := hvv
      have hm := self_mem_subvals (.arr dt' (.d4 rowsss) : Val)
      have h1 : rss.map (fun rs => rs.map (fun r => r.map (fun p => [p.x, p.y]))) = rowsss := by
        have := mapM_map (fun r => r.mapM (ofRows c)) (fun rs => rs.map (fun r => r.map (fun p => [p.x, p.y]))) id rowsss rss hrss'
          (fun a ha b hb => mapM_ofRows hb (fun rows hr pts hp => hv.openArrays _ _ hm pts (by
            simp only [outlines]; rw [hp]; exact List.mem_flatten.mpr ⟨a, ha, hr⟩)))
        simpa using this
      obtain ⟨ss, hs, h3, h4, h5⟩ := perImage_some hos
      refine Or.inr (Or.inl ⟨dt', ss, hs, ?_, ?_⟩)
      · apply List.ext_getElem?
        intro i
        by_cases hi' : i < os'.length
        · rw [(h5 i os'[i] (List.getElem?_eq_getElem hi')).2, List.getElem?_map, List.getElem?_eq_getElem hi']; rfl
        · rw [List.getElem?_eq_none (by omega), List.getElem?_eq_none (by simp; omega)]
      · rw [← h1, ← perImage_rings hos, List.map_map]; rfl
  · obtain ⟨r, hr, h⟩ := Option.bind_eq_some_iff.mp h
    obtain ⟨os', hos, heq⟩ := Option.map_eq_some_iff.mp h
    rw [Option.some.injEq] at heq
    subst heq
    obtain ⟨s, hs, rfl⟩ := onOne_some hos
    exact Or.inr (Or.inr (Or.inl ⟨s, [r], hs, rfl, Or.inr ⟨r, rfl, Or.inl (toRing_spec hr)⟩⟩))
  · obtain ⟨o, ho, h⟩ := Option.map_eq_some_iff.mp h
    rw [Option.some.injEq] at h
    subst h
    exact Or.inr (Or.inr (Or.inr (Or.inl ⟨o, toOi_some v o ho, rfl⟩)))
  · cases h
  · rename_i dt
    by_cases hb : dt = .bool
    · rw [if_pos hb] at h; cases h
    · rw [if_neg hb] at h
      obtain ⟨rss, hrss, h⟩ := Option.bind_eq_some_iff.mp h
      obtain ⟨os', hos, heq⟩ := Option.map_eq_some_iff.mp h
      rw [Option.some.injEq] at heq
      subst heq
      exact Or.inl (images _ rss hrss hos (fun l x hl hx rs hrs => shows_d3 (hv.item hl hx) hrs))
  · rename_i k
    by_cases hk : k = 2
    · rw [if_pos hk] at h
      obtain ⟨r, hr, h⟩ := Option.bind_eq_some_iff.mp h
      obtain ⟨os', hos, heq⟩ := Option.map_eq_some_iff.mp h
      rw [Option.some.injEq] at heq
      subst heq
      obtain ⟨s, hs, rfl⟩ := onOne_some hos
      exact Or.inr (Or.inr (Or.inl ⟨s, [r], hs, rfl, Or.inr ⟨r, rfl, Or.inr (Or.inl (ofTuples_spec hv hr).1)⟩⟩))
    · rw [if_neg hk] at h; cases h
  · by_cases hk : leafIsKp v = true
    · rw [if_pos hk] at h
      obtain ⟨r, hr, h⟩ := Option.bind_eq_some_iff.mp h
      obtain ⟨os', hos, heq⟩ := Option.map_eq_some_iff.mp h
      rw [Option.some.injEq] at heq
      subst heq
      obtain ⟨s, hs, rfl⟩ := onOne_some hos
      exact Or.inr (Or.inr (Or.inl ⟨s, [r], hs, rfl, Or.inr ⟨r, rfl, Or.inr (Or.inr (ofKps_spec hv hr).1)⟩⟩))
    · rw [if_neg hk] at h
      obtain ⟨rs, hrs, h⟩ := Option.bind_eq_some_iff.mp h
      obtain ⟨os', hos, heq⟩ := Option.map_eq_some_iff.mp h
      rw [Option.some.injEq] at heq
      subst heq
      obtain ⟨s, hs, rfl⟩ := onOne_some hos
      exact Or.inr (Or.inr (Or.inl ⟨s, rs, hs, rfl, Or.inl (shows_entries hrs (fun l x hl hx r hr => Or.inl (Or.inl (toRing_spec hr))))⟩))
  · obtain ⟨os', hos, heq⟩ := Option.map_eq_some_iff.mp h
    rw [Option.some.injEq] at heq
    subst heq
    refine Or.inr (Or.inr (Or.inr (Or.inr ?_)))
    exact (entries_spec PyVal.toOi .oi v os' hos (fun l x hl hx b hb => by
        have := toOi_some x b hb
        subst this
        exact ⟨rfl, rfl⟩)).1
  · cases h
  · rename_i dt
    by_cases hb : dt = .bool
    · rw [if_pos hb] at h; cases h
    · rw [if_neg hb] at h
      obtain ⟨rss, hrss, h⟩ := Option.bind_eq_some_iff.mp h
      obtain ⟨os', hos, heq⟩ := Option.map_eq_some_iff.mp h
      rw [Option.some.injEq] at heq
      subst heq
      exact Or.inl (images _ rss hrss hos (fun l x hl hx rs hrs => shows_entries hrs (fun l' y hl' hy r hr =>
        Or.inr (shows_d2 ((hv.item hl hx).item hl' hy) hr))))
  · rename_i k
    by_cases hk : k = 2
    · rw [if_pos hk] at h
      obtain ⟨rs, hrs, h⟩ := Option.bind_eq_some_iff.mp h
      obtain ⟨os', hos, heq⟩ := Option.map_eq_some_iff.mp h
      rw [Option.some.injEq] at heq
      subst heq
      obtain ⟨s, hs, rfl⟩ := onOne_some hos
      exact Or.inr (Or.inr (Or.inl ⟨s, rs, hs, rfl, Or.inl (shows_entries hrs (fun l x hl hx r hr =>
        Or.inl (Or.inr (Or.inl (ofTuples_spec (hv.item hl hx) hr).1))))⟩))
    · rw [if_neg hk] at h; cases h
  · by_cases hk : leafIsKp v = true
    · rw [if_pos hk] at h
      obtain ⟨rs, hrs, h⟩ := Option.bind_eq_some_iff.mp h
      obtain ⟨os', hos, heq⟩ := Option.map_eq_some_iff.mp h
      rw [Option.some.injEq] at heq
      subst heq
      obtain ⟨s, hs, rfl⟩ := onOne_some hos
      exact Or.inr (Or.inr (Or.inl ⟨s, rs, hs, rfl, Or.inl (shows_entries hrs (fun l x hl hx r hr =>
        Or.inl (Or.inr (Or.inr (ofKps_spec (hv.item hl hx) hr).1))))⟩))
    · rw [if_neg hk] at h
      obtain ⟨rss, hrss, h⟩ := Option.bind_eq_some_iff.mp h
      obtain ⟨os', hos, heq⟩ := Option.map_eq_some_iff.mp h
      rw [Option.some.injEq] at heq
      subst heq
      exact Or.inl (images _ rss hrss hos (fun l x hl hx rs hrs => shows_entries hrs (fun l' y hl' hy r hr =>
        Or.inl (Or.inl (toRing_spec hr)))))
  · cases h
  · rename_i k
    by_cases hk : k = 2
    · rw [if_pos hk] at h
      obtain ⟨rss, hrss, h⟩ := Option.bind_eq_some_iff.mp h
      obtain ⟨os', hos, heq⟩ := Option.map_eq_some_iff.mp h
      rw [Option.some.injEq] at heq
      subst heq
      exact Or.inl (images _ rss hrss hos (fun l x hl hx rs hrs => shows_entries hrs (fun l' y hl' hy r hr =>
        Or.inl (Or.inr (Or.inl (ofTuples_spec ((hv.item hl hx).item hl' hy) hr).1)))))
    · rw [if_neg hk] at h; cases h
  · by_cases hk : leafIsKp v = true
    · rw [if_pos hk] at h
      obtain ⟨rss, hrss, h⟩ := Option.bind_eq_some_iff.mp h
      obtain ⟨os', hos, heq⟩ := Option.map_eq_some_iff.mp h
      rw [Option.some.injEq] at heq
      subst heq
      exact Or.inl (images _ rss hrss hos (fun l x hl hx rs hrs => shows_entries hrs (fun l' y hl' hy r hr =>
        Or.inl (Or.inr (Or.inr (ofKps_spec ((hv.item hl hx).item hl' hy) hr).1)))))
    · rw [if_neg hk] at h; cases h
  · cases h

/-- C99: only the form of the input decides what an augmented standard form is turned into. -/
theorem form_decides (n : Option (List Rings)) (v w : Val) (ht : ntype v = ntype w) (hk : leafIsKp v = leafIsKp w)
    (hl : oldLength v = oldLength w) (he : ∀ d, ntype v ≠ some (.of d .empty)) : invert n v = invert n w := by
  have h1 := he 1
  have h2 := he 2
  rw [ht] at h1 h2
  unfold invert
  rw [ht, hk, hl]
  split <;> simp_all

/-- C99 (partial): augmented objects come back in the form of the input: if the augmented standard form is that of some `w` of
the same form as the input `v`, the result is `w`. The same is missing as in `roundtrip_partial`. -/
theorem augmented_partial (c : Cls) (v w : Val) (shapes : Option (List Shape)) (n : Option (List Rings))
    (h : normalize c w shapes = some n) (hw : Faithful c w) (hnone : w ≠ .none → .none ∉ subvals w)
    (ht : ntype v = ntype w) (hk : leafIsKp v = leafIsKp w) (hl : oldLength v = oldLength w)
    (he : ∀ d, ntype v ≠ some (.of d .empty)) : ∃ v', invert n v = some v' ∧ untuple v' = untuple w := by
  rw [form_decides n v w ht hk hl he]
  exact roundtrip_partial c w shapes n h hw hnone

example : ntype (.list [.list [], .list [.list [.tuple [.num 9, .num 9]]]] : Val) = ntype demoVal := by decide +kernel

/-- C99: nothing is dropped silently. If the input described one image, or one object, and the augmented standard form has another number
of images or objects, inverting the normalisation raises. -/
theorem surplus_raises (os : List Rings) :
    (∀ o : Rings, os.length ≠ 1 → invert (some os) (.oi o) = none) ∧
    (∀ r : List Pt, (¬ ∃ q s, os = [⟨[q], s⟩]) → invert (some os) (.ent (.inr r)) = none) ∧
    (∀ (p : Pt) (pts : List Pt), (¬ ∃ q s, os = [⟨[q], s⟩]) →
      invert (some os) (.list ((p :: pts).map tupleOf)) = none ∧ invert (some os) (.list ((p :: pts).map kpOf)) = none) := by
  have hs : os.length ≠ 1 → single (some os) = none := by
    intro h
    unfold single
    split
    · rename_i o e
      rw [Option.some.injEq] at e
      rw [e] at h
      exact absurd rfl h
    · rfl
  have hr : (¬ ∃ q s, os = [⟨[q], s⟩]) → singleRing (some os) = none := by
    intro h
    unfold singleRing
    split
    · rename_i r s e
      rw [Option.some.injEq] at e
      exact absurd ⟨r, s, e⟩ h
    · rfl
  refine ⟨?_, ?_, ?_⟩
  · intro o h
    have ht : ntype (.oi o : Val) = some (.of 0 .oi) := by simp [ntype, findFirst, toNType, numTupleSize]
    unfold invert
    rw [ht]
    simp only [hs h, Option.map_none]
  · intro r h
    have ht : ntype (.ent (.inr r) : Val) = some (.of 0 .ent) := by simp [ntype, findFirst, toNType, numTupleSize]
    unfold invert
    rw [ht]
    simp only [hr h, Option.map_none]
  · intro p pts h
    have ht : ntype (.list ((p :: pts).map tupleOf) : Val) = some (.of 1 (.tup 2)) := by
      simp [ntype, findFirst, findFirstIn, toNType, numTupleSize, tupleOf, PyVal.isNum]
    have ht' : ntype (.list ((p :: pts).map kpOf) : Val) = some (.of 1 .ent) := by
      simp [ntype, findFirst, findFirstIn, toNType, numTupleSize, kpOf]
    have hk : leafIsKp (.list ((p :: pts).map kpOf)) = true := by simp [leafIsKp, findFirst, findFirstIn, kpOf]
    constructor
    · unfold invert
      rw [ht]
      simp only [hr h, Option.map_none]
    · unfold invert
      rw [ht', hk]
      simp only [hr h, Option.map_none, if_true]

example : invert (some [⟨[[⟨1, 2⟩]], ⟨5, 5⟩⟩, ⟨[], ⟨5, 5⟩⟩]) (.ent (.inr [⟨3, 4⟩])) = none := by
  refine (surplus_raises _).2.1 _ ?_
  rintro ⟨q, s, h⟩
  simp at h

/-- C99 is false for a single array if after augmentation there is an image without objects or with objects that differ in
their number of points: inverting the normalisation raises. -/
theorem array_raises (dt : DT) (a : NArr) (os : List Rings) (o : Rings) (ho : o ∈ os)
    (h : o.rings = [] ∨ ∃ r ∈ o.rings, ∃ r' ∈ o.rings, r.length ≠ r'.length) : invert (some os) (.arr dt a) = none := by
  have ht : ntype (.arr dt a : Val) = some (.of 0 (.arr dt)) := by simp [ntype, findFirst, toNType, numTupleSize]
  unfold invert
  rw [ht]
  simp only [Option.bind_some]
  unfold restoreNested
  rw [if_neg]
  intro hall
  rw [List.all_eq_true] at hall
  have hs := hall o.rings (List.mem_map.mpr ⟨o, ho, rfl⟩)
  cases hr : o.rings with
  | nil => rw [hr] at hs; simp [sameLength] at hs
  | cons r rs =>
    rw [hr] at hs h
    simp only [sameLength, List.all_eq_true, beq_iff_eq] at hs
    have key : ∀ x ∈ r :: rs, x.length = r.length := by
      intro x hx
      rcases List.mem_cons.mp hx with rfl | hx
      · rfl
      · exact hs x hx
    rcases h with h | ⟨x, hx, y, hy, hne⟩
    · simp at h
    · exact hne ((key x hx).trans (key y hy).symm)

/-- C99 is false for polygons that repeat their first point: it is dropped. In an array together with another polygon it makes
the conversion back raise, even if nothing was augmented. -/
theorem closed_polygons :
    let v : Val := .list [.tuple [.num 0, .num 0], .tuple [.num 4, .num 0], .tuple [.num 4, .num 4], .tuple [.num 0, .num 0]]
    let a : Val := .arr .float (.d4 [[[[0, 0], [4, 0], [4, 4], [0, 0]], [[0, 0], [4, 0], [4, 4], [0, 4]]]])
    (normalize .polygon v (some [⟨9, 9⟩])).bind (fun n => invert n v) =
      some (.list [.tuple [.num 0, .num 0], .tuple [.num 4, .num 0], .tuple [.num 4, .num 4]]) ∧
    (normalize .polygon a (some [⟨9, 9⟩])).isSome = true ∧ ((normalize .polygon a (some [⟨9, 9⟩])).bind (fun n => invert n a)).isNone := by
  intro v a
  have h : normalize .polygon v (some [⟨9, 9⟩]) = some (some [⟨[[⟨0, 0⟩, ⟨4, 0⟩, ⟨4, 4⟩]], ⟨9, 9⟩⟩]) := by decide +kernel
  refine ⟨?_, by decide +kernel, by decide +kernel⟩
  rw [h]
  rfl

/-- C99 is false for line strings given by keypoints, which are documented as one of the forms: they raise. -/
theorem keypoints_for_line_strings (p : Pt) (pts : List Pt) (shapes : Option (List Shape)) :
    normalize .lineString (.list ((p :: pts).map kpOf)) shapes = none := by
  have ht : ntype (.list ((p :: pts).map kpOf) : Val) = some (.of 1 .ent) := by
    simp [ntype, findFirst, findFirstIn, toNType, numTupleSize, kpOf]
  have hk : leafIsKp (.list ((p :: pts).map kpOf)) = true := by
    simp [leafIsKp, findFirst, findFirstIn, kpOf]
  unfold normalize
  rw [ht]
  simp only [hk, if_true, ofKps, container, Option.bind_some]
  rw [if_pos (by simp)]
  rfl

/-- C99 is false for polygons given by a tuple of points instead of a list: they raise. Line strings accept both. -/
theorem tuple_of_points (p : Pt) (pts : List Pt) (s : Shape) :
    normalize .polygon (.tuple ((p :: pts).map tupleOf)) (some [s]) = none ∧
    normalize .lineString (.tuple ((p :: pts).map tupleOf)) (some [s]) = some (some [⟨[p :: pts], s⟩]) := by
  have ht : ntype (.tuple ((p :: pts).map tupleOf) : Val) = some (.of 1 (.tup 2)) := by
    simp [ntype, findFirst, findFirstIn, toNType, numTupleSize, tupleOf, PyVal.isNum]
  have hm : ((p :: pts).map tupleOf).mapM (toPoint .lineString) = some (p :: pts) := by
    rw [← Option.pure_def, List.mapM_map]
    induction (p :: pts) with
    | nil => rfl
    | cons q l ih => rw [List.mapM_cons, ih]; rfl
  constructor
  · unfold normalize
    rw [ht]
    rfl
  · unfold normalize
    rw [ht]
    simp only [if_true, ofTuples, container, reduceCtorEq, if_false, Option.bind_some, hm]
    rfl

/-- C99 is false for lists of arrays without objects: the array becomes a list. -/
theorem array_becomes_list (dt : DT) (a : NArr) (o : Rings) (os : List Rings) (l : List Val) (h : o.rings = []) :
    ∃ l', invert (some (o :: os)) (.list (.arr dt a :: l)) = some (.list (.list [] :: l')) := by
  have ht : ntype (.list (.arr dt a :: l) : Val) = some (.of 1 (.arr dt)) := by
    simp [ntype, findFirst, findFirstIn, toNType, numTupleSize]
  unfold invert
  rw [ht]
  refine ⟨os.map (fun o => restoreMany dt o.rings), ?_⟩
  simp [h, restoreMany, sameLength]

/-- C99 is false for lists with `None` in first place: they are accepted and come back as `None`. -/
theorem none_entry (c : Cls) (l : List Val) (shapes : Option (List Shape)) :
    normalize c (.list (.none :: l)) shapes = some none ∧ invert none (.list (.none :: l)) = some .none := by
  have ht : ntype (.list (.none :: l) : Val) = some .none := by
    simp [ntype, findFirst, findFirstIn, toNType, numTupleSize]
  constructor
  · unfold normalize; rw [ht]
  · unfold invert; rw [ht]; rfl

/-- C99: only the documented forms are accepted. -/
theorem accepted_forms (c : Cls) (v : Val) (shapes : Option (List Shape)) (n : Option (List Rings)) (h : normalize c v shapes = some n) :
    ntype v = some .none ∨ ∃ d leaf, ntype v = some (.of d leaf) ∧
      ((leaf = .empty ∧ d ≤ 2) ∨ (leaf = .oi ∧ d ≤ 1) ∨ (leaf = .tup 2 ∧ 1 ≤ d ∧ d ≤ 3) ∨ (∃ dt, leaf = .arr dt ∧ dt ≠ .bool ∧ d ≤ 2) ∨
        (leaf = .ent ∧ (leafIsKp v = true → 1 ≤ d ∧ d ≤ 3) ∧ (leafIsKp v = false → d ≤ 2))) := by
  unfold normalize at h
  split at h <;> rename_i ht
  · exact Or.inl ht
  · refine Or.inr ⟨_, _, ht, ?_⟩
    by_cases hb : ‹DT› = .bool
    · rw [if_pos hb] at h; cases h
    · simp [hb]
  · refine Or.inr ⟨_, _, ht, ?_⟩
    obtain ⟨r, hr, -⟩ := Option.bind_eq_some_iff.mp h
    have := toRing_spec hr
    subst this
    simp [leafIsKp, findFirst]
  · exact Or.inr ⟨_, _, ht, by simp⟩
  · exact Or.inr ⟨_, _, ht, by simp⟩
  · refine Or.inr ⟨_, _, ht, ?_⟩
    by_cases hb : ‹DT› = .bool
    · rw [if_pos hb] at h; cases h
    · simp [hb]
  · refine Or.inr ⟨_, _, ht, ?_⟩
    by_cases hk : ‹Nat› = 2
    · simp [hk]
    · rw [if_neg hk] at h; cases h
  · exact Or.inr ⟨_, _, ht, by simp⟩
  · exact Or.inr ⟨_, _, ht, by simp⟩
  · exact Or.inr ⟨_, _, ht, by simp⟩
  · refine Or.inr ⟨_, _, ht, ?_⟩
    by_cases hb : ‹DT› = .bool
    · rw [if_pos hb] at h; cases h
    · simp [hb]
  · refine Or.inr ⟨_, _, ht, ?_⟩
    by_cases hk : ‹Nat› = 2
    · simp [hk]
    · rw [if_neg hk] at h; cases h
  · exact Or.inr ⟨_, _, ht, by simp⟩
  · exact Or.inr ⟨_, _, ht, by simp⟩
  · refine Or.inr ⟨_, _, ht, ?_⟩
    by_cases hk : ‹Nat› = 2
    · simp [hk]
    · rw [if_neg hk] at h; cases h
  · refine Or.inr ⟨_, _, ht, ?_⟩
    by_cases hk : leafIsKp v = true
    · simp [hk]
    · rw [if_neg hk] at h; cases h
  · cases h

end Imgaug.NormRings
