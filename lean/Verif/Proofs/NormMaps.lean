import Verif.Spec.NormMaps
import Verif.Proofs.Normalize
import Verif.Proofs.Heatmaps
import Verif.Proofs.Dtypes
import Verif.Props.Heatmaps
/-! Helper lemmas for Props/NormMaps.lean. -/
namespace Imgaug.NormMaps
open Imgaug Imgaug.Props Imgaug.Dtypes
variable {α ω : Type}

theorem ntype_ent (a : MArr α) : ntype (.ent a : Val α ω) = some (.of 0 .ent) := by
  simp [ntype, findFirst, toNType, numTupleSize]

theorem first_ent (a : MArr α) : firstDtype (.ent a : Val α ω) = some a.dt := by
  simp [firstDtype, findFirst]

theorem find_items (v x : Val α ω) (rest : List (Val α ω)) (hv : v.items = some (x :: rest))
    (hx : (∃ a, x = .ent a) ∨ ∃ o, x = .oi o) : findFirst v [] = ⟨x, true, [v]⟩ := by
  rcases hx with ⟨a, rfl⟩ | ⟨o, rfl⟩ <;> cases v <;> simp [PyVal.items] at hv <;> subst hv <;>
    simp [findFirst, findFirstIn]

theorem tuple_size (v x : Val α ω) (rest : List (Val α ω)) (hv : v.items = some (x :: rest)) (hx : x.isNum = false) :
    numTupleSize (some v) = none := by
  cases v <;> simp [PyVal.items] at hv <;> subst hv <;> simp [numTupleSize, hx]

theorem ntype_items_ent (v : Val α ω) (a : MArr α) (rest : List (Val α ω)) (hv : v.items = some (.ent a :: rest)) :
    ntype v = some (.of 1 .ent) ∧ firstDtype v = some a.dt := by
  have hf := find_items v (.ent a) rest hv (Or.inl ⟨a, rfl⟩)
  have ht := tuple_size v (.ent a) rest hv rfl
  simp [ntype, firstDtype, hf, toNType, ht]

theorem ntype_items_oi (v : Val α ω) (o : ω) (rest : List (Val α ω)) (hv : v.items = some (.oi o :: rest)) :
    ntype v = some (.of 1 .oi) := by
  have hf := find_items v (.oi o) rest hv (Or.inr ⟨o, rfl⟩)
  have ht := tuple_size v (.oi o) rest hv rfl
  simp [ntype, hf, toNType, ht]

theorem mapM_ents (dt : DType) (as : List (Arr α)) (h : ∀ a ∈ as, a.is2d = false) :
    (as.map (fun a => (.ent ⟨dt, .one a⟩ : Val α ω))).mapM toD3 = some (as.map (fun a => (dt, a))) := by
  induction as with
  | nil => rfl
  | cons a t ih =>
    have ha := h a (by simp)
    obtain ⟨d, l⟩ := a
    cases d with
    | d2 => simp [Arr.is2d] at ha
    | d3 =>
      simp only [List.map_cons, List.mapM_cons, toD3, ih (fun b hb => h b (by simp [hb]))]
      rfl

theorem stacked_eq (dt : DType) (h w c : Nat) (as : List (Arr α)) (hd : ∀ a ∈ as, a.dims = .d3 h w c) :
    stacked ⟨dt, .stack h w c (as.map (fun a => a.flat))⟩ = some (as.map (fun a => (dt, a))) := by
  simp only [stacked, List.map_map, Option.some.injEq]
  apply List.map_congr_left
  intro a ha
  have := hd a ha
  obtain ⟨d, l⟩ := a
  simp_all

theorem normalize_shows (F : MFam α ω) (v : Val α ω) (dt : DType) (as : List (Arr α)) (hk : F.known dt = true)
    (hs : Shows v dt as) (shapes : Option (List Shape)) :
    normalize F v shapes = (makeAll F (as.map (fun a => (dt, a))) shapes).map some := by
  rcases hs with ⟨h, w, c, rfl, hd⟩ | ⟨hv, hne, h3⟩
  · simp [normalize, ntype_ent, knownDtype, first_ent, hk, PyVal.toEnt, stacked_eq dt h w c as hd]
  · obtain ⟨a, t, rfl⟩ := List.exists_cons_of_ne_nil hne
    obtain ⟨e1, e2⟩ := ntype_items_ent v ⟨dt, .one a⟩ (t.map (fun a => .ent ⟨dt, .one a⟩)) (by simpa using hv)
    simp only [normalize, e1, knownDtype, e2, hk, Option.bind_some, if_true, hv, mapM_ents dt (a :: t) h3]

theorem makeAll_some (F : MFam α ω) (dt : DType) (as : List (Arr α)) (ss : List Shape) (hl : ss.length = as.length)
    (P : Arr α → Shape → ω → Prop) (hm : ∀ a ∈ as, ∀ s, ∃ o, F.make dt a s = some o ∧ P a s o) :
    ∃ os, makeAll F (as.map (fun a => (dt, a))) (some ss) = some os ∧ os.length = as.length ∧
      ∀ (i : Nat) a s o, as[i]? = some a → ss[i]? = some s → os[i]? = some o → P a s o := by
  simp only [makeAll, shapesOf, List.length_map, hl, if_true, Option.bind_some]
  clear * - hm hl
  induction as generalizing ss with
  | nil => exact ⟨[], by simp⟩
  | cons a t ih =>
    cases ss with
    | nil => simp at hl
    | cons s st =>
      obtain ⟨o, ho, hp⟩ := hm a (by simp) s
      obtain ⟨os, h1, h2, h3⟩ := ih st (by simpa using hl) (fun b hb => hm b (by simp [hb]))
      refine ⟨o :: os, by simp [ho, h1], by simp [h2], ?_⟩
      intro i b s' o' hb hs' ho'
      cases i with
      | zero => simp at hb hs' ho'; subst hb hs' ho'; exact hp
      | succ i => exact h3 i b s' o' (by simpa using hb) (by simpa using hs') (by simpa using ho')

theorem makeAll_count (F : MFam α ω) (dt : DType) (as : List (Arr α)) (ss : List Shape) (hl : ss.length ≠ as.length) :
    makeAll F (as.map (fun a => (dt, a))) (some ss) = none := by simp [makeAll, shapesOf, hl]

theorem mapM_self {f : α → Option α} (hf : ∀ v, f v = some v) (l : List α) : l.mapM f = some l := by
  induction l with
  | nil => rfl
  | cons v t ih => simp [ih, hf]

theorem sm_conv_self (dt : DType) (v : Int) : smFam.conv dt dt v = some v := by
  simp [smFam, changeDtype, pyInt_intCast]

theorem hm_conv_self (dt : DType) (v : ℚ) : hmFam.conv dt dt v = some v := by simp [hmFam, changeDtype]

theorem mapM_readAs (F : MFam α ω) (dt : DType) (hf : ∀ v, F.conv dt dt v = some v) (os : List ω) (as : List (Arr α))
    (hl : os.length = as.length) (hr : ∀ (i : Nat) o a, os[i]? = some o → as[i]? = some a → F.read o = some (dt, a)) :
    os.mapM (readAs F dt) = some as := by
  induction os generalizing as with
  | nil => cases as <;> simp_all
  | cons o t ih =>
    cases as with
    | nil => simp at hl
    | cons a at' =>
      have h0 := hr 0 o a (by simp) (by simp)
      have h1 := ih at' (by simpa using hl) (fun i o a ho ha => hr (i + 1) o a (by simpa using ho) (by simpa using ha))
      simp [h1, readAs, h0, restoreOne, mapM_self hf]

theorem merge_same (dt : DType) (as : List (Arr α)) (hne : as ≠ []) (h3 : ∀ a ∈ as, a.is2d = false) (hs : SameShape as) :
    OneArray (merge dt as : Val α ω) dt as := by
  obtain ⟨a, t, rfl⟩ := List.exists_cons_of_ne_nil hne
  have hall : t.all (fun b => decide (b.dims = a.dims)) = true := by
    simp only [List.all_eq_true, decide_eq_true_eq]
    exact fun b hb => hs b (by simp [hb]) a (by simp)
  have ha := h3 a (by simp)
  obtain ⟨d, l⟩ := a
  cases d with
  | d2 => simp [Arr.is2d] at ha
  | d3 h w c =>
    refine ⟨h, w, c, ?_, fun b hb => hs b hb ⟨.d3 h w c, l⟩ (by simp)⟩
    unfold merge
    dsimp only
    rw [if_pos hall]
    rfl

theorem merge_differ (dt : DType) (as : List (Arr α)) (h3 : ∀ a ∈ as, a.is2d = false) (hs : ¬ SameShape as) :
    ManyArrays (merge dt as : Val α ω) dt as := by
  cases as with
  | nil => exact absurd (fun a ha => by simp at ha) hs
  | cons a t =>
    refine ⟨?_, by simp, h3⟩
    unfold merge
    dsimp only
    rw [if_neg ?_]
    · rfl
    · intro hall
      simp only [List.all_eq_true, decide_eq_true_eq] at hall
      apply hs
      have key : ∀ b ∈ a :: t, b.dims = a.dims := by
        intro b hb
        rcases List.mem_cons.1 hb with rfl | hb
        · rfl
        · exact hall b hb
      intro b hb c hc
      rw [key b hb, key c hc]

/-- What inversion gives for arrays, when the objects can be read with the same dtype. -/
theorem invert_shows (F : MFam α ω) (dt : DType) (hk : F.known dt = true) (hf : ∀ v, F.conv dt dt v = some v)
    (v : Val α ω) (as bs : List (Arr α)) (os : List ω) (hs : Shows v dt as) (hl : os.length = as.length)
    (hb : bs.length = os.length) (hne : bs ≠ []) (h3 : ∀ b ∈ bs, b.is2d = false)
    (hr : ∀ (i : Nat) o b, os[i]? = some o → bs[i]? = some b → F.read o = some (dt, b)) :
    ∃ r, invert F (some os) v = some r ∧
      (OneArray v dt as → SameShape bs → OneArray r dt bs) ∧ (OneArray v dt as → ¬ SameShape bs → ManyArrays r dt bs) ∧
      (ManyArrays v dt as → r = .list (bs.map (fun b => .ent ⟨dt, .one b⟩))) := by
  have hm := mapM_readAs F dt hf os bs hb.symm hr
  rcases hs with ⟨h, w, c, rfl, hd⟩ | ⟨hv, hne', h3'⟩
  · refine ⟨merge dt bs, ?_, fun _ => merge_same dt bs hne h3, fun _ => merge_differ dt bs h3, ?_⟩
    · simp [invert, ntype_ent, knownDtype, first_ent, hk, PyVal.toEnt, invertStack, Body.lead, hl, hm]
    · rintro ⟨h, _⟩; simp [PyVal.items] at h
  · obtain ⟨a, t, rfl⟩ := List.exists_cons_of_ne_nil hne'
    obtain ⟨e1, e2⟩ := ntype_items_ent v ⟨dt, .one a⟩ (t.map (fun a => .ent ⟨dt, .one a⟩)) (by simpa using hv)
    have hno : ¬ OneArray v dt (a :: t) := by
      rintro ⟨_, _, _, rfl, _⟩; simp [PyVal.items] at hv
    refine ⟨.list (bs.map (fun b => .ent ⟨dt, .one b⟩)), ?_, fun h => absurd h hno, fun h => absurd h hno, fun _ => rfl⟩
    simp only [invert, e1, knownDtype, e2, hk, Option.bind_some, if_true, invertList, hm, Option.map_some]

theorem untuple_one (a : MArr α) : untuple (.ent a : Val α ω) = .ent a := by simp [untuple]

theorem untuple_many (v : Val α ω) (dt : DType) (as : List (Arr α)) (h : ManyArrays v dt as) :
    untuple v = .list (as.map (fun a => .ent ⟨dt, .one a⟩)) := by
  obtain ⟨hv, hne, h3⟩ := h
  rw [untuple_items v _ hv (by intro x hx; obtain ⟨a, _, rfl⟩ := List.mem_map.1 hx; rfl)]
  congr 1
  simp [List.map_map, Function.comp_def, untuple]

theorem one_same (v : Val α ω) (dt : DType) (as : List (Arr α)) (h : OneArray v dt as) : SameShape as := by
  obtain ⟨h, w, c, _, hd⟩ := h
  intro a ha b hb
  rw [hd a ha, hd b hb]

theorem one_unique (v r : Val α ω) (dt : DType) (as : List (Arr α)) (hne : as ≠ []) (h : OneArray v dt as) (h' : OneArray r dt as) :
    r = v := by
  obtain ⟨h, w, c, rfl, hd⟩ := h
  obtain ⟨h', w', c', rfl, hd'⟩ := h'
  obtain ⟨a, t, rfl⟩ := List.exists_cons_of_ne_nil hne
  have := (hd a (by simp)).symm.trans (hd' a (by simp))
  simp_all

theorem shows_3d (v : Val α ω) (dt : DType) (as : List (Arr α)) (h : Shows v dt as) : ∀ a ∈ as, a.is2d = false := by
  rcases h with ⟨h, w, c, _, hd⟩ | ⟨_, _, h3⟩
  · intro a ha
    have := hd a ha
    obtain ⟨d, l⟩ := a
    simp at this
    subst this
    rfl
  · exact h3

/-- Reading right away gives the input back. -/
theorem roundtrip (F : MFam α ω) (dt : DType) (hk : F.known dt = true) (hf : ∀ v, F.conv dt dt v = some v)
    (v : Val α ω) (as : List (Arr α)) (os : List ω) (hs : Shows v dt as) (hne : as ≠ []) (hl : os.length = as.length)
    (hr : ∀ (i : Nat) o b, os[i]? = some o → as[i]? = some b → F.read o = some (dt, b)) :
    invert F (some os) v = some (untuple v) := by
  obtain ⟨r, h1, h2, h3, h4⟩ := invert_shows F dt hk hf v as as os hs hl hl.symm hne (shows_3d v dt as hs) hr
  rw [h1, Option.some.injEq]
  rcases hs with h | h
  · rw [one_unique v r dt as hne h (h2 h (one_same v dt as h))]
    obtain ⟨_, _, _, rfl, _⟩ := h
    exact (untuple_one _).symm
  · rw [h4 h, untuple_many v dt as h]

theorem sm_init (dt : DType) (hdt : dt ∈ SegTypes) (a : Arr Int) (ha : ClassIds dt a) :
    ∃ sd, segDtype dt = some sd ∧ ofSegDtype sd = dt ∧ (∀ v ∈ a.flat, sd.Holds v) ∧
      (sd = .bool ∨ ∃ b, (b = 1 ∨ b = 2 ∨ b = 4 ∨ b = 8) ∧ (sd = .uint b ∨ sd = .int b)) ∧
      Segmap.init a sd = some ⟨a.to3d.map SegDtype.toInt32, sd, a.is2d⟩ := by
  obtain ⟨hne, hv⟩ := ha
  have h100 : ∀ v ∈ a.flat.take 100, 0 ≤ v := fun v h => (hv v (List.mem_of_mem_take h)).1
  simp only [SegTypes, List.mem_cons, List.not_mem_nil, or_false] at hdt
  rcases hdt with rfl | rfl | rfl | rfl | rfl | rfl
  · refine ⟨.bool, rfl, rfl, ?_, by simp, rfl⟩
    intro v h
    have := hv v h
    simp [hi] at this
    simp only [SegDtype.Holds]
    omega
  · refine ⟨.uint 1, rfl, rfl, ?_, by simp, ?_⟩
    · intro v h
      have := hv v h
      simp [hi] at this
      simp only [SegDtype.Holds]
      omega
    · unfold Segmap.init; dsimp only; rw [if_pos]; simpa [hne] using h100
  · refine ⟨.uint 2, rfl, rfl, ?_, by simp, ?_⟩
    · intro v h
      have := hv v h
      simp [hi] at this
      simp only [SegDtype.Holds]
      omega
    · unfold Segmap.init; dsimp only; rw [if_pos]; simpa [hne] using h100
  · refine ⟨.int 1, rfl, rfl, ?_, by simp, ?_⟩
    · intro v h
      have := hv v h
      simp [hi] at this
      simp only [SegDtype.Holds]
      omega
    · unfold Segmap.init; dsimp only; rw [if_pos]; simpa [hne] using h100
  · refine ⟨.int 2, rfl, rfl, ?_, by simp, ?_⟩
    · intro v h
      have := hv v h
      simp [hi] at this
      simp only [SegDtype.Holds]
      omega
    · unfold Segmap.init; dsimp only; rw [if_pos]; simpa [hne] using h100
  · refine ⟨.int 4, rfl, rfl, ?_, by simp, ?_⟩
    · intro v h
      have := hv v h
      simp [hi] at this
      simp only [SegDtype.Holds]
      omega
    · unfold Segmap.init; dsimp only; rw [if_pos]; simpa [hne] using h100

theorem sm_make (dt : DType) (hdt : dt ∈ SegTypes) (a : Arr Int) (ha : ClassIds dt a) (s : Shape) :
    ∃ o, smFam.make dt a s = some o ∧ Reads dt o a ∧ o.shape = s := by
  obtain ⟨sd, h1, h2, h3, h4, h5⟩ := sm_init dt hdt a ha
  refine ⟨⟨⟨a.to3d.map SegDtype.toInt32, sd, a.is2d⟩, s⟩, by simp [smFam, h1, h5], ⟨?_, h2⟩, rfl⟩
  exact segmap_roundtrip a sd _ h3 h4 h5

theorem sm_known (dt : DType) (hdt : dt ∈ SegTypes) : smFam.known dt = true := by
  simp only [SegTypes, List.mem_cons, List.not_mem_nil, or_false] at hdt
  rcases hdt with rfl | rfl | rfl | rfl | rfl | rfl <;> rfl

theorem hm_make (a : Arr ℚ) (hne : NonEmpty a) (hin : AllIn a 0 1) (h3 : a.is2d = false) (s : Shape) :
    ∃ o, hmFam.make ⟨.f, 4⟩ a s = some o ∧ o.map.arr = a ∧ o.map.getArr = a ∧ o.shape = s := by
  have h := init_eq a 0 1 hne (by norm_num) hin
  simp only [isUnit_01, if_true] at h
  refine ⟨⟨⟨a.to3d, a.is2d, 0, 1⟩, s⟩, ?_, to3d_of_3d a h3, ?_, rfl⟩
  · simp [hmFam, h]
  · simp [Heatmap.getArr, isUnit_01, h3, to3d_of_3d a h3]

theorem mapM_d3_mem (xs : List (Val α ω)) (l : List (DType × Arr α)) (h : xs.mapM toD3 = some l) :
    ∀ x ∈ xs, ∃ dt a, x = .ent ⟨dt, .one a⟩ ∧ a.is2d = false := by
  induction xs generalizing l with
  | nil => simp
  | cons y t ih =>
    cases hy : toD3 y with
    | none => simp [hy] at h
    | some b =>
      cases ht : t.mapM toD3 with
      | none => simp [hy, ht] at h
      | some r =>
        intro x hx
        rcases List.mem_cons.1 hx with rfl | hx
        · unfold toD3 at hy
          split at hy
          · exact ⟨_, _, rfl, rfl⟩
          · cases hy
        · exact ih r ht x hx

theorem mapM_oi (xs : List (Val α ω)) (l : List ω) (h : xs.mapM PyVal.toOi = some l) : xs = l.map .oi := by
  induction xs generalizing l with
  | nil => simp at h; subst h; rfl
  | cons y t ih =>
    cases hy : y.toOi with
    | none => simp [hy] at h
    | some b =>
      cases ht : t.mapM PyVal.toOi with
      | none => simp [hy, ht] at h
      | some r =>
        simp [hy, ht] at h
        subst h
        rw [toOi_some y b hy, ih r ht]
        rfl

end Imgaug.NormMaps
