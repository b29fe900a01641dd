import Verif.Proofs.NormMaps
/-! Property C102: heatmaps and segmentation maps given as arrays. -/
namespace Imgaug.NormMaps
open Imgaug Imgaug.Props Imgaug.Dtypes

/-- C102: heatmaps given as one float32 array or as a list of float32 arrays become one heatmap object per image, with the array of
that image and the shape of that image, for every number and size of images. -/
theorem heatmaps_standard_form (v : Val ℚ HmObj) (as : List (Arr ℚ)) (ss : List Shape) (hs : Shows v ⟨.f, 4⟩ as)
    (hne : ∀ a ∈ as, NonEmpty a) (hin : ∀ a ∈ as, AllIn a 0 1) (hl : ss.length = as.length) :
    ∃ os, normalize hmFam v (some ss) = some (some os) ∧ os.length = as.length ∧
      ∀ (i : Nat) a s o, as[i]? = some a → ss[i]? = some s → os[i]? = some o → o.map.getArr = a ∧ o.shape = s := by
  obtain ⟨os, h1, h2, h3⟩ := makeAll_some hmFam ⟨.f, 4⟩ as ss hl (fun a s o => o.map.getArr = a ∧ o.shape = s) (by
    intro a ha s
    obtain ⟨o, ho, _, h2, h3⟩ := hm_make a (hne a ha) (hin a ha) (shows_3d v _ as hs a ha) s
    exact ⟨o, ho, h2, h3⟩)
  exact ⟨os, by rw [normalize_shows hmFam v _ as rfl hs, h1]; rfl, h2, h3⟩

/-- Two different heatmap arrays. -/
def exHms : List (Arr ℚ) := [⟨.d3 1 2 1, [0, 1 / 2]⟩, ⟨.d3 1 2 1, [1, 1 / 4]⟩]

example : Shows (.tuple [.ent ⟨⟨.f, 4⟩, .one ⟨.d3 1 2 1, [0, 1 / 2]⟩⟩, .ent ⟨⟨.f, 4⟩, .one ⟨.d3 1 2 1, [1, 1 / 4]⟩⟩] : Val ℚ HmObj)
      ⟨.f, 4⟩ exHms ∧
    Shows (.ent ⟨⟨.f, 4⟩, .stack 1 2 1 [[0, 1 / 2], [1, 1 / 4]]⟩ : Val ℚ HmObj) ⟨.f, 4⟩ exHms ∧
    (∀ a ∈ exHms, NonEmpty a) ∧ (∀ a ∈ exHms, AllIn a 0 1) := by
  refine ⟨Or.inr ⟨rfl, by simp [exHms], by simp [exHms, Arr.is2d]⟩, Or.inl ⟨1, 2, 1, rfl, by simp [exHms]⟩, ?_, ?_⟩
  · simp [exHms, NonEmpty, Dims.h, Dims.w]
  · simp [exHms, AllIn]; norm_num

/-- C102: segmentation maps given as one array or as a list of arrays of bools or class ids become one object per image, with the
array, the dtype and the shape of that image. -/
theorem segmaps_standard_form (v : Val Int SmObj) (dt : DType) (hdt : dt ∈ SegTypes) (as : List (Arr Int)) (ss : List Shape)
    (hs : Shows v dt as) (hin : ∀ a ∈ as, ClassIds dt a) (hl : ss.length = as.length) :
    ∃ os, normalize smFam v (some ss) = some (some os) ∧ os.length = as.length ∧
      ∀ (i : Nat) a s o, as[i]? = some a → ss[i]? = some s → os[i]? = some o → Reads dt o a ∧ o.shape = s := by
  obtain ⟨os, h1, h2, h3⟩ := makeAll_some smFam dt as ss hl (fun a s o => Reads dt o a ∧ o.shape = s)
    (fun a ha s => sm_make dt hdt a (hin a ha) s)
  exact ⟨os, by rw [normalize_shows smFam v dt as (sm_known dt hdt) hs, h1]; rfl, h2, h3⟩

/-- Two arrays of class ids of different sizes. -/
def exSms : List (Arr Int) := [⟨.d3 1 2 1, [0, 255]⟩, ⟨.d3 2 1 1, [7, 1]⟩]

example : Shows (.list [.ent ⟨⟨.u, 1⟩, .one ⟨.d3 1 2 1, [0, 255]⟩⟩, .ent ⟨⟨.u, 1⟩, .one ⟨.d3 2 1 1, [7, 1]⟩⟩] : Val Int SmObj)
      ⟨.u, 1⟩ exSms ∧ (∀ a ∈ exSms, ClassIds ⟨.u, 1⟩ a) ∧ (⟨.u, 1⟩ : DType) ∈ SegTypes := by
  refine ⟨Or.inr ⟨rfl, by simp [exSms], by simp [exSms, Arr.is2d]⟩, ?_, by simp [SegTypes]⟩
  simp [exSms, ClassIds, hi]

/-- C102: with a number of image shapes that differs from the number of arrays, or without shapes, arrays are rejected. -/
theorem wrong_number_of_images {α ω : Type} (F : MFam α ω) (v : Val α ω) (dt : DType) (hk : F.known dt = true) (as : List (Arr α))
    (hs : Shows v dt as) :
    normalize F v none = none ∧ ∀ ss : List Shape, ss.length ≠ as.length → normalize F v (some ss) = none := by
  rw [normalize_shows F v dt as hk hs]
  refine ⟨by simp [makeAll, shapesOf], ?_⟩
  intro ss hl
  rw [normalize_shows F v dt as hk hs, makeAll_count F dt as ss hl]
  rfl

/-- C102 (partial): for heatmap arrays (at least one) with values in [0,1], converting to the standard form and back right away gives
the input, with a list in place of a tuple. Missing: no images, see `no_images_list`, other values, see `large_values_clipped`. -/
theorem heatmaps_roundtrip_partial (v : Val ℚ HmObj) (as : List (Arr ℚ)) (ss : List Shape) (hs : Shows v ⟨.f, 4⟩ as) (hne0 : as ≠ [])
    (hne : ∀ a ∈ as, NonEmpty a) (hin : ∀ a ∈ as, AllIn a 0 1) (hl : ss.length = as.length) :
    ∃ os, normalize hmFam v (some ss) = some (some os) ∧ invert hmFam (some os) v = some (untuple v) := by
  obtain ⟨os, h1, h2, h3⟩ := makeAll_some hmFam ⟨.f, 4⟩ as ss hl (fun a _ o => o.map.arr = a) (by
    intro a ha s
    obtain ⟨o, ho, h1, _, _⟩ := hm_make a (hne a ha) (hin a ha) (shows_3d v _ as hs a ha) s
    exact ⟨o, ho, h1⟩)
  refine ⟨os, by rw [normalize_shows hmFam v _ as rfl hs, h1]; rfl, ?_⟩
  apply roundtrip hmFam ⟨.f, 4⟩ rfl (hm_conv_self _) v as os hs hne0 h2
  intro i o b ho hb
  have hi : i < ss.length := by rw [hl]; exact (List.getElem?_eq_some_iff.1 hb).1
  have := h3 i b _ o hb (List.getElem?_eq_getElem hi) ho
  simp [hmFam, this]

/-- C102 (partial): the same for segmentation maps, with any accepted dtype. Missing: no images and arrays of different dtypes, see
`mixed_dtypes_lose_ids`. -/
theorem segmaps_roundtrip_partial (v : Val Int SmObj) (dt : DType) (hdt : dt ∈ SegTypes) (as : List (Arr Int)) (ss : List Shape)
    (hs : Shows v dt as) (hne0 : as ≠ []) (hin : ∀ a ∈ as, ClassIds dt a) (hl : ss.length = as.length) :
    ∃ os, normalize smFam v (some ss) = some (some os) ∧ invert smFam (some os) v = some (untuple v) := by
  obtain ⟨os, h1, h2, h3⟩ := segmaps_standard_form v dt hdt as ss hs hin hl
  refine ⟨os, h1, ?_⟩
  apply roundtrip smFam dt (sm_known dt hdt) (sm_conv_self _) v as os hs hne0 h2
  intro i o b ho hb
  have hi : i < ss.length := by rw [hl]; exact (List.getElem?_eq_some_iff.1 hb).1
  obtain ⟨⟨h4, h5⟩, _⟩ := h3 i b _ o hb (List.getElem?_eq_getElem hi) ho
  simp [smFam, h4, h5]

/-- C102: after any augmentation that returns one heatmap per image, the user gets the arrays of these heatmaps, as float32: for a list a
list, for one array one array if all results have the same shape and a list otherwise. -/
theorem heatmaps_results (v : Val ℚ HmObj) (as : List (Arr ℚ)) (hs : Shows v ⟨.f, 4⟩ as) (os : List HmObj)
    (hl : os.length = as.length) (hne : os ≠ []) (h3 : ∀ o ∈ os, o.map.arr.is2d = false) :
    ∃ r, invert hmFam (some os) v = some r ∧
      (OneArray v ⟨.f, 4⟩ as → SameShape (os.map (fun o => o.map.arr)) → OneArray r ⟨.f, 4⟩ (os.map (fun o => o.map.arr))) ∧
      (OneArray v ⟨.f, 4⟩ as → ¬ SameShape (os.map (fun o => o.map.arr)) → ManyArrays r ⟨.f, 4⟩ (os.map (fun o => o.map.arr))) ∧
      (ManyArrays v ⟨.f, 4⟩ as → r = .list (os.map (fun o => .ent ⟨⟨.f, 4⟩, .one o.map.arr⟩))) := by
  obtain ⟨r, h1, h2, h4, h5⟩ := invert_shows hmFam ⟨.f, 4⟩ rfl (hm_conv_self _) v as (os.map (fun o => o.map.arr)) os hs hl
    (by simp) (by simpa using hne) (by simpa using h3) (by
      intro i o b ho hb
      simp only [List.getElem?_map, ho, Option.map_some, Option.some.injEq] at hb
      simp [hmFam, hb])
  exact ⟨r, h1, h2, h4, by simpa [Function.comp_def] using h5⟩

example : ∃ os : List HmObj, os.length = 2 ∧ os ≠ [] ∧ (∀ o ∈ os, o.map.arr.is2d = false) ∧
    ¬ SameShape (os.map (fun o => o.map.arr)) := by
  refine ⟨[⟨⟨⟨.d3 1 1 1, [1]⟩, false, 0, 1⟩, ⟨1, 1⟩⟩, ⟨⟨⟨.d3 2 1 1, [1, 0]⟩, false, 0, 1⟩, ⟨2, 1⟩⟩], rfl, by simp, by simp [Arr.is2d], ?_⟩
  intro h
  exact absurd (h ⟨.d3 1 1 1, [1]⟩ (by simp) ⟨.d3 2 1 1, [1, 0]⟩ (by simp)) (by decide)

/-- C102: the same for segmentation maps: after any augmentation that returns one map per image and keeps the dtype, the user gets
the class ids of these maps with this dtype. -/
theorem segmaps_results (v : Val Int SmObj) (dt : DType) (hdt : dt ∈ SegTypes) (as bs : List (Arr Int)) (hs : Shows v dt as)
    (os : List SmObj) (hl : os.length = as.length) (hb : bs.length = os.length) (hne : bs ≠ []) (h3 : ∀ b ∈ bs, b.is2d = false)
    (hr : ∀ (i : Nat) o b, os[i]? = some o → bs[i]? = some b → Reads dt o b) :
    ∃ r, invert smFam (some os) v = some r ∧
      (OneArray v dt as → SameShape bs → OneArray r dt bs) ∧ (OneArray v dt as → ¬ SameShape bs → ManyArrays r dt bs) ∧
      (ManyArrays v dt as → r = .list (bs.map (fun b => .ent ⟨dt, .one b⟩))) :=
  invert_shows smFam dt (sm_known dt hdt) (sm_conv_self _) v as bs os hs hl hb hne h3 (by
    intro i o b ho hb'
    obtain ⟨h1, h2⟩ := hr i o b ho hb'
    simp [smFam, h1, h2])

example : Reads ⟨.u, 1⟩ ⟨⟨⟨.d3 1 2 1, [3, 200]⟩, .uint 1, false⟩, ⟨1, 2⟩⟩ ⟨.d3 1 2 1, [3, 200]⟩ := ⟨by decide, rfl⟩

/-- C102: objects are passed on as they are, whatever the shapes, and come back as single object or as list. -/
theorem objects_passed_on {α ω : Type} (F : MFam α ω) (o : ω) (os os' : List ω) (v : Val α ω) (hv : v.items = some (os.map .oi))
    (hne : os ≠ []) (shapes : Option (List Shape)) :
    normalize F (.oi o) shapes = some (some [o]) ∧ normalize F v shapes = some (some os) ∧
    (∀ o', invert F (some [o']) (.oi o) = some (.oi o')) ∧ invert F (some os') v = some (.list (os'.map .oi)) ∧
    (os'.length ≠ 1 → invert F (some os') (.oi o) = none) := by
  have e : ntype (.oi o : Val α ω) = some (.of 0 .oi) := by simp [ntype, findFirst, toNType, numTupleSize]
  obtain ⟨x, t, rfl⟩ := List.exists_cons_of_ne_nil hne
  have e' := ntype_items_oi v x (t.map .oi) (by simpa using hv)
  have hm : ∀ l : List ω, (l.map (fun o => (.oi o : Val α ω))).mapM PyVal.toOi = some l := by
    intro l
    induction l with
    | nil => rfl
    | cons y l ih => simp [PyVal.toOi, ih]
  refine ⟨by simp [normalize, e, PyVal.toOi], ?_, ?_, ?_, ?_⟩
  · simp only [normalize, e', hv, Option.bind_some, hm, Option.map_some]
  · intro o'; simp [invert, e, onlyOne]
  · simp only [invert, e']
  · intro hl
    simp only [invert, e, Option.bind_some]
    match os', hl with
    | [], _ => rfl
    | [_], h => simp at h
    | _ :: _ :: _, _ => rfl

example : (.list [.oi (1 : Nat), .oi 2] : Val ℚ Nat).items = some ([1, 2].map .oi) := rfl

/-- C102: `None` stands for no maps and comes back as `None`, an empty list or tuple comes back as empty list. -/
theorem nothing_given {α ω : Type} (F : MFam α ω) (shapes : Option (List Shape)) :
    normalize F .none shapes = some none ∧ invert F none .none = some .none ∧
    (∀ v : Val α ω, v.items = some [] → normalize F v shapes = some none ∧ invert F none v = some (.list [])) := by
  refine ⟨by simp [normalize, ntype, findFirst, toNType, numTupleSize], by simp [invert, ntype, findFirst, toNType, numTupleSize], ?_⟩
  intro v hv
  cases v <;> simp [PyVal.items] at hv <;> subst hv <;>
    simp [normalize, invert, ntype, findFirst, findFirstIn, toNType]

/-- C102: nothing else is accepted: maps come only from one array with four axes, from a non-empty list of arrays with three axes of
which the first has a recognised dtype, from an object or from a non-empty list of objects. -/
theorem accepted_forms {α ω : Type} (F : MFam α ω) (v : Val α ω) (shapes : Option (List Shape)) (os : List ω)
    (h : normalize F v shapes = some (some os)) :
    (∃ dt h w c items, v = .ent ⟨dt, .stack h w c items⟩ ∧ F.known dt = true) ∨ (∃ o, v = .oi o) ∨
    (∃ l, v.items = some l ∧ ∀ x ∈ l, ∃ dt a, x = .ent ⟨dt, .one a⟩ ∧ a.is2d = false) ∨ v.items = some (os.map .oi) := by
  unfold normalize at h
  split at h
  · cases h
  · obtain ⟨d, hd, h⟩ := Option.bind_eq_some_iff.1 h
    obtain ⟨l, hl, h⟩ := Option.bind_eq_some_iff.1 h
    obtain ⟨a, ha, hl⟩ := Option.bind_eq_some_iff.1 hl
    have hv := toEnt_some v a ha
    subst hv
    obtain ⟨d', hd', hk⟩ := Option.bind_eq_some_iff.1 hd
    rw [first_ent] at hd'
    injection hd' with hd'
    subst hd'
    have hk := (Option.ite_none_right_eq_some.1 hk).1
    obtain ⟨dt, b⟩ := a
    cases b with
    | stack h' w c items => exact Or.inl ⟨dt, h', w, c, items, rfl, hk⟩
    | one a => cases hl
    | other n => cases hl
  · obtain ⟨o, ho, _⟩ := Option.map_eq_some_iff.1 h
    exact Or.inr (Or.inl ⟨o, toOi_some v o ho⟩)
  · cases h
  · obtain ⟨d, hd, h⟩ := Option.bind_eq_some_iff.1 h
    obtain ⟨l, hl, h⟩ := Option.bind_eq_some_iff.1 h
    obtain ⟨xs, hxs, hl⟩ := Option.bind_eq_some_iff.1 hl
    refine Or.inr (Or.inr (Or.inl ⟨xs, hxs, ?_⟩))
    intro x hx
    exact mapM_d3_mem xs l hl x hx
  · obtain ⟨l, hl, h⟩ := Option.map_eq_some_iff.1 h
    injection h with h
    subst h
    obtain ⟨xs, hxs, hl⟩ := Option.bind_eq_some_iff.1 hl
    rw [mapM_oi xs l hl] at hxs
    exact Or.inr (Or.inr (Or.inr hxs))
  · cases h

/-- C102: heatmaps of another float dtype (float16, float64) are recognised as heatmaps but rejected, unless there is no image. -/
theorem other_floats_rejected (v : Val ℚ HmObj) (b : Nat) (hb : b ≠ 4) (as : List (Arr ℚ)) (hs : Shows v ⟨.f, b⟩ as) (hne : as ≠ [])
    (shapes : Option (List Shape)) : normalize hmFam v shapes = none := by
  rw [normalize_shows hmFam v ⟨.f, b⟩ as rfl hs]
  obtain ⟨a, t, rfl⟩ := List.exists_cons_of_ne_nil hne
  cases shapes with
  | none => simp [makeAll, shapesOf]
  | some ss =>
    by_cases hl : ss.length = t.length + 1
    · cases ss with
      | nil => simp at hl
      | cons s st => simp [makeAll, shapesOf, hl, hmFam, hb]
    · rw [makeAll_count hmFam _ _ ss (by simpa using hl)]
      rfl

example : Shows (.list [.ent ⟨⟨.f, 8⟩, .one ⟨.d3 1 1 1, [1 / 2]⟩⟩] : Val ℚ HmObj) ⟨.f, 8⟩ [⟨.d3 1 1 1, [1 / 2]⟩] :=
  Or.inr ⟨rfl, by simp, by simp [Arr.is2d]⟩

/-- C102: what is not known to the family (floats as segmentation maps, integers as heatmaps) is rejected, also without images. -/
theorem wrong_kind_rejected (shapes : Option (List Shape)) :
    (∀ (v : Val Int SmObj) (b : Nat) (as : List (Arr Int)), Shows v ⟨.f, b⟩ as → normalize smFam v shapes = none) ∧
    (∀ (v : Val ℚ HmObj) (dt : DType) (as : List (Arr ℚ)), Shows v dt as → dt.kind ≠ .f → normalize hmFam v shapes = none) := by
  have key : ∀ {α ω : Type} (F : MFam α ω) (v : Val α ω) (dt : DType) (as : List (Arr α)), Shows v dt as → F.known dt = false →
      normalize F v shapes = none := by
    intro α ω F v dt as hs hk
    rcases hs with ⟨h, w, c, rfl, hd⟩ | ⟨hv, hne, h3⟩
    · simp [normalize, ntype_ent, knownDtype, first_ent, hk]
    · obtain ⟨a, t, rfl⟩ := List.exists_cons_of_ne_nil hne
      obtain ⟨e1, e2⟩ := ntype_items_ent v _ _ hv
      simp [normalize, e1, knownDtype, e2, hk]
  refine ⟨fun v b as hs => key smFam v _ as hs rfl, fun v dt as hs hd => key hmFam v dt as hs ?_⟩
  obtain ⟨k, b⟩ := dt
  cases k <;> simp [hmFam] at hd ⊢

example : Shows (.ent ⟨⟨.f, 4⟩, .stack 2 2 1 []⟩ : Val Int SmObj) ⟨.f, 4⟩ [] := Or.inl ⟨2, 2, 1, rfl, by simp⟩

/-- C102: results that do not fit to the input are rejected: another number of them for one array, and any results where nothing was given. If no
results come back for a list of objects, that is what the user gets. -/
theorem wrong_results {α ω : Type} (F : MFam α ω) (os : List ω) :
    (∀ (v : Val α ω) dt as, OneArray v dt as → os.length ≠ as.length → invert F (some os) v = none) ∧
    invert F (some os) (.none : Val α ω) = none ∧ (∀ v : Val α ω, v.items = some [] → invert F (some os) v = none) ∧
    (∀ v : Val α ω, os ≠ [] → v.items = some (os.map .oi) → invert F none v = some .none) := by
  refine ⟨?_, by simp [invert, ntype, findFirst, toNType, numTupleSize], ?_, ?_⟩
  · rintro v dt as ⟨h, w, c, rfl, hd⟩ hl
    simp only [invert, ntype_ent, knownDtype, first_ent, Option.bind_some, PyVal.toEnt]
    split_ifs
    · simp only [Option.bind_some, invertStack, Body.lead, List.length_map]
      rw [if_neg hl]
    · rfl
  · intro v hv
    cases v <;> simp [PyVal.items] at hv <;> subst hv <;>
      simp [invert, ntype, findFirst, findFirstIn, toNType]
  · intro v hne hv
    obtain ⟨x, t, rfl⟩ := List.exists_cons_of_ne_nil hne
    have e' := ntype_items_oi v x (t.map .oi) (by simpa using hv)
    simp only [invert, e']

example : OneArray (.ent ⟨⟨.i, 4⟩, .stack 1 1 1 [[3]]⟩ : Val Int SmObj) ⟨.i, 4⟩ [⟨.d3 1 1 1, [3]⟩] ∧
    (PyVal.items (.list [.none]) : Option (List (Val Int SmObj))) ≠ some [] ∧ (PyVal.items (.list []) : Option (List (Val Int SmObj))) = some [] :=
  ⟨⟨1, 1, 1, rfl, by simp⟩, by simp [PyVal.items], rfl⟩

/-- C102 is false for lists that begin with `None`: such a list is accepted, its arrays are dropped and `None` comes back. -/
theorem none_first_drops : ∃ (v : Val ℚ HmObj) (a : Arr ℚ), v.items = some [.none, .ent ⟨⟨.f, 4⟩, .one a⟩] ∧ NonEmpty a ∧ AllIn a 0 1 ∧
    (∀ shapes, normalize hmFam v shapes = some none) ∧ invert hmFam none v = some .none := by
  refine ⟨.list [.none, .ent ⟨⟨.f, 4⟩, .one ⟨.d3 1 1 1, [1]⟩⟩], ⟨.d3 1 1 1, [1]⟩, rfl, ?_, ?_, ?_, ?_⟩
  · simp [NonEmpty, Dims.h, Dims.w]
  · simp [AllIn]
  · intro shapes; simp [normalize, ntype, findFirst, findFirstIn, toNType, numTupleSize]
  · simp [invert, ntype, findFirst, findFirstIn, toNType, numTupleSize]

/-- C102 is false for lists of segmentation maps of different dtypes: with a bool array in first place the class ids of the second
one come back as `True`. -/
theorem mixed_dtypes_lose_ids : ∃ (v : Val Int SmObj) (os : List SmObj),
    v = .list [.ent ⟨⟨.b, 1⟩, .one ⟨.d3 1 1 1, [1]⟩⟩, .ent ⟨⟨.i, 4⟩, .one ⟨.d3 1 2 1, [5, 7]⟩⟩] ∧
    normalize smFam v (some [⟨1, 1⟩, ⟨1, 2⟩]) = some (some os) ∧
    invert smFam (some os) v = some (.list [.ent ⟨⟨.b, 1⟩, .one ⟨.d3 1 1 1, [1]⟩⟩, .ent ⟨⟨.b, 1⟩, .one ⟨.d3 1 2 1, [1, 1]⟩⟩]) := by
  refine ⟨_, [⟨⟨⟨.d3 1 1 1, [1]⟩, .bool, false⟩, ⟨1, 1⟩⟩, ⟨⟨⟨.d3 1 2 1, [5, 7]⟩, .int 4, false⟩, ⟨1, 2⟩⟩], rfl, ?_, ?_⟩
  · decide +kernel
  · obtain ⟨e1, e2⟩ := ntype_items_ent (α := Int) (ω := SmObj) (.list [.ent ⟨⟨.b, 1⟩, .one ⟨.d3 1 1 1, [1]⟩⟩, .ent ⟨⟨.i, 4⟩, .one ⟨.d3 1 2 1, [5, 7]⟩⟩])
      ⟨⟨.b, 1⟩, .one ⟨.d3 1 1 1, [1]⟩⟩ _ rfl
    simp only [invert, e1, knownDtype, e2]
    have : [(⟨⟨⟨.d3 1 1 1, [1]⟩, .bool, false⟩, ⟨1, 1⟩⟩ : SmObj), ⟨⟨⟨.d3 1 2 1, [5, 7]⟩, .int 4, false⟩, ⟨1, 2⟩⟩].mapM (readAs smFam ⟨.b, 1⟩)
        = some [⟨.d3 1 1 1, [1]⟩, ⟨.d3 1 2 1, [1, 1]⟩] := by decide +kernel
    have hk : smFam.known ⟨.b, 1⟩ = true := rfl
    simp only [Option.bind_some, hk, if_true, invertList, this, Option.map_some]
    rfl

/-- C102 is false for an array without images: it is accepted, but comes back as an empty list instead of an array. -/
theorem no_images_list {α ω : Type} (F : MFam α ω) (dt : DType) (hk : F.known dt = true) (h w c : Nat) :
    normalize F (.ent ⟨dt, .stack h w c []⟩) (some []) = some (some []) ∧
    invert F (some []) (.ent ⟨dt, .stack h w c []⟩) = some (.list []) := by
  constructor
  · simp [normalize, ntype_ent, knownDtype, first_ent, hk, PyVal.toEnt, stacked, makeAll, shapesOf]
  · simp [invert, ntype_ent, knownDtype, first_ent, hk, PyVal.toEnt, invertStack, Body.lead, merge]

/-- C102 is false for heatmap values above 1 (or below 0): they are clipped, so that they do not come back. -/
theorem large_values_clipped : ∃ (os : List HmObj),
    normalize hmFam (.ent ⟨⟨.f, 4⟩, .stack 1 1 1 [[2]]⟩) (some [⟨1, 1⟩]) = some (some os) ∧
    invert hmFam (some os) (.ent ⟨⟨.f, 4⟩, .stack 1 1 1 [[2]]⟩) = some (.ent ⟨⟨.f, 4⟩, .stack 1 1 1 [[1]]⟩) := by
  refine ⟨[⟨⟨⟨.d3 1 1 1, [1]⟩, false, 0, 1⟩, ⟨1, 1⟩⟩], ?_, ?_⟩
  · simp only [normalize, ntype_ent, knownDtype, first_ent]
    decide +kernel
  · simp only [invert, ntype_ent, knownDtype, first_ent]
    rfl

end Imgaug.NormMaps
