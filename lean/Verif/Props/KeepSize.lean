import Verif.Proofs.KeepSize
/-! C75: `KeepSizeByResize`. -/
namespace Imgaug.KeepSize
open Imgaug Imgaug.Resize

/-- For the examples: a child that cuts every image to its first row and the keypoints' shapes with it. -/
def demoChild (b : Batch) : Batch :=
  ⟨b.images.map (fun p => (p.1, p.2.map (fun a => { a with h := 1 }))),
   b.heatmaps.map (List.map (fun m => { m with arr := { m.arr with h := 1 }, shape := ⟨1, m.shape.w⟩ })),
   b.segmaps.map (List.map (fun m => { m with arr := { m.arr with h := 1 }, shape := ⟨1, m.shape.w⟩ })),
   b.keypoints.map (List.map (fun k => { k with shape := ⟨1, k.shape.w⟩ }))⟩

/-- A batch for the examples. -/
def demoBatch : Batch :=
  ⟨some (true, [demoIm ⟨.u, 1⟩ (some 3), demoIm ⟨.u, 1⟩ (some 3)]), none,
   some [⟨false, demoIm ⟨.i, 4⟩ (some 1), ⟨2, 3⟩⟩, ⟨false, demoIm ⟨.i, 4⟩ (some 1), ⟨2, 3⟩⟩],
   some [⟨[⟨1, 1 / 2⟩], ⟨2, 3⟩⟩, ⟨[], ⟨2, 3⟩⟩]⟩

/-- C75: every image gets back the height and width it had before the children, keeping dtype and channels of the children's output;
images for which `NO_RESIZE` was drawn are the children's output as it is. -/
theorem images_restored (cv : Cv) (child : Batch → Batch) (imgs : List ImgIp) (heat seg : Option (List MapIp)) (b r : Batch)
    (h : augment cv child imgs heat seg b = some r) (wa wa' : Bool) (l l' : List Im)
    (hb : b.images = some (wa, l)) (hc : (child b).images = some (wa', l')) (hl : l'.length = l.length) (hi : imgs.length = l.length) :
    ∃ wa'' l'', r.images = some (wa'', l'') ∧ l''.length = l.length ∧
      ∀ (i : Nat) (a a' : Im) (ip : ImgIp), l[i]? = some a → l'[i]? = some a' → imgs[i]? = some ip →
        ∃ a'', l''[i]? = some a'' ∧ (ip = none → a'' = a') ∧
          (ip ≠ none → a''.h = a.h ∧ a''.w = a.w ∧ a''.c = a'.c ∧ a''.dt = a'.dt) := by
  obtain ⟨h1, _, _, _⟩ := augment_columns h
  rw [hb, hc] at h1
  obtain ⟨⟨wa'', l''⟩, e, hk⟩ := column_some h1
  simp only [keepImages, Option.map_eq_some_iff, Prod.mk.injEq] at hk
  obtain ⟨x, hx, _, rfl⟩ := hk
  refine ⟨wa'', x, e, ?_, ?_⟩
  · rw [loop_len hx (by omega) (by simp [hl]), hl]
  · intro i a a' ip ha ha' hip
    obtain ⟨a'', hw, hf⟩ := loop_get hx ha' hip (z := (a.h, a.w)) (by simp [ha])
    refine ⟨a'', hw, ?_, ?_⟩
    · rintro rfl
      simp only [keepImage, Option.some.injEq] at hf
      exact hf.symm
    · intro hne
      cases ip with
      | none => exact absurd rfl hne
      | some j =>
        obtain ⟨e1, e2, e3, e4⟩ := resized_int cv _ _ _ _ _ hf
        exact ⟨e3, e4, e2, e1⟩

example : (augment demoCv demoChild [some .cubic, none] none (some [.own (some .nearest), .sameAsImages]) demoBatch).bind
      (fun r => r.images.map (fun p => (p.1, p.2.map (fun a => (a.h, a.w))))) = some (false, [(2, 3), (1, 3)]) := by
  decide +kernel

/-- C75: images that came in one array leave in one array exactly if they all have the same shape; images that came in a list leave in a list. -/
theorem images_stacked (cv : Cv) (child : Batch → Batch) (imgs : List ImgIp) (heat seg : Option (List MapIp)) (b r : Batch)
    (h : augment cv child imgs heat seg b = some r) (wa wa' wa'' : Bool) (l l' l'' : List Im)
    (hb : b.images = some (wa, l)) (hc : (child b).images = some (wa', l')) (hr : r.images = some (wa'', l'')) :
    wa'' = true ↔ wa = true ∧ l'' ≠ [] ∧ ∀ a ∈ l'', ∀ a' ∈ l'', a.shape = a'.shape := by
  obtain ⟨h1, _, _, _⟩ := augment_columns h
  rw [hb, hc] at h1
  obtain ⟨⟨wx, lx⟩, e, hk⟩ := column_some h1
  simp only [keepImages, Option.map_eq_some_iff, Prod.mk.injEq] at hk
  obtain ⟨x, hx, hs, rfl⟩ := hk
  rw [hr, Option.some.injEq, Prod.mk.injEq] at e
  obtain ⟨rfl, rfl⟩ := e
  rw [← hs]
  simp only [stacked, Bool.and_eq_true, beq_iff_eq]
  refine and_congr_right (fun _ => ?_)
  rw [List.length_eq_one_iff]
  constructor
  · rintro ⟨s, hs⟩
    have hm : ∀ a ∈ l'', a.shape = s := by
      intro a ha
      have : a.shape ∈ (l''.map (·.shape)).dedup := List.mem_dedup.mpr (List.mem_map_of_mem ha)
      rw [hs] at this
      exact List.mem_singleton.mp this
    refine ⟨?_, fun a ha a' ha' => by rw [hm a ha, hm a' ha']⟩
    rintro rfl
    simp at hs
  · rintro ⟨hne, hall⟩
    obtain ⟨a, t, rfl⟩ := List.exists_cons_of_ne_nil hne
    refine ⟨a.shape, ?_⟩
    have hrep : (List.map (·.shape) (a :: t)) = List.replicate (t.length + 1) a.shape := by
      rw [List.eq_replicate_iff]
      refine ⟨by simp, ?_⟩
      intro s hs
      obtain ⟨a', ha', rfl⟩ := List.mem_map.mp hs
      exact hall a' ha' a (by simp)
    rw [hrep, List.replicate_dedup (by omega)]

/-- C75: keypoints get back the shape of their image, and each of them keeps its position relative to the image; keypoints of images for which
`NO_RESIZE` was drawn are the children's output as it is. -/
theorem keypoints_restored (cv : Cv) (child : Batch → Batch) (imgs : List ImgIp) (heat seg : Option (List MapIp)) (b r : Batch)
    (h : augment cv child imgs heat seg b = some r) (l l' : List KPsOnImage)
    (hb : b.keypoints = some l) (hc : (child b).keypoints = some l') (hl : l'.length = l.length) (hi : imgs.length = l.length) :
    ∃ l'', r.keypoints = some l'' ∧ l''.length = l.length ∧
      ∀ (i : Nat) (k k' : KPsOnImage) (ip : ImgIp), l[i]? = some k → l'[i]? = some k' → imgs[i]? = some ip →
        ∃ k'', l''[i]? = some k'' ∧ (ip = none → k'' = k') ∧
          (ip ≠ none → k''.shape = k.shape ∧ k''.kps.length = k'.kps.length ∧
            ∀ (j : Nat) (p : Pt), k'.kps[j]? = some p → ∃ q, k''.kps[j]? = some q ∧
              q.x * k'.shape.w = p.x * k.shape.w ∧ q.y * k'.shape.h = p.y * k.shape.h) := by
  obtain ⟨_, _, _, h1⟩ := augment_columns h
  rw [hb, hc] at h1
  obtain ⟨x, e, hx⟩ := column_some h1
  refine ⟨x, e, ?_, ?_⟩
  · rw [loop_len hx (by omega) (by simp [hl]), hl]
  · intro i k k' ip hk hk' hip
    obtain ⟨k'', hw, hf⟩ := loop_get hx hk' hip (z := k.shape) (by simp [hk])
    refine ⟨k'', hw, ?_, ?_⟩
    · rintro rfl
      simp only [keepKps, Option.some.injEq] at hf
      exact hf.symm
    · intro hne
      cases ip with
      | none => exact absurd rfl hne
      | some j =>
        simp only [keepKps] at hf
        obtain ⟨h2, h3⟩ := on_points k' k'' k.shape hf
        exact ⟨on_shape _ _ _ hf, h2, h3⟩

example : (augment demoCv demoChild [some .cubic, none] none (some [.own (some .nearest), .sameAsImages]) demoBatch).bind
      (·.keypoints) = some [⟨[⟨1, 1⟩], ⟨2, 3⟩⟩, ⟨[], ⟨1, 3⟩⟩] := by
  decide +kernel

/-- C75: images and keypoints stay together: if the shapes of the keypoints are those of the images before and after the children, then so they are
in the end, whatever was drawn. -/
theorem images_and_keypoints_fit (cv : Cv) (child : Batch → Batch) (imgs : List ImgIp) (heat seg : Option (List MapIp)) (b r : Batch)
    (h : augment cv child imgs heat seg b = some r) (wa wa' wa'' : Bool) (l l' l'' : List Im) (ks ks' ks'' : List KPsOnImage)
    (hb : b.images = some (wa, l)) (hc : (child b).images = some (wa', l')) (hr : r.images = some (wa'', l''))
    (kb : b.keypoints = some ks) (kc : (child b).keypoints = some ks') (kr : r.keypoints = some ks'')
    (hi : imgs.length = l.length)
    (fit : ks.map (·.shape) = l.map (fun a => ⟨a.h, a.w⟩)) (fit' : ks'.map (·.shape) = l'.map (fun a => ⟨a.h, a.w⟩))
    (hl : l'.length = l.length) :
    ks''.map (·.shape) = l''.map (fun a => ⟨a.h, a.w⟩) := by
  have hk : ks.length = l.length := by simpa using congrArg List.length fit
  have hk' : ks'.length = l'.length := by simpa using congrArg List.length fit'
  obtain ⟨w1, m1, e1, len1, H1⟩ := images_restored cv child imgs heat seg b r h wa wa' l l' hb hc hl hi
  obtain ⟨m2, e2, len2, H2⟩ := keypoints_restored cv child imgs heat seg b r h ks ks' kb kc (by omega) (by omega)
  rw [hr, Option.some.injEq, Prod.mk.injEq] at e1
  rw [kr, Option.some.injEq] at e2
  obtain ⟨_, rfl⟩ := e1
  subst e2
  apply List.ext_getElem?
  intro i
  by_cases hlt : i < l.length
  · obtain ⟨a'', p1, p2, p3⟩ := H1 i l[i] l'[i] imgs[i] (by simp [hlt]) (List.getElem?_eq_getElem _) (List.getElem?_eq_getElem _)
    obtain ⟨k'', q1, q2, q3⟩ := H2 i ks[i] ks'[i] imgs[i] (List.getElem?_eq_getElem _) (List.getElem?_eq_getElem _)
      (List.getElem?_eq_getElem _)
    rw [List.getElem?_map, List.getElem?_map, p1, q1, Option.map_some, Option.map_some]
    have f1 : ks[i].shape = ⟨l[i].h, l[i].w⟩ := by
      have := congrArg (fun t => t[i]?) fit
      simpa [hlt, hk] using this
    have f2 : ks'[i].shape = ⟨l'[i].h, l'[i].w⟩ := by
      have := congrArg (fun t => t[i]?) fit'
      simpa [hlt, hk, hk', hl] using this
    by_cases hip : imgs[i] = none
    · rw [p2 hip, q2 hip, f2]
    · rw [(q3 hip).1, f1, (p3 hip).1, (p3 hip).2.1]
  · rw [List.getElem?_eq_none (by simp; omega), List.getElem?_eq_none (by simp; omega)]

/-- The interpolation that counts for a map, given the one drawn for the image. -/
def effective (heat : Option MapIp) (img : ImgIp) : ImgIp :=
  match heat with
  | none => img
  | some .sameAsImages => img
  | some (.own ip) => ip

/-- C75: heatmaps get back the size of their array and the shape of their image, unless `NO_RESIZE` was drawn (for the heatmap, or for
the image if the heatmaps follow the images); their values stay in `[0, 1]`. -/
theorem heatmaps_restored (cv : Cv) (child : Batch → Batch) (imgs : List ImgIp) (heat seg : Option (List MapIp)) (b r : Batch)
    (h : augment cv child imgs heat seg b = some r) (l l' : List MapOn)
    (hb : b.heatmaps = some l) (hc : (child b).heatmaps = some l') (hl : l'.length = l.length) (hi : imgs.length = l.length)
    (hh : ∀ s, heat = some s → s.length = l.length) :
    ∃ l'', r.heatmaps = some l'' ∧ l''.length = l.length ∧
      ∀ (i : Nat) (m m' : MapOn) (ip : ImgIp), l[i]? = some m → l'[i]? = some m' → imgs[i]? = some ip →
        ∃ m'', l''[i]? = some m'' ∧ (effective (heat.bind (·[i]?)) ip = none → m'' = m') ∧
          (effective (heat.bind (·[i]?)) ip ≠ none →
            m''.arr.h = m.arr.h ∧ m''.arr.w = m.arr.w ∧ m''.arr.c = m'.arr.c ∧ m''.shape = m.shape ∧
            (m'.heat = true → ∀ y x k, 0 ≤ m''.arr.px y x k ∧ m''.arr.px y x k ≤ 1)) := by
  obtain ⟨_, h1, _, _⟩ := augment_columns h
  rw [hb, hc] at h1
  obtain ⟨x, e, hx⟩ := column_some h1
  have hlen : (mapSamples imgs heat).length = l.length := by
    cases heat with
    | none => simpa [mapSamples] using hi
    | some s => simp [mapSamples, hi, hh s rfl]
  refine ⟨x, e, ?_, ?_⟩
  · rw [loop_len hx (by omega) (by simp [hl]), hl]
  · intro i m m' ip hm hm' hip
    have hil : i < l.length := (List.getElem?_eq_some_iff.mp hm).1
    have hs : (mapSamples imgs heat)[i]? = some (effective (heat.bind (·[i]?)) ip) := by
      cases heat with
      | none => simpa [mapSamples, effective] using hip
      | some s =>
        have hsl := hh s rfl
        have hg : s[i]? = some s[i] := List.getElem?_eq_getElem _
        simp only [mapSamples, List.getElem?_map, Option.bind_some, hg]
        have hz : (s.zip imgs)[i]? = some (s[i], ip) := by
          rw [List.getElem?_zip_eq_some]
          exact ⟨hg, hip⟩
        rw [hz, Option.map_some]
        cases s[i] <;> rfl
    obtain ⟨m'', hw, hf⟩ := loop_get hx hm' hs (z := ((m.arr.h, m.arr.w), m.shape)) (by
      rw [List.getElem?_zip_eq_some]; simp [hm])
    refine ⟨m'', hw, ?_, ?_⟩
    · intro h0
      rw [h0] at hf
      simp only [keepMap, Option.some.injEq] at hf
      exact hf.symm
    · intro hne
      cases hj : effective (heat.bind (·[i]?)) ip with
      | none => exact absurd hj hne
      | some j =>
        rw [hj] at hf
        simp only [keepMap, resizeMap, Option.map_map, Option.map_eq_some_iff, Function.comp] at hf
        obtain ⟨ra, hra, rfl⟩ := hf
        obtain ⟨e1, e2, e3, e4⟩ := resized_int cv _ _ _ _ _ hra
        refine ⟨?_, ?_, ?_, rfl, ?_⟩
        · cases hheat : m'.heat <;> simp [e3]
        · cases hheat : m'.heat <;> simp [e4]
        · cases hheat : m'.heat <;> simp [e2]
        · intro hheat y x k
          simp only [hheat, if_true]
          exact ⟨le_min (le_max_right _ _) (by norm_num), min_le_right _ _⟩

/-- C75: segmentation maps get back the size of their array and the shape of their image, unless `NO_RESIZE` was drawn. -/
theorem segmaps_restored (cv : Cv) (child : Batch → Batch) (imgs : List ImgIp) (heat seg : Option (List MapIp)) (b r : Batch)
    (h : augment cv child imgs heat seg b = some r) (l l' : List MapOn)
    (hb : b.segmaps = some l) (hc : (child b).segmaps = some l') (hl : l'.length = l.length) (hi : imgs.length = l.length)
    (hh : ∀ s, seg = some s → s.length = l.length) :
    ∃ l'', r.segmaps = some l'' ∧ l''.length = l.length ∧
      ∀ (i : Nat) (m m' : MapOn) (ip : ImgIp), l[i]? = some m → l'[i]? = some m' → imgs[i]? = some ip →
        ∃ m'', l''[i]? = some m'' ∧ (effective (seg.bind (·[i]?)) ip = none → m'' = m') ∧
          (effective (seg.bind (·[i]?)) ip ≠ none →
            m''.arr.h = m.arr.h ∧ m''.arr.w = m.arr.w ∧ m''.arr.c = m'.arr.c ∧ m''.shape = m.shape) := by
  -- the code for both kinds of maps is the same: swap the roles
  have h1 := augment_columns h
  have hswap : augment cv (fun _ => ⟨none, (child b).segmaps, none, none⟩) imgs seg none ⟨none, b.segmaps, none, none⟩ =
      some ⟨none, r.segmaps, none, none⟩ := by
    unfold augment
    simp only [h1.2.2.1, Option.bind_some]
    rfl
  obtain ⟨l'', e, hlen, H⟩ := heatmaps_restored cv _ imgs seg none _ _ hswap l l' hb hc hl hi hh
  refine ⟨l'', e, hlen, fun i m m' ip hm hm' hip => ?_⟩
  obtain ⟨m'', p1, p2, p3⟩ := H i m m' ip hm hm' hip
  exact ⟨m'', p1, p2, fun hne => ⟨(p3 hne).1, (p3 hne).2.1, (p3 hne).2.2.1, (p3 hne).2.2.2.1⟩⟩

example : (augment demoCv demoChild [some .cubic, none] none (some [.own (some .nearest), .sameAsImages]) demoBatch).bind
      (fun r => r.segmaps.map (fun l => l.map (fun m => (m.arr.h, m.arr.w, m.shape)))) = some [(2, 3, ⟨2, 3⟩), (1, 3, ⟨1, 3⟩)] := by
  decide +kernel

/-- C75 (partial): images and heatmaps stay together if the heatmaps follow the images, which is the default (missing: own interpolations
of the maps, see `maps_and_images_apart`). -/
theorem images_and_heatmaps_fit_partial (cv : Cv) (child : Batch → Batch) (imgs : List ImgIp) (seg : Option (List MapIp)) (b r : Batch)
    (h : augment cv child imgs none seg b = some r) (wa wa' wa'' : Bool) (l l' l'' : List Im) (ms ms' ms'' : List MapOn)
    (hb : b.images = some (wa, l)) (hc : (child b).images = some (wa', l')) (hr : r.images = some (wa'', l''))
    (mb : b.heatmaps = some ms) (mc : (child b).heatmaps = some ms') (mr : r.heatmaps = some ms'')
    (hi : imgs.length = l.length)
    (fit : ms.map (·.shape) = l.map (fun a => ⟨a.h, a.w⟩)) (fit' : ms'.map (·.shape) = l'.map (fun a => ⟨a.h, a.w⟩))
    (hl : l'.length = l.length) :
    ms''.map (·.shape) = l''.map (fun a => ⟨a.h, a.w⟩) := by
  have hk : ms.length = l.length := by simpa using congrArg List.length fit
  have hk' : ms'.length = l'.length := by simpa using congrArg List.length fit'
  obtain ⟨w1, m1, e1, len1, H1⟩ := images_restored cv child imgs none seg b r h wa wa' l l' hb hc hl hi
  obtain ⟨m2, e2, len2, H2⟩ := heatmaps_restored cv child imgs none seg b r h ms ms' mb mc (by omega) (by omega) (by simp)
  rw [hr, Option.some.injEq, Prod.mk.injEq] at e1
  rw [mr, Option.some.injEq] at e2
  obtain ⟨_, rfl⟩ := e1
  subst e2
  apply List.ext_getElem?
  intro i
  by_cases hlt : i < l.length
  · obtain ⟨a'', p1, p2, p3⟩ := H1 i l[i] l'[i] imgs[i] (by simp [hlt]) (List.getElem?_eq_getElem _) (List.getElem?_eq_getElem _)
    obtain ⟨k'', q1, q2, q3⟩ := H2 i ms[i] ms'[i] imgs[i] (List.getElem?_eq_getElem _) (List.getElem?_eq_getElem _)
      (List.getElem?_eq_getElem _)
    rw [List.getElem?_map, List.getElem?_map, p1, q1, Option.map_some, Option.map_some]
    have f1 : ms[i].shape = ⟨l[i].h, l[i].w⟩ := by
      have := congrArg (fun t => t[i]?) fit
      simpa [hlt, hk] using this
    have f2 : ms'[i].shape = ⟨l'[i].h, l'[i].w⟩ := by
      have := congrArg (fun t => t[i]?) fit'
      simpa [hlt, hk, hk', hl] using this
    by_cases hip : imgs[i] = none
    · rw [p2 hip, q2 (by simpa [effective] using hip), f2]
    · rw [(q3 (by simpa [effective] using hip)).2.2.2.1, f1, (p3 hip).1, (p3 hip).2.1]
  · rw [List.getElem?_eq_none (by simp; omega), List.getElem?_eq_none (by simp; omega)]

/-- C75 is false for maps with an interpolation of their own. With `interpolation=NO_RESIZE` and the default `interpolation_segmaps="nearest"` the
image keeps the size that the children gave it (1 × 3) while its segmentation map is scaled back and claims to belong to an image of 2 × 3. -/
theorem maps_and_images_apart :
    (augment demoCv demoChild [none, none] none (some [.own (some .nearest), .own (some .nearest)]) demoBatch).bind
      (fun r => r.images.map (fun p => p.2.map (fun a => (a.h, a.w)))) = some [(1, 3), (1, 3)] ∧
    (augment demoCv demoChild [none, none] none (some [.own (some .nearest), .own (some .nearest)]) demoBatch).bind
      (fun r => r.segmaps.map (fun l => l.map (·.shape))) = some [⟨2, 3⟩, ⟨2, 3⟩] := by
  decide +kernel

/-- C75: segmentation maps are `int32` arrays, which can be resized by nearest neighbour interpolation only: with any other method (for example if
they follow images that are resized by the default method `cubic`) the call fails as soon as an array has to change its size. -/
theorem segmaps_need_nearest (cv : Cv) (m : MapOn) (i : Inter) (hi : i ≠ .nearest) (ho wo : Nat) (img : Shape)
    (hd : m.arr.dt = ⟨.i, 4⟩) (hc : m.arr.c ≠ some 0) (h0 : 0 < ho) (w0 : 0 < wo) (hne : ¬ (ho = m.arr.h ∧ wo = m.arr.w)) :
    keepMap cv m (some i) (ho, wo) img = none := by
  have h : single cv (some i) (.tuple [.int ho, .int wo]) m.arr = none := by
    rw [← Option.not_isSome_iff_eq_none, resize_succeeds]
    have hnot : (⟨.i, 4⟩ : Dtypes.DType) ∉ documented (some i == some .nearest) := by
      cases i
      · exact absurd rfl hi
      all_goals decide
    rw [hd]
    rintro (h | h | h | h | h)
    · exact hne h
    · omega
    · omega
    · exact hc h
    · exact hnot h.2.2
  simp only [keepMap, resizeMap, h, Option.map_none]

example : augment demoCv demoChild [some .cubic, some .cubic] none none demoBatch = none := by
  have h : (augment demoCv demoChild [some .cubic, some .cubic] none none demoBatch).isNone := by decide +kernel
  exact Option.isNone_iff_eq_none.mp h

/-- C75: nothing happens to images and keypoints whose sizes the children kept. -/
theorem same_sizes_kept (cv : Cv) (im : Im) (k : KPsOnImage) (ip : ImgIp) :
    keepImage cv im ip (im.h, im.w) = some im ∧ keepKps k ip k.shape = some k := by
  constructor
  · cases ip with
    | none => rfl
    | some i => exact same_size_kept cv (some i) im
  · cases ip with
    | none => rfl
    | some i => simp [keepKps, KPsOnImage.on]

/-- C75: children must not add annotations to a batch: the sizes to restore were not recorded for them. -/
theorem added_columns_rejected (cv : Cv) (child : Batch → Batch) (imgs : List ImgIp) (heat seg : Option (List MapIp)) (b : Batch)
    (h : (b.images = none ∧ (child b).images ≠ none) ∨ (b.heatmaps = none ∧ (child b).heatmaps ≠ none) ∨
      (b.segmaps = none ∧ (child b).segmaps ≠ none) ∨ (b.keypoints = none ∧ (child b).keypoints ≠ none)) :
    augment cv child imgs heat seg b = none := by
  have key : ∀ {α β : Type} (f : α → β → Option β) (x : Option α) (y : Option β), x = none → y ≠ none → column f x y = none := by
    intro α β f x y hx hy
    subst hx
    cases y with
    | none => exact absurd rfl hy
    | some v => rfl
  unfold augment
  simp only
  rcases h with ⟨h1, h2⟩ | ⟨h1, h2⟩ | ⟨h1, h2⟩ | ⟨h1, h2⟩
  · rw [key _ _ _ h1 h2]; rfl
  · rw [key _ _ _ h1 h2]
    cases column (fun (s : Bool × List Im) v => keepImages cv v.2 (s.2.map (fun a => (a.h, a.w))) s.1 imgs) b.images (child b).images <;> rfl
  · rw [key _ _ _ h1 h2]
    simp
  · rw [key _ _ _ h1 h2]
    simp

example : augment demoCv (fun b => { b with keypoints := some [] }) [] none none ⟨none, none, none, none⟩ = none := rfl

end Imgaug.KeepSize
