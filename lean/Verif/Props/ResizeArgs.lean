import Verif.Proofs.ResizeArgs
import Verif.Props.Size3
import Verif.Props.Coords2
import Verif.Props.Resize
/-! Property C105: the augmenter `Resize`. -/
namespace Imgaug.ResizeArgs
open Imgaug Imgaug.Params Imgaug.Resize Imgaug.KeepSize
open Imgaug.Size (SizeArg computeHeightWidth resizeMapSize resolveSize)
open Imgaug.AffineArgs (Sampler Ok int float ints floats)

variable {σ : Type}

/-- C105: exactly the documented arguments are accepted, apart from superfluous keys of dictionaries, see `superfluous_keys`. -/
theorem resize_accepts (a : SArg) (i : IArg) : (init a i).isSome = true ↔ a.Good ∧ i ≠ .other := by
  rw [← sizeArg_isSome]
  unfold init
  cases sizeArg a with
  | none => simp
  | some c => cases i <;> simp [interArg]

example : SArg.Good (.dict ⟨some (.val (floats (1 / 2) (3 / 4))), some .ratio, none, none, false⟩) ∧
    ¬ SArg.Good (.one (.val (.iter [.num ⟨true, 3⟩, .num ⟨false, 1 / 2⟩]))) ∧ ¬ SArg.Good (.dict ⟨some .ratio, some .ratio, none, none, false⟩) := by
  refine ⟨Or.inr (Or.inr ⟨⟨_, _, rfl, by norm_num, by norm_num⟩, rfl⟩), ?_, ?_⟩
  · rintro ⟨ns, h, -, h3⟩
    match ns, h, h3 with
    | [a, b], h, h3 =>
      simp only [List.map_cons, List.map_nil, List.cons.injEq, Atom.num.injEq, and_true] at h
      obtain ⟨rfl, rfl⟩ := h
      simp at h3
  · rintro (h | h | h)
    · exact h.1
    · exact h.2
    · exact h.1

/-- C105 is false for dictionaries with keys that are not known beside known ones, or with keys for the axes and for the sides: these are
not rejected but ignored. -/
theorem superfluous_keys (d : Dict) (h : d.height.isSome = true ∨ d.width.isSome = true) :
    sizeArg (.dict d) = sizeArg (.dict ⟨d.height, d.width, none, none, false⟩) := by
  obtain ⟨a, b, s, l, o⟩ := d
  cases a <;> cases b <;> cases s <;> cases l <;> cases o <;> simp [sizeArg] at h ⊢

example : (sizeArg (.dict ⟨some (.val (int 32)), none, some (.val (int 16)), none, true⟩)).isSome = true := by decide +kernel

/-- C105: each row gets sizes and a method as requested: numbers within pairs, elements of lists; without a dictionary both axes get the same. -/
theorem resize_requested (P : Nat → SizeArg → Prop) (Q : Nat → Option Inter → Prop) (a : SArg) (hw : a.Whole) (i : IArg) (c : Aug)
    (h : init a i = some c) (S : Sampler σ Dist SizeArg) (M : Sampler σ IDist (Option Inter)) (hS : Ok (Dist.Supports P) S)
    (hM : Ok (IDist.Supports Q) M) (n : Nat) (g : σ) :
    (drawSamples S M c n g).length = n ∧ ∀ r ∈ drawSamples S M c n g, Requested P Q a i c.sl r := by
  obtain ⟨cs, hcs, h⟩ := Option.bind_eq_some_iff.1 h
  obtain ⟨ci, hci, rfl⟩ := Option.map_eq_some_iff.1 h
  refine ⟨by simp [drawSamples], ?_⟩
  intro r hr
  unfold drawSamples at hr
  simp only [List.mem_map, List.mem_range] at hr
  obtain ⟨k, hk, rfl⟩ := hr
  have key : ∀ x y : SizeArg, cs.1.fst.Supports P x → cs.1.snd.Supports P y → ((∀ d, a ≠ .dict d) → x = y) → ∀ j, ci.Supports Q j →
      Requested P Q a i cs.2 ⟨x, y, j⟩ := by
    intro x y hx hy hxy j hj
    refine ⟨fun s => ?_, fun s => ?_, hxy, inter_allows Q i ci hci j hj⟩
    · exact (sizeArg_allows P a hw cs hcs x y hx hy s).1
    · exact (sizeArg_allows P a hw cs hcs x y hx hy s).2
  obtain ⟨cc, sl⟩ := cs
  cases cc with
  | same d =>
    exact key _ _ (AffineArgs.sample_ok hS d n g k hk _) (AffineArgs.sample_ok hS d n g k hk _) (fun _ => rfl) _
      (AffineArgs.sample_ok hM ci n _ k hk _)
  | each x y =>
    refine key _ _ (AffineArgs.sample_ok hS x n g k hk _) (AffineArgs.sample_ok hS y n _ k hk _) (fun hd => ?_) _
      (AffineArgs.sample_ok hM ci n _ k hk _)
    cases a with
    | one v => simp [sizeArg] at hcs
    | dict d => exact absurd rfl (hd d)

/-- The samplers that are used in the examples do what is assumed. -/
example : Ok (Dist.Supports (fun _ s => s = .keep)) alternating ∧ Ok (IDist.Supports (fun _ j => j = none)) alternatingInter :=
  ⟨alternating_ok, alternatingInter_ok⟩

example : ∃ c, init (.dict ⟨none, none, some (.val (ints 16 22)), some .ratio, false⟩) .all = some c ∧
    (drawSamples alternating alternatingInter c 2 0) = [⟨.int 16, .keepAspectRatio, some .nearest⟩, ⟨.int 22, .keepAspectRatio, some .linear⟩] := by
  refine ⟨(init (.dict ⟨none, none, some (.val (ints 16 22)), some .ratio, false⟩) .all).get (by decide +kernel), (Option.some_get _).symm, by decide +kernel⟩

/-- C105: every image is resized to what is requested for its height and its width (a number of pixels, a fraction of the size, the size itself,
or what keeps the ratio), with the method of its row. The dtype and the channels stay. -/
theorem resize_images (P : Nat → SizeArg → Prop) (Q : Nat → Option Inter → Prop) (a : SArg) (ia : IArg) (sl : Bool) (cv : Cv) (rows : List Row)
    (hrows : ∀ r ∈ rows, Requested P Q a ia sl r) (b b' : Batch) (ar : Bool) (ims : List Im) (hb : b.images = some (ar, ims))
    (hlen : ims.length ≤ rows.length) (h : augment cv sl rows b = some b') :
    ∃ ar' ims', b'.images = some (ar', ims') ∧ ims'.length = ims.length ∧
      (ar' = true ↔ ar = true ∧ ims ≠ [] ∧ ∀ x ∈ ims', ∀ y ∈ ims', x.shape = y.shape) ∧
      ∀ (k : Nat) (im : Im), ims[k]? = some im → ∃ im' x y, ims'[k]? = some im' ∧ im'.dt = im.dt ∧ im'.c = im.c ∧
        Allows P (a.forHeight ⟨im.h, im.w⟩) x ∧ Allows P (a.forWidth ⟨im.h, im.w⟩) y ∧ ((∀ d, a ≠ .dict d) → x = y) ∧
        Becomes ⟨im.h, im.w⟩ x y ⟨im'.h, im'.w⟩ ∧
        ((im'.h, im'.w) ≠ (im.h, im.w) → 0 < im'.h → 0 < im'.w → im.c ≠ some 0 →
          ∃ i, ia.Allows Q (some i) ∧ single cv (some i) (.tuple [.int im'.h, .int im'.w]) im = some im') := by
  unfold augment at h
  obtain ⟨o1, h1, h⟩ := Option.bind_eq_some_iff.1 h
  obtain ⟨o2, h2, h⟩ := Option.bind_eq_some_iff.1 h
  obtain ⟨o3, h3, h⟩ := Option.bind_eq_some_iff.1 h
  obtain ⟨o4, h4, h⟩ := Option.bind_eq_some_iff.1 h
  cases h
  rw [hb] at h1 ⊢
  obtain ⟨l', rfl, hl', hget⟩ := column_get _ rows ims o1 h1
  have hll : l'.length = ims.length := by rw [hl']; exact min_eq_left hlen
  refine ⟨_, l', rfl, hll, ?_, ?_⟩
  · rw [show (some (ar, ims) : Option (Bool × List Im)).any Prod.fst = ar from rfl, stacked_iff]
    have : l' ≠ [] ↔ ims ≠ [] := by
      rw [← List.length_pos_iff, ← List.length_pos_iff, hll]
    rw [this]
  · intro k im hk
    obtain ⟨r, hr⟩ : ∃ r, rows[k]? = some r := by
      have : k < ims.length := (List.getElem?_eq_some_iff.1 hk).1
      exact ⟨rows[k]'(by omega), List.getElem?_eq_getElem _⟩
    obtain ⟨im', hk', hf⟩ := hget k im r hk hr
    have hreq := hrows r (List.mem_of_getElem? hr)
    obtain ⟨s, hs, hf⟩ := Option.bind_eq_some_iff.1 hf
    obtain ⟨i, hi, hf⟩ := Option.bind_eq_some_iff.1 hf
    obtain ⟨hdt, hc, hh, hw⟩ := resized_shape cv (some i) _ _ im im' hf
    have hh' : im'.h = s.h := by simpa [AsksFor] using hh
    have hw' : im'.w = s.w := by simpa [AsksFor] using hw
    have hbec := newShape_becomes sl ⟨im.h, im.w⟩ s r hs
    refine ⟨im', _, _, hk', hdt, hc, hreq.height ⟨im.h, im.w⟩, hreq.width ⟨im.h, im.w⟩, ?_, ?_, ?_⟩
    · intro hd
      have := hreq.same hd
      rw [this]
    · rw [hh', hw']; exact hbec
    · intro hne hp1 hp2 hc0
      refine ⟨i, ?_, by rw [hh', hw']; exact hf⟩
      have : r.inter = some i := by
        unfold method at hi
        cases hri : r.inter with
        | some j => rw [hri] at hi; exact hi
        | none =>
          rw [hri] at hi
          simp only at hi
          rw [if_neg] at hi
          · cases hi
          · rintro (⟨e1, e2⟩ | e | e | e)
            · exact hne (by rw [hh', hw', e1, e2])
            · omega
            · omega
            · exact hc0 e
      rw [← this]; exact hreq.inter

/-- C105: keypoints and maps follow the image: if they belong to an image of the batch, they get the shape of the resized image, keypoints keep their
position relative to it, and the arrays of maps are resized by the same factor, to within half a pixel (or to one pixel). -/
theorem resize_aligned (sl : Bool) (cv : Cv) (rows : List Row) (b b' : Batch) (h : augment cv sl rows b = some b')
    (ar : Bool) (ims : List Im) (hb : b.images = some (ar, ims)) (k : Nat) (im : Im) (hk : ims[k]? = some im) (hlen : ims.length ≤ rows.length)
    (h0 : 0 < im.h) (w0 : 0 < im.w) :
    ∃ ar' ims' im', b'.images = some (ar', ims') ∧ ims'[k]? = some im' ∧
      (∀ ks ko, b.keypoints = some ks → ks[k]? = some ko → ko.shape = ⟨im.h, im.w⟩ →
        ∃ ks' ko', b'.keypoints = some ks' ∧ ks'[k]? = some ko' ∧ ko'.shape = ⟨im'.h, im'.w⟩ ∧
          List.Forall₂ (fun (p q : Pt) => q.x * im.w = p.x * im'.w ∧ q.y * im.h = p.y * im'.h) ko.kps ko'.kps) ∧
      (∀ ms m, b.heatmaps = some ms → ms[k]? = some m → m.shape = ⟨im.h, im.w⟩ →
        ∃ ms' m', b'.heatmaps = some ms' ∧ ms'[k]? = some m' ∧ MapFollows im im' m m') ∧
      (∀ ms m, b.segmaps = some ms → ms[k]? = some m → m.shape = ⟨im.h, im.w⟩ →
        ∃ ms' m', b'.segmaps = some ms' ∧ ms'[k]? = some m' ∧ MapFollows im im' m m') := by
  unfold augment at h
  obtain ⟨o1, h1, h⟩ := Option.bind_eq_some_iff.1 h
  obtain ⟨o2, h2, h⟩ := Option.bind_eq_some_iff.1 h
  obtain ⟨o3, h3, h⟩ := Option.bind_eq_some_iff.1 h
  obtain ⟨o4, h4, h⟩ := Option.bind_eq_some_iff.1 h
  cases h
  rw [hb] at h1
  obtain ⟨l', rfl, hl', hget⟩ := column_get _ rows ims o1 h1
  obtain ⟨r, hr⟩ : ∃ r, rows[k]? = some r := by
    have : k < ims.length := (List.getElem?_eq_some_iff.1 hk).1
    exact ⟨rows[k]'(by omega), List.getElem?_eq_getElem _⟩
  obtain ⟨im', hk', hf⟩ := hget k im r hk hr
  obtain ⟨s, hs, hf⟩ := Option.bind_eq_some_iff.1 hf
  obtain ⟨i, hi, hf⟩ := Option.bind_eq_some_iff.1 hf
  obtain ⟨hdt, hc, hh, hw⟩ := resized_shape cv (some i) _ _ im im' hf
  have hh' : im'.h = s.h := by simpa [AsksFor] using hh
  have hw' : im'.w = s.w := by simpa [AsksFor] using hw
  refine ⟨_, l', im', rfl, hk', ?_, ?_, ?_⟩
  · intro ks ko e1 e2 e3
    rw [e1] at h4
    obtain ⟨ks', rfl, _, hg⟩ := column_get _ rows ks o4 h4
    obtain ⟨ko', e4, e5⟩ := hg k ko r e2 hr
    unfold kpsStep at e5
    rw [e3, hs] at e5
    obtain ⟨e6, e7⟩ := on_relative ko ko' s e5
    rw [e3] at e7
    refine ⟨ks', ko', rfl, e4, by rw [e6, hh', hw'], ?_⟩
    rw [hh', hw']; exact e7
  · intro ms m e1 e2 e3
    rw [e1] at h2
    obtain ⟨ms', rfl, _, hg⟩ := column_get _ rows ms o2 h2
    obtain ⟨m', e4, e5⟩ := hg k m r e2 hr
    exact ⟨ms', m', rfl, e4, mapStep_follows cv sl m m' r im im' s e3 h0 w0 hs hh' hw' e5⟩
  · intro ms m e1 e2 e3
    rw [e1] at h3
    obtain ⟨ms', rfl, _, hg⟩ := column_get _ rows ms o3 h3
    obtain ⟨m', e4, e5⟩ := hg k m r e2 hr
    exact ⟨ms', m', rfl, e4, mapStep_follows cv sl m m' r im im' s e3 h0 w0 hs hh' hw' e5⟩

/-- C105: the number of images, maps and keypoint lists stays, and columns that are missing stay missing. -/
theorem resize_columns (sl : Bool) (cv : Cv) (rows : List Row) (b b' : Batch) (h : augment cv sl rows b = some b')
    (hl : ∀ n, (b.images.map (fun p => p.2.length) = some n ∨ b.heatmaps.map List.length = some n ∨ b.segmaps.map List.length = some n ∨
      b.keypoints.map List.length = some n) → n = rows.length) :
    b'.images.map (fun p => p.2.length) = b.images.map (fun p => p.2.length) ∧ b'.heatmaps.map List.length = b.heatmaps.map List.length ∧
    b'.segmaps.map List.length = b.segmaps.map List.length ∧ b'.keypoints.map List.length = b.keypoints.map List.length := by
  have key : ∀ {α : Type} (f : α → Row → Option α) (c : Option (List α)) (o : Option (List α)), column f rows c = some o →
      (∀ n, c.map List.length = some n → n = rows.length) → o.map List.length = c.map List.length := by
    intro α f c o hc hn
    cases c with
    | none => cases hc; rfl
    | some l =>
      obtain ⟨l', rfl, e, _⟩ := column_get f rows l o hc
      have := hn l.length rfl
      simp only [Option.map_some, Option.some.injEq]
      omega
  unfold augment at h
  obtain ⟨o1, h1, h⟩ := Option.bind_eq_some_iff.1 h
  obtain ⟨o2, h2, h⟩ := Option.bind_eq_some_iff.1 h
  obtain ⟨o3, h3, h⟩ := Option.bind_eq_some_iff.1 h
  obtain ⟨o4, h4, h⟩ := Option.bind_eq_some_iff.1 h
  cases h
  refine ⟨?_, key _ _ _ h2 (fun n hn => hl n (Or.inr (Or.inl hn))), key _ _ _ h3 (fun n hn => hl n (Or.inr (Or.inr (Or.inl hn)))),
    key _ _ _ h4 (fun n hn => hl n (Or.inr (Or.inr (Or.inr hn))))⟩
  have := key _ _ _ h1 (fun n hn => hl n (Or.inl (by simpa [Function.comp] using hn)))
  rw [Option.map_map] at this ⊢
  exact this

/-- C105 (partial): with documented arguments without "keep-aspect-ratio", images, maps and keypoints of any size (but not empty) are resized without
an exception, if their dtypes are among the documented ones. Missing: "keep-aspect-ratio", with which an image may become empty. -/
theorem resize_works_partial (P : Nat → SizeArg → Prop) (Q : Nat → Option Inter → Prop) (hP : ∀ i s, P i s → Size.Accepted s ∧ s ≠ .keepAspectRatio)
    (hQ : ∀ i j, Q i j → j ≠ none) (a : SArg) (hg : a.Good) (hn : ∀ s, a.forHeight s ≠ .ratio ∧ a.forWidth s ≠ .ratio) (ia : IArg)
    (hia : ia ≠ .one none ∧ ∀ l, ia = .list l → l ≠ [] ∧ none ∉ l) (sl : Bool) (cv : Cv) (rows : List Row)
    (hrows : ∀ r ∈ rows, Requested P Q a ia sl r) (b : Batch)
    (h1 : ∀ p, b.images = some p → ∀ im ∈ p.2, 0 < im.h ∧ 0 < im.w ∧ im.dt ∈ documented false)
    (h2 : ∀ ms, b.heatmaps = some ms → ∀ m ∈ ms, 0 < m.shape.h ∧ 0 < m.shape.w ∧ 0 < m.arr.h ∧ 0 < m.arr.w ∧ m.arr.dt ∈ documented false)
    (h3 : ∀ ms, b.segmaps = some ms → ∀ m ∈ ms, m.heat = false ∧ 0 < m.shape.h ∧ 0 < m.shape.w ∧ 0 < m.arr.h ∧ 0 < m.arr.w ∧ m.arr.dt ∈ documented true)
    (h4 : ∀ ks, b.keypoints = some ks → ∀ k ∈ ks, 0 < k.shape.h ∧ 0 < k.shape.w) :
    (augment cv sl rows b).isSome = true := by
  have hdoc : ∀ d, d ∈ documented false → ∀ i : Inter, d ∈ documented (some i == some .nearest) := by
    intro d hd i
    cases i <;> simp [documented] at hd ⊢ <;> tauto
  have shape : ∀ r ∈ rows, ∀ s : Shape, 0 < s.h → 0 < s.w → ∃ s' : Shape, newShape sl s r = some s' ∧ 0 < s'.h ∧ 0 < s'.w := by
    intro r hr s hh hw
    have hreq := hrows r hr
    have x1 := allows_accepted P hP _ (good_height a hg s) (hn s).1 _ (hreq.height s)
    have x2 := allows_accepted P hP _ (good_width a hg s) (hn s).2 _ (hreq.width s)
    obtain ⟨k, w, e, k1, w1, _⟩ := Imgaug.Size.resize_size_partial s _ _ x1.1 x2.1 x1.2 x2.2 hh hw
    refine ⟨⟨k.toNat, w.toNat⟩, ?_, by simp only; omega, by simp only; omega⟩
    unfold newShape
    have : computeHeightWidth ⟨s.h, s.w⟩ r.a r.b sl = some (k, w) := by
      rw [← e]
      obtain ⟨sh, sw⟩ := s
      cases sl
      · simp
      · by_cases hlt : sh < sw
        · simp [computeHeightWidth, hlt]
        · simp [computeHeightWidth, hlt]
    rw [this, Option.bind_some, if_pos ⟨by omega, by omega⟩]
  have meth : ∀ r ∈ rows, ∃ i, r.inter = some i := by
    intro r hr
    have := (hrows r hr).inter
    apply Option.ne_none_iff_exists'.1
    intro hc
    rw [hc] at this
    cases ia with
    | all => exact this rfl
    | one j => exact hia.1 (by rw [← (this : none = j)])
    | list l => exact (hia.2 l rfl).2 (this (hia.2 l rfl).1)
    | par k => exact hQ k none this rfl
    | other => exact this
  have col : ∀ {α : Type} (f : α → Row → Option α) (c : Option (List α)), (∀ l, c = some l → ∀ x ∈ l, ∀ r ∈ rows, (f x r).isSome = true) →
      ∃ o, column f rows c = some o := by
    intro α f c hc
    cases c with
    | none => exact ⟨none, rfl⟩
    | some l =>
      obtain ⟨l', hl'⟩ := mapM_exists (fun p : α × Row => f p.1 p.2) (l.zip rows) (fun p hp => hc l rfl p.1 (List.of_mem_zip hp).1 p.2 (List.of_mem_zip hp).2)
      exact ⟨some l', by simp only [column, hl', Option.map_some]⟩
  have mp : ∀ (m : MapOn) (r : Row), r ∈ rows → 0 < m.shape.h → 0 < m.shape.w → 0 < m.arr.h → 0 < m.arr.w →
      (m.heat = true → m.arr.dt ∈ documented false) → (m.heat = false → m.arr.dt ∈ documented true) → (mapStep cv sl m r).isSome = true := by
    intro m r hr a1 a2 a3 a4 a5 a6
    obtain ⟨s, hs, s1, s2⟩ := shape r hr m.shape a1 a2
    obtain ⟨i, hi⟩ := meth r hr
    unfold mapStep
    rw [hs, Option.bind_some]
    unfold resizeMapSize
    rw [if_neg (by simp only; omega), Option.bind_some, hi]
    have key : ∀ (j : Inter) (h' w' : Nat), m.arr.dt ∈ documented (some j == some .nearest) → ∃ x, resizeMap cv m j h' w' = some x := by
      intro j h' w' hd
      have := (resize_succeeds cv (some j) m.arr h' w').2 (Or.inr (Or.inr (Or.inr (Or.inr ⟨a3, a4, hd⟩))))
      obtain ⟨x, hx⟩ := Option.isSome_iff_exists.1 this
      exact ⟨_, by unfold resizeMap; rw [hx]; rfl⟩
    cases hh : m.heat with
    | true =>
      simp only [if_true, method, Option.bind_some]
      obtain ⟨x, hx⟩ := key i _ _ (hdoc _ (a5 hh) i)
      rw [hx]; rfl
    | false =>
      simp only [Bool.false_eq_true, if_false, Option.bind_some]
      obtain ⟨x, hx⟩ := key .nearest _ _ (by simpa using a6 hh)
      rw [hx]; rfl
  obtain ⟨o1, e1⟩ := col (imageStep cv sl) (b.images.map Prod.snd) (by
    intro l hl im him r hr
    obtain ⟨p, hp, rfl⟩ := Option.map_eq_some_iff.1 hl
    obtain ⟨d1, d2, d3⟩ := h1 p hp im him
    obtain ⟨s, hs, s1, s2⟩ := shape r hr ⟨im.h, im.w⟩ d1 d2
    obtain ⟨i, hi⟩ := meth r hr
    unfold imageStep
    rw [hs, Option.bind_some, hi]
    simp only [method, Option.bind_some]
    exact (resize_succeeds cv (some i) im s.h s.w).2 (Or.inr (Or.inr (Or.inr (Or.inr ⟨d1, d2, hdoc _ d3 i⟩)))))
  obtain ⟨o2, e2⟩ := col (mapStep cv sl) b.heatmaps (by
    intro l hl m hm r hr
    obtain ⟨d1, d2, d3, d4, d5⟩ := h2 l hl m hm
    exact mp m r hr d1 d2 d3 d4 (fun _ => d5) (fun _ => by simp [documented] at d5 ⊢; tauto))
  obtain ⟨o3, e3⟩ := col (mapStep cv sl) b.segmaps (by
    intro l hl m hm r hr
    obtain ⟨d0, d1, d2, d3, d4, d5⟩ := h3 l hl m hm
    exact mp m r hr d1 d2 d3 d4 (fun hc => by rw [d0] at hc; cases hc) (fun _ => d5))
  obtain ⟨o4, e4⟩ := col (kpsStep sl) b.keypoints (by
    intro l hl k hk r hr
    obtain ⟨d1, d2⟩ := h4 l hl k hk
    obtain ⟨s, hs, s1, s2⟩ := shape r hr k.shape d1 d2
    unfold kpsStep
    rw [hs, Option.bind_some]
    unfold KPsOnImage.on
    by_cases he : s = k.shape
    · rw [if_pos he]; rfl
    · rw [if_neg he, Option.isSome_map]
      obtain ⟨l', hl'⟩ := mapM_exists (fun p => projectPt p k.shape s) k.kps (fun p _ => by
        unfold projectPt
        rw [if_neg (Ne.symm he), if_pos ⟨d1, d2, s1, s2⟩]; rfl)
      rw [hl']; rfl)
  unfold augment
  rw [e1, Option.bind_some, e2, Option.bind_some, e3, Option.bind_some, e4]
  rfl

/-- The hypotheses on the arguments hold for the default method and a random size. -/
example : SArg.Good (.one (.val (floats (1 / 2) 2))) ∧ (∀ s, SArg.forHeight (.one (.val (floats (1 / 2) 2))) s ≠ .ratio ∧
    SArg.forWidth (.one (.val (floats (1 / 2) 2))) s ≠ .ratio) ∧
    Requested (fun _ _ => False) (fun _ _ => False) (.one (.val (floats (1 / 2) 2))) (.one (some .cubic)) false ⟨.float (3 / 2), .float (3 / 2), some .cubic⟩ := by
  refine ⟨⟨_, _, rfl, by norm_num, by norm_num⟩, fun s => ⟨by simp [SArg.forHeight], by simp [SArg.forWidth]⟩, ?_, ?_, fun _ => rfl, rfl⟩ <;>
  · intro s
    refine ⟨_, _, rfl, ?_⟩
    rw [if_neg (by simp)]
    exact ⟨3 / 2, by simp, by norm_num, by norm_num⟩

/-- C105 is false for "keep-aspect-ratio": a long image may become empty, and then its keypoints raise an exception. -/
theorem ratio_empties : init (.dict ⟨some (.val (int 1)), some .ratio, none, none, false⟩) .all = some ⟨.each (.num (.det ⟨true, 1⟩)) .ratio, false, .choice
      [some .nearest, some .linear, some .area, some .cubic]⟩ ∧
    newShape false ⟨10, 3⟩ ⟨.int 1, .keepAspectRatio, some .cubic⟩ = some ⟨1, 0⟩ ∧
    kpsStep false ⟨[⟨1, 5⟩], ⟨10, 3⟩⟩ ⟨.int 1, .keepAspectRatio, some .cubic⟩ = none := by
  decide +kernel

end Imgaug.ResizeArgs
