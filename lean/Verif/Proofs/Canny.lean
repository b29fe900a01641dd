import Verif.Spec.Canny
import Verif.Props.Blend
import Verif.Proofs.AffineArgs
import Verif.Proofs.Points
import Verif.Proofs.Num
/-! Lemmas for C113. -/
namespace Imgaug.Canny
open Imgaug Imgaug.Dtypes Imgaug.Params Imgaug.AffineArgs
open Imgaug.Blend (Img)
variable {σ : Type}

theorem whole_holds {v : ℚ} (h : Whole 0 255 v) : Holds ⟨.u, 1⟩ v := by
  obtain ⟨z, rfl, h0, h1⟩ := h
  exact Blend.holds_byte z h0 h1

theorem holds_whole {v : ℚ} (h : Holds ⟨.u, 1⟩ v) : Whole 0 255 v := by
  obtain ⟨h1, h2, h3⟩ := h
  obtain ⟨n, rfl⟩ := h3 (by decide)
  have e1 : lo ⟨.u, 1⟩ = 0 := by decide +kernel
  have e2 : hi ⟨.u, 1⟩ = 255 := by decide +kernel
  rw [e1] at h1
  rw [e2] at h2
  exact ⟨n, rfl, by exact_mod_cast h1, by exact_mod_cast h2⟩

theorem whole_bounds {v : ℚ} (h : Whole 0 255 v) : 0 ≤ v ∧ v ≤ 255 := by
  obtain ⟨z, rfl, h0, h1⟩ := h
  exact ⟨by exact_mod_cast h0, by exact_mod_cast h1⟩

theorem astype_whole {v : ℚ} (h : Whole 0 255 v) : astype ⟨.u, 1⟩ v = v := by
  obtain ⟨h1, h2, h3⟩ := whole_holds h
  exact AddMul.astype_holds _ v h1 h2 h3

theorem gray_whole (gray : ℚ → ℚ → ℚ → ℚ) (hg : GrayOk gray) (r g b : ℚ) (hr : Whole 0 255 r) (hG : Whole 0 255 g) (hb : Whole 0 255 b) :
    Whole 0 255 (astype ⟨.u, 1⟩ (gray r g b)) ∧
      |astype ⟨.u, 1⟩ (gray r g b) - (299 / 1000 * r + 587 / 1000 * g + 114 / 1000 * b)| < 101 / 100 := by
  obtain ⟨r0, r1⟩ := whole_bounds hr
  obtain ⟨g0, g1⟩ := whole_bounds hG
  obtain ⟨b0, b1⟩ := whole_bounds hb
  have h := abs_le.1 (hg r g b r0 r1 g0 g1 b0 b1)
  set y := gray r g b with hy
  have h0 : (0 : Int) ≤ pyInt y ∧ pyInt y ≤ 255 ∧ |((pyInt y : Int) : ℚ) - y| < 1 := by
    unfold pyInt
    split
    · rename_i hn
      have hf : ⌊-y⌋ = 0 := by
        rw [Int.floor_eq_iff]
        constructor
        · push_cast; linarith
        · push_cast; linarith
      rw [hf]
      refine ⟨by omega, by omega, ?_⟩
      rw [abs_lt]; push_cast
      constructor <;> linarith
    · rename_i hn
      have hf1 := Int.floor_le y
      have hf2 := Int.lt_floor_add_one y
      refine ⟨Int.floor_nonneg.2 (by linarith), ?_, ?_⟩
      · have : ((⌊y⌋ : Int) : ℚ) < 256 := by linarith
        have : ⌊y⌋ < 256 := by exact_mod_cast this
        omega
      · rw [abs_lt]
        constructor <;> linarith
  have e : astype ⟨.u, 1⟩ y = ((pyInt y : Int) : ℚ) := by
    have : astype ⟨.u, 1⟩ y = astype ⟨.u, 1⟩ ((pyInt y : Int) : ℚ) := by
      simp only [astype, pyInt_intCast]
    rw [this]
    exact astype_whole ⟨pyInt y, rfl, h0.1, h0.2.1⟩
  rw [e]
  refine ⟨⟨pyInt y, rfl, h0.1, h0.2.1⟩, ?_⟩
  have h3 := abs_lt.1 h0.2.2
  rw [abs_lt]
  constructor <;> linarith

/-- Three components of a color. -/
def IsColor (l : List ℚ) : Prop := l.length = 3 ∧ ∀ v ∈ l, Whole 0 255 v

theorem color_get {l : List ℚ} (h : IsColor l) (i : Nat) (hi : i < 3) : l[i]? = some (l.getD i 0) ∧ Whole 0 255 (l.getD i 0) := by
  have hl : i < l.length := by rw [h.1]; exact hi
  have e : l[i]? = some (l.getD i 0) := by
    rw [List.getD_eq_getElem?_getD, List.getElem?_eq_getElem hl]; rfl
  exact ⟨e, h.2 _ (List.mem_of_getElem? e)⟩

theorem painted_color (gray : ℚ → ℚ → ℚ → ℚ) (hg : GrayOk gray) (c : Nat) (hc : c = 1 ∨ c = 3 ∨ c = 4) (l : List ℚ) (h : IsColor l) (ch : Nat)
    (hch : ch < min c 3) : InColor c l ch (painted gray (min c 3) l ch) ∧ Whole 0 255 (painted gray (min c 3) l ch) := by
  have h3 : ch < 3 := by omega
  unfold painted InColor
  by_cases h1 : c = 1
  · subst h1
    have := gray_whole gray hg _ _ _ (color_get h 0 (by omega)).2 (color_get h 1 (by omega)).2 (color_get h 2 (by omega)).2
    rw [if_pos rfl, if_pos (by decide)]
    exact ⟨this, this.1⟩
  · rw [if_neg h1, if_neg (by omega)]
    obtain ⟨e, w⟩ := color_get h ch h3
    rw [astype_whole w]
    exact ⟨e, w⟩

theorem valid_get {im : Img} (h : im.Valid) {p ch : Nat} (hp : p < im.h * im.w) (hch : ch < im.c) :
    ∃ b, im.vals[p * im.c + ch]? = some b ∧ im.vals.getD (p * im.c + ch) 0 = b ∧ Holds im.dt b := by
  have hlt : p * im.c + ch < im.vals.length := by
    rw [h.2.1]
    have := Nat.mul_le_mul_right im.c (Nat.succ_le_of_lt hp)
    rw [Nat.succ_mul] at this
    omega
  refine ⟨im.vals[p * im.c + ch], List.getElem?_eq_getElem hlt, ?_, h.2.2.2 _ (List.getElem_mem hlt)⟩
  rw [List.getD_eq_getElem?_getD, List.getElem?_eq_getElem hlt]; rfl

theorem firstThree_ok (im : Img) (h : Picture im) : FirstThree im (firstThree im) := by
  obtain ⟨hv, hf, hd, hc⟩ := h
  have hget : ∀ p < im.h * im.w, ∀ ch < min im.c 3, (firstThree im).vals[p * min im.c 3 + ch]? = im.vals[p * im.c + ch]? := by
    intro p hp ch hch
    have := Points.flatMap_get (List.range (im.h * im.w)) (List.range (min im.c 3)) (fun p ch => im.vals.getD (p * im.c + ch) 0) p ch p ch
      (List.getElem?_range hp) (List.getElem?_range hch)
    rw [List.length_range] at this
    obtain ⟨b, hb, hb', -⟩ := valid_get hv hp (show ch < im.c by omega)
    rw [hb, ← hb']
    exact this
  have hlen : (firstThree im).vals.length = im.h * im.w * min im.c 3 := by
    have := Points.flatMap_len (List.range (im.h * im.w)) (List.range (min im.c 3)) (fun p ch => im.vals.getD (p * im.c + ch) 0)
    rw [List.length_range, List.length_range] at this
    exact this
  refine ⟨⟨hv.1, hlen, ?_, ?_⟩, hf, rfl, rfl, rfl, rfl, hget⟩
  · intro hfl
    have : im.flat = true := hfl
    rw [hf] at this
    cases this
  · intro v hvm
    simp only [firstThree, List.mem_flatMap, List.mem_range, List.mem_map] at hvm
    obtain ⟨p, hp, ch, hch, rfl⟩ := hvm
    obtain ⟨b, -, hb', hh⟩ := valid_get hv hp (show ch < im.c by omega)
    rw [hb']
    exact hh

theorem colorize_ok (gray : ℚ → ℚ → ℚ → ℚ) (hg : GrayOk gray) (im : Img) (h : Picture im) (edges : List Bool) (he : edges.length = im.h * im.w)
    (ct cf : List ℚ) (ht : IsColor ct) (hf : IsColor cf) :
    ∃ o, colorize gray edges im ct cf = some o ∧ o.flat = im.flat ∧ o.h = im.h ∧ o.w = im.w ∧ o.c = im.c ∧ o.dt = im.dt ∧ o.Valid ∧
      ∀ p e, edges[p]? = some e → ∀ ch < im.c, o.vals[p * im.c + ch]? =
        some (if ch = 3 then im.vals.getD (p * im.c + 3) 0 else painted gray (min im.c 3) (if e then ct else cf) ch) := by
  obtain ⟨hv, hfl, hd, hc⟩ := h
  have e : colorize gray edges im ct cf = some { im with vals := edges.zipIdx.flatMap (fun e => (List.range im.c).map (fun ch =>
    if ch = 3 then im.vals.getD (e.2 * im.c + 3) 0 else painted gray (min im.c 3) (if e.1 then ct else cf) ch)) } := by
    unfold colorize
    rw [if_neg (by rw [hfl]; decide), if_neg (by tauto), if_neg (by simp [hd])]
  refine ⟨_, e, rfl, rfl, rfl, rfl, rfl, ⟨hv.1, ?_, hv.2.2.1, ?_⟩, ?_⟩
  · have := Points.flatMap_len edges.zipIdx (List.range im.c) (fun e ch =>
      if ch = 3 then im.vals.getD (e.2 * im.c + 3) 0 else painted gray (min im.c 3) (if e.1 then ct else cf) ch)
    simp only [List.length_range, List.length_zipIdx, he] at this
    exact this
  · intro v hvm
    simp only [List.mem_flatMap, List.mem_range, List.mem_map] at hvm
    obtain ⟨q, hq, ch, hch, rfl⟩ := hvm
    have hq2 := List.mem_zipIdx hq
    have hlt : q.2 < im.h * im.w := by rw [← he]; omega
    split
    · subst_vars
      obtain ⟨b, -, hb', hh⟩ := valid_get hv hlt hch
      rw [hb']; exact hh
    · show Holds im.dt _
      rw [hd]
      have hch' : ch < min im.c 3 := by omega
      cases q.1
      · exact whole_holds (painted_color gray hg im.c hc cf hf ch hch').2
      · exact whole_holds (painted_color gray hg im.c hc ct ht ch hch').2
  · intro p e hp ch hch
    have hz : edges.zipIdx[p]? = some (e, p) := by simp [List.getElem?_zipIdx, hp]
    have := Points.flatMap_get edges.zipIdx (List.range im.c) (fun e ch =>
      if ch = 3 then im.vals.getD (e.2 * im.c + 3) 0 else painted gray (min im.c 3) (if e.1 then ct else cf) ch) p ch (e, p) ch
      hz (List.getElem?_range hch)
    rw [List.length_range] at this
    exact this

theorem mixed_same (eps a b : ℚ) (hb : Whole 0 255 b) : mixed eps a b b = b := by
  obtain ⟨z, rfl, -, -⟩ := hb
  unfold mixed
  have e : a * (z : ℚ) + (1 - a) * z = z := by ring
  rw [e, Imgaug.Props.npRound_int]
  split <;> [rfl; split <;> rfl]

theorem step_edged (cv : Lib) (hcv : cv.Ok) (gray : ℚ → ℚ → ℚ → ℚ) (hg : GrayOk gray) (eps : ℚ) (S : Sampler σ Handled ℚ) (c : Conf) (im : Img)
    (h : Picture im) (s : Sample) (ha : 0 ≤ s.alpha ∧ s.alpha ≤ 1) (hl : s.lower ≤ s.upper) (hk : s.sobel = 3 ∨ s.sobel = 5 ∨ s.sobel = 7)
    (hp : 0 < s.alpha) (hh : im.h ≠ 0) (hw : im.w ≠ 0) (g : σ)
    (ht : IsColor (S c.colorTrue 3 g).1) (hf : IsColor (S c.colorFalse 3 (S c.colorTrue 3 g).2).1) :
    ∃ out, step cv gray eps S c im s g = some (out, (S c.colorFalse 3 (S c.colorTrue 3 g).2).2) ∧
      Edged cv eps im s.alpha s.lower s.upper s.sobel (S c.colorTrue 3 g).1 (S c.colorFalse 3 (S c.colorTrue 3 g).2).1 out := by
  have h' := h
  obtain ⟨hv, hfl, hd, hc⟩ := h'
  have h3 := firstThree_ok im h
  obtain ⟨edges, he, hel⟩ := hcv (firstThree im) s.lower s.upper s.sobel h3.1 (by rw [h3.2.2.1, hd])
    (by have := h3.2.2.2.2.2.1; rw [this]; omega) (by rw [h3.2.2.2.1]; exact hh) (by rw [h3.2.2.2.2.1]; exact hw) hl hk
  have hel' : edges.length = im.h * im.w := hel
  obtain ⟨o, ho, o1, o2, o3, o4, o5, o6, o7⟩ := colorize_ok gray hg im h edges hel' _ _ ht hf
  have hne : o.vals ≠ [] := by
    intro hn
    have := o6.2.1
    rw [hn, o2, o3, o4] at this
    simp only [List.length_nil] at this
    have : 0 < im.h * im.w * im.c := Nat.mul_pos (Nat.mul_pos (by omega) (by omega)) (by omega)
    omega
  have hb : Blend.Blendable o im := ⟨o6, hv, o1, o2, o3, o4, by rw [o5], by rw [o5, hd]; decide, by rw [hd]; decide⟩
  obtain ⟨r, hr, r1, -, r2, r3⟩ := Blend.Props.blend_partial eps o im hb (by rw [o5, hd]; decide) ⟨[], [s.alpha]⟩ (.number [] s.alpha)
    (by simpa using ha) (by simp [Blend.Alpha.IsMap]) hne
  have hrd : r.dt = im.dt := by
    rw [r2, o5]
    split
    · rfl
    · split
      · rfl
      · simp [Blend.larger]
  have hstep : step cv gray eps S c im s g = some ({ im with dt := r.dt, vals := r.vals }, (S c.colorFalse 3 (S c.colorTrue 3 g).2).2) := by
    unfold step
    rw [if_neg (by tauto), if_pos ⟨hp, by rcases hk with e | e | e <;> rw [e] <;> norm_num, by tauto⟩]
    simp only [he, ho, hr, Option.bind_eq_bind, Option.bind_some, Option.pure_def]
  have hmix : ∀ (i : Nat) (f b : ℚ), o.vals[i]? = some f → im.vals[i]? = some b → r.vals[i]? = some (mixed eps s.alpha f b) := by
    intro i f b hf hb
    rw [r3 i f b hf hb]
    have e1 : Blend.alphaAt o ⟨[], [s.alpha]⟩ i = s.alpha := by simp [Blend.alphaAt]
    have e2 : ∀ x, Blend.nearest o.dt x = npRound x := by intro x; rw [o5, hd]; rfl
    rw [e1, e2]
    simp only [List.mem_singleton, forall_eq, mixed, Blend.mix]
  have hlen : im.vals.length = r.vals.length := by rw [r1, o6.2.1, hv.2.1, o2, o3, o4]
  refine ⟨_, hstep, rfl, rfl, rfl, rfl, hrd, ⟨by show r.dt ∈ all; rw [hrd]; exact hv.1, by show r.vals.length = _; rw [← hlen]; exact hv.2.1, hv.2.2.1, ?_⟩,
    firstThree im, edges, h3, he, hel', painted gray (min im.c 3) (S c.colorTrue 3 g).1,
    painted gray (min im.c 3) (S c.colorFalse 3 (S c.colorTrue 3 g).2).1, ?_, ?_⟩
  · intro v hvm
    obtain ⟨i, hi⟩ := List.mem_iff_getElem?.1 (show v ∈ r.vals from hvm)
    have hil : i < r.vals.length := (List.getElem?_eq_some_iff.1 hi).1
    have hf := List.getElem?_eq_getElem (show i < o.vals.length by rw [← r1]; exact hil)
    have hb := List.getElem?_eq_getElem (show i < im.vals.length by rw [hlen]; exact hil)
    have hbt := Blend.Props.blend_between_partial eps o im ‹_› (by rw [o5, hd]; decide) ⟨[], [s.alpha]⟩ (.number [] s.alpha)
      (by simpa using ha) (by simp [Blend.Alpha.IsMap]) r hr i _ _ v hf hb hi
    have w1 := holds_whole (show Holds ⟨.u, 1⟩ _ by have := o6.2.2.2 _ (List.mem_of_getElem? hf); rwa [o5, hd] at this)
    have w2 := holds_whole (show Holds ⟨.u, 1⟩ _ by have := hv.2.2.2 _ (List.mem_of_getElem? hb); rwa [hd] at this)
    have hv' := hmix i _ _ hf hb
    rw [hi] at hv'
    have hv' := Option.some.inj hv'
    show Holds r.dt v
    rw [hrd, hd]
    apply whole_holds
    have b1 := whole_bounds w1
    have b2 := whole_bounds w2
    have hz : ∃ z : Int, v = z := by
      obtain ⟨z1, e1, -⟩ := w1
      obtain ⟨z2, e2, -⟩ := w2
      rw [hv']
      unfold mixed
      split
      · exact ⟨z1, e1⟩
      · split
        · exact ⟨z2, e2⟩
        · exact ⟨_, rfl⟩
    obtain ⟨z, rfl⟩ := hz
    refine ⟨z, rfl, ?_, ?_⟩
    · have : (0 : ℚ) ≤ z := le_trans (le_min b1.1 b2.1) hbt.1
      exact_mod_cast this
    · have : (z : ℚ) ≤ 255 := le_trans hbt.2 (max_le b1.2 b2.2)
      exact_mod_cast this
  · intro ch hch
    exact ⟨(painted_color gray hg im.c hc _ ht ch hch).1, (painted_color gray hg im.c hc _ hf ch hch).1⟩
  · intro p e hpe ch hch
    have hplt : p < im.h * im.w := by rw [← hel']; exact (List.getElem?_eq_some_iff.1 hpe).1
    obtain ⟨b, hb1, hb2, hb3⟩ := valid_get hv hplt hch
    refine ⟨b, hb1, ?_⟩
    have := hmix _ _ _ (o7 p e hpe ch hch) hb1
    show r.vals[p * im.c + ch]? = _
    rw [this]
    by_cases h3c : ch = 3
    · subst h3c
      rw [if_pos rfl, if_pos rfl, hb2, mixed_same]
      rw [hd] at hb3
      exact holds_whole hb3
    · rw [if_neg h3c, if_neg h3c]
      cases e <;> rfl

theorem pyInt_floor {q : ℚ} (h : 0 ≤ q) : pyInt q = ⌊q⌋ := by
  unfold pyInt; rw [if_neg (by linarith)]

theorem threshold_value (P : Values ℚ) (v : Val) (d : Handled) (u : ℚ) (h : threshold v = some d) (hf : Val.Filled v) (hu : Supports P d u) :
    ThresholdValue P v u := by
  have rng : ∀ q : ℚ, checkValueRange q (.interval (some 0) (some 255)) = true → 0 ≤ q := by
    intro q hq
    simp only [checkValueRange, Bool.and_eq_true, decide_eq_true_eq] at hq
    exact hq.1
  unfold threshold at h
  rcases v with a | l | l
  · cases a with
    | num n =>
      simp only [handleDiscrete, Bool.true_or, if_true] at h
      split_ifs at h with h1
      cases h
      exact ⟨n.q, rfl, by rw [show u = _ from hu, pyInt_floor (rng _ h1)]⟩
    | par i => cases h; exact hu
    | bool b => cases h
    | other => cases h
  · simp only [handleDiscrete, if_true] at h
    cases e : l.mapM (asNumOrInt true) with
    | none => rw [e] at h; cases h
    | some ns =>
      rw [e] at h
      have hl := (mapM_num l ns).mp (by rw [asNum_eq]; exact e)
      match ns, h, hl with
      | [a, b], h, hl =>
        simp only at h
        split_ifs at h with hc
        cases h
        rw [Bool.and_eq_true] at hc
        have ha := rng _ hc.1
        have hb := rng _ hc.2
        obtain ⟨z, rfl, h1, h2⟩ := hu
        rw [pyInt_floor ha, pyInt_floor hb] at h1 h2
        have hfl : ⌊min a.q b.q⌋ = min ⌊a.q⌋ ⌊b.q⌋ := by
          rcases le_total a.q b.q with hab | hab
          · rw [min_eq_left hab, min_eq_left (Int.floor_le_floor hab)]
          · rw [min_eq_right hab, min_eq_right (Int.floor_le_floor hab)]
        have hfl' : ⌊max a.q b.q⌋ = max ⌊a.q⌋ ⌊b.q⌋ := by
          rcases le_total a.q b.q with hab | hab
          · rw [max_eq_right hab, max_eq_right (Int.floor_le_floor hab)]
          · rw [max_eq_left hab, max_eq_left (Int.floor_le_floor hab)]
        rw [← hfl] at h1
        rw [← hfl'] at h2
        have hz : (z : ℚ) ≤ max a.q b.q := le_trans (by exact_mod_cast h2) (Int.floor_le _)
        refine ⟨max (z : ℚ) (min a.q b.q), ⟨a, b, hl, le_max_right _ _, max_le hz (min_le_max)⟩, ?_⟩
        have : z = ⌊max (z : ℚ) (min a.q b.q)⌋ := by
          symm
          rw [Int.floor_eq_iff]
          refine ⟨le_max_left _ _, max_lt (by linarith) ?_⟩
          have h3 := Int.lt_floor_add_one (min a.q b.q)
          have h4 : ((⌊min a.q b.q⌋ : Int) : ℚ) ≤ z := by exact_mod_cast h1
          linarith
        exact_mod_cast this
  · simp only [handleDiscrete, if_true] at h
    cases e : l.mapM (asNumOrInt true) with
    | none => rw [e] at h; cases h
    | some ns =>
      rw [e] at h
      have hl := (mapM_num l ns).mp (by rw [asNum_eq]; exact e)
      simp only at h
      split_ifs at h with hc
      cases h
      have hne : ns ≠ [] := by rintro rfl; exact hf (by rw [hl]; rfl)
      obtain ⟨z, hz, rfl⟩ := hu (by simpa using hne)
      obtain ⟨n, hn, rfl⟩ := List.mem_map.1 hz
      refine ⟨n.q, ⟨n, by rw [hl]; exact List.mem_map_of_mem hn, rfl⟩, ?_⟩
      rw [pyInt_floor (rng _ (List.all_eq_true.1 hc n hn))]

theorem thresholds_allowed (P : Values ℚ) (S : Sampler σ Handled ℚ) (hS : Ok (Supports P) S) (t : ThArg) (th : Th) (h : initThresholds t = some th)
    (h1 : ∀ v, t = .one v → Val.Filled v) (h2 : ∀ v w, t = .pair v w → Val.Filled v ∧ Val.Filled w) (n : Nat) (g : σ) (i : Nat) (hi : i < n) :
    ∃ u v, (drawThresholds S th n g).1.getD i (0, 0) = (u, v) ∧ t.Allows P u v := by
  have one : ∀ (w : Val) (d : Handled), threshold w = some d → Val.Filled w →
      ∃ u v, (drawThresholds S (.one d) n g).1.getD i (0, 0) = (u, v) ∧ ThresholdValue P w u ∧ ThresholdValue P w v := by
    intro w d hw hF
    refine ⟨(S d (n * 2) g).1.getD (i * 2) 0, (S d (n * 2) g).1.getD (i * 2 + 1) 0, ?_,
      threshold_value P w d _ hw hF (sample_ok hS d (n * 2) g _ (by omega) 0), threshold_value P w d _ hw hF (sample_ok hS d (n * 2) g _ (by omega) 0)⟩
    simp only [drawThresholds]
    rw [List.getD_eq_getElem?_getD, List.getElem?_map, List.getElem?_range hi]
    rfl
  cases t with
  | one w =>
    simp only [initThresholds, Option.map_eq_some_iff] at h
    obtain ⟨d, hd, rfl⟩ := h
    exact one w d hd (h1 w rfl)
  | pair a b =>
    obtain ⟨fa, fb⟩ := h2 a b rfl
    simp only [initThresholds] at h
    split_ifs at h with hc
    · cases ha : threshold a with
      | none => rw [ha] at h; cases h
      | some x =>
        cases hb : threshold b with
        | none => rw [ha, hb] at h; cases h
        | some y =>
          rw [ha, hb] at h
          simp only [Option.bind_eq_bind, Option.bind_some, Option.pure_def, Option.some.injEq] at h
          subst h
          have l1 := hS.length x n g
          have l2 := hS.length y n (S x n g).2
          refine ⟨(S x n g).1.getD i 0, (S y n (S x n g).2).1.getD i 0, ?_, ?_⟩
          · simp only [drawThresholds]
            have e1 := List.getElem?_eq_getElem (show i < (S x n g).1.length by omega)
            have e2 := List.getElem?_eq_getElem (show i < (S y n (S x n g).2).1.length by omega)
            have hz : ((S x n g).1.zip (S y n (S x n g).2).1)[i]? = some ((S x n g).1[i], (S y n (S x n g).2).1[i]) :=
              List.getElem?_zip_eq_some.2 ⟨e1, e2⟩
            rw [List.getD_eq_getElem?_getD, hz, List.getD_eq_getElem?_getD, e1, List.getD_eq_getElem?_getD, e2]
            rfl
          · have t1 := threshold_value P a x _ ha fa (sample_ok hS x n g i hi 0)
            have t2 := threshold_value P b y _ hb fb (sample_ok hS y n (S x n g).2 i hi 0)
            unfold ThArg.Allows
            split
            · rename_i heq; cases heq
            · rename_i heq
              cases heq
              simp [isNumber] at hc
            · rename_i heq
              cases heq
              exact ⟨t1, t2⟩
    · simp only [Option.map_eq_some_iff] at h
      obtain ⟨d, hd, rfl⟩ := h
      have key : ∃ x y, a = .atom (.num x) ∧ b = .atom (.num y) := by
        have hnum : ∀ v : Val, (∃ x, asAtom v = .num x) → ∃ x, v = .atom (.num x) := by
          rintro (at' | l | l) ⟨x, hx⟩
          · exact ⟨x, congrArg _ hx⟩
          · cases hx
          · cases hx
        have hm : ∃ x y, asAtom a = .num x ∧ asAtom b = .num y := by
          cases ea : asAtom a <;> cases eb : asAtom b <;>
            simp [threshold, handleDiscrete, ea, eb, asNumOrInt] at hd ⊢
        obtain ⟨x, y, hx, hy⟩ := hm
        obtain ⟨x', rfl⟩ := hnum a ⟨x, hx⟩
        obtain ⟨y', rfl⟩ := hnum b ⟨y, hy⟩
        exact ⟨x', y', rfl, rfl⟩
      obtain ⟨x, y, rfl, rfl⟩ := key
      exact one (.tuple [.num x, .num y]) d hd (by intro hh; cases hh)

theorem init_some (a : Args) (c : Conf) (h : init a = some c) :
    handleContinuous a.alpha (.interval (some 0) (some 1)) true true = some c.alpha ∧ initThresholds a.thresholds = some c.thresholds ∧
    handleDiscrete a.sobel (.interval (some 0) (some 7)) true true false = some c.sobel ∧
    handleDiscrete a.colorTrue (.interval (some 0) (some 255)) true true false = some c.colorTrue ∧
    handleDiscrete a.colorFalse (.interval (some 0) (some 255)) true true false = some c.colorFalse := by
  simp only [init, Option.bind_eq_bind, Option.bind_eq_some_iff, Option.pure_def, Option.some.injEq] at h
  obtain ⟨x1, h1, x2, h2, x3, h3, x4, h4, x5, h5, rfl⟩ := h
  exact ⟨h1, h2, h3, h4, h5⟩

theorem oddSize_aperture (k : ℚ) (hk : Whole 0 7 k) : Aperture k (oddSize k) ∧
    (3 ≤ oddSize k → oddSize k = 3 ∨ oddSize k = 5 ∨ oddSize k = 7) ∧ (oddSize k > 1 ↔ 3 ≤ oddSize k) := by
  obtain ⟨z, rfl, h0, h1⟩ := hk
  have hz : z = 0 ∨ z = 1 ∨ z = 2 ∨ z = 3 ∨ z = 4 ∨ z = 5 ∨ z = 6 ∨ z = 7 := by omega
  have hfl : ∀ m : Int, ((m : ℚ) - 2 * ⌊(m : ℚ) / 2⌋ = 0) ↔ m % 2 = 0 := by
    intro m
    have : ⌊(m : ℚ) / 2⌋ = m / 2 := by
      have := Rat.floor_intCast_div_natCast m 2
      simpa using this
    rw [this]
    constructor
    · intro h
      have : m - 2 * (m / 2) = 0 := by exact_mod_cast h
      omega
    · intro h
      have : m - 2 * (m / 2) = 0 := by omega
      exact_mod_cast this
  have e : oddSize (z : ℚ) = ((if z % 2 = 0 then z - 1 else z : Int) : ℚ) := by
    unfold oddSize
    by_cases h : z % 2 = 0
    · rw [if_pos ((hfl z).2 h), if_pos h]; push_cast; ring
    · rw [if_neg (fun hc => h ((hfl z).1 hc)), if_neg h]
  rw [e]
  refine ⟨⟨z, rfl, ?_⟩, ?_, ?_⟩
  · rcases Int.emod_two_eq_zero_or_one z with h | h
    · right; rw [if_pos h]; exact ⟨h, by push_cast; ring⟩
    · left; rw [if_neg (by omega)]; exact ⟨h, rfl⟩
  · intro _
    rcases hz with rfl | rfl | rfl | rfl | rfl | rfl | rfl | rfl <;> norm_num at *
  · rcases hz with rfl | rfl | rfl | rfl | rfl | rfl | rfl | rfl <;> norm_num

theorem loop_get (cv : Lib) (gray : ℚ → ℚ → ℚ → ℚ) (eps : ℚ) (S : Sampler σ Handled ℚ) (c : Conf) (R : Img × Sample → Img → Prop) :
    ∀ (l : List (Img × Sample)) (g : σ), (∀ p ∈ l, ∀ g, ∃ o g', step cv gray eps S c p.1 p.2 g = some (o, g') ∧ R p o) →
      ∃ out, loop cv gray eps S c l g = some out ∧ out.length = l.length ∧ ∀ (i : Nat) p, l[i]? = some p → ∃ o, out[i]? = some o ∧ R p o := by
  intro l
  induction l with
  | nil => intro g _; exact ⟨[], rfl, rfl, by simp⟩
  | cons p l ih =>
    intro g h
    obtain ⟨o, g', hs, hR⟩ := h p (by simp) g
    obtain ⟨out, ho, hlen, hget⟩ := ih g' (fun q hq => h q (by simp [hq]))
    refine ⟨o :: out, by simp [loop, hs, ho], by simp [hlen], ?_⟩
    intro i q hq
    cases i with
    | zero => simp only [List.getElem?_cons_zero, Option.some.injEq] at hq; subst hq; exact ⟨o, rfl, hR⟩
    | succ i => simpa using hget i q (by simpa using hq)

theorem loop_fails (cv : Lib) (gray : ℚ → ℚ → ℚ → ℚ) (eps : ℚ) (S : Sampler σ Handled ℚ) (c : Conf) :
    ∀ (l : List (Img × Sample)) (g : σ), (∃ p ∈ l, ∀ g, step cv gray eps S c p.1 p.2 g = none) → loop cv gray eps S c l g = none := by
  intro l
  induction l with
  | nil => rintro g ⟨p, hp, -⟩; simp at hp
  | cons q l ih =>
    rintro g ⟨p, hp, hn⟩
    rcases List.mem_cons.1 hp with rfl | hp
    · simp [loop, hn g]
    · simp only [loop]
      cases hq : step cv gray eps S c q.1 q.2 g with
      | none => rfl
      | some r => simp [ih r.2 ⟨p, hp, hn⟩]

end Imgaug.Canny
