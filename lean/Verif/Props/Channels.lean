import Verif.Proofs.Channels
/-! C41 (`WithChannels`) and C42 (`ChannelShuffle`). -/
namespace Imgaug.Channels
open Imgaug
variable {α β : Type}

/-- C41: `WithChannels` with a list of channels gives the children, for every image, exactly the listed channels in the listed
order (and everything else of the batch unchanged). In the result each image is the original with the listed channels replaced
by the children's result; its other channels, size and dtype are unchanged. This holds for all children, images and channels,
including repeated and negative channel indices. -/
theorem with_channels_images (l : List Int) (hl : l ≠ []) (children : Bat α β → Option (Bat α β)) (b b' : Bat α β)
    (h : withChannels (some l) children b = some b') (ims res : List (CImg α)) (hi : b.images = some ims)
    (hr : b'.images = some res) :
    ∃ sel out aug, children { b with images := some sel } = some out ∧ out.images = some aug ∧
      sel.length = ims.length ∧ aug.length = ims.length ∧ res.length = ims.length ∧
      ∀ (i : Nat) (im : CImg α), ims[i]? = some im → ∃ s a r, sel[i]? = some s ∧ aug[i]? = some a ∧ res[i]? = some r ∧
        Selected l im s ∧ a.h = im.h ∧ a.w = im.w ∧ a.dt = im.dt ∧ Replaced l im a r := by
  unfold withChannels at h
  rw [if_neg (by simpa using hl)] at h
  simp only [reduceBat, hi, reduce] at h
  cases hs : ims.mapM (fun im => select im l) with
  | none => simp [hs] at h
  | some sel =>
    simp only [hs, Option.map_some, Option.bind_some] at h
    cases hc : children { b with images := some sel } with
    | none => simp [hc] at h
    | some out =>
      simp only [hc, Option.bind_some] at h
      cases ho : out.images with
      | none =>
        simp only [ho] at h
        cases hx : replaceCols (some l) out.cols b.cols with
        | none => simp [hx] at h
        | some c => simp [hx] at h; subst h; simp at hr
      | some aug =>
        simp only [ho] at h
        split at h
        · rename_i hu
          simp only [unchanged, Bool.and_eq_true, beq_iff_eq, List.all_eq_true] at hu
          cases hx : replaceCols (some l) out.cols b.cols with
          | none => simp [hx] at h
          | some c =>
            simp only [hx, Option.bind_some, invertReduce] at h
            cases hw : (ims.zip aug).mapM (fun p => write p.1 l p.2) with
            | none => simp [hw] at h
            | some res' =>
              simp only [hw, Option.map_some, Option.some.injEq] at h
              subst h
              simp only [Option.some.injEq] at hr
              subst hr
              obtain ⟨s1, s2⟩ := mapM_get hs
              obtain ⟨w1, w2⟩ := mapM_get hw
              refine ⟨sel, out, aug, hc, ho, s1, hu.1, by simp [w1, hu.1], ?_⟩
              intro i im him
              have hlt : i < ims.length := (List.getElem?_eq_some_iff.1 him).1
              obtain ⟨s, hsel, hse⟩ := s2 i im him
              have hag : aug[i]? = some (aug[i]'(by omega)) := List.getElem?_eq_getElem (by omega)
              have hz : (ims.zip aug)[i]? = some (im, aug[i]'(by omega)) :=
                List.getElem?_zip_eq_some.2 ⟨him, hag⟩
              obtain ⟨r, hrr, hwr⟩ := w2 i _ hz
              have hz' : (aug.zip ims)[i]? = some (aug[i]'(by omega), im) :=
                List.getElem?_zip_eq_some.2 ⟨hag, him⟩
              have hq := hu.2 _ (List.mem_of_getElem? hz')
              exact ⟨s, _, r, hsel, hag, hrr, select_selected _ _ _ hse, hq.1.1, hq.1.2, hq.2, write_replaced _ _ _ _ hwr⟩
        · simp at h

/-- A batch with one image of three channels and a keypoint-like cell. -/
def exBat : Bat Nat String := ⟨some [⟨1, 1, 3, 0, fun _ _ k => 10 * k⟩], [some [⟨[1, 1, 3], "old"⟩]]⟩

/-- Children that add 1 to all components and change the cell. -/
def exChildren : Bat Nat String → Option (Bat Nat String) := fun b =>
  some ⟨b.images.map (fun l => l.map (fun im => { im with px := fun y x k => im.px y x k + 1 })), [some [⟨[1, 1, 3], "new"⟩]]⟩

example : (withChannels (some [2, -3]) exChildren exBat).isSome = true ∧
    ((withChannels (some [2, -3]) exChildren exBat).bind (fun b => b.images)).map (fun l => l.map (fun im =>
      [im.px 0 0 0, im.px 0 0 1, im.px 0 0 2])) = some [[1, 10, 21]] := by decide +kernel

/-- C41: without channels (`[]`) the batch is returned unchanged and the children are not called. -/
theorem with_channels_empty (children : Bat α β → Option (Bat α β)) (b : Bat α β) :
    withChannels (some []) children b = some b := by simp [withChannels]

/-- C41: with `channels=None` the result is that of the children on the whole batch, provided that they keep the number of
images and the heights, widths and dtypes; otherwise an error is raised. -/
theorem with_channels_none (children : Bat α β → Option (Bat α β)) (b out : Bat α β) (hc : children b = some out)
    (hcols : out.cols.length = b.cols.length) (himgs : b.images = none → out.images = none) :
    ∀ b', withChannels none children b = some b' ↔ b' = out ∧
      ∀ aug ims, out.images = some aug → b.images = some ims → aug.length = ims.length ∧
        ∀ (i : Nat) (a im : CImg α), aug[i]? = some a → ims[i]? = some im → a.h = im.h ∧ a.w = im.w ∧ a.dt = im.dt := by
  have hrc : ∀ (a o : List (Option (List (Cell β)))), a.length = o.length → replaceCols none a o = some a := by
    intro a
    induction a with
    | nil => intro o ho; simp [replaceCols]
    | cons x a ih =>
      intro o ho
      cases o with
      | nil => simp at ho
      | cons y o =>
        have := ih o (by simpa using ho)
        unfold replaceCols at this ⊢
        rw [List.zip_cons_cons, List.mapM_cons, this]
        cases x <;> simp [replaceCells]
  intro b'
  unfold withChannels
  rw [if_neg (by simp)]
  have hin : reduceBat none b = some b := by
    unfold reduceBat
    cases hb : b.images with
    | none => rfl
    | some ims =>
      obtain ⟨bi, bc⟩ := b
      dsimp only at hb
      subst hb
      rfl
  rw [hin, Option.bind_some, hc, Option.bind_some, hrc _ _ hcols]
  obtain ⟨oi, oc⟩ := out
  cases oi with
  | none =>
    simp only [Option.map_some, Option.some.injEq]
    constructor
    · rintro rfl; exact ⟨rfl, by simp⟩
    · rintro ⟨rfl, _⟩; rfl
  | some aug =>
    cases hb : b.images with
    | none => simpa using himgs hb
    | some ims =>
      simp only [Option.bind_some, invertReduce, Option.map_some]
      have e : (unchanged aug ims = true) ↔ (∀ aug' ims', some aug = some aug' → some ims = some ims' →
          aug'.length = ims'.length ∧ ∀ (i : Nat) (a im : CImg α), aug'[i]? = some a → ims'[i]? = some im →
            a.h = im.h ∧ a.w = im.w ∧ a.dt = im.dt) := by
        simp only [unchanged, Bool.and_eq_true, beq_iff_eq, List.all_eq_true, Option.some.injEq]
        constructor
        · rintro ⟨h1, h2⟩ _ _ rfl rfl
          refine ⟨h1, fun i a im ha him => ?_⟩
          have := h2 (a, im) (List.mem_of_getElem? (List.getElem?_zip_eq_some.2 ⟨ha, him⟩))
          exact ⟨this.1.1, this.1.2, this.2⟩
        · intro h
          obtain ⟨h1, h2⟩ := h aug ims rfl rfl
          refine ⟨h1, ?_⟩
          rintro ⟨a, im⟩ hp
          obtain ⟨i, hi⟩ := List.getElem?_of_mem hp
          obtain ⟨q1, q2⟩ := List.getElem?_zip_eq_some.1 hi
          have := h2 i a im q1 q2
          exact ⟨⟨this.1, this.2.1⟩, this.2.2⟩
      rw [← e]
      by_cases hu : unchanged aug ims = true
      · simp [hu, eq_comm]
      · simp [hu]

example : withChannels none exChildren exBat = exChildren exBat := by
  refine (with_channels_none exChildren exBat _ rfl rfl (by simp [exBat]) _).2 ⟨rfl, ?_⟩
  intro aug ims h1 h2
  simp [exBat] at h1 h2
  subst h2
  subst h1
  refine ⟨rfl, ?_⟩
  intro i a im ha him
  match i with
  | 0 => simp at ha him; subst ha him; exact ⟨rfl, rfl, rfl⟩
  | i + 1 => simp at ha

/-- C41: annotations that belong to an image are replaced by their augmented version iff at least half of the channels of
their image are listed; otherwise they are unchanged. -/
theorem with_channels_cells (l : List Int) (hl : l ≠ []) (children : Bat α β → Option (Bat α β)) (b b' : Bat α β)
    (h : withChannels (some l) children b = some b') :
    ∃ inp out, children inp = some out ∧ inp.cols = b.cols ∧
      ∀ (i j : Nat) (olds augs : List (Cell β)) (old aug : Cell β), b.cols[i]? = some (some olds) →
        out.cols[i]? = some (some augs) → olds[j]? = some old → augs[j]? = some aug →
        ∃ news, b'.cols[i]? = some (some news) ∧
          ∀ n, ShapeChannels old.shape n → news[j]? = some (if n ≤ 2 * l.length then aug else old) := by
  unfold withChannels at h
  rw [if_neg (by simpa using hl)] at h
  obtain ⟨inp, hinp, h⟩ := Option.bind_eq_some_iff.1 h
  obtain ⟨out, hout, h⟩ := Option.bind_eq_some_iff.1 h
  have hc : inp.cols = b.cols := by
    unfold reduceBat at hinp
    cases hb : b.images with
    | none => simp only [hb, Option.some.injEq] at hinp; rw [hinp]
    | some ims =>
      simp only [hb] at hinp
      obtain ⟨r, _, rfl⟩ := Option.map_eq_some_iff.1 hinp
      rfl
  have hr : replaceCols (some l) out.cols b.cols = some b'.cols := by
    split at h
    · obtain ⟨cols, hcols, rfl⟩ := Option.map_eq_some_iff.1 h
      exact hcols
    · simp at h
    · split at h
      · obtain ⟨cols, hcols, h⟩ := Option.bind_eq_some_iff.1 h
        obtain ⟨res, _, rfl⟩ := Option.map_eq_some_iff.1 h
        exact hcols
      · simp at h
  refine ⟨inp, out, hout, hc, ?_⟩
  intro i j olds augs old aug ho ha hoj haj
  have hz : (out.cols.zip b.cols)[i]? = some (some augs, some olds) := List.getElem?_zip_eq_some.2 ⟨ha, ho⟩
  obtain ⟨c, hci, hcc⟩ := (mapM_get hr).2 i _ hz
  simp only [replaceCells] at hcc
  split at hcc
  · simp at hcc
  · rename_i hz0
    simp only [Option.map_some, Option.some.injEq] at hcc
    subst hcc
    refine ⟨_, hci, fun n hsh => ?_⟩
    have hn : n = nbChannels old.shape := by
      rcases hsh with ⟨h, w, he, rfl⟩ | ⟨h, w, r, he⟩ <;> rw [he] <;> rfl
    subst hn
    have hz2 : (augs.zip olds)[j]? = some (aug, old) := List.getElem?_zip_eq_some.2 ⟨haj, hoj⟩
    rw [List.getElem?_map, hz2]
    simp only [Option.map_some, Option.some.injEq]
    have hpos : 0 < nbChannels old.shape := by
      rw [Bool.not_eq_true, List.any_eq_false] at hz0
      have := hz0 old (List.mem_of_getElem? hoj)
      simp at this
      omega
    have e : ((l.length : ℚ) / (nbChannels old.shape : ℚ) ≥ 1 / 2) ↔ nbChannels old.shape ≤ 2 * l.length := by
      rw [ge_iff_le, div_le_div_iff₀ (by norm_num) (by exact_mod_cast hpos)]
      norm_cast
      omega
    simp only [e]

example : ((withChannels (some [0]) exChildren exBat).map (fun b => b.cols)) = some [some [⟨[1, 1, 3], "old"⟩]] ∧
    ((withChannels (some [0, 1]) exChildren exBat).map (fun b => b.cols)) = some [some [⟨[1, 1, 3], "new"⟩]] := by
  decide +kernel

/-- C41: when `WithChannels` succeeds: if all listed channels exist in all images, the children succeed on the selected
channels, keep the number, heights, widths and dtypes of the images and return as many channels as were selected or a single
one (which is then written to all listed channels), and there is nothing else in the batch. -/
theorem with_channels_succeeds (l : List Int) (hl : l ≠ []) (children : Bat α β → Option (Bat α β)) (ims : List (CImg α))
    (hd : ∀ im ∈ ims, ∀ i ∈ l, ∃ k, Denotes im.c i k)
    (hchild : ∀ sel : List (CImg α), sel.length = ims.length → ∃ aug, children ⟨some sel, []⟩ = some ⟨some aug, []⟩ ∧
      aug.length = ims.length ∧ ∀ (i : Nat) (im a : CImg α), ims[i]? = some im → aug[i]? = some a →
        a.h = im.h ∧ a.w = im.w ∧ a.dt = im.dt ∧ (a.c = l.length ∨ a.c = 1)) :
    ∃ res, withChannels (some l) children ⟨some ims, []⟩ = some ⟨some res, []⟩ ∧ res.length = ims.length := by
  have hres : ∀ im ∈ ims, ∃ idx, l.mapM (resolve im.c) = some idx ∧ idx.length = l.length := by
    intro im him
    obtain ⟨idx, hidx⟩ := mapM_exists (resolve im.c) l (fun i hi => by
      obtain ⟨k, hk, h⟩ := hd im him i hi
      refine ⟨k, ?_⟩
      unfold resolve
      rcases h with rfl | rfl
      · rw [if_pos (by omega)]; simp
      · rw [if_neg (by omega), if_pos (by omega)]
        congr 1; omega)
    exact ⟨idx, hidx, (mapM_get hidx).1⟩
  obtain ⟨sel, hsel⟩ := mapM_exists (fun im => select im l) ims (fun im him => by
    obtain ⟨idx, h, -⟩ := hres im him
    exact ⟨_, by unfold select; rw [h]; rfl⟩)
  obtain ⟨aug, hc, hlen, hprop⟩ := hchild sel (mapM_get hsel).1
  obtain ⟨res, hw⟩ := mapM_exists (fun p : CImg α × CImg α => write p.1 l p.2) (ims.zip aug) (fun p hp => by
    obtain ⟨i, hi⟩ := List.mem_iff_getElem?.1 hp
    obtain ⟨h1, h2⟩ := List.getElem?_zip_eq_some.1 hi
    obtain ⟨idx, hidx, hil⟩ := hres p.1 (List.mem_of_getElem? h1)
    have := (hprop i p.1 p.2 h1 h2).2.2.2
    unfold write
    rw [hidx, Option.bind_some, if_pos (by rw [hil]; exact this)]
    exact ⟨_, rfl⟩)
  refine ⟨res, ?_, ?_⟩
  · unfold withChannels
    rw [if_neg (by simpa using hl)]
    simp only [reduceBat, reduce, hsel, Option.map_some, Option.bind_some, hc]
    rw [if_pos]
    · simp only [replaceCols, List.zip_nil_right, List.mapM_nil, invertReduce]
      show Option.map _ _ = _
      rw [hw]; rfl
    · unfold unchanged
      rw [Bool.and_eq_true, beq_iff_eq, List.all_eq_true]
      refine ⟨hlen, fun p hp => ?_⟩
      obtain ⟨i, hi⟩ := List.mem_iff_getElem?.1 hp
      obtain ⟨h1, h2⟩ := List.getElem?_zip_eq_some.1 hi
      obtain ⟨ha, hb, hc, -⟩ := hprop i p.2 p.1 h2 h1
      simp [ha, hb, hc]
  · rw [(mapM_get hw).1, List.length_zip, hlen, Nat.min_self]

/-- Children that return one channel; it is written to both listed channels. -/
example : ((withChannels (some [0, 2]) (fun b : Bat Nat Unit => some ⟨b.images.map (fun l => l.map (fun im =>
      { im with c := 1, px := fun _ _ _ => 7 })), []⟩) ⟨some [⟨1, 1, 3, 0, fun _ _ k => k⟩], []⟩).bind (fun b => b.images)).map
      (fun l => l.map (fun im => [im.px 0 0 0, im.px 0 0 1, im.px 0 0 2])) = some [[7, 1, 7]] := by decide +kernel

/-- An annotation for an image without channel axis, i.e. with one channel. -/
example : ((withChannels (some [0]) (fun b : Bat Nat String => some ⟨b.images, [some [⟨[4, 4], "new"⟩]]⟩)
    ⟨none, [some [⟨[4, 4], "old"⟩]]⟩).map (fun b => b.cols)) = some [some [⟨[4, 4], "new"⟩]] := by decide +kernel

/-! ### Shuffling -/

/-- C42: `shuffle_channels` permutes the channels of an image, for every outcome of the random generator: there is a
permutation `σ` of the channels such that channel `k` of the result is channel `σ k` of the image; channels that are not
listed stay where they are. Partial: the listed channels must be valid and must not name the same channel twice (unless all
channels are listed); see `shuffle_repeated_channels` for what happens otherwise. -/
theorem shuffle_permutes_partial (perm : List Int → List Int) (hp : ∀ l, (perm l).Perm l) (channels : Option (List Int))
    (im : CImg α)
    (hl : ∀ l, channels = some l → (∀ k < im.c, (k : Int) ∈ l) ∨ ((∀ i ∈ l, ∃ k, Denotes im.c i k) ∧
      ∀ (a b : Nat) (i j : Int) (k : Nat), l[a]? = some i → l[b]? = some j → Denotes im.c i k → Denotes im.c j k → a = b)) :
    ∃ (r : CImg _) (σ : List Nat), shuffle perm channels im = some r ∧ r.h = im.h ∧ r.w = im.w ∧ r.c = im.c ∧ r.dt = im.dt ∧
      σ.Perm (List.range im.c) ∧
      (∀ l, channels = some l → ∀ k < im.c, (∀ i ∈ l, ¬ Denotes im.c i k) → σ[k]? = some k) ∧
      (∀ y x k, k < im.c → r.px y x k = im.px y x (σ.getD k 0)) := by
  have hall : ∀ q : List Int, q.Perm ((List.range im.c).map (fun (k : Nat) => (k : Int))) →
      ∃ σ : List Nat, q.mapM (resolve im.c) = some σ ∧ σ.Perm (List.range im.c) := by
    intro q hq
    have h1 : ∀ q : List Int, (∀ i ∈ q, ∃ k, Denotes im.c i k) → ∃ σ : List Nat, q.mapM (resolve im.c) = some σ ∧
        σ = q.filterMap (resolve im.c) := by
      intro q
      induction q with
      | nil => intro _; exact ⟨[], by simp, rfl⟩
      | cons i q ih =>
        intro hq
        obtain ⟨k, hk⟩ := hq i (by simp)
        obtain ⟨σ, hσ, e⟩ := ih (fun i hi => hq i (by simp [hi]))
        have := (resolve_iff _ _ _).2 hk
        exact ⟨k :: σ, by simp [this, hσ], by simp [this, e]⟩
    obtain ⟨σ, h2, h3⟩ := h1 q (by
      intro i hi
      obtain ⟨k, hk, rfl⟩ := List.mem_map.1 (hq.mem_iff.1 hi)
      exact ⟨k, List.mem_range.1 hk, Or.inl rfl⟩)
    refine ⟨σ, h2, ?_⟩
    rw [h3]
    refine (hq.filterMap _).trans ?_
    rw [List.filterMap_map]
    have : (List.range im.c).filterMap (resolve im.c ∘ fun (k : Nat) => (k : Int)) = List.range im.c := by
      conv_rhs => rw [← List.filterMap_some (l := List.range im.c)]
      apply List.filterMap_congr
      intro k hk
      exact (resolve_iff _ _ _).2 ⟨List.mem_range.1 hk, Or.inl rfl⟩
    rw [this]
  unfold shuffle
  by_cases h1 : im.c = 1
  · rw [if_pos h1]
    refine ⟨im, List.range im.c, rfl, rfl, rfl, rfl, rfl, List.Perm.refl _, ?_, ?_⟩
    · intro l _ k hk _
      simp [List.getElem?_range hk]
    · intro y x k hk
      simp [List.getElem?_range hk]
  · rw [if_neg h1]
    dsimp only
    have hselect : ∀ (q : List Int) (σ : List Nat), q.mapM (resolve im.c) = some σ → σ.Perm (List.range im.c) →
        ∃ r, select im q = some r ∧ r.h = im.h ∧ r.w = im.w ∧ r.c = im.c ∧ r.dt = im.dt ∧
          (∀ y x k, k < im.c → r.px y x k = im.px y x (σ.getD k 0)) := by
      intro q σ hq hσ
      refine ⟨{ im with c := σ.length, px := fun y x k => im.px y x (σ.getD k 0) }, by unfold select; rw [hq]; rfl, rfl, rfl, ?_, rfl, fun _ _ _ _ => rfl⟩
      simpa using hσ.length_eq
    by_cases h2 : isAll im.c channels = true
    · rw [if_pos h2]
      obtain ⟨σ, hσ, hσp⟩ := hall _ (hp _)
      obtain ⟨r, a1, a2, a3, a4, a5, a6⟩ := hselect _ σ hσ hσp
      refine ⟨r, σ, a1, a2, a3, a4, a5, hσp, ?_, a6⟩
      intro l hcl k hk hno
      subst hcl
      simp only [isAll, List.all_eq_true, List.mem_range, List.contains_iff_mem] at h2
      exact absurd ⟨hk, Or.inl rfl⟩ (hno _ (h2 k hk))
    · rw [if_neg h2]
      match channels, h2 with
      | some l, h2 =>
        dsimp only
        have hl' := (hl l rfl).resolve_left (by
          intro hx
          apply h2
          simpa [isAll] using hx)
        obtain ⟨hv, hd⟩ := hl'
        have hmem : ∀ q : List Int, (∀ i ∈ q, i ∈ l) → ∃ idx, q.mapM (resolve im.c) = some idx := by
          intro q
          induction q with
          | nil => intro _; exact ⟨[], by simp⟩
          | cons i q ih =>
            intro hq
            obtain ⟨idx, hidx⟩ := ih (fun i hi => hq i (by simp [hi]))
            obtain ⟨k, hk⟩ := hv i (hq i (by simp))
            exact ⟨k :: idx, by simp [(resolve_iff _ _ _).2 hk, hidx]⟩
        obtain ⟨idx, hidx⟩ := hmem l (fun _ h => h)
        obtain ⟨pidx, hpidx⟩ := hmem (perm l) (fun i hi => (hp l).mem_iff.1 hi)
        have hpp : pidx.Perm idx := by
          have e1 : ∀ (q : List Int) (m : List Nat), q.mapM (resolve im.c) = some m → m = q.filterMap (resolve im.c) := by
            intro q
            induction q with
            | nil => intro m h; simp at h; simp [h]
            | cons i q ih =>
              intro m h
              rw [List.mapM_cons] at h
              cases hi : resolve im.c i with
              | none => simp [hi] at h
              | some k =>
                cases hq : q.mapM (resolve im.c) with
                | none => simp [hi, hq] at h
                | some m' => simp [hi, hq] at h; subst h; simp [hi, ih m' hq]
          rw [e1 _ _ hpidx, e1 _ _ hidx]
          exact (hp l).filterMap _
        have hnd : idx.Nodup := by
          rw [List.nodup_iff_getElem?_ne_getElem?]
          intro a b hab hb e
          obtain ⟨k, hk⟩ : ∃ k, idx[b]? = some k := ⟨idx[b], List.getElem?_eq_getElem hb⟩
          rw [hk] at e
          obtain ⟨i, hi, hri⟩ := mapM_get' hidx a k e
          obtain ⟨j, hj, hrj⟩ := mapM_get' hidx b k hk
          have := hd a b i j k hi hj ((resolve_iff _ _ _).1 hri) ((resolve_iff _ _ _).1 hrj)
          omega
        obtain ⟨out, o1, o2, o3, o4⟩ := permFull_get im.c l (perm l) idx ((List.range im.c).map (fun (k : Nat) => (k : Int)))
          (hp l).length_eq hidx hnd (by simp)
        have hilt : ∀ k ∈ idx, k < im.c := by
          intro k hk
          obtain ⟨j, hj⟩ := List.getElem?_of_mem hk
          obtain ⟨i, _, hr⟩ := mapM_get' hidx j k hj
          exact ((resolve_iff _ _ _).1 hr).1
        -- the positions as a function
        have hres : ∀ k < im.c, ∃ s, (out[k]?.bind (resolve im.c)) = some s ∧
            (k ∉ idx → s = k) ∧ (k ∈ idx → s ∈ idx ∧ ∃ (j : Nat), idx[j]? = some k ∧ pidx[j]? = some s) := by
          intro k hk
          by_cases hki : k ∈ idx
          · obtain ⟨j, hj⟩ := List.getElem?_of_mem hki
            have hjl : j < (perm l).length := by
              have := (List.getElem?_eq_some_iff.1 hj).1
              rw [(mapM_get hidx).1] at this
              rw [(hp l).length_eq]; exact this
            obtain ⟨s, hs, hrs⟩ := (mapM_get hpidx).2 j (perm l)[j] (List.getElem?_eq_getElem hjl)
            refine ⟨s, ?_, fun h => absurd hki h, fun _ => ⟨hpp.mem_iff.1 (List.mem_of_getElem? hs), j, hj, hs⟩⟩
            rw [o3 j k hj, List.getElem?_eq_getElem hjl, Option.bind_some, hrs]
          · refine ⟨k, ?_, fun _ => rfl, fun h => absurd h hki⟩
            rw [o4 k hki, List.getElem?_map, List.getElem?_range hk]
            exact (resolve_iff _ _ _).2 ⟨hk, Or.inl rfl⟩
        have hout : ∃ σ, out.mapM (resolve im.c) = some σ := by
          have : ∀ q : List Int, (∀ i ∈ q, ∃ s, resolve im.c i = some s) → ∃ σ, q.mapM (resolve im.c) = some σ := by
            intro q
            induction q with
            | nil => intro _; exact ⟨[], by simp⟩
            | cons i q ih =>
              intro hq
              obtain ⟨σ, hσ⟩ := ih (fun i hi => hq i (by simp [hi]))
              obtain ⟨k, hk⟩ := hq i (by simp)
              exact ⟨k :: σ, by simp [hk, hσ]⟩
          apply this
          intro i hi
          obtain ⟨k, hk⟩ := List.getElem?_of_mem hi
          have hkc : k < im.c := by rw [← o2]; exact (List.getElem?_eq_some_iff.1 hk).1
          obtain ⟨s, hs, _⟩ := hres k hkc
          rw [hk, Option.bind_some] at hs
          exact ⟨s, hs⟩
        obtain ⟨σ, hσ⟩ := hout
        have hσl : σ.length = im.c := by rw [(mapM_get hσ).1, o2]
        have hσg : ∀ k < im.c, ∃ s, σ[k]? = some s ∧
            (k ∉ idx → s = k) ∧ (k ∈ idx → s ∈ idx ∧ ∃ (j : Nat), idx[j]? = some k ∧ pidx[j]? = some s) := by
          intro k hk
          obtain ⟨s, hs, h3, h4⟩ := hres k hk
          have hko : out[k]? = some (out[k]'(by omega)) := List.getElem?_eq_getElem (by omega)
          obtain ⟨s', hs', hr'⟩ := (mapM_get hσ).2 k _ hko
          rw [hko, Option.bind_some, hr'] at hs
          injection hs with hs
          subst hs
          exact ⟨s', hs', h3, h4⟩
        have hσp : σ.Perm (List.range im.c) := by
          have hσnd : σ.Nodup := by
            rw [List.nodup_iff_getElem?_ne_getElem?]
            intro a b hab hb e
            rw [hσl] at hb
            obtain ⟨s, hs, s1, s2⟩ := hσg a (by omega)
            obtain ⟨t, ht, t1, t2⟩ := hσg b hb
            rw [hs, ht] at e
            injection e with e
            subst e
            by_cases ha : a ∈ idx
            · by_cases hb' : b ∈ idx
              · obtain ⟨_, j, hj, hpj⟩ := s2 ha
                obtain ⟨_, j', hj', hpj'⟩ := t2 hb'
                have hjj : j = j' := by
                  have hnp : pidx.Nodup := hpp.nodup_iff.2 hnd
                  have h5 := (List.getElem?_eq_some_iff.1 hpj)
                  have h6 := (List.getElem?_eq_some_iff.1 hpj')
                  exact (List.Nodup.getElem_inj_iff hnp).1 (h5.2.trans h6.2.symm)
                subst hjj
                rw [hj] at hj'
                injection hj' with hj'
                omega
              · have := t1 hb'
                subst this
                exact hb' (s2 ha).1
            · have := s1 ha
              subst this
              by_cases hb' : b ∈ idx
              · exact ha (t2 hb').1
              · have := t1 hb'
                omega
          rw [List.perm_ext_iff_of_nodup hσnd List.nodup_range]
          have hsub : σ ⊆ List.range im.c := by
            intro s hs
            obtain ⟨k, hk⟩ := List.getElem?_of_mem hs
            obtain ⟨i, _, hr⟩ := mapM_get' hσ k s hk
            exact List.mem_range.2 ((resolve_iff _ _ _).1 hr).1
          have hsp : List.Subperm σ (List.range im.c) := (List.subperm_of_subset hσnd hsub)
          have := hsp.perm_of_length_le (by simp [hσl])
          intro a
          exact this.mem_iff
        obtain ⟨r, a1, a2, a3, a4, a5, a6⟩ := hselect out σ hσ hσp
        refine ⟨r, σ, by rw [o1, Option.bind_some, a1], a2, a3, a4, a5, hσp, ?_, a6⟩
        intro l' hl' k hk hno
        injection hl' with hl'
        subst hl'
        obtain ⟨s, hs, s1, _⟩ := hσg k hk
        rw [hs, s1 ?_]
        intro hki
        obtain ⟨j, hj⟩ := List.getElem?_of_mem hki
        obtain ⟨i, hi, hr⟩ := mapM_get' hidx j k hj
        exact hno i (List.mem_of_getElem? hi) ((resolve_iff _ _ _).1 hr)

example : ∃ (r : CImg _) (σ : List Nat), shuffle List.reverse (some [0, -1]) (⟨2, 2, 4, 0, fun _ _ k => k⟩ : CImg Nat) = some r ∧
    r.h = 2 ∧ r.w = 2 ∧ r.c = 4 ∧ r.dt = 0 ∧ σ.Perm (List.range 4) ∧
      (∀ l, some [0, -1] = some l → ∀ k < 4, (∀ i ∈ l, ¬ Denotes 4 i k) → σ[k]? = some k) ∧
      (∀ y x k, k < 4 → r.px y x k = σ.getD k 0) := by
  refine shuffle_permutes_partial List.reverse List.reverse_perm (some [0, -1]) ⟨2, 2, 4, 0, fun _ _ k => k⟩ ?_
  intro l hl
  injection hl with hl
  subst hl
  right
  refine ⟨by intro i hi; simp at hi; rcases hi with rfl | rfl
             · exact ⟨0, by simp [Denotes]⟩
             · exact ⟨3, by simp [Denotes]⟩, ?_⟩
  intro a b i j k ha hb h1 h2
  unfold Denotes at h1 h2
  dsimp only at h1 h2
  match a, b with
  | 0, 0 => rfl
  | 1, 1 => rfl
  | 0, 1 => simp at ha hb; subst ha hb; omega
  | 1, 0 => simp at ha hb; subst ha hb; omega
  | 0, b + 2 => simp at hb
  | 1, b + 2 => simp at hb
  | a + 2, _ => simp at ha

/-- C42 is false if a channel is listed twice: for `channels=[0, 1, 1]` and an image of three channels the generator may
yield the permutation `[1, 0, 1]`; then channel 0 is lost and channel 1 is there twice. -/
theorem shuffle_repeated_channels : ∃ perm : List Int → List Int, (perm [0, 1, 1]).Perm [0, 1, 1] ∧
    (shuffle perm (some [0, 1, 1]) (⟨1, 1, 3, 0, fun _ _ k => k⟩ : CImg Nat)).map (fun r =>
      [r.px 0 0 0, r.px 0 0 1, r.px 0 0 2]) = some [1, 1, 2] :=
  ⟨fun _ => [1, 0, 1], by decide, by decide +kernel⟩

/-- C42: `ChannelShuffle` shuffles exactly the images for which the sample of `p` is 1; the others are unchanged. -/
theorem channel_shuffle_images (channels : Option (List Int)) (images res : List (CImg α)) (p : List ℚ)
    (perms : List (List Int → List Int)) (hp : p.length = images.length) (hq : perms.length = images.length)
    (h : channelShuffle channels images p perms = some res) :
    res.length = images.length ∧ ∀ (i : Nat) (im : CImg α) (perm : List Int → List Int), images[i]? = some im →
      perms[i]? = some perm →
      (p[i]? = some 0 → res[i]? = some im) ∧
      (p[i]? = some 1 → ∃ r, res[i]? = some r ∧ shuffle perm channels im = some r) := by
  unfold channelShuffle at h
  obtain ⟨done, hd, rfl⟩ := Option.map_eq_some_iff.1 h
  obtain ⟨g1, g2⟩ := mapM_get hd
  have hlen : done.length = images.length := by simp [g1, hp, hq]
  rw [hlen, List.drop_length, List.append_nil]
  refine ⟨hlen, ?_⟩
  intro i im perm hi hpi
  constructor
  · intro h0
    obtain ⟨b, hb, hf⟩ := g2 i (im, 0, perm) (List.getElem?_zip_eq_some.2 ⟨hi, List.getElem?_zip_eq_some.2 ⟨h0, hpi⟩⟩)
    norm_num at hf
    rw [hb, hf]
  · intro h0
    obtain ⟨b, hb, hf⟩ := g2 i (im, 1, perm) (List.getElem?_zip_eq_some.2 ⟨hi, List.getElem?_zip_eq_some.2 ⟨h0, hpi⟩⟩)
    norm_num at hf
    exact ⟨b, hb, hf⟩

example : (channelShuffle none [(⟨1, 1, 2, 0, fun _ _ k => k⟩ : CImg Nat), ⟨1, 1, 2, 0, fun _ _ k => k⟩] [0, 1]
    [List.reverse, List.reverse]).map (fun l => l.map (fun im => [im.px 0 0 0, im.px 0 0 1])) = some [[0, 1], [1, 0]] := by
  decide +kernel

end Imgaug.Channels
