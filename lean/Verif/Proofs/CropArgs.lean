import Verif.Spec.CropArgs
import Verif.Props.Size
import Verif.Proofs.Num
namespace Imgaug.CropArgs
open Imgaug Imgaug.Size

variable {P : Values}

/-- The parameter of a side. -/
def Sides.side : Sides → Nat → Dist
  | .all d, _ => d
  | .each t _ _ _, 0 => t
  | .each _ r _ _, 1 => r
  | .each _ _ b _, 2 => b
  | .each _ _ _ l, _ => l

theorem intOf_some {a : Atom} {z : Int} (h : intOf a = some z) : a = .int z := by
  cases a <;> simp [intOf] at h
  rw [h]

theorem numOf_is {a : Atom} {q : ℚ} (h : numOf a = some q) : a.Is q := by
  cases a <;> simp [numOf] at h
  · exact Or.inl ⟨_, rfl, h.symm⟩
  · exact Or.inr (by rw [h])

theorem fracOf_some {a : Atom} {q : ℚ} (h : fracOf a = some q) : a.Is q ∧ -1 < q := by
  unfold fracOf at h
  rw [Option.bind_eq_some_iff] at h
  obtain ⟨x, hx, h⟩ := h
  split at h
  · rw [Option.some.injEq] at h
    subst h
    exact ⟨numOf_is hx, ‹_›⟩
  · simp at h

theorem mapM_mem' {β γ : Type} (f : β → Option γ) (l : List β) (r : List γ) (h : l.mapM f = some r) : ∀ y ∈ r, ∃ x ∈ l, f x = some y := by
  induction l generalizing r with
  | nil => simp at h; subst h; simp
  | cons x xs ih =>
    rw [List.mapM_cons] at h
    cases hx : f x with
    | none => simp [hx] at h
    | some y =>
      cases hxs : xs.mapM f with
      | none => simp [hx, hxs] at h
      | some ys =>
        simp [hx, hxs] at h
        subst h
        intro z hz
        rcases List.mem_cons.mp hz with rfl | hz
        · exact ⟨x, by simp, hx⟩
        · obtain ⟨w, hw, e⟩ := ih ys hxs z hz
          exact ⟨w, by simp [hw], e⟩

theorem mapM_get {β γ : Type} (f : β → Option γ) (l : List β) (r : List γ) (h : l.mapM f = some r) :
    r.length = l.length ∧ ∀ (i : Nat) (y : γ), r[i]? = some y → ∃ x, l[i]? = some x ∧ f x = some y := by
  induction l generalizing r with
  | nil => simp at h; subst h; simp
  | cons x xs ih =>
    rw [List.mapM_cons] at h
    cases hx : f x with
    | none => simp [hx] at h
    | some y =>
      cases hxs : xs.mapM f with
      | none => simp [hx, hxs] at h
      | some ys =>
        simp [hx, hxs] at h
        subst h
        obtain ⟨h1, h2⟩ := ih ys hxs
        refine ⟨by simp [h1], ?_⟩
        intro i z hz
        cases i with
        | zero => simp at hz; subst hz; exact ⟨x, rfl, hx⟩
        | succ i => exact h2 i z (by simpa using hz)

theorem mapM_nonempty {β γ : Type} {f : β → Option γ} {l : List β} {r : List γ} (h : l.mapM f = some r) (hl : l ≠ []) : r ≠ [] := by
  have := (mapM_get f l r h).1
  intro e
  rw [e] at this
  exact hl (List.length_eq_zero_iff.mp this.symm)

theorem mapM_ne {β γ : Type} (f : β → Option γ) (l : List β) : l.mapM f ≠ none ↔ ∀ x ∈ l, f x ≠ none := by
  induction l with
  | nil => simp
  | cons x xs ih =>
    rw [List.mapM_cons]
    cases hx : f x with
    | none => simp [hx]
    | some y =>
      cases hxs : xs.mapM f with
      | none =>
        have : ¬ ∀ x ∈ xs, f x ≠ none := fun h => (ih.mpr h) hxs
        simpa [hx, hxs] using this
      | some ys =>
        have := ih.mp (by simp [hxs])
        simpa [hx, hxs] using this

theorem pxParam_allows {e : Entry} {d : Dist} (h : pxParam e = some d) {v : ℚ} (hv : d.Supports P v) : e.Allows P v := by
  cases e with
  | atom a =>
    cases a <;> simp [pxParam] at h <;> subst h
    · exact hv
    · exact hv
  | tuple l =>
    match l, h with
    | [a, b], h =>
      simp only [pxParam, Option.bind_eq_some_iff, Option.map_eq_some_iff] at h
      obtain ⟨x, hx, y, hy, rfl⟩ := h
      obtain ⟨z, rfl, h1, h2⟩ := hv
      refine ⟨a, b, x, y, rfl, Or.inl ⟨x, intOf_some hx, rfl⟩, Or.inl ⟨y, intOf_some hy, rfl⟩, ?_, ?_⟩
      · exact_mod_cast h1
      · exact_mod_cast h2
    | [], h => simp [pxParam] at h
    | [_], h => simp [pxParam] at h
    | _ :: _ :: _ :: _, h => simp [pxParam] at h
  | list l =>
    simp only [pxParam] at h
    split at h
    · simp at h
    · rw [Option.map_eq_some_iff] at h
      obtain ⟨zs, hz, rfl⟩ := h
      rename_i hl
      have hv := hv (by simpa using mapM_nonempty hz hl)
      rw [List.mem_map] at hv
      obtain ⟨z, hz', rfl⟩ := hv
      obtain ⟨a, ha, e⟩ := mapM_mem' _ _ _ hz z hz'
      exact ⟨a, ha, Or.inl ⟨z, intOf_some e, rfl⟩⟩

theorem is_allows {a : Atom} {q : ℚ} (h : a.Is q) : a.Allows P q := by
  rcases h with ⟨z, rfl, rfl⟩ | rfl <;> rfl

theorem percentParam_allows {e : Entry} {d : Dist} (h : percentParam e = some d) {v : ℚ} (hv : d.Supports P v) : e.Allows P v := by
  cases e with
  | atom a =>
    cases a <;> simp [percentParam, numOf] at h <;> subst h <;> exact hv
  | tuple l =>
    match l, h with
    | [a, b], h =>
      simp only [percentParam, Option.bind_eq_some_iff, Option.map_eq_some_iff] at h
      obtain ⟨x, hx, y, hy, rfl⟩ := h
      exact ⟨a, b, x, y, rfl, (fracOf_some hx).1, (fracOf_some hy).1, hv.1, hv.2⟩
    | [], h => simp [percentParam] at h
    | [_], h => simp [percentParam] at h
    | _ :: _ :: _ :: _, h => simp [percentParam] at h
  | list l =>
    simp only [percentParam] at h
    split at h
    · simp at h
    · rw [Option.map_eq_some_iff] at h
      obtain ⟨zs, hz, rfl⟩ := h
      rename_i hl
      obtain ⟨a, ha, e⟩ := mapM_mem' _ _ _ hz v (hv (mapM_nonempty hz hl))
      exact ⟨a, ha, (fracOf_some e).1⟩

theorem asAtom_is {e : Entry} {q : ℚ} (h : e.asAtom.Is q) : ∃ a, e = .atom a ∧ a.Is q := by
  cases e with
  | atom a => exact ⟨a, rfl, h⟩
  | tuple l => rcases h with ⟨z, h, -⟩ | h <;> simp [Entry.asAtom] at h
  | list l => rcases h with ⟨z, h, -⟩ | h <;> simp [Entry.asAtom] at h

theorem two_allows {a b : Entry} {v : ℚ} (h : (Entry.tuple [a.asAtom, b.asAtom]).Allows P v) (k : Nat) :
    (Arg.tuple [a, b]).Allows P k v := by
  obtain ⟨a', b', x, y, e, hx, hy, h1, h2⟩ := h
  simp only [List.cons.injEq, and_true] at e
  obtain ⟨rfl, rfl⟩ := e
  obtain ⟨c, rfl, hc⟩ := asAtom_is hx
  obtain ⟨d, rfl, hd⟩ := asAtom_is hy
  simp only [Arg.Allows, List.length_cons, List.length_nil, Nat.reduceAdd, if_true]
  exact ⟨c, d, x, y, rfl, hc, hd, h1, h2⟩

theorem four_allows (f : Entry → Option Dist) (hf : ∀ e d v, f e = some d → d.Supports P v → e.Allows P v) {a b c d : Entry} {s : Sides}
    (h : four f a b c d = some s) (k : Nat) (hk : k < 4) {v : ℚ} (hv : (s.side k).Supports P v) : (Arg.tuple [a, b, c, d]).Allows P k v := by
  simp only [four, Option.bind_eq_some_iff, Option.map_eq_some_iff] at h
  obtain ⟨t, ht, r, hr, bo, hb, l, hl, rfl⟩ := h
  simp only [Arg.Allows, List.length_cons, List.length_nil, Nat.reduceAdd]
  rw [if_neg (by omega)]
  match k, hk with
  | 0, _ => exact ⟨a, rfl, hf _ _ _ ht hv⟩
  | 1, _ => exact ⟨b, rfl, hf _ _ _ hr hv⟩
  | 2, _ => exact ⟨c, rfl, hf _ _ _ hb hv⟩
  | 3, _ => exact ⟨d, rfl, hf _ _ _ hl hv⟩

theorem side_same (d : Dist) (k : Nat) : (Sides.each d d d d).side k = d := by
  match k with
  | 0 => rfl
  | 1 => rfl
  | 2 => rfl
  | (n + 3) => rfl

theorem pxArg_allows {arg : Arg} {s : Sides} (h : pxArg arg = some s) (k : Nat) (hk : k < 4) {v : ℚ} (hv : (s.side k).Supports P v) :
    arg.Allows P k v := by
  match arg, h with
  | .none, h => simp [pxArg] at h
  | .list _, h => simp [pxArg] at h
  | .atom a, h =>
    cases a <;> simp [pxArg] at h <;> subst h
    · exact hv
    · rw [side_same] at hv; exact hv
  | .tuple [a, b], h =>
    simp only [pxArg, Option.map_eq_some_iff] at h
    obtain ⟨d, hd, rfl⟩ := h
    exact two_allows (pxParam_allows hd hv) k
  | .tuple [a, b, c, d], h => exact four_allows pxParam (fun _ _ _ h hv => pxParam_allows h hv) h k hk hv
  | .tuple [], h => simp [pxArg] at h
  | .tuple [_], h => simp [pxArg] at h
  | .tuple [_, _, _], h => simp [pxArg] at h
  | .tuple (_ :: _ :: _ :: _ :: _ :: _), h => simp [pxArg] at h

theorem percentArg_allows {arg : Arg} {s : Sides} (h : percentArg arg = some s) (k : Nat) (hk : k < 4) {v : ℚ}
    (hv : (s.side k).Supports P v) : arg.Allows P k v := by
  match arg, h with
  | .none, h => simp [percentArg] at h
  | .list _, h => simp [percentArg] at h
  | .atom (.par n i), h =>
    simp [percentArg] at h
    subst h
    rw [side_same] at hv
    exact hv
  | .atom (.int z), h =>
    simp only [percentArg, Option.map_eq_some_iff] at h
    obtain ⟨q, hq, rfl⟩ := h
    rw [show v = q from hv]
    exact is_allows (P := P) (fracOf_some hq).1
  | .atom (.float z), h =>
    simp only [percentArg, Option.map_eq_some_iff] at h
    obtain ⟨q, hq, rfl⟩ := h
    rw [show v = q from hv]
    exact is_allows (P := P) (fracOf_some hq).1
  | .atom .other, h => simp [percentArg, fracOf, numOf] at h
  | .tuple [a, b], h =>
    simp only [percentArg, Option.map_eq_some_iff] at h
    obtain ⟨d, hd, rfl⟩ := h
    exact two_allows (percentParam_allows hd hv) k
  | .tuple [a, b, c, d], h => exact four_allows percentParam (fun _ _ _ h hv => percentParam_allows h hv) h k hk hv
  | .tuple [], h => simp [percentArg] at h
  | .tuple [_], h => simp [percentArg] at h
  | .tuple [_, _, _], h => simp [percentArg] at h
  | .tuple (_ :: _ :: _ :: _ :: _ :: _), h => simp [percentArg] at h

/-- All four values are possible ones. -/
def FourOk (P : Values) (s : Sides) (f : Four) : Prop :=
  (s.side 0).Supports P f.top ∧ (s.side 1).Supports P f.right ∧ (s.side 2).Supports P f.bottom ∧ (s.side 3).Supports P f.left

theorem getD_mem (l : List ℚ) (i : Nat) (h : i < l.length) : l.getD i 0 ∈ l := by
  simp [List.getD, List.getElem?_eq_getElem h]

theorem drawFours_ok {σ : Type} {S : Sampler σ} (hS : Ok P S) (ind : Bool) (s : Sides) (n : Nat) (g : σ) :
    (drawFours S ind s n g).1.length = n ∧ ∀ f ∈ (drawFours S ind s n g).1, FourOk P s f := by
  cases s with
  | all d =>
    cases ind with
    | false =>
      simp only [drawFours, Bool.false_eq_true, if_false]
      refine ⟨by rw [List.length_map, hS.length], ?_⟩
      intro f hf
      obtain ⟨v, hv, rfl⟩ := List.mem_map.mp hf
      have := hS.values d n g v hv
      exact ⟨this, this, this, this⟩
    | true =>
      simp only [drawFours, if_true, rowsOf4]
      refine ⟨by simp, ?_⟩
      intro f hf
      obtain ⟨i, hi', rfl⟩ := List.mem_map.mp hf
      rw [List.mem_range] at hi'
      have key : ∀ j, j < n * 4 → d.Supports P ((S d (n * 4) g).1.getD j 0) := fun j hj =>
        hS.values d (n * 4) g _ (getD_mem _ _ (by rw [hS.length]; exact hj))
      exact ⟨key _ (by omega), key _ (by omega), key _ (by omega), key _ (by omega)⟩
  | each t r b l =>
    simp only [drawFours]
    refine ⟨by simp, ?_⟩
    intro f hf
    obtain ⟨i, hi', rfl⟩ := List.mem_map.mp hf
    rw [List.mem_range] at hi'
    have key : ∀ (d : Dist) g', d.Supports P ((S d n g').1.getD i 0) := fun d g' =>
      hS.values d n g' _ (getD_mem _ _ (by rw [hS.length]; exact hi'))
    exact ⟨key _ _, key _ _, key _ _, key _ _⟩

theorem preventZero_fits (size s e : Int) (hsize : 0 ≤ size) (hs : 0 ≤ s) (he : 0 ≤ e) :
    0 ≤ (preventZero size s e).1 ∧ (preventZero size s e).1 ≤ s ∧ 0 ≤ (preventZero size s e).2 ∧ (preventZero size s e).2 ≤ e ∧
    (preventZero size s e).1 + (preventZero size s e).2 = min (s + e) (max (size - 1) 0) := by
  by_cases h : 1 ≤ size
  · obtain ⟨a, b, e1, h1, h2, h3, h4, h5⟩ := prevent_zero_size size s e h hs he
    rw [e1]
    refine ⟨h1, h2, h3, h4, ?_⟩
    simp only
    omega
  · have : size = 0 := by omega
    subst this
    rw [prevent_zero_size_empty s e hs he]
    refine ⟨le_refl _, hs, le_refl _, he, ?_⟩
    simp only
    omega

theorem fits (s : Shape) (t : Trbl) : Fits s t (croppings s t) (paddings t) := by
  have a := preventZero_fits s.h (max (-1 * t.top) 0) (max (-1 * t.bottom) 0) (by omega) (le_max_right _ _) (le_max_right _ _)
  have b := preventZero_fits s.w (max (-1 * t.left) 0) (max (-1 * t.right) 0) (by omega) (le_max_right _ _) (le_max_right _ _)
  simp only [neg_one_mul] at a b
  obtain ⟨a1, a2, a3, a4, a5⟩ := a
  obtain ⟨b1, b2, b3, b4, b5⟩ := b
  refine ⟨rfl, ?_, ?_, ?_, ?_, ?_, ?_⟩ <;> simp only [croppings, preventZeroTrbl, neg_one_mul]
  · exact ⟨a1, a2⟩
  · exact ⟨b3, b4⟩
  · exact ⟨a3, a4⟩
  · exact ⟨b1, b2⟩
  · rw [a5]; congr 1; omega
  · rw [b5]; congr 1; omega

theorem asInt_some {q : ℚ} {z : Int} (h : asInt q = some z) : q = z := by
  unfold asInt at h
  split at h
  · rename_i hd
    rw [Option.some.injEq] at h
    rw [← h]
    exact (Rat.coe_int_num_of_den_eq_one hd).symm
  · simp at h

/-- What `_draw_samples` gives for a mode and sides. -/
theorem drawn {σ : Type} {S : Sampler σ} (hS : Ok P S) (ind : Bool) (ms : Mode × Sides) (shapes : List Shape) (g : σ)
    (rows : List (Trbl × Trbl)) (h : drawSamples S ind ms shapes g = some rows) :
    rows.length = shapes.length ∧ ∀ (i : Nat) s c p, shapes[i]? = some s → rows[i]? = some (c, p) → ∃ f t,
      (drawFours S ind ms.2 shapes.length g).1[i]? = some f ∧ FourOk P ms.2 f ∧ amounts ms.1 s f = some t ∧ c = croppings s t ∧ p = paddings t := by
  obtain ⟨hl, hf⟩ := drawFours_ok hS ind ms.2 shapes.length g
  obtain ⟨h1, h2⟩ := mapM_get _ _ _ h
  refine ⟨by rw [h1, List.length_zip, hl, Nat.min_self], ?_⟩
  intro i s c p hs hr
  obtain ⟨x, hx, e⟩ := h2 i _ hr
  rw [List.getElem?_zip_eq_some] at hx
  obtain ⟨hx1, hx2⟩ := hx
  rw [hs, Option.some.injEq] at hx1
  rw [Option.map_eq_some_iff] at e
  obtain ⟨t, ht, e⟩ := e
  rw [Prod.mk.injEq] at e
  exact ⟨x.2, t, hx2, hf _ (List.mem_of_getElem? hx2), by rw [hx1]; exact ht, by rw [← e.1, hx1], e.2.symm⟩

theorem requested {σ : Type} {S : Sampler σ} (hS : Ok P S) (ind : Bool) (default px percent : Arg) (ms : Mode × Sides)
    (hm : modeAndSides default px percent = some ms) (shapes : List Shape) (g : σ)
    (rows : List (Trbl × Trbl)) (h : drawSamples S ind ms shapes g = some rows) :
    rows.length = shapes.length ∧ ∀ (i : Nat) s c p, shapes[i]? = some s → rows[i]? = some (c, p) → ∃ t,
      Requested P default px percent s t ∧ Fits s t c p := by
  obtain ⟨h1, h2⟩ := drawn hS ind ms shapes g rows h
  refine ⟨h1, ?_⟩
  intro i s c p hs hr
  obtain ⟨f, t, -, ⟨f0, f1, f2, f3⟩, ha, rfl, rfl⟩ := h2 i s c p hs hr
  refine ⟨t, ?_, fits s t⟩
  have percentCase : ∀ arg sides, percentArg arg = some sides → ms = (.percent, sides) → ∃ a b c d,
      arg.Allows P 0 a ∧ arg.Allows P 1 b ∧ arg.Allows P 2 c ∧ arg.Allows P 3 d ∧
      |(t.top : ℚ) - s.h * a| ≤ 1 / 2 ∧ |(t.right : ℚ) - s.w * b| ≤ 1 / 2 ∧ |(t.bottom : ℚ) - s.h * c| ≤ 1 / 2 ∧
      |(t.left : ℚ) - s.w * d| ≤ 1 / 2 := by
    intro arg sides harg e
    subst e
    simp only [amounts, Option.some.injEq] at ha
    subst ha
    exact ⟨f.top, f.right, f.bottom, f.left, percentArg_allows harg 0 (by omega) f0, percentArg_allows harg 1 (by omega) f1,
      percentArg_allows harg 2 (by omega) f2, percentArg_allows harg 3 (by omega) f3, Imgaug.Props.npRound_dist _, Imgaug.Props.npRound_dist _, Imgaug.Props.npRound_dist _,
      Imgaug.Props.npRound_dist _⟩
  by_cases hp : px = .none
  · refine Or.inr ⟨hp, _, rfl, ?_⟩
    subst hp
    by_cases hq : percent = .none
    · subst hq
      simp only [modeAndSides, Option.map_eq_some_iff] at hm
      obtain ⟨sides, hsd, e⟩ := hm
      rw [if_pos rfl]
      exact percentCase _ sides hsd e.symm
    · rw [if_neg hq]
      cases percent <;> simp only [modeAndSides, Option.map_eq_some_iff] at hm
      · exact absurd rfl hq
      all_goals
        obtain ⟨sides, hsd, e⟩ := hm
        exact percentCase _ sides hsd e.symm
  · left
    have hq : percent = .none := by
      cases percent <;> cases px <;> simp_all [modeAndSides]
    subst hq
    have : ∃ sides, pxArg px = some sides ∧ ms = (.px, sides) := by
      cases px <;> simp only [modeAndSides, Option.map_eq_some_iff] at hm
      · exact absurd rfl hp
      all_goals
        obtain ⟨sides, hsd, e⟩ := hm
        exact ⟨sides, hsd, e.symm⟩
    obtain ⟨sides, hsd, rfl⟩ := this
    simp only [amounts, Option.bind_eq_some_iff, Option.map_eq_some_iff] at ha
    obtain ⟨t0, e0, t1, e1, t2, e2, t3, e3, rfl⟩ := ha
    simp only
    rw [← asInt_some e0, ← asInt_some e1, ← asInt_some e2, ← asInt_some e3]
    exact ⟨hp, trivial, pxArg_allows hsd 0 (by omega) f0, pxArg_allows hsd 1 (by omega) f1, pxArg_allows hsd 2 (by omega) f2,
      pxArg_allows hsd 3 (by omega) f3⟩

/-! `Pad` and `Crop`: a function on numbers and parameters that multiplies values by `m`. -/

/-- The function keeps numbers and parameters apart, multiplies them by `m` and rejects negative numbers. -/
structure Scales (f : Atom → Option Atom) (m : ℚ) : Prop where
  allows : ∀ (P : Values) a a' v, f a = some a' → a'.Allows P v → ∃ u, a.Allows P u ∧ v = m * u
  is : ∀ a a' v, f a = some a' → a'.Is v → ∃ u, a.Is u ∧ v = m * u ∧ 0 ≤ u

theorem validate_scales : Scales validate 1 := by
  constructor
  · intro P a a' v h hv
    refine ⟨v, ?_, by ring⟩
    cases a <;> simp [validate] at h <;> first | (obtain ⟨-, rfl⟩ := h; exact hv) | (subst h; exact hv)
  · intro a a' v h hv
    refine ⟨v, ?_⟩
    cases a <;> simp [validate] at h
    · obtain ⟨h0, rfl⟩ := h
      refine ⟨hv, by ring, ?_⟩
      rcases hv with ⟨z, e, rfl⟩ | e <;> simp at e
      subst e
      exact_mod_cast h0
    · obtain ⟨h0, rfl⟩ := h
      refine ⟨hv, by ring, ?_⟩
      rcases hv with ⟨z, e, rfl⟩ | e <;> simp at e
      subst e
      exact h0
    · subst h
      rcases hv with ⟨z, e, rfl⟩ | e <;> simp at e

theorem negate_scales : Scales negate (-1) := by
  constructor
  · intro P a a' v h hv
    cases a <;> simp [negate] at h
    · obtain ⟨-, rfl⟩ := h
      refine ⟨_, rfl, ?_⟩
      rw [show v = ((-_ : Int) : ℚ) from hv]; push_cast; ring
    · obtain ⟨-, rfl⟩ := h
      refine ⟨_, rfl, ?_⟩
      rw [show v = -_ from hv]; ring
    · subst h
      obtain ⟨u, hu, rfl⟩ := hv
      refine ⟨_, ⟨u, hu, rfl⟩, ?_⟩
      rename_i s i
      cases s <;> simp
  · intro a a' v h hv
    cases a <;> simp [negate] at h
    · obtain ⟨h0, rfl⟩ := h
      rename_i z0
      refine ⟨z0, Or.inl ⟨z0, rfl, rfl⟩, ?_, by exact_mod_cast h0⟩
      rcases hv with ⟨z, e, rfl⟩ | e <;> simp at e
      rw [← e]; push_cast; ring
    · obtain ⟨h0, rfl⟩ := h
      rename_i q0
      refine ⟨q0, Or.inr rfl, ?_, h0⟩
      rcases hv with ⟨z, e, rfl⟩ | e <;> simp at e
      rw [← e]; ring
    · subst h
      rcases hv with ⟨z, e, rfl⟩ | e <;> simp at e

theorem interval_scaled {x y u w v m : ℚ} (hm : m = 1 ∨ m = -1) (hx : x = m * u) (hy : y = m * w) (h1 : min x y ≤ v) (h2 : v ≤ max x y) :
    min u w ≤ m * v ∧ m * v ≤ max u w := by
  rcases hm with rfl | rfl <;> subst hx <;> subst hy <;> constructor <;> grind

theorem mapM_two {β γ : Type} {f : β → Option γ} {l : List β} {a b : γ} (h : l.mapM f = some [a, b]) :
    ∃ x y, l = [x, y] ∧ f x = some a ∧ f y = some b := by
  obtain ⟨hl, h2⟩ := mapM_get f l _ h
  match l, hl with
  | [x, y], _ =>
    obtain ⟨x', hx, e1⟩ := h2 0 a rfl
    obtain ⟨y', hy, e2⟩ := h2 1 b rfl
    simp at hx hy
    subst hx; subst hy
    exact ⟨_, _, rfl, e1, e2⟩

theorem entry_scaled {f : Atom → Option Atom} {m : ℚ} (hm : m = 1 ∨ m = -1) (hf : Scales f m) {e e' : Entry} (h : e.over f = some e') {v : ℚ}
    (hv : e'.Allows P v) : e.Allows P (m * v) ∧ ((∀ i u, P i u → 0 ≤ u) → (∀ i, e ≠ .atom (.par true i)) → 0 ≤ m * v) := by
  have hmm : m * m = 1 := by rcases hm with rfl | rfl <;> norm_num
  cases e with
  | atom a =>
    simp only [Entry.over, Option.map_eq_some_iff] at h
    obtain ⟨a', ha, rfl⟩ := h
    obtain ⟨u, hu, rfl⟩ := hf.allows P a a' v ha hv
    rw [← mul_assoc, hmm, one_mul]
    refine ⟨hu, ?_⟩
    intro hP hs
    cases a with
    | int z =>
      cases hc : a' with
      | int z' =>
        subst hc
        obtain ⟨u', hu', e', h0⟩ := hf.is _ _ _ ha (Or.inl ⟨z', rfl, rfl⟩)
        rcases hu' with ⟨w, e, rfl⟩ | e <;> simp at e
        subst e
        rw [show u = _ from hu]; exact h0
      | float q' =>
        subst hc
        obtain ⟨u', hu', e', h0⟩ := hf.is _ _ _ ha (Or.inr rfl)
        rcases hu' with ⟨w, e, rfl⟩ | e <;> simp at e
        subst e
        rw [show u = _ from hu]; exact h0
      | par s i =>
        subst hc
        obtain ⟨w, hw, e⟩ := hv
        exfalso
        have := hf.allows (fun _ x => x = 1) _ _ (if s then -1 else 1) ha ⟨1, rfl, rfl⟩
        have := hf.allows (fun _ x => x = 2) _ _ (if s then -2 else 2) ha ⟨2, rfl, rfl⟩
        obtain ⟨u1, h1, g1⟩ := ‹∃ u, _ ∧ (if s then -1 else 1) = m * u›
        obtain ⟨u2, h2, g2⟩ := this
        have e1 : u1 = u2 := by rw [show u1 = _ from h1, show u2 = _ from h2]
        rw [e1, ← g2] at g1
        cases s <;> norm_num at g1
      | other => subst hc; exact absurd hv id
    | float q =>
      cases hc : a' with
      | int z' =>
        subst hc
        obtain ⟨u', hu', e', h0⟩ := hf.is _ _ _ ha (Or.inl ⟨z', rfl, rfl⟩)
        rcases hu' with ⟨w, e, rfl⟩ | e <;> simp at e
        subst e
        rw [show u = _ from hu]; exact h0
      | float q' =>
        subst hc
        obtain ⟨u', hu', e', h0⟩ := hf.is _ _ _ ha (Or.inr rfl)
        rcases hu' with ⟨w, e, rfl⟩ | e <;> simp at e
        subst e
        rw [show u = _ from hu]; exact h0
      | par s i =>
        subst hc
        exfalso
        obtain ⟨u1, h1, g1⟩ := hf.allows (fun _ x => x = 1) _ _ (if s then -1 else 1) ha ⟨1, rfl, rfl⟩
        obtain ⟨u2, h2, g2⟩ := hf.allows (fun _ x => x = 2) _ _ (if s then -2 else 2) ha ⟨2, rfl, rfl⟩
        have e1 : u1 = u2 := by rw [show u1 = _ from h1, show u2 = _ from h2]
        rw [e1, ← g2] at g1
        cases s <;> norm_num at g1
      | other => subst hc; exact absurd hv id
    | par s i =>
      obtain ⟨w, hw, rfl⟩ := hu
      cases s with
      | true => exact absurd rfl (hs i)
      | false => simpa using hP i w hw
    | other => exact absurd hu id
  | tuple l =>
    simp only [Entry.over, Option.map_eq_some_iff] at h
    obtain ⟨l', hl, rfl⟩ := h
    obtain ⟨a, b, x, y, rfl, hx, hy, h1, h2⟩ := hv
    obtain ⟨a0, b0, rfl, ea, eb⟩ := mapM_two hl
    obtain ⟨u, hu, e1, u0⟩ := hf.is _ _ _ ea hx
    obtain ⟨w, hw, e2, w0⟩ := hf.is _ _ _ eb hy
    obtain ⟨i1, i2⟩ := interval_scaled hm e1 e2 h1 h2
    exact ⟨⟨a0, b0, u, w, rfl, hu, hw, i1, i2⟩, fun _ _ => le_trans (le_min u0 w0) i1⟩
  | list l =>
    simp only [Entry.over, Option.map_eq_some_iff] at h
    obtain ⟨l', hl, rfl⟩ := h
    obtain ⟨a, ha, hv⟩ := hv
    obtain ⟨a0, ha0, e⟩ := mapM_mem' f l l' hl a ha
    obtain ⟨u, hu, e1, u0⟩ := hf.is _ _ _ e hv
    rw [e1, ← mul_assoc, hmm, one_mul]
    exact ⟨⟨a0, ha0, hu⟩, fun _ _ => u0⟩

theorem arg_scaled {f : Atom → Option Atom} {m : ℚ} (hm : m = 1 ∨ m = -1) (hf : Scales f m) {arg arg' : Arg} (h : arg.over f = some arg')
    {k : Nat} {v : ℚ} (hv : arg'.Allows P k v) :
    arg.Allows P k (m * v) ∧ ((∀ i u, P i u → 0 ≤ u) → arg.Plain → 0 ≤ m * v) := by
  cases arg with
  | none => simp [Arg.over] at h; subst h; exact absurd hv id
  | atom a =>
    simp only [Arg.over, Option.map_eq_some_iff] at h
    obtain ⟨a', ha, rfl⟩ := h
    have := entry_scaled (P := P) hm hf (e := .atom a) (e' := .atom a') (by simp [Entry.over, ha]) (v := v) hv
    exact ⟨this.1, fun hP hpl => this.2 hP (fun i e => hpl i (by simpa using e))⟩
  | tuple l =>
    simp only [Arg.over, Option.map_eq_some_iff] at h
    obtain ⟨l', hl, rfl⟩ := h
    obtain ⟨hlen, hget⟩ := mapM_get _ _ _ hl
    simp only [Arg.Allows] at hv ⊢
    by_cases h2 : l'.length = 2
    · rw [if_pos h2] at hv
      rw [if_pos (by omega)]
      obtain ⟨a, b, x, y, rfl, hx, hy, h1, h2⟩ := hv
      obtain ⟨a0, b0, rfl, ea, eb⟩ := mapM_two hl
      have atom_of : ∀ (e : Entry) (a : Atom), e.over f = some (.atom a) → ∃ c, e = .atom c ∧ f c = some a := by
        intro e a he
        cases e <;> simp [Entry.over] at he
        exact ⟨_, rfl, he⟩
      obtain ⟨c, rfl, ec⟩ := atom_of _ _ ea
      obtain ⟨d, rfl, ed⟩ := atom_of _ _ eb
      obtain ⟨u, hu, e1, u0⟩ := hf.is _ _ _ ec hx
      obtain ⟨w, hw, e2, w0⟩ := hf.is _ _ _ ed hy
      obtain ⟨i1, i2⟩ := interval_scaled hm e1 e2 h1 h2
      exact ⟨⟨c, d, u, w, rfl, hu, hw, i1, i2⟩, fun _ _ => le_trans (le_min u0 w0) i1⟩
    · rw [if_neg h2] at hv
      rw [if_neg (by omega)]
      obtain ⟨e', he', hv⟩ := hv
      obtain ⟨e, he, eo⟩ := hget k e' he'
      have := entry_scaled (P := P) hm hf eo hv
      exact ⟨⟨e, he, this.1⟩, fun hP hpl => this.2 hP (hpl e (List.mem_of_getElem? he))⟩
  | list l =>
    simp only [Arg.over, Option.map_eq_some_iff] at h
    obtain ⟨l', -, rfl⟩ := h
    exact absurd hv id

theorem over_none_iff {f : Atom → Option Atom} {arg arg' : Arg} (h : arg.over f = some arg') : arg' = .none ↔ arg = .none := by
  cases arg <;> simp [Arg.over] at h
  · subst h; simp
  all_goals
    obtain ⟨a, -, rfl⟩ := h
    simp

theorem nonneg_of_round {z : Int} {q : ℚ} (hq : 0 ≤ q) (h : |(z : ℚ) - q| ≤ 1 / 2) : 0 ≤ z := by
  rw [abs_le] at h
  have : (-1 : ℚ) < z := by linarith
  have : (-1 : Int) < z := by exact_mod_cast this
  omega

/-- `Pad` (`m = 1`) and `Crop` (`m = -1`): what is requested of `CropAndPad`, in terms of their own arguments. -/
theorem requested_scaled {f : Atom → Option Atom} {m : Int} (hm : m = 1 ∨ m = -1) (hf : Scales f m) {default default' px px' percent percent' : Arg}
    (hd : default.over f = some default') (hx : px.over f = some px') (hp : percent.over f = some percent') (hdp : default.Plain)
    {s : Shape} {t : Trbl} (h : Requested P default' px' percent' s t) :
    Requested P default px percent s ⟨m * t.top, m * t.right, m * t.bottom, m * t.left⟩ ∧
    ((∀ i u, P i u → 0 ≤ u) → px.Plain → percent.Plain → 0 ≤ m * t.top ∧ 0 ≤ m * t.right ∧ 0 ≤ m * t.bottom ∧ 0 ≤ m * t.left) := by
  have hm' : ((m : Int) : ℚ) = 1 ∨ ((m : Int) : ℚ) = -1 := by rcases hm with rfl | rfl <;> simp
  have cast : ∀ z : Int, ((m * z : Int) : ℚ) = m * z := fun z => by push_cast; ring
  rcases h with ⟨h0, h1, a0, a1, a2, a3⟩ | ⟨h0, p, hpp, a, b, c, d, a0, a1, a2, a3, b0, b1, b2, b3⟩
  · have s0 := arg_scaled hm' hf hx a0
    have s1 := arg_scaled hm' hf hx a1
    have s2 := arg_scaled hm' hf hx a2
    have s3 := arg_scaled hm' hf hx a3
    refine ⟨Or.inl ⟨fun e => h0 ((over_none_iff hx).mpr e), (over_none_iff hp).mp h1, ?_⟩, ?_⟩
    · simp only [cast]
      exact ⟨s0.1, s1.1, s2.1, s3.1⟩
    · intro hP hpl _
      have c : ∀ z : Int, (0 : ℚ) ≤ m * z → 0 ≤ m * z := fun z hz => by exact_mod_cast hz
      exact ⟨c _ (s0.2 hP hpl), c _ (s1.2 hP hpl), c _ (s2.2 hP hpl), c _ (s3.2 hP hpl)⟩
  · have hpo : (if percent = .none then default else percent).over f = some p := by
      by_cases hn : percent = .none
      · rw [if_pos hn, hpp, if_pos ((over_none_iff hp).mpr hn), hd]
      · rw [if_neg hn, hpp, if_neg (fun e => hn ((over_none_iff hp).mp e)), hp]
    have s0 := arg_scaled hm' hf hpo a0
    have s1 := arg_scaled hm' hf hpo a1
    have s2 := arg_scaled hm' hf hpo a2
    have s3 := arg_scaled hm' hf hpo a3
    have r : ∀ (z : Int) (n q : ℚ), |(z : ℚ) - n * q| ≤ 1 / 2 → |((m * z : Int) : ℚ) - n * (m * q)| ≤ 1 / 2 := by
      intro z n q hz
      rw [cast]
      have : (m : ℚ) * z - n * (m * q) = m * (z - n * q) := by ring
      rw [this, abs_mul]
      rcases hm' with e | e <;> rw [e] <;> simpa using hz
    refine ⟨Or.inr ⟨(over_none_iff hx).mp h0, _, rfl, _, _, _, _, s0.1, s1.1, s2.1, s3.1, r _ _ _ b0, r _ _ _ b1, r _ _ _ b2, r _ _ _ b3⟩, ?_⟩
    intro hP _ hpl
    have hpl' : (if percent = .none then default else percent).Plain := by split <;> assumption
    exact ⟨nonneg_of_round (mul_nonneg (Nat.cast_nonneg _) (s0.2 hP hpl')) (r _ _ _ b0),
      nonneg_of_round (mul_nonneg (Nat.cast_nonneg _) (s1.2 hP hpl')) (r _ _ _ b1),
      nonneg_of_round (mul_nonneg (Nat.cast_nonneg _) (s2.2 hP hpl')) (r _ _ _ b2),
      nonneg_of_round (mul_nonneg (Nat.cast_nonneg _) (s3.2 hP hpl')) (r _ _ _ b3)⟩

theorem least_ok : Ok (fun _ u => 0 ≤ u) least := by
  constructor
  · intro d n g
    cases d <;> simp [least]
  · intro d n g v hv
    cases d with
    | det q => simp [least] at hv; exact hv.2
    | discrete a b =>
      simp only [least, List.mem_replicate] at hv
      exact ⟨min a b, hv.2, le_refl _, min_le_max⟩
    | uniform a b =>
      simp only [least, List.mem_replicate] at hv
      rw [hv.2]
      exact ⟨le_refl _, min_le_max⟩
    | choice l =>
      simp only [least, List.mem_replicate] at hv
      intro hl
      cases l with
      | nil => exact absurd rfl hl
      | cons x xs => simp [hv.2]
    | par s i =>
      simp only [least, List.mem_map] at hv
      obtain ⟨k, -, rfl⟩ := hv
      exact ⟨((g + k : Nat) : ℚ), Nat.cast_nonneg _, rfl⟩

theorem intOf_ne (a : Atom) : intOf a ≠ none ↔ ∃ z, a = .int z := by
  cases a <;> simp [intOf]

theorem fracOf_ne (a : Atom) : fracOf a ≠ none ↔ a.Frac := by
  constructor
  · intro h
    obtain ⟨q, hq⟩ := Option.ne_none_iff_exists'.mp h
    exact ⟨q, fracOf_some hq⟩
  · rintro ⟨q, ⟨z, rfl, rfl⟩ | rfl, h⟩ <;> simp [fracOf, numOf] <;> linarith

theorem pxParam_ne (e : Entry) : pxParam e ≠ none ↔ e.PxOk := by
  cases e with
  | atom a => cases a <;> simp [pxParam, Entry.PxOk, Atom.PxOk]
  | tuple l =>
    match l with
    | [a, b] => cases a <;> cases b <;> simp [pxParam, Entry.PxOk, intOf]
    | [] => simp [pxParam, Entry.PxOk]
    | [_] => simp [pxParam, Entry.PxOk]
    | _ :: _ :: _ :: _ => simp [pxParam, Entry.PxOk]
  | list l =>
    simp only [pxParam, Entry.PxOk]
    by_cases h : l = []
    · simp [h]
    · rw [if_neg h, Ne, Option.map_eq_none_iff, ← Ne, mapM_ne]
      simp only [intOf_ne]
      simp [h]

theorem percentParam_pair (a b : Atom) : percentParam (.tuple [a, b]) ≠ none ↔ a.Frac ∧ b.Frac := by
  rw [← fracOf_ne, ← fracOf_ne]
  simp only [percentParam]
  cases fracOf a <;> cases fracOf b <;> simp

theorem percentParam_ok (e : Entry) (h : e.PercentOk) : percentParam e ≠ none := by
  cases e with
  | atom a =>
    rcases h with ⟨q, ⟨z, rfl, rfl⟩ | rfl, h⟩ | ⟨s, i, rfl⟩ <;> simp [percentParam, numOf]
  | tuple l =>
    obtain ⟨a, b, rfl, h⟩ := h
    exact (percentParam_pair a b).mpr h
  | list l =>
    simp only [percentParam]
    rw [if_neg h.1, Ne, Option.map_eq_none_iff, ← Ne, mapM_ne]
    exact fun a ha => (fracOf_ne a).mpr (h.2 a ha)

theorem four_ne (f : Entry → Option Dist) (a b c d : Entry) : four f a b c d ≠ none ↔ ∀ e ∈ [a, b, c, d], f e ≠ none := by
  unfold four
  cases h1 : f a <;> cases h2 : f b <;> cases h3 : f c <;> cases h4 : f d <;> simp [h1, h2, h3, h4]

theorem pxArg_ne (arg : Arg) : pxArg arg ≠ none ↔ arg.PxOk := by
  cases arg with
  | none => simp [pxArg, Arg.PxOk]
  | list l => simp [pxArg, Arg.PxOk]
  | atom a => cases a <;> simp [pxArg, Arg.PxOk, Atom.PxOk]
  | tuple l =>
    match l with
    | [a, b] =>
      simp only [pxArg]
      rw [Ne, Option.map_eq_none_iff, ← Ne, pxParam_ne]
      simp only [Entry.PxOk, Arg.PxOk]
      cases a <;> cases b <;> simp [Entry.asAtom]
    | [a, b, c, d] =>
      simp only [pxArg, four_ne, pxParam_ne, Arg.PxOk]
      simp
    | [] => simp [pxArg, Arg.PxOk]
    | [_] => simp [pxArg, Arg.PxOk]
    | [_, _, _] => simp [pxArg, Arg.PxOk]
    | _ :: _ :: _ :: _ :: _ :: _ => simp [pxArg, Arg.PxOk]

theorem percentArg_ok (arg : Arg) (h : arg.PercentOk) : percentArg arg ≠ none := by
  cases arg with
  | none => exact absurd h id
  | list l => exact absurd h id
  | atom a =>
    rcases h with h | ⟨s, i, rfl⟩
    · have := (fracOf_ne a).mpr h
      cases a with
      | par s i => simp [percentArg]
      | int z => simpa [percentArg] using this
      | float q => simpa [percentArg] using this
      | other => simpa [percentArg] using this
    · simp [percentArg]
  | tuple l =>
    rcases h with ⟨a, b, rfl, h⟩ | ⟨h4, h⟩
    · simp only [percentArg, Entry.asAtom]
      rw [Ne, Option.map_eq_none_iff, ← Ne]
      exact (percentParam_pair a b).mpr h
    · match l, h4 with
      | [a, b, c, d], _ =>
        simp only [percentArg, four_ne]
        exact fun e he => percentParam_ok e (h e he)

theorem modeAndSides_px (default px : Arg) (h : px ≠ .none) : modeAndSides default px .none ≠ none ↔ px.PxOk := by
  rw [← pxArg_ne]
  cases px <;> first | exact absurd rfl h | simp [modeAndSides]

theorem modeAndSides_percent (default percent : Arg) (h : percent ≠ .none) (hp : percent.PercentOk) : modeAndSides default .none percent ≠ none := by
  have := percentArg_ok percent hp
  cases percent <;> first | exact absurd rfl h | simpa [modeAndSides] using this

/-- Functions for which only negative numbers are refused, and which keep the kind of value. -/
structure Keeps (f : Atom → Option Atom) : Prop where
  ne : ∀ a, f a ≠ none ↔ a.Nonneg
  int : ∀ a a', f a = some a' → ((∃ z, a' = .int z) ↔ ∃ z, a = .int z)
  par : ∀ a a', f a = some a' → ((∃ s i, a' = .par s i) ↔ ∃ s i, a = .par s i)

theorem validate_keeps : Keeps validate := by
  refine ⟨?_, ?_, ?_⟩
  · intro a; cases a <;> simp [validate, Atom.Nonneg]
  · intro a a' h
    cases a <;> simp [validate] at h <;> (try obtain ⟨-, rfl⟩ := h) <;> (try subst h) <;> simp
  · intro a a' h
    cases a <;> simp [validate] at h <;> (try obtain ⟨-, rfl⟩ := h) <;> (try subst h) <;> simp

theorem negate_keeps : Keeps negate := by
  refine ⟨?_, ?_, ?_⟩
  · intro a; cases a <;> simp [negate, Atom.Nonneg]
  · intro a a' h
    cases a <;> simp [negate] at h <;> (try obtain ⟨-, rfl⟩ := h) <;> (try subst h) <;> simp
  · intro a a' h
    cases a <;> simp [negate] at h <;> (try obtain ⟨-, rfl⟩ := h) <;> (try subst h) <;> simp

theorem entry_over_ne {f : Atom → Option Atom} (hf : Keeps f) (e : Entry) : e.over f ≠ none ↔ e.Nonneg := by
  cases e <;> simp only [Entry.over, Entry.Nonneg, Ne, Option.map_eq_none_iff] <;> simp only [← Ne.eq_def, mapM_ne, hf.ne]

theorem arg_over_ne {f : Atom → Option Atom} (hf : Keeps f) (arg : Arg) : arg.over f ≠ none ↔ arg.Nonneg := by
  cases arg <;> simp only [Arg.over, Arg.Nonneg, Ne, Option.map_eq_none_iff]
  · simp
  all_goals simp only [← Ne.eq_def, mapM_ne, hf.ne, entry_over_ne hf]

theorem mapM_all {β γ : Type} {f : β → Option γ} {p : β → Prop} {q : γ → Prop} (hpq : ∀ x y, f x = some y → (q y ↔ p x)) :
    ∀ {l : List β} {r : List γ}, l.mapM f = some r → ((∀ y ∈ r, q y) ↔ ∀ x ∈ l, p x) := by
  intro l
  induction l with
  | nil => intro r h; simp at h; subst h; simp
  | cons x xs ih =>
    intro r h
    rw [List.mapM_cons] at h
    cases hx : f x with
    | none => simp [hx] at h
    | some y =>
      cases hxs : xs.mapM f with
      | none => simp [hx, hxs] at h
      | some ys =>
        simp [hx, hxs] at h
        subst h
        simp [hpq x y hx, ih hxs]

theorem pair_iff {β : Type} (p : β → Prop) (l : List β) : (∃ x y, l = [x, y] ∧ p x ∧ p y) ↔ l.length = 2 ∧ ∀ x ∈ l, p x := by
  match l with
  | [a, b] => simp
  | [] => simp
  | [_] => simp
  | _ :: _ :: _ :: _ => simp

theorem entry_px_iff (l : List Atom) : (Entry.tuple l).PxOk ↔ l.length = 2 ∧ ∀ a ∈ l, ∃ z, a = .int z := by
  rw [← pair_iff]
  constructor
  · rintro ⟨x, y, rfl⟩; exact ⟨_, _, rfl, ⟨x, rfl⟩, ⟨y, rfl⟩⟩
  · rintro ⟨_, _, rfl, ⟨x, rfl⟩, ⟨y, rfl⟩⟩; exact ⟨x, y, rfl⟩

theorem arg_px_iff (l : List Entry) : (Arg.tuple l).PxOk ↔
    (l.length = 2 ∧ ∀ e ∈ l, ∃ z, e = .atom (.int z)) ∨ l.length = 4 ∧ ∀ e ∈ l, e.PxOk := by
  rw [← pair_iff]
  simp only [Arg.PxOk]
  refine or_congr ⟨?_, ?_⟩ Iff.rfl
  · rintro ⟨x, y, rfl⟩; exact ⟨_, _, rfl, ⟨x, rfl⟩, ⟨y, rfl⟩⟩
  · rintro ⟨_, _, rfl, ⟨x, rfl⟩, ⟨y, rfl⟩⟩; exact ⟨x, y, rfl⟩

theorem atom_px_over {f : Atom → Option Atom} (hf : Keeps f) {a a' : Atom} (h : f a = some a') : a'.PxOk ↔ a.PxOk :=
  or_congr (hf.int _ _ h) (hf.par _ _ h)

theorem entry_px_over {f : Atom → Option Atom} (hf : Keeps f) {e e' : Entry} (h : e.over f = some e') : e'.PxOk ↔ e.PxOk := by
  cases e <;> simp only [Entry.over, Option.map_eq_some_iff] at h <;> obtain ⟨l', h, rfl⟩ := h
  · exact atom_px_over hf h
  · rw [entry_px_iff, entry_px_iff, mapM_all (hf.int) h, (mapM_get _ _ _ h).1]
  · simp only [Entry.PxOk]
    rw [mapM_all (hf.int) h, ← List.length_pos_iff, ← List.length_pos_iff, (mapM_get _ _ _ h).1]

theorem entry_int_over {f : Atom → Option Atom} (hf : Keeps f) (e e' : Entry) (h : e.over f = some e') :
    (∃ z, e' = .atom (.int z)) ↔ ∃ z, e = .atom (.int z) := by
  cases e <;> simp only [Entry.over, Option.map_eq_some_iff] at h <;> obtain ⟨l', h, rfl⟩ := h
  · simpa using hf.int _ _ h
  · simp
  · simp

theorem arg_px_over {f : Atom → Option Atom} (hf : Keeps f) {arg arg' : Arg} (h : arg.over f = some arg') : arg'.PxOk ↔ arg.PxOk := by
  cases arg with
  | none => simp [Arg.over] at h; subst h; rfl
  | atom a =>
    simp only [Arg.over, Option.map_eq_some_iff] at h
    obtain ⟨a', h, rfl⟩ := h
    exact atom_px_over hf h
  | tuple l =>
    simp only [Arg.over, Option.map_eq_some_iff] at h
    obtain ⟨l', h, rfl⟩ := h
    rw [arg_px_iff, arg_px_iff, mapM_all (entry_int_over hf) h, mapM_all (fun _ _ => entry_px_over hf) h, (mapM_get _ _ _ h).1]
  | list l =>
    simp only [Arg.over, Option.map_eq_some_iff] at h
    obtain ⟨l', h, rfl⟩ := h
    rfl

theorem scaled_px {f : Atom → Option Atom} (hf : Keeps f) (default px : Arg) (h : px ≠ .none) :
    ((px.over f).bind (fun px' => (Arg.none.over f).bind (fun pc' => modeAndSides default px' pc'))) ≠ none ↔ px.PxOk ∧ px.Nonneg := by
  cases ho : px.over f with
  | none =>
    have : ¬ px.Nonneg := fun hn => (arg_over_ne hf px).mpr hn ho
    simp [this]
  | some px' =>
    have hn : px.Nonneg := (arg_over_ne hf px).mp (by simp [ho])
    simp only [Option.bind_some, Arg.over]
    rw [modeAndSides_px default px' (fun e => h ((over_none_iff ho).mp e)), arg_px_over hf ho]
    simp [hn]

theorem pxParam_int (hP : ∀ i u, P i u → ∃ z : Int, u = z) {e : Entry} {d : Dist} (h : pxParam e = some d) {v : ℚ} (hv : d.Supports P v) :
    ∃ z : Int, v = z := by
  cases e with
  | atom a =>
    cases a <;> simp [pxParam] at h <;> subst h
    · exact ⟨_, hv⟩
    · obtain ⟨u, hu, rfl⟩ := hv
      obtain ⟨z, rfl⟩ := hP _ _ hu
      split
      · exact ⟨-z, by push_cast; rfl⟩
      · exact ⟨z, rfl⟩
  | tuple l =>
    match l, h with
    | [a, b], h =>
      simp only [pxParam, Option.bind_eq_some_iff, Option.map_eq_some_iff] at h
      obtain ⟨x, hx, y, hy, rfl⟩ := h
      obtain ⟨z, rfl, -, -⟩ := hv
      exact ⟨z, rfl⟩
    | [], h => simp [pxParam] at h
    | [_], h => simp [pxParam] at h
    | _ :: _ :: _ :: _, h => simp [pxParam] at h
  | list l =>
    simp only [pxParam] at h
    split at h
    · simp at h
    · rw [Option.map_eq_some_iff] at h
      obtain ⟨zs, hz, rfl⟩ := h
      rename_i hl
      have hv := hv (by simpa using mapM_nonempty hz hl)
      rw [List.mem_map] at hv
      obtain ⟨z, hz', rfl⟩ := hv
      exact ⟨z, rfl⟩

theorem pxArg_int (hP : ∀ i u, P i u → ∃ z : Int, u = z) {arg : Arg} {s : Sides} (h : pxArg arg = some s) (k : Nat) {v : ℚ}
    (hv : (s.side k).Supports P v) : ∃ z : Int, v = z := by
  have par : ∀ (b : Bool) (i : Nat), (Dist.par b i).Supports P v → ∃ z : Int, v = z := fun b i hv =>
    pxParam_int hP (e := .atom (.par b i)) rfl hv
  cases arg with
  | none => simp [pxArg] at h
  | list l => simp [pxArg] at h
  | atom a =>
    cases a <;> simp [pxArg] at h <;> subst h
    · exact ⟨_, hv⟩
    · rw [side_same] at hv; exact par _ _ hv
  | tuple l =>
    match l, h with
    | [a, b], h =>
      simp only [pxArg, Option.map_eq_some_iff] at h
      obtain ⟨d, hd, rfl⟩ := h
      exact pxParam_int hP hd hv
    | [a, b, c, d], h =>
      simp only [pxArg, four, Option.bind_eq_some_iff, Option.map_eq_some_iff] at h
      obtain ⟨t, ht, r, hr, bo, hb, l, hl, rfl⟩ := h
      match k with
      | 0 => exact pxParam_int hP ht hv
      | 1 => exact pxParam_int hP hr hv
      | 2 => exact pxParam_int hP hb hv
      | _ + 3 => exact pxParam_int hP hl hv
    | [], h => simp [pxArg] at h
    | [_], h => simp [pxArg] at h
    | [_, _, _], h => simp [pxArg] at h
    | _ :: _ :: _ :: _ :: _ :: _, h => simp [pxArg] at h

theorem asInt_cast (z : Int) : asInt (z : ℚ) = some z := by
  simp [asInt]

theorem amounts_ne {f : Four} {s : Shape} (h0 : ∃ z : Int, f.top = z) (h1 : ∃ z : Int, f.right = z) (h2 : ∃ z : Int, f.bottom = z)
    (h3 : ∃ z : Int, f.left = z) : amounts .px s f ≠ none := by
  obtain ⟨a, h0⟩ := h0
  obtain ⟨b, h1⟩ := h1
  obtain ⟨c, h2⟩ := h2
  obtain ⟨d, h3⟩ := h3
  simp [amounts, h0, h1, h2, h3, asInt_cast]

/-- Samples can always be drawn. -/
theorem drawSamples_ne {σ : Type} {S : Sampler σ} (hS : Ok P S) (ind : Bool) (default px percent : Arg) (ms : Mode × Sides)
    (hm : modeAndSides default px percent = some ms) (hP : px = .none ∨ ∀ i u, P i u → ∃ z : Int, u = z) (shapes : List Shape) (g : σ) :
    drawSamples S ind ms shapes g ≠ none := by
  unfold drawSamples
  rw [mapM_ne]
  intro x hx
  rw [Ne, Option.map_eq_none_iff, ← Ne]
  obtain ⟨-, hf⟩ := drawFours_ok hS ind ms.2 shapes.length g
  have hfx := hf x.2 (List.of_mem_zip hx).2
  obtain ⟨m, sides⟩ := ms
  cases m with
  | percent => simp [amounts]
  | px =>
    have hp : px ≠ .none := by
      rintro rfl
      cases percent <;> simp [modeAndSides] at hm
    have hP := hP.resolve_left hp
    have hsd : pxArg px = some sides := by
      cases px <;> cases percent <;> simp [modeAndSides] at hm <;> exact hm
    obtain ⟨f0, f1, f2, f3⟩ := hfx
    exact amounts_ne (pxArg_int hP hsd 0 f0) (pxArg_int hP hsd 1 f1) (pxArg_int hP hsd 2 f2) (pxArg_int hP hsd 3 f3)

theorem fours_all {σ : Type} {S : Sampler σ} (d : Dist) (n : Nat) (g : σ) (i : Nat) (f : Four)
    (h : (drawFours S false (.all d) n g).1[i]? = some f) : ∃ v, f = ⟨v, v, v, v⟩ := by
  simp only [drawFours, Bool.false_eq_true, if_false, List.getElem?_map, Option.map_eq_some_iff] at h
  obtain ⟨v, -, rfl⟩ := h
  exact ⟨v, rfl⟩

theorem fours_independent {σ : Type} {S : Sampler σ} (d : Dist) (n : Nat) (g : σ) (i : Nat) (f : Four)
    (h : (drawFours S true (.all d) n g).1[i]? = some f) :
    f = ⟨(S d (n * 4) g).1.getD (4 * i) 0, (S d (n * 4) g).1.getD (4 * i + 1) 0, (S d (n * 4) g).1.getD (4 * i + 2) 0,
      (S d (n * 4) g).1.getD (4 * i + 3) 0⟩ := by
  simp only [drawFours, if_true, rowsOf4, List.getElem?_map, Option.map_eq_some_iff] at h
  obtain ⟨k, hk, rfl⟩ := h
  obtain ⟨h1, h2⟩ := List.getElem?_eq_some_iff.mp hk
  rw [List.getElem_range] at h2
  rw [h2]

/-- Numbers and pairs give one parameter for all sides. -/
theorem px_all {px : Arg} (hx : (∃ z, px = .atom (.int z)) ∨ ∃ a b, px = .tuple [a, b]) {s : Sides} (h : pxArg px = some s) : ∃ d, s = .all d := by
  rcases hx with ⟨z, rfl⟩ | ⟨a, b, rfl⟩
  · simp [pxArg] at h; exact ⟨_, h.symm⟩
  · simp only [pxArg, Option.map_eq_some_iff] at h
    obtain ⟨d, -, rfl⟩ := h
    exact ⟨d, rfl⟩

theorem percent_all {p : Arg} (hx : (∃ q a, p = .atom a ∧ a.Is q) ∨ ∃ a b, p = .tuple [a, b]) {s : Sides} (h : percentArg p = some s) :
    ∃ d, s = .all d := by
  rcases hx with ⟨q, _, rfl, ⟨z, rfl, rfl⟩ | rfl⟩ | ⟨a, b, rfl⟩
  · simp [percentArg, Option.map_eq_some_iff] at h; obtain ⟨d, -, rfl⟩ := h; exact ⟨_, rfl⟩
  · simp [percentArg, Option.map_eq_some_iff] at h; obtain ⟨d, -, rfl⟩ := h; exact ⟨_, rfl⟩
  · simp only [percentArg, Option.map_eq_some_iff] at h
    obtain ⟨d, -, rfl⟩ := h
    exact ⟨d, rfl⟩

end Imgaug.CropArgs
