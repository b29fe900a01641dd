import Verif.Proofs.Corrupt
import Verif.Spec.Compress
import Mathlib.Tactic.NormNum
import Mathlib.Tactic.Linarith
/-! C124: wrappers of image corruptions and the glass blur. -/
namespace Imgaug.Corrupt.Props
open Imgaug Imgaug.Compress Imgaug.Corrupt

/-- A function that adds a random number to the image. -/
def demoFunc : Func Nat := fun x v s => (some { x with px := fun y z k => x.px y z k + v + s + 1 / 2 }, s + 1)
def demoSeed : Nat → Option Nat := fun e => if e < 1000 then some (e * 3) else none
def demoImg : Arr := ⟨true, .hw 32 40, fun y x _ => (y + x : Nat)⟩

example : KeepsShape demoFunc := fun x v s => ⟨_, rfl, rfl, rfl, rfl⟩

/-- C124: an image is accepted if and only if it is uint8, has a height and a width of at least 32, and has the shape (H,W), (H,W,1) or
(H,W,3). -/
theorem accepts {σ : Type} (seeded : Nat → Option σ) (f : Func σ) (hf : KeepsShape f) (im : Arr) (v : Int) (seed : Option Nat) (s : σ)
    (hs : ∀ e, seed = some e → (seeded e).isSome) :
    (call seeded f im v seed s).1.isSome ↔ im.uint8 = true ∧ GoodShape im.shape := by
  have hp : (prepare im).isSome ↔ im.uint8 = true ∧ GoodShape im.shape := by
    obtain ⟨u, sh, px⟩ := im
    unfold prepare
    cases u with
    | false => simp
    | true =>
      cases sh with
      | other => simp [GoodShape]
      | hw h w =>
        simp only [Bool.true_eq_false, if_false, GoodShape]
        by_cases hh : 32 ≤ h ∧ 32 ≤ w
        · simp only [if_pos hh, Option.isSome_some, true_and, true_iff]
          exact ⟨h, w, hh.1, hh.2, .inl rfl⟩
        · rw [if_neg hh]
          simp only [Option.isSome_none, Bool.false_eq_true, true_and, false_iff]
          rintro ⟨a, b, h1, h2, e | e | e⟩ <;> cases e
          exact hh ⟨h1, h2⟩
      | hwc h w c =>
        simp only [Bool.true_eq_false, if_false, GoodShape]
        by_cases hh : 32 ≤ h ∧ 32 ≤ w
        · rw [if_pos hh]
          by_cases h1 : c = 1
          · subst h1
            simp only [if_true, Option.isSome_some, true_and, true_iff]
            exact ⟨h, w, hh.1, hh.2, .inr (.inl rfl)⟩
          · by_cases h3 : c = 3
            · subst h3
              simp only [if_true, Option.isSome_some, true_and]
              constructor
              · intro _; exact ⟨h, w, hh.1, hh.2, .inr (.inr rfl)⟩
              · intro _; rfl
            · rw [if_neg h1, if_neg h3]
              simp only [Option.isSome_none, Bool.false_eq_true, true_and, false_iff]
              rintro ⟨a, b, _, _, e | e | e⟩ <;> cases e <;> contradiction
        · rw [if_neg hh]
          simp only [Option.isSome_none, Bool.false_eq_true, true_and, false_iff]
          rintro ⟨a, b, h1, h2, e | e | e⟩ <;> cases e <;> exact hh ⟨h1, h2⟩
  rw [← hp]
  unfold call
  cases hx : prepare im with
  | none => simp
  | some x =>
    have hc : x.c = 3 ∧ im.shape ≠ .other := by
      unfold prepare at hx
      split_ifs at hx
      cases hsh : im.shape with
      | other => rw [hsh] at hx; cases hx
      | hw h w => rw [hsh] at hx; simp only at hx; split_ifs at hx; cases hx; exact ⟨rfl, by simp⟩
      | hwc h w c => rw [hsh] at hx; simp only at hx; split_ifs at hx <;> cases hx <;> exact ⟨rfl, by simp⟩
    have fin : ∀ t, ((f x v t).1.bind (finish im.shape)).isSome := by
      intro t
      obtain ⟨r, er, _, _, e3⟩ := hf x v t
      rw [er, Option.bind_some]
      unfold finish
      cases hsh : im.shape with
      | other => exact absurd hsh hc.2
      | hw h w => simp only [e3, hc.1]; rfl
      | hwc h w c => rfl
    cases seed with
    | none => simpa using fin s
    | some e =>
      obtain ⟨g, hg⟩ := Option.isSome_iff_exists.1 (hs e rfl)
      simp only [hg]
      simpa using fin g

example : (call demoSeed demoFunc demoImg 2 (some 7) 5).1.isSome :=
  (accepts demoSeed demoFunc (fun x v s => ⟨_, rfl, rfl, rfl, rfl⟩) demoImg 2 (some 7) 5 (by rintro e ⟨⟩; rfl)).2
    ⟨rfl, 32, 40, by norm_num, by norm_num, .inl rfl⟩

/-- C124: with a seed, the state of numpy's global random numbers is the same after the call as before it, also if an exception is raised, and
the result does not depend on that state; the function is run with the state that belongs to the seed. -/
theorem seed_is_local {σ : Type} (seeded : Nat → Option σ) (f : Func σ) (im : Arr) (v : Int) (e : Nat) (s t : σ) :
    (call seeded f im v (some e) s).2 = s ∧ (call seeded f im v (some e) s).1 = (call seeded f im v (some e) t).1 ∧
    ∀ g, seeded e = some g → (call seeded f im v (some e) s).1 = (call seeded f im v none g).1 := by
  unfold call
  cases prepare im with
  | none => exact ⟨rfl, rfl, fun _ _ => rfl⟩
  | some x =>
    simp only
    cases he : seeded e with
    | none => exact ⟨rfl, rfl, fun g hg => by cases hg⟩
    | some g => exact ⟨rfl, rfl, fun g' hg => by cases hg; rfl⟩

/-- C124: without a seed, the function runs on numpy's global random numbers and leaves them as it does itself; they are not touched for an
image that is rejected. -/
theorem no_seed {σ : Type} (seeded : Nat → Option σ) (f : Func σ) (im : Arr) (v : Int) (s : σ) :
    (∀ x, prepare im = some x → (call seeded f im v none s).2 = (f x v s).2) ∧
    (prepare im = none → (call seeded f im v none s).2 = s) := by
  unfold call
  constructor
  · intro x hx; rw [hx]
  · intro hx; rw [hx]

example : (call demoSeed demoFunc demoImg 2 none 5).2 = 6 := rfl

/-- C124: an image of shape (H,W) and the image of shape (H,W,1) with the same values get the values of the first channel of the result for
the image of shape (H,W,3) that has these values in all channels; all results are uint8 and have the shape of the image. -/
theorem gray_images {σ : Type} (seeded : Nat → Option σ) (f : Func σ) (hf : KeepsShape f) (h w : Nat) (px : Nat → Nat → Int) (v : Int)
    (seed : Option Nat) (s : σ) (r : Arr) (hr : (call seeded f ⟨true, .hwc h w 3, fun y x _ => px y x⟩ v seed s).1 = some r) :
    r.uint8 = true ∧ r.shape = .hwc h w 3 ∧
    (∃ r1, (call seeded f ⟨true, .hw h w, fun y x _ => px y x⟩ v seed s).1 = some r1 ∧ r1.uint8 = true ∧ r1.shape = .hw h w ∧
      ∀ y x, r1.px y x 0 = r.px y x 0) ∧
    (∃ r2, (call seeded f ⟨true, .hwc h w 1, fun y x _ => px y x⟩ v seed s).1 = some r2 ∧ r2.uint8 = true ∧ r2.shape = .hwc h w 1 ∧
      ∀ y x, r2.px y x 0 = r.px y x 0) := by
  by_cases hh : 32 ≤ h ∧ 32 ≤ w
  · have main : ∀ t, ((f ⟨h, w, 3, fun y x _ => px y x⟩ v t).1.bind (finish (.hwc h w 3))) = some r →
        (r.uint8 = true ∧ r.shape = .hwc h w 3 ∧
        (∃ r1, ((f ⟨h, w, 3, fun y x _ => px y x⟩ v t).1.bind (finish (.hw h w))) = some r1 ∧ r1.uint8 = true ∧ r1.shape = .hw h w ∧
          ∀ y x, r1.px y x 0 = r.px y x 0) ∧
        (∃ r2, ((f ⟨h, w, 3, fun y x _ => px y x⟩ v t).1.bind (finish (.hwc h w 1))) = some r2 ∧ r2.uint8 = true ∧ r2.shape = .hwc h w 1 ∧
          ∀ y x, r2.px y x 0 = r.px y x 0)) := by
      intro t ht
      obtain ⟨q, eq, e1, e2, e3⟩ := hf ⟨h, w, 3, fun y x _ => px y x⟩ v t
      simp only at e1 e2 e3
      rw [eq] at ht ⊢
      simp only [Option.bind_some, finish, Option.some.injEq] at ht ⊢
      subst ht
      refine ⟨rfl, by simp [e1, e2, e3], ?_, ?_⟩
      · rw [if_pos (by omega)]
        exact ⟨_, rfl, rfl, by rw [e1, e2], fun y x => rfl⟩
      · exact ⟨_, rfl, rfl, by simp [e1, e2, e3], fun y x => rfl⟩
    unfold call at hr ⊢
    simp only [prepare, Bool.true_eq_false, if_false, if_pos hh, if_true, OfNat.ofNat_ne_one] at hr ⊢
    cases seed with
    | none => exact main s hr
    | some e =>
      simp only at hr ⊢
      cases he : seeded e with
      | none => rw [he] at hr; cases hr
      | some g => rw [he] at hr; simp only at hr ⊢; exact main g hr
  · exfalso
    simp [call, prepare, hh] at hr

example : (call demoSeed demoFunc ⟨true, .hwc 32 40 3, fun y x _ => (y + x : Nat)⟩ 2 (some 7) 5).1.isSome :=
  (accepts demoSeed demoFunc (fun x v s => ⟨_, rfl, rfl, rfl, rfl⟩) _ 2 (some 7) 5 (by rintro e ⟨⟩; rfl)).2
    ⟨rfl, 32, 40, by norm_num, by norm_num, .inr (.inr rfl)⟩

/-- C124: the values of all results are those of uint8 images; numbers in the interval [0, 256) lose their decimals. -/
theorem values {σ : Type} (seeded : Nat → Option σ) (f : Func σ) (im r : Arr) (v : Int) (seed : Option Nat) (s : σ)
    (h : (call seeded f im v seed s).1 = some r) :
    Bytes r ∧ ∀ q : ℚ, 0 ≤ q → q < 256 → toByte q = ⌊q⌋ := by
  have fin : ∀ t : Option Im3, t.bind (finish im.shape) = some r → Bytes r := by
    intro t ht
    obtain ⟨q, _, hq⟩ := Option.bind_eq_some_iff.1 ht
    unfold finish at hq
    have b : ∀ z : ℚ, 0 ≤ toByte z ∧ toByte z ≤ 255 := fun z => by unfold toByte; omega
    cases hsh : im.shape with
    | other => rw [hsh] at hq; cases hq
    | hw a b' =>
      rw [hsh] at hq
      simp only at hq
      split_ifs at hq
      cases hq
      exact fun y x k => b _
    | hwc a b' c =>
      rw [hsh] at hq
      cases hq
      exact fun y x k => b _
  refine ⟨?_, ?_⟩
  · unfold call at h
    cases hx : prepare im with
    | none => rw [hx] at h; cases h
    | some x =>
      rw [hx] at h
      cases seed with
      | none => exact fin _ h
      | some e =>
        simp only at h
        cases he : seeded e with
        | none => rw [he] at h; cases h
        | some g => rw [he] at h; exact fin _ h
  · intro q h0 h1
    unfold toByte pyInt
    rw [if_neg (by linarith)]
    have f0 : 0 ≤ ⌊q⌋ := Int.floor_nonneg.2 h0
    have f1 : ⌊q⌋ < 256 := Int.floor_lt.2 (by exact_mod_cast h1)
    omega

/-- C124: the augmenters give every image of a batch what the function gives for the image alone with its severity and its seed, keep shapes,
and leave numpy's global random numbers as they were. -/
theorem batch {σ : Type} (seeded : Nat → Option σ) (f : Func σ) (l : List (Arr × Int × Nat)) (s : σ) :
    (augment seeded f l s).2 = s ∧
    ∀ rs, (augment seeded f l s).1 = some rs → rs.length = l.length ∧
      ∀ (i : Nat) (im : Arr) (v : Int) (e : Nat), l[i]? = some (im, v, e) →
        ∃ r, rs[i]? = some r ∧ r.shape = im.shape ∧ ∀ t, (call seeded f im v (some e) t).1 = some r := by
  induction l with
  | nil => exact ⟨rfl, by rintro rs ⟨⟩; exact ⟨rfl, by simp⟩⟩
  | cons p rest ih =>
    obtain ⟨im, v, e⟩ := p
    obtain ⟨st, ind, _⟩ := seed_is_local seeded f im v e s s
    have alone := fun t => (seed_is_local seeded f im v e s t).2.1
    unfold augment
    cases hc : call seeded f im v (some e) s with
    | mk r t =>
      rw [hc] at st alone
      simp only at st alone
      subst st
      cases r with
      | none => exact ⟨rfl, by rintro rs ⟨⟩⟩
      | some r =>
        simp only
        split_ifs with hs
        · refine ⟨ih.1, ?_⟩
          intro rs h
          obtain ⟨rs', h', rfl⟩ := Option.map_eq_some_iff.1 h
          obtain ⟨l1, l2⟩ := ih.2 rs' h'
          refine ⟨by simp [l1], ?_⟩
          intro i im' v' e' hi
          cases i with
          | zero =>
            simp only [List.getElem?_cons_zero, Option.some.injEq, Prod.mk.injEq] at hi
            obtain ⟨rfl, rfl, rfl⟩ := hi
            exact ⟨r, rfl, hs, fun u => (alone u).symm⟩
          | succ i =>
            simp only [List.getElem?_cons_succ] at hi ⊢
            exact l2 i im' v' e' hi
        · exact ⟨rfl, by rintro rs ⟨⟩⟩

/-- C124: a batch of accepted images is never an error. -/
theorem batch_accepted {σ : Type} (seeded : Nat → Option σ) (f : Func σ) (hf : KeepsShape f) (l : List (Arr × Int × Nat)) (s : σ)
    (h : ∀ p ∈ l, p.1.uint8 = true ∧ GoodShape p.1.shape ∧ (seeded p.2.2).isSome) : (augment seeded f l s).1.isSome := by
  induction l with
  | nil => rfl
  | cons p rest ih =>
    obtain ⟨im, v, e⟩ := p
    obtain ⟨hu, hg, he⟩ := h (im, v, e) (by simp)
    obtain ⟨r, hr⟩ := Option.isSome_iff_exists.1 ((accepts seeded f hf im v (some e) s (by rintro _ ⟨⟩; exact he)).2 ⟨hu, hg⟩)
    have hshape : r.shape = im.shape := by
      obtain ⟨u, sh, px⟩ := im
      simp only at hu
      subst hu
      obtain ⟨g, hgs⟩ := Option.isSome_iff_exists.1 he
      obtain ⟨a, b, h1, h2, hsh⟩ := hg
      unfold call at hr
      simp only at hsh hgs
      rcases hsh with rfl | rfl | rfl <;>
      · simp only [prepare, Bool.true_eq_false, if_false, if_pos (And.intro h1 h2), if_true, hgs, OfNat.ofNat_ne_one] at hr
        obtain ⟨q, hq, hfin⟩ := Option.bind_eq_some_iff.1 hr
        obtain ⟨q', eq', e1, e2, e3⟩ := hf ⟨a, b, 3, _⟩ v g
        rw [hq] at eq'
        cases eq'
        simp only at e1 e2 e3
        simp only [finish, e1, e2, e3] at hfin
        simp at hfin
        rw [← hfin]
    have st := (seed_is_local seeded f im v e s s).1
    unfold augment
    cases hc : call seeded f im v (some e) s with
    | mk r' t =>
      rw [hc] at hr st
      simp only at hr st
      subst hr st
      simp only [if_pos hshape]
      have := ih (fun q hq => h q (by simp [hq]))
      simpa using this

example : (augment demoSeed demoFunc [(demoImg, 1, 7), (demoImg, 3, 8)] 5).1.isSome :=
  batch_accepted demoSeed demoFunc (fun x v s => ⟨_, rfl, rfl, rfl, rfl⟩) _ 5 (by
    intro p hp
    simp only [List.mem_cons, List.not_mem_nil, or_false] at hp
    rcases hp with rfl | rfl <;> exact ⟨rfl, ⟨32, 40, by norm_num, by norm_num, .inl rfl⟩, rfl⟩)

/-- C124: the loop of the glass blur never uses an index outside of the image; afterwards every pixel is a pixel of the image, and the pixels
in the first `d + 1` rows and columns and in the last `d - 1` rows and columns are the same as before. -/
theorem glass_loop {α : Type} (h w d it : Nat) (v : Nat → Nat → Nat → Int × Int) (hv : ShiftsIn d v) (f : Nat → Nat → α) :
    ∃ g, loop h w d it v f = some g ∧
      (∀ y x, y < h → x < w → ∃ y' x', y' < h ∧ x' < w ∧ g y x = f y' x') ∧
      (∀ y x, y ≤ d ∨ h - d < y ∨ x ≤ d ∨ w - d < x → g y x = f y x) := by
  refine loop_inv hv (fun g => (∀ y x, y < h → x < w → ∃ y' x', y' < h ∧ x' < w ∧ g y x = f y' x') ∧
      (∀ y x, y ≤ d ∨ h - d < y ∨ x ≤ d ∨ w - d < x → g y x = f y x)) ?_ f ⟨fun y x h1 h2 => ⟨y, x, h1, h2, rfl⟩, fun _ _ _ => rfl⟩
  rintro g y x y' x' ⟨i1, i2⟩ a1 a2 a3 a4 a5 a6
  constructor
  · intro b c hb hc
    unfold put
    split_ifs
    · exact i1 y' x' a5 a6
    · exact i1 b c hb hc
  · intro b c hbc
    unfold put
    rw [if_neg (by rintro ⟨rfl, rfl⟩; omega)]
    exact i2 b c hbc

example : ShiftsIn 1 (fun i j _ => (if i = 0 then -1 else 0, if j = 0 then 0 else -1)) := by
  intro i j k; constructor <;> (dsimp only; split_ifs <;> omega)

/-- C124: every property of all pixels of an image is kept by the loop: for example images of one colour stay as they are. -/
theorem glass_keeps {α : Type} (h w d it : Nat) (v : Nat → Nat → Nat → Int × Int) (hv : ShiftsIn d v) (f g : Nat → Nat → α)
    (hg : loop h w d it v f = some g) (P : α → Prop) (hf : ∀ y x, y < h → x < w → P (f y x)) : ∀ y x, y < h → x < w → P (g y x) := by
  obtain ⟨g', e, h1, _⟩ := glass_loop h w d it v hv f
  rw [hg] at e
  cases e
  intro y x hy hx
  obtain ⟨y', x', a, b, e⟩ := h1 y x hy hx
  rw [e]
  exact hf y' x' a b

/-- C124 is false for the exchange of pixels: the statement that is meant to exchange two pixels (comment "swap") copies the second one over
the first one, because both sides are views of the same array. -/
theorem swap_copies {α : Type} (f : Nat → Nat → α) (y x y' x' : Nat) :
    exchange f y x y' x' y x = f y' x' ∧ exchange f y x y' x' y' x' = f y' x' := by
  rw [exchange_eq]
  unfold put
  exact ⟨by rw [if_pos ⟨rfl, rfl⟩], by split_ifs <;> rfl⟩

/-- C124 is false for the shuffling of pixels: pixels get lost. In an image of 3 × 3 different pixels one remains twice, and one is gone. -/
theorem pixels_lost : let f : Nat → Nat → Nat := fun y x => 3 * y + x
    ∃ v g, ShiftsIn 1 v ∧ loop 3 3 1 1 v f = some g ∧ (∀ y < 3, ∀ x < 3, g y x ≠ f 2 2) ∧ g 2 2 = f 1 1 ∧ g 1 1 = f 1 1 := by
  refine ⟨fun _ _ _ => (-1, -1), put (fun y x => 3 * y + x) 2 2 4, fun i j k => by simp, ?_, ?_, rfl, rfl⟩
  · have : step 3 3 1 (-1, -1) 0 0 (fun y x => 3 * y + x) = some (put (fun y x => 3 * y + x) 2 2 4) := by
      simp only [step]
      rw [show axis 3 (((3 : Nat) : Int) - ((1 : Nat) : Int) - ((0 : Nat) : Int)) = some 2 from rfl,
        show axis 3 (((3 : Nat) : Int) - ((1 : Nat) : Int) - ((0 : Nat) : Int) + -1) = some 1 from rfl]
      simp only [Option.bind_some, Option.map_some, exchange_eq]
    unfold loop
    rw [show order 3 3 1 1 = [(0, 0, 0)] from rfl]
    simp only [List.foldlM_cons, List.foldlM_nil]
    rw [this]
    rfl
  · decide

/-- A blur that does nothing, and random numbers that count. -/
def demoLib : Lib Nat where
  gaussian _ x := x
  randint d _ s := (fun i j k => if d = 0 then (0, 0) else (((s + i + j) % d : Nat) - (d : Int), ((s + k) % d : Nat)), s + 1)

/-- C124: with a severity between 1 and 5 the glass blur never fails for an image with three channels, keeps its shape, and its values are in
the interval [0, 255]. -/
theorem glass_blur {σ : Type} (L : Lib σ) (hL : L.Sane) (x : Im3) (v : Int) (s : σ) (h1 : 1 ≤ v) (h2 : v ≤ 5) :
    ∃ r, (glassBlur L x v s).1 = some r ∧ r.h = x.h ∧ r.w = x.w ∧ r.c = x.c ∧ ∀ y z k, 0 ≤ r.px y z k ∧ r.px y z k ≤ 255 := by
  have ht : ∃ row, (axis table.length (v - 1)).bind (fun i => table[i]?) = some row ∧ 0 < row.2.1 := by
    have : v = 1 ∨ v = 2 ∨ v = 3 ∨ v = 4 ∨ v = 5 := by omega
    rcases this with rfl | rfl | rfl | rfl | rfl <;> exact ⟨_, rfl, by decide⟩
  obtain ⟨⟨sigma, d, it⟩, hrow, hd⟩ := ht
  unfold glassBlur
  simp only [hrow]
  set g := L.gaussian sigma { x with px := fun y z k => x.px y z k / 255 } with hg
  obtain ⟨p, hp, _⟩ := glass_loop g.h g.w d it (L.randint d (it, g.h - 2 * d, g.w - 2 * d) s).1 (hL.shifts _ _ _ hd)
    (fun y z k => pyInt (g.px y z k * 255))
  simp only [hp]
  obtain ⟨s1, s2, s3⟩ := hL.shape sigma { g with px := fun y z k => (p y z k : ℚ) / 255 }
  obtain ⟨t1, t2, t3⟩ := hL.shape sigma { x with px := fun y z k => x.px y z k / 255 }
  refine ⟨_, rfl, ?_, ?_, ?_, ?_⟩
  · exact s1.trans (hg ▸ t1)
  · exact s2.trans (hg ▸ t2)
  · exact s3.trans (hg ▸ t3)
  · intro y z k
    simp only
    constructor
    · have := le_max_left (0 : ℚ) (min 1 ((L.gaussian sigma { g with px := fun y z k => (p y z k : ℚ) / 255 }).px y z k))
      linarith
    · have : max (0 : ℚ) (min 1 ((L.gaussian sigma { g with px := fun y z k => (p y z k : ℚ) / 255 }).px y z k)) ≤ 1 :=
        max_le (by norm_num) (min_le_left _ _)
      linarith

example : demoLib.Sane where
  shape _ _ := ⟨rfl, rfl, rfl⟩
  shifts := by
    intro d n s hd i j k
    have a := Nat.mod_lt (s + i + j) hd
    have b := Nat.mod_lt (s + k) hd
    simp only [demoLib, if_neg (Nat.pos_iff_ne_zero.1 hd)]
    omega

/-- C124 is false for severities outside of the documented interval: 0 and the negative numbers down to -4 are accepted, and 0 means the
same as 5. -/
theorem glass_severity_zero {σ : Type} (L : Lib σ) (x : Im3) (s : σ) : glassBlur L x 0 s = glassBlur L x 5 s := rfl

/-- C124: the rounds of the glass blur follow one another: without rounds nothing changes, and `n + m` rounds are `n` rounds followed by
`m` rounds that use the random shifts after those of the first `n`. -/
theorem glass_rounds {α : Type} (h w d n m : Nat) (v : Nat → Nat → Nat → Int × Int) (f : Nat → Nat → α) :
    loop h w d 0 v f = some f ∧
      loop h w d (n + m) v f = (loop h w d n v f).bind (loop h w d m (fun i => v (n + i))) := by
  constructor
  · rfl
  · unfold loop order
    rw [List.range_add, List.flatMap_append, List.foldlM_append, List.flatMap_map]
    show Option.bind _ _ = Option.bind _ _
    congr 1
    funext g
    have : ((List.range m).flatMap fun a => (List.range (h - 2 * d)).flatMap fun j => (List.range (w - 2 * d)).map fun k => (n + a, j, k)) =
        ((List.range m).flatMap fun i => (List.range (h - 2 * d)).flatMap fun j => (List.range (w - 2 * d)).map fun k => (i, j, k)).map
          (fun p => (n + p.1, p.2)) := by
      simp only [List.map_flatMap, List.map_map]
      rfl
    rw [this, List.foldlM_map]

/-- C124: for every severity from 1 to 5 the glass blur has a row of its table that blurs, shifts by at least one pixel and runs at
least one round; the blur does not become weaker and the shifts do not become smaller as the severity grows. -/
theorem glass_table : table.length = 5 ∧ (∀ r ∈ table, 0 < r.1 ∧ 0 < r.2.1 ∧ 0 < r.2.2) ∧
    table.Pairwise (fun a b => a.1 < b.1 ∧ a.2.1 ≤ b.2.1) := by
  refine ⟨rfl, ?_, ?_⟩
  · intro r hr
    simp only [table, List.mem_cons, List.not_mem_nil, or_false] at hr
    rcases hr with rfl | rfl | rfl | rfl | rfl <;> norm_num
  · simp only [table, List.pairwise_cons, List.mem_cons, List.not_mem_nil, or_false]
    norm_num

end Imgaug.Corrupt.Props
