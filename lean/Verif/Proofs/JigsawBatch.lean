import Verif.Spec.JigsawBatch
import Verif.Props.Jigsaw
import Verif.Props.Size3
import Verif.Proofs.AffineArgs
/-! Lemmas for C107. -/
namespace Imgaug.JigsawBatch
open Imgaug Imgaug.Jigsaw Imgaug.Size Imgaug.Params
variable {α β γ σ : Type}

theorem fits_of (m n a b : Nat) (x y : Int) (hx : x = a) (hy : y = b) (h : PadsTo (posMultiples m) n x y) : Fits m n (n + a + b) := by
  subst hx hy
  obtain ⟨-, -, -, ⟨⟨h1, h2⟩, -⟩, h4⟩ := h
  refine ⟨⟨by omega, ?_, by omega⟩, ?_⟩
  · have h2' : ((m : Nat) : Int) ∣ ((n + a + b : Nat) : Int) := by push_cast; exact h2
    exact Int.natCast_dvd_natCast.1 h2'
  · rintro k ⟨k1, k2, k3⟩
    have := h4 (a := (k : Int)) ⟨⟨by omega, Int.natCast_dvd_natCast.2 k2⟩, by omega⟩
    omega

theorem pads (s : Shape) (rows cols : Nat) (hr : 1 ≤ rows) (hc : 1 ≤ cols) :
    ∃ (hw : Int × Int) (t r b l : Nat), paddedSize s rows cols = some hw ∧ padsFor hw s = ⟨t, r, b, l⟩ ∧
      Fits rows s.h (s.h + t + b) ∧ Fits cols s.w (s.w + l + r) ∧ (b = t ∨ b = t + 1) ∧ (r = l ∨ r = l + 1) := by
  obtain ⟨p, e, h1, h2⟩ := paddings_multiples s (some rows) (some cols) (by simp; omega) (by simp; omega)
  have n1 := h1
  have n2 := h2
  obtain ⟨p1, p2, p3, -⟩ := n1
  obtain ⟨q1, q2, q3, -⟩ := n2
  obtain ⟨⟨f1, f2, f3, f4⟩, f5, f6, -, -, -, -, f7, f8⟩ := pad_fixed_amounts s (some (newSizePad s p).1) (some (newSizePad s p).2)
    (1 / 2) (1 / 2) (by norm_num) (by norm_num)
  have f7 := f7 rfl
  have f8 := f8 rfl
  simp only [newSizePad, Option.getD_some] at f5 f6
  refine ⟨newSizePad s p, (padsFor (newSizePad s p) s).top.toNat, (padsFor (newSizePad s p) s).right.toNat, (padsFor (newSizePad s p) s).bottom.toNat,
    (padsFor (newSizePad s p) s).left.toNat, by simp only [paddedSize, e, Option.map_some], ?_, ?_, ?_, ?_, ?_⟩
  · unfold padsFor
    rw [Int.toNat_of_nonneg f1, Int.toNat_of_nonneg f2, Int.toNat_of_nonneg f3, Int.toNat_of_nonneg f4]
  · have e1 : (padsFor (newSizePad s p) s).top = p.top ∧ (padsFor (newSizePad s p) s).bottom = p.bottom := by
      simp only [padsFor, newSizePad] at f7 f8 ⊢
      omega
    rw [e1.1, e1.2]
    exact fits_of _ _ _ _ _ _ (by omega) (by omega) h1
  · have e1 : (padsFor (newSizePad s p) s).left = p.left ∧ (padsFor (newSizePad s p) s).right = p.right := by
      simp only [padsFor, newSizePad] at f7 f8 ⊢
      omega
    rw [e1.1, e1.2]
    exact fits_of _ _ _ _ _ _ (by omega) (by omega) h2
  · simp only [padsFor] at *; omega
  · simp only [padsFor] at *; omega

/-- An image with a frame. -/
def frame (zero : α) (a : Img α) (t r b l : Nat) : Img α :=
  ⟨a.h + t + b, a.w + l + r, fun y x => if t ≤ y ∧ y < t + a.h ∧ l ≤ x ∧ x < l + a.w then a.px (y - t) (x - l) else zero⟩

theorem cropArr_zero (a : Img α) (hh : 1 ≤ a.h) (hw : 1 ≤ a.w) : cropArr a ⟨0, 0, 0, 0⟩ = a := by
  have hb := crop_bounds ⟨a.h, a.w⟩ ⟨0, 0, 0, 0⟩ ⟨le_rfl, le_rfl, le_rfl, le_rfl⟩ (by simp only; omega) (by simp only; omega)
  simp only [cropArr, hb]
  cases a
  simp

theorem frame_eq (zero : α) (a : Img α) (t r b l : Nat) (hh : 1 ≤ a.h) (hw : 1 ≤ a.w) :
    cropPadArr (fun _ _ => zero) none a ⟨0, 0, 0, 0⟩ ⟨t, r, b, l⟩ = some (frame zero a t r b l) := by
  rw [cropPadArr_eq _ _ _ _ ⟨by simp, by simp, by simp, by simp⟩, cropArr_zero a hh hw]
  rfl

theorem shapeAfter_eq (s : Shape) (t r b l : Nat) (hh : 1 ≤ s.h) (hw : 1 ≤ s.w) :
    shapeAfter s ⟨0, 0, 0, 0⟩ ⟨t, r, b, l⟩ = ⟨s.h + t + b, s.w + l + r⟩ := by
  have hb := crop_bounds s ⟨0, 0, 0, 0⟩ ⟨le_rfl, le_rfl, le_rfl, le_rfl⟩ (by simp only; omega) (by simp only; omega)
  simp only [shapeAfter, hb, Shape.mk.injEq]
  omega

theorem frame_map (zero : α) (m : Map α) (t r b l : Nat) (hm : m.shape = ⟨m.arr.h, m.arr.w⟩) (hh : 1 ≤ m.arr.h) (hw : 1 ≤ m.arr.w) :
    cropPadMap (fun _ _ => zero) none m ⟨0, 0, 0, 0⟩ ⟨t, r, b, l⟩ =
      some ⟨frame zero m.arr t r b l, ⟨m.arr.h + t + b, m.arr.w + l + r⟩⟩ := by
  have n : NonNeg ⟨(t : Int), (r : Int), (b : Int), (l : Int)⟩ := ⟨by simp, by simp, by simp, by simp⟩
  obtain ⟨q, e, -⟩ := crop_pad_maps_not_empty (fun _ _ => zero) m ⟨0, 0, 0, 0⟩ ⟨t, r, b, l⟩ ⟨le_rfl, le_rfl, le_rfl, le_rfl⟩ n
    (by rw [hm]; exact hh) (by rw [hm]; exact hw) hh hw
  obtain ⟨e1, e2⟩ := crop_pad_maps (fun _ _ => zero) m ⟨0, 0, 0, 0⟩ ⟨t, r, b, l⟩ ⟨le_rfl, le_rfl, le_rfl, le_rfl⟩ n
    (by rw [hm]; exact hh) (by rw [hm]; exact hw) q e
  rw [frame_eq zero m.arr t r b l hh hw] at e2
  have e3 := (e2 hm).1
  rw [hm, shapeAfter_eq _ _ _ _ _ hh hw] at e1
  injection e3 with e3
  rw [e]
  cases q
  simp only at e1 e3
  rw [e1, ← e3]

theorem frame_kps (k : KPsOnImage) (t r b l : Nat) (hh : 1 ≤ k.shape.h) (hw : 1 ≤ k.shape.w) :
    cropPadKps false k ⟨0, 0, 0, 0⟩ ⟨t, r, b, l⟩ =
      some ⟨k.kps.map (fun (p : Pt) => ⟨p.x + l, p.y + t⟩), ⟨k.shape.h + t + b, k.shape.w + l + r⟩⟩ := by
  have hb := crop_bounds k.shape ⟨0, 0, 0, 0⟩ ⟨le_rfl, le_rfl, le_rfl, le_rfl⟩ (by simp only; omega) (by simp only; omega)
  simp only [cropPadKps, hb, shapeAfter_eq _ _ _ _ _ hh hw, KPsOnImage.shift, Bool.false_eq_true, if_false]
  simp [Pt.shift]

theorem framed (zero : α) (a : Img α) (t r b l : Nat) : Framed zero a (frame zero a t r b l) t l (a.h + t + b) (a.w + l + r) :=
  ⟨rfl, rfl, fun _ _ _ _ => rfl⟩

theorem dest_shuffle (s : Sample) : IsShuffle (s.rows * s.cols) s.dest := destinations_permute _ _ _ _ _

end Imgaug.JigsawBatch
namespace Imgaug.JigsawBatch
open Imgaug Imgaug.Jigsaw Imgaug.Size Imgaug.Params
variable {α β γ σ : Type}

theorem fits_mod {m n N : Nat} (h : Fits m n N) : N % m = 0 := Nat.mod_eq_zero_of_dvd h.1.2.1

theorem image_ok (zero : α) (s : Sample) (hr : 1 ≤ s.rows) (hc : 1 ≤ s.cols) (a : Img α) (hh : 1 ≤ a.h) (hw : 1 ≤ a.w)
    (hw' : Int × Int) (t r b l : Nat) (hp : padsFor hw' ⟨a.h, a.w⟩ = ⟨t, r, b, l⟩) (f1 : (a.h + t + b) % s.rows = 0)
    (f2 : (a.w + l + r) % s.cols = 0) :
    ∃ c, imageStep zero (some hw') s a = some c ∧ Jigsaw.apply zero s.rows s.cols s.dest (frame zero a t r b l) = some c ∧
      CellsMoved s.rows s.cols s.dest (frame zero a t r b l) c := by
  obtain ⟨c, e1, e2⟩ := jigsaw_moves_cells zero s.rows s.cols s.dest (dest_shuffle s) (frame zero a t r b l) (by omega) (by omega) f1 f2
  refine ⟨c, ?_, e1, e2⟩
  simp only [imageStep, hp, frame_eq zero a t r b l hh hw, Option.bind_some, e1]

theorem map_ok (zero : α) (rs : Img α → Nat → Nat → Img α) (hrs : Resizes rs) (s : Sample) (hr : 1 ≤ s.rows) (hc : 1 ≤ s.cols) (sh : Shape)
    (hh : 1 ≤ sh.h) (hw : 1 ≤ sh.w) (m : Map α) (hm : m.shape = sh) (hw' : Int × Int) (t r b l : Nat) (hp : padsFor hw' sh = ⟨t, r, b, l⟩)
    (f1 : (sh.h + t + b) % s.rows = 0) (f2 : (sh.w + l + r) % s.cols = 0) :
    ∃ c, mapStep zero rs sh (some hw') s m = some ⟨rs c m.arr.h m.arr.w, ⟨sh.h + t + b, sh.w + l + r⟩⟩ ∧
      CellsMoved s.rows s.cols s.dest (frame zero (rs m.arr sh.h sh.w) t r b l) c := by
  obtain ⟨z1, z2⟩ := hrs m.arr sh.h sh.w
  have k1 : (frame zero (rs m.arr sh.h sh.w) t r b l).h = sh.h + t + b := by change (rs m.arr sh.h sh.w).h + t + b = _; rw [z1]
  have k2 : (frame zero (rs m.arr sh.h sh.w) t r b l).w = sh.w + l + r := by change (rs m.arr sh.h sh.w).w + l + r = _; rw [z2]
  obtain ⟨c, e1, e2⟩ := jigsaw_moves_cells zero s.rows s.cols s.dest (dest_shuffle s) (frame zero (rs m.arr sh.h sh.w) t r b l) (by omega)
    (by omega) (by rw [k1]; exact f1) (by rw [k2]; exact f2)
  refine ⟨c, ?_, e2⟩
  have e3 := frame_map zero ⟨rs m.arr sh.h sh.w, sh⟩ t r b l (by simp only [z1, z2]) (by simp only [z1]; exact hh) (by simp only [z2]; exact hw)
  simp only [mapStep, hm, hp, e3, Option.bind_some, e1, Option.map_some, z1, z2]

theorem kps_ok (s : Sample) (hr : 1 ≤ s.rows) (hc : 1 ≤ s.cols) (k : KPsOnImage) (hh : 1 ≤ k.shape.h) (hw : 1 ≤ k.shape.w)
    (hw' : Int × Int) (t r b l : Nat) (hp : padsFor hw' k.shape = ⟨t, r, b, l⟩) (f1 : (k.shape.h + t + b) % s.rows = 0)
    (f2 : (k.shape.w + l + r) % s.cols = 0) :
    ∃ k', kpsStep (some hw') s k = some k' ∧ k'.shape = ⟨k.shape.h + t + b, k.shape.w + l + r⟩ ∧
      List.Forall₂ (fun (p q : Pt) => applyPt s.rows s.cols s.dest ⟨k.shape.h + t + b, k.shape.w + l + r⟩ ⟨p.x + l, p.y + t⟩ = some q) k.kps k'.kps := by
  obtain ⟨qs, e1, e2⟩ := jigsaw_coords s.rows s.cols s.dest (dest_shuffle s) ⟨k.shape.h + t + b, k.shape.w + l + r⟩
    (k.kps.map (fun (p : Pt) => ⟨p.x + l, p.y + t⟩)) (by omega) (by omega) f1 f2
  refine ⟨⟨qs, ⟨k.shape.h + t + b, k.shape.w + l + r⟩⟩, ?_, rfl, ?_⟩
  · simp only [kpsStep, hp, frame_kps k t r b l hh hw, Option.bind_some, e1, Option.map_some]
  · rwa [List.forall₂_map_left_iff] at e2

theorem opt_some {δ : Type} (f : δ → Option δ) (o : Option δ) (h : ∀ x, o = some x → ∃ y, f x = some y) : ∃ o', opt f o = some o' := by
  cases o with
  | none => exact ⟨none, rfl⟩
  | some x => obtain ⟨y, hy⟩ := h x rfl; exact ⟨some y, by simp only [opt, hy, Option.map_some]⟩

theorem opt_get {δ : Type} (f : δ → Option δ) (x y : δ) (o : Option δ) (h : opt f (some x) = some o) (hy : f x = some y) : o = some y := by
  simp only [opt, hy, Option.map_some, Option.some.injEq] at h
  exact h.symm

theorem opt_isSome {δ : Type} (f : δ → Option δ) (o o' : Option δ) (h : opt f o = some o') : o'.isSome = o.isSome := by
  cases o with
  | none => simp only [opt, Option.some.injEq] at h; subst h; rfl
  | some x =>
    simp only [opt, Option.map_eq_some_iff] at h
    obtain ⟨y, -, rfl⟩ := h
    rfl

/-- What an accepted row consists of. -/
theorem rowStep_parts (zα : α) (zβ : β) (zγ : γ) (rsβ : Img β → Nat → Nat → Img β) (rsγ : Img γ → Nat → Nat → Img γ) (allowPad : Bool)
    (s : Sample) (r r' : Row α β γ) (h : rowStep zα zβ zγ rsβ rsγ allowPad s r = some r') :
    ∃ hw, (if allowPad then (paddedSize r.shape s.rows s.cols).map some else some none) = some hw ∧
      opt (imageStep zα hw s) r.image = some r'.image ∧ opt (mapStep zβ rsβ r.shape hw s) r.heatmap = some r'.heatmap ∧
      opt (mapStep zγ rsγ r.shape hw s) r.segmap = some r'.segmap ∧ opt (kpsStep hw s) r.kps = some r'.kps ∧ r.others = false ∧
      r'.others = false := by
  simp only [rowStep, Option.bind_eq_some_iff] at h
  obtain ⟨hw, h0, im, h1, hm, h2, sm, h3, k, h4, h5⟩ := h
  split_ifs at h5 with h6
  simp only [Option.some.injEq] at h5
  subst h5
  simp only [Bool.not_eq_true] at h6
  exact ⟨hw, h0, h1, h2, h3, h4, h6, h6⟩

theorem mapM_exists {α β : Type} (f : α → Option β) (l : List α) (h : ∀ a ∈ l, ∃ b, f a = some b) : ∃ r, l.mapM f = some r := by
  induction l with
  | nil => exact ⟨[], rfl⟩
  | cons a t ih =>
    obtain ⟨r, hr⟩ := ih (fun x hx => h x (List.mem_cons_of_mem a hx))
    obtain ⟨b, hb⟩ := h a List.mem_cons_self
    exact ⟨b :: r, by simp [List.mapM_cons, hb, hr]⟩

theorem drawDests_get (D : DrawDirs σ) (l : List (Nat × Nat × Nat)) (g : σ) :
    (drawDests D l g).length = l.length ∧ ∀ (i r c m : Nat), l[i]? = some (r, c, m) → ∃ s, (drawDests D l g)[i]? = some s ∧ s.rows = r ∧ s.cols = c ∧
      s.maxSteps = m := by
  induction l generalizing g with
  | nil => exact ⟨rfl, fun i r c m h => by simp at h⟩
  | cons x t ih =>
    obtain ⟨r, c, m⟩ := x
    obtain ⟨h1, h2⟩ := ih (D r c m g).2
    refine ⟨by simp only [drawDests, List.length_cons, h1], ?_⟩
    intro i r' c' m' h
    cases i with
    | zero =>
      simp only [List.getElem?_cons_zero, Option.some.injEq, Prod.mk.injEq] at h
      obtain ⟨rfl, rfl, rfl⟩ := h
      exact ⟨_, rfl, rfl, rfl, rfl⟩
    | succ j =>
      simp only [List.getElem?_cons_succ] at h
      simp only [drawDests, List.getElem?_cons_succ]
      exact h2 j r' c' m' h

theorem allowed_ge (P : AffineArgs.Values ℚ) (a : Val) (lo : ℚ) (hp : ∀ i, a ≠ .atom (.par i)) (hr : AllAllowed (.interval (some lo) none) a) (k : ℚ)
    (hk : AffineArgs.Allows P a k) : lo ≤ k := by
  have hr' : ∀ n : Num, .num n ∈ numbers a → lo ≤ n.q := fun n hn => by simpa [VR.allowed] using hr n hn
  rcases a with x | l | l
  · cases x with
    | num n => simp only [AffineArgs.Allows] at hk; subst hk; exact hr' n (by simp [numbers])
    | par i => exact absurd rfl (hp i)
    | _ => simp [AffineArgs.Allows] at hk
  · obtain ⟨x, y, rfl, h1, h2⟩ := hk
    have hx := hr' x (by simp [numbers])
    have hy := hr' y (by simp [numbers])
    exact le_trans (le_min hx hy) h1
  · obtain ⟨n, hn, rfl⟩ := hk
    exact hr' n hn

/-- A drawn value of a discrete argument with a lower bound, as a natural number. -/
theorem drawn_nat (P : AffineArgs.Values ℚ) (S : AffineArgs.Sampler σ Handled ℚ) (hS : AffineArgs.Ok (AffineArgs.Supports P) S) (a : Val) (lo : Nat)
    (d : Handled) (hd : handleDiscrete a (.interval (some (lo : ℚ)) none) true true false = some d) (hf : AffineArgs.Val.Filled a)
    (hi : AffineArgs.IntNums a) (hp : ∀ i, a ≠ .atom (.par i)) (n : Nat) (g : σ) (i : Nat) (hn : i < n) :
    lo ≤ (pyInt ((S d n g).1.getD i 0)).toNat ∧ AffineArgs.Allows P a ((pyInt ((S d n g).1.getD i 0)).toNat : ℚ) := by
  have hs := AffineArgs.sample_ok hS d n g i hn 0
  have hal := AffineArgs.discrete_supports' P a _ d _ hd hf hi hs
  obtain ⟨z, hz⟩ := AffineArgs.discrete_whole P a d _ hd hf hp hs
  rcases (discrete_accepts a _ true true false).1 (by rw [hd]; rfl) with ⟨j, h⟩ | ⟨-, h2⟩
  · exact absurd h (hp j)
  have hge := allowed_ge P a lo hp h2 _ hal
  rw [hz] at hge hal ⊢
  rw [Dtypes.pyInt_intCast]
  have h0 : (lo : Int) ≤ z := by exact_mod_cast hge
  have hz2 : ((z.toNat : Nat) : ℚ) = (z : ℚ) := by
    have : ((z.toNat : Nat) : Int) = z := Int.toNat_of_nonneg (by omega)
    exact_mod_cast this
  rw [hz2]
  exact ⟨by omega, hal⟩

end Imgaug.JigsawBatch
