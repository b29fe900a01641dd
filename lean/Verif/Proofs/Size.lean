import Verif.Spec.Size
import Mathlib.Tactic.Push
import Mathlib.Tactic.Positivity
import Mathlib.Tactic.SplitIfs
/-! Helper lemmas for Props/Size.lean. -/
namespace Imgaug.Size
open Imgaug
variable {α : Type}

/-- Projecting keypoints between non-empty shapes keeps the relative positions. -/
theorem on_relative (q : KPsOnImage) (s : Shape) (h1 : 0 < q.shape.h) (h2 : 0 < q.shape.w) (h3 : 0 < s.h) (h4 : 0 < s.w) :
    ∃ r, q.on s = some r ∧ r.shape = s ∧ r.kps.length = q.kps.length ∧
      ∀ (i : Nat) (p' p : Pt), r.kps[i]? = some p' → q.kps[i]? = some p →
        p'.x / s.w = p.x / q.shape.w ∧ p'.y / s.h = p.y / q.shape.h := by
  have hh' : (s.h : ℚ) ≠ 0 := by exact_mod_cast h3.ne'
  have hw' : (s.w : ℚ) ≠ 0 := by exact_mod_cast h4.ne'
  by_cases hc : s = q.shape
  · refine ⟨q, if_pos hc, hc.symm, rfl, ?_⟩
    intro i p' p e1 e2
    rw [e1] at e2
    injection e2 with e2
    subst e2
    rw [← hc]
    exact ⟨rfl, rfl⟩
  · have hm : ∀ l : List Pt, l.mapM (fun p => projectPt p q.shape s) =
        some (l.map (fun p => (⟨p.x / q.shape.w * s.w, p.y / q.shape.h * s.h⟩ : Pt))) := by
      intro l
      induction l with
      | nil => rfl
      | cons p l ih =>
        rw [List.mapM_cons, ih]
        simp only [projectPt, if_neg (Ne.symm hc)]
        rw [if_pos ⟨h1, h2, h3, h4⟩]
        rfl
    refine ⟨⟨q.kps.map (fun p => ⟨p.x / q.shape.w * s.w, p.y / q.shape.h * s.h⟩), s⟩, ?_, rfl, by simp, ?_⟩
    · simp only [KPsOnImage.on, if_neg hc, hm]; rfl
    · intro i p' p hp' hp
      rw [List.getElem?_map, hp] at hp'
      simp only [Option.map_some, Option.some.injEq] at hp'
      subst hp'
      constructor <;> field_simp

theorem preventZero_idem (size s e : Int) (hsize : 1 ≤ size) (hs : 0 ≤ s) (he : 0 ≤ e) :
    preventZero size (preventZero size s e).1 (preventZero size s e).2 = preventZero size s e := by
  have h1 : (preventZero size s e).1 ≥ 0 ∧ (preventZero size s e).2 ≥ 0 ∧
      (preventZero size s e).1 + (preventZero size s e).2 < size := by
    simp only [preventZero, abs]
    split_ifs <;> omega
  generalize preventZero size s e = r at *
  obtain ⟨a, b⟩ := r
  simp only at h1
  simp only [preventZero, abs, Prod.mk.injEq]
  split_ifs <;> omega

theorem cropXyxy_idem (s : Shape) (c : Trbl) (hc : 0 ≤ c.top ∧ 0 ≤ c.right ∧ 0 ≤ c.bottom ∧ 0 ≤ c.left) (hh : 1 ≤ s.h)
    (hw : 1 ≤ s.w) : cropXyxy s (preventZeroTrbl s.h s.w c) = cropXyxy s c := by
  simp only [cropXyxy, preventZeroTrbl]
  rw [preventZero_idem _ _ _ (by omega) hc.1 hc.2.2.1, preventZero_idem _ _ _ (by omega) hc.2.2.2 hc.2.1]

theorem cropPadArr_eq (border : Nat → Nat → α) (a : Img α) (c p : Trbl) (hp : NonNeg p) :
    cropPadArr border none a c p = some ⟨(cropArr a c).h + p.top.toNat + p.bottom.toNat,
      (cropArr a c).w + p.left.toNat + p.right.toNat, fun y x =>
        if p.top.toNat ≤ y ∧ y < p.top.toNat + (cropArr a c).h ∧ p.left.toNat ≤ x ∧ x < p.left.toNat + (cropArr a c).w then
          (cropArr a c).px (y - p.top.toNat) (x - p.left.toNat)
        else border y x⟩ := by
  have h : 0 ≤ p.top ∧ 0 ≤ p.right ∧ 0 ≤ p.bottom ∧ 0 ≤ p.left := hp
  rw [cropPadArr, pad, if_pos h]
  rfl

theorem cropPadArr_nonneg (border : Nat → Nat → α) (a b : Img α) (c p : Trbl) (h : cropPadArr border none a c p = some b) :
    NonNeg p := by
  rw [cropPadArr, pad] at h
  by_contra hn
  have hn' : ¬ (0 ≤ p.top ∧ 0 ≤ p.right ∧ 0 ≤ p.bottom ∧ 0 ≤ p.left) := hn
  rw [if_neg hn'] at h
  cases h

theorem npRound_nonneg (q : ℚ) (h : -(1 / 2) < q) : 0 ≤ npRound q := by
  have h1 : -1 ≤ ⌊q⌋ := by rw [Int.le_floor]; push_cast; linarith
  simp only [npRound]
  by_cases h0 : ⌊q⌋ = -1
  · rw [h0]
    push_cast
    rw [if_neg (by linarith), if_pos (by linarith)]
  · split_ifs <;> omega

theorem projectSizeChanges_nonneg (t : Trbl) (s d : Shape) (ht : NonNeg t) (hh : 1 ≤ s.h) (hw : 1 ≤ s.w) :
    ∃ t', projectSizeChanges t s d = some t' ∧ NonNeg t' := by
  rw [projectSizeChanges]
  split
  · exact ⟨t, rfl, ht⟩
  · rw [if_neg (by omega)]
    refine ⟨_, rfl, ?_⟩
    obtain ⟨a1, a2, a3, a4⟩ := ht
    have key : ∀ (n m : Nat) (z : Int), 0 ≤ z → (0 : ℚ) ≤ (n : ℚ) * ((z : ℚ) / (m : ℚ)) := by
      intro n m z hz
      have : (0 : ℚ) ≤ (z : ℚ) := by exact_mod_cast hz
      positivity
    refine ⟨?_, ?_, ?_, ?_⟩ <;> apply npRound_nonneg
    · linarith [key d.h s.h t.top a1]
    · linarith [key d.w s.w t.right a2]
    · linarith [key d.h s.h t.bottom a3]
    · linarith [key d.w s.w t.left a4]

end Imgaug.Size
