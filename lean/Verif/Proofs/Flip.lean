import Verif.Spec.Flip
import Mathlib.Tactic.Push
namespace Imgaug.Flip
open Imgaug
variable {α γ σ β ρ : Type}

theorem loop_get (row : β → Nat → β) (π : β → Option (List ρ)) (f : ρ → ρ)
    (hπ : ∀ b i, π (row b i) = (π b).map (fun l => l.modify i f)) (samples : List ℚ) (n : Nat) (b : β) (l : List ρ)
    (hb : π b = some l) :
    ∃ l', π (loop row samples n b) = some l' ∧ l'.length = l.length ∧
      (∀ j, j < n → l'[j]? = l[j]?) ∧
      ∀ (j : Nat) (s : ℚ), samples[j]? = some s → l'[n + j]? = if 1 / 2 ≤ s then l[n + j]?.map f else l[n + j]? := by
  induction samples generalizing n b l with
  | nil => exact ⟨l, hb, rfl, fun _ _ => rfl, by simp⟩
  | cons s rest ih =>
    simp only [loop]
    by_cases hs : s ≥ 1 / 2
    · rw [if_pos hs]
      have hne : ∀ j, n ≠ j → (l.modify n f)[j]? = l[j]? := by
        intro j h
        rw [List.getElem?_modify]
        simp [h]
      obtain ⟨l', h1, h2, h3, h4⟩ := ih (n + 1) (row b n) (l.modify n f) (by rw [hπ, hb]; rfl)
      refine ⟨l', h1, by simp [h2], ?_, ?_⟩
      · intro j hj
        rw [h3 j (by omega), hne _ (by omega)]
      · intro j s' hj
        cases j with
        | zero =>
          simp at hj
          subst hj
          rw [if_pos hs, Nat.add_zero, h3 n (by omega)]
          simp
        | succ j =>
          simp at hj
          have := h4 j s' hj
          rw [show n + (j + 1) = n + 1 + j by omega, this, hne _ (by omega)]
    · rw [if_neg hs]
      obtain ⟨l', h1, h2, h3, h4⟩ := ih (n + 1) b l hb
      refine ⟨l', h1, h2, fun j hj => h3 j (by omega), ?_⟩
      intro j s' hj
      cases j with
      | zero =>
        simp at hj
        subst hj
        rw [if_neg hs, Nat.add_zero, h3 n (by omega)]
      | succ j =>
        simp at hj
        have := h4 j s' hj
        rw [show n + (j + 1) = n + 1 + j by omega, this]

theorem loop_none (row : β → Nat → β) (π : β → Option (List ρ)) (f : ρ → ρ)
    (hπ : ∀ b i, π (row b i) = (π b).map (fun l => l.modify i f)) (samples : List ℚ) (n : Nat) (b : β)
    (hb : π b = none) : π (loop row samples n b) = none := by
  induction samples generalizing n b with
  | nil => exact hb
  | cons s rest ih =>
    simp only [loop]
    apply ih
    split
    · rw [hπ, hb]; rfl
    · exact hb

theorem rowwise (row : β → Nat → β) (π : β → Option (List ρ)) (f : ρ → ρ) (R : ρ → ρ → Prop) (hR : ∀ x, R x (f x))
    (hπ : ∀ b i, π (row b i) = (π b).map (fun l => l.modify i f)) (samples : List ℚ) (b : β) :
    RowWise samples R (π b) (π (loop row samples 0 b)) := by
  cases hb : π b with
  | none => exact Or.inl ⟨rfl, loop_none row π f hπ samples 0 b hb⟩
  | some l =>
    obtain ⟨l', h1, h2, _, h4⟩ := loop_get row π f hπ samples 0 b l hb
    refine Or.inr ⟨l, l', rfl, h1, h2, ?_⟩
    intro i s x hs hx
    have := h4 i s hs
    rw [Nat.zero_add, hx] at this
    by_cases h : 1 / 2 ≤ s
    · rw [if_pos h] at this
      exact ⟨f x, this, fun _ => hR x, fun h' => absurd h (not_le.2 h')⟩
    · rw [if_neg h] at this
      exact ⟨x, this, fun h' => absurd h' h, fun _ => rfl⟩

theorem fliplr_mirrored (a : Img α) : MirroredLr a (fliplr a) := by
  refine ⟨rfl, rfl, ?_⟩
  intro y x x' _ hx e
  have : a.w - 1 - x' = x := by omega
  simp [fliplr, this]

theorem flipud_mirrored (a : Img α) : MirroredUd a (flipud a) := by
  refine ⟨rfl, rfl, ?_⟩
  intro y x x' _ hx e
  have : a.h - 1 - x' = y := by omega
  simp [flipud, this]

theorem forall2_map (f : α → β) (l : List α) (R : α → β → Prop) (h : ∀ x, R x (f x)) : List.Forall₂ R l (l.map f) := by
  induction l with
  | nil => exact .nil
  | cons x l ih => exact .cons (h x) ih

theorem lrBB_moved (s : Shape) (b : BB) : BoxMoved mirrorX s b (lrBB s b) := by
  refine ⟨rfl, by simp only [lrBB]; intro; linarith, by simp only [lrBB]; intro; linarith, by simp only [lrBB, BB.width]; ring,
    by simp only [lrBB, BB.height], ?_⟩
  intro p
  rw [Bool.eq_iff_iff]
  simp only [BB.contains, Bool.and_eq_true, decide_eq_true_eq]
  simp only [lrBB, mirrorX]
  constructor
  · rintro ⟨⟨_, _⟩, _, _⟩; refine ⟨⟨?_, ?_⟩, ?_, ?_⟩ <;> linarith
  · rintro ⟨⟨_, _⟩, _, _⟩; refine ⟨⟨?_, ?_⟩, ?_, ?_⟩ <;> linarith

theorem udBB_moved (s : Shape) (b : BB) : BoxMoved mirrorY s b (udBB s b) := by
  refine ⟨rfl, by simp only [udBB]; intro; linarith, by simp only [udBB]; intro; linarith, by simp only [udBB, BB.width],
    by simp only [udBB, BB.height]; ring, ?_⟩
  intro p
  rw [Bool.eq_iff_iff]
  simp only [BB.contains, Bool.and_eq_true, decide_eq_true_eq]
  simp only [udBB, mirrorY]
  constructor
  · rintro ⟨⟨_, _⟩, _, _⟩; refine ⟨⟨?_, ?_⟩, ?_, ?_⟩ <;> linarith
  · rintro ⟨⟨_, _⟩, _, _⟩; refine ⟨⟨?_, ?_⟩, ?_, ?_⟩ <;> linarith

end Imgaug.Flip
