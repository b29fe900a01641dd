import Verif.Spec.AssertShape
import Verif.Model.AssertShape
import Verif.Model.Num
import Mathlib.Tactic.Ring
/-! C62: `AssertShape`. -/
namespace Imgaug.AShape
open Imgaug

/-- C62: `_compare` accepts exactly the matching values. -/
theorem compare_iff (o : Nat) (e : Expected) : compare o e = true ↔ Matches o e := by
  cases e <;> simp [compare, Matches]

/-- C62: `AssertShape((N, H, W, C))` passes a batch, unchanged, if and only if every checked column has a matching number of
rows, the height and width of each row match, and, for images, the number of channels matches; otherwise it raises. -/
theorem assert_shape_iff {ρ : Type} (n h w c : Expected) (checks : ColName → Bool) (b b' : Rows ρ) :
    assertShape [n, h, w, c] checks b = some b' ↔ b' = b ∧ ∀ (col : ColName) (rows : List (Row ρ)), checks col = true →
      b col = some rows → Matches rows.length n ∧
        ∀ r ∈ rows, ∃ H W rest, r.shape = H :: W :: rest ∧ Matches H h ∧ Matches W w ∧
          (col = .images → ∃ C rest', rest = C :: rest' ∧ Matches C c) := by
  have hall : ∀ c : ColName, c ∈ ColName.all := by intro c; cases c <;> simp [ColName.all]
  have h3 : ∀ s : List Nat, checkDims s [h, w] = true ↔ ∃ H W rest, s = H :: W :: rest ∧ Matches H h ∧ Matches W w := by
    intro s
    match s with
    | [] => simp [checkDims]
    | [a] => simp [checkDims]
    | a :: a' :: r =>
      simp only [checkDims, Bool.and_eq_true, compare_iff]
      constructor
      · intro x; exact ⟨a, a', r, rfl, x.1, x.2.1⟩
      · rintro ⟨_, _, _, e, x⟩; cases e; exact ⟨x.1, x.2, trivial⟩
  have h4 : ∀ s : List Nat, checkDims s [h, w, c] = true ↔ ∃ H W rest, s = H :: W :: rest ∧ Matches H h ∧ Matches W w ∧
      ∃ C rest', rest = C :: rest' ∧ Matches C c := by
    intro s
    match s with
    | [] => simp [checkDims]
    | [a] => simp [checkDims]
    | [a, a'] => simp [checkDims]
    | a :: a' :: a'' :: r =>
      simp only [checkDims, Bool.and_eq_true, compare_iff]
      constructor
      · intro x; exact ⟨a, a', a'' :: r, rfl, x.1, x.2.1, a'', r, rfl, x.2.2.1⟩
      · rintro ⟨_, _, _, e, x⟩
        cases e
        obtain ⟨C, r', e, x'⟩ := x.2.2
        cases e
        exact ⟨x.1, x.2.1, x', trivial⟩
  have hcol : ∀ (col : ColName) (rows : List (Row ρ)),
      checkShapes (rows.map Row.shape) (target [n, h, w, c] col) = true ↔ Matches rows.length n ∧
        ∀ r ∈ rows, ∃ H W rest, r.shape = H :: W :: rest ∧ Matches H h ∧ Matches W w ∧
          (col = .images → ∃ C rest', rest = C :: rest' ∧ Matches C c) := by
    intro col rows
    cases col <;> simp [target, checkShapes, compare_iff, List.all_eq_true, h3, h4]
  unfold assertShape
  constructor
  · intro hx
    split at hx
    · rename_i hc
      refine ⟨by simpa using hx.symm, ?_⟩
      intro col rows hck hb
      have := List.all_eq_true.1 hc.2 col (hall col)
      simp only [hck, hb, Bool.not_true, Bool.false_or] at this
      exact (hcol col rows).1 this
    · simp at hx
  · rintro ⟨rfl, hx⟩
    rw [if_pos]
    refine ⟨rfl, List.all_eq_true.2 ?_⟩
    intro col _
    cases hck : checks col with
    | false => rfl
    | true =>
      cases hb : b' col with
      | none => rfl
      | some rows =>
        simp only [Bool.not_true, Bool.false_or]
        exact (hcol col rows).2 (hx col rows hck hb)

/-- Two images of size 10x21 and 12x21 with 3 channels, and keypoints for them. -/
def exRows : Rows String := fun
  | .images => some [⟨[10, 21, 3], "a"⟩, ⟨[12, 21, 3], "b"⟩]
  | .keypoints => some [⟨[10, 21, 3], "k"⟩, ⟨[12, 21], "l"⟩]
  | _ => none

example : assertShape [.exactly 2, .between 10 13, .oneOf [20, 21], .any] (fun _ => true) exRows = some exRows :=
  (assert_shape_iff _ _ _ _ _ _ _).2 ⟨rfl, by
    intro col rows _ hb
    cases col <;> simp [exRows] at hb <;> subst hb <;> simp [Matches]⟩

example : assertShape [.exactly 2, .between 10 12, .any, .any] (fun _ => true) exRows = none := by
  simp [assertShape, ColName.all, exRows, checkShapes, target, compare, checkDims]

/-- C62: if no batch passes because of the shape argument itself (not four entries) an error is raised. -/
theorem assert_shape_needs_four {ρ : Type} (shape : List Expected) (hs : shape.length ≠ 4) (checks : ColName → Bool)
    (b : Rows ρ) : assertShape shape checks b = none := by simp [assertShape, hs]

example : assertShape [.any, .any, .any] (fun _ => true) exRows = none := assert_shape_needs_four _ (by decide) _ _

end Imgaug.AShape
