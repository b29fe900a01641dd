import Verif.Spec.Corrupt
import Mathlib.Tactic.SplitIfs
/-! Lemmas for C124. -/
namespace Imgaug.Corrupt
open Imgaug Imgaug.Compress
variable {α : Type}

theorem axis_of_range {n : Nat} {i : Int} (h0 : 0 ≤ i) (h1 : i < n) : axis n i = some i.toNat := by
  simp [axis, h0, h1]

/-- The assignment never exchanges: it copies. -/
theorem exchange_eq (f : Nat → Nat → α) (y x y' x' : Nat) : exchange f y x y' x' = put f y x (f y' x') := by
  funext a b
  simp only [exchange, put]
  split_ifs with h1 h2 h3 <;> simp_all

theorem mem_order {h w d it : Nat} {p : Nat × Nat × Nat} (hp : p ∈ order h w d it) : p.2.1 < h - 2 * d ∧ p.2.2 < w - 2 * d := by
  simp only [order, List.mem_flatMap, List.mem_map, List.mem_range] at hp
  obtain ⟨i, _, j, hj, k, hk, rfl⟩ := hp
  exact ⟨hj, hk⟩

/-- One step: copies a pixel of the image to a position that is not at the border. -/
theorem step_eq {h w d j k : Nat} {v : Int × Int} (h1 : -(d : Int) ≤ v.1 ∧ v.1 < d) (h2 : -(d : Int) ≤ v.2 ∧ v.2 < d)
    (hj : j < h - 2 * d) (hk : k < w - 2 * d) (f : Nat → Nat → α) :
    ∃ y x y' x', d < y ∧ y ≤ h - d ∧ d < x ∧ x ≤ w - d ∧ y < h ∧ x < w ∧ y' < h ∧ x' < w ∧
      y = h - d - j ∧ x = w - d - k ∧ (y' : Int) = y + v.2 ∧ (x' : Int) = x + v.1 ∧
      step h w d v j k f = some (put f y x (f y' x')) := by
  have hd : 0 < d := by omega
  refine ⟨h - d - j, w - d - k, ((h - d - j : Nat) + v.2).toNat, ((w - d - k : Nat) + v.1).toNat, by omega, by omega, by omega, by omega,
    by omega, by omega, by omega, by omega, rfl, rfl, by omega, by omega, ?_⟩
  have ea : ((h : Int) - d - j) = ((h - d - j : Nat) : Int) := by omega
  have eb : ((w : Int) - d - k) = ((w - d - k : Nat) : Int) := by omega
  simp only [step, ea, eb]
  rw [axis_of_range (by omega) (by omega), axis_of_range (by omega) (by omega), axis_of_range (by omega) (by omega),
    axis_of_range (by omega) (by omega)]
  simp only [Option.bind_some, Option.map_some, exchange_eq, Int.toNat_natCast]

/-- The loop keeps every property of images that copying a pixel to a position inside keeps. -/
theorem loop_inv {h w d it : Nat} {v : Nat → Nat → Nat → Int × Int} (hv : ShiftsIn d v) (P : (Nat → Nat → α) → Prop)
    (hP : ∀ f y x y' x', P f → d < y → y ≤ h - d → d < x → x ≤ w - d → y' < h → x' < w → P (put f y x (f y' x')))
    (f : Nat → Nat → α) (hf : P f) : ∃ g, loop h w d it v f = some g ∧ P g := by
  unfold loop
  have key : ∀ (l : List (Nat × Nat × Nat)), (∀ p ∈ l, p.2.1 < h - 2 * d ∧ p.2.2 < w - 2 * d) → ∀ f, P f →
      ∃ g, l.foldlM (fun g p => step h w d (v p.1 p.2.1 p.2.2) p.2.1 p.2.2 g) f = some g ∧ P g := by
    intro l
    induction l with
    | nil => intro _ f hf; exact ⟨f, rfl, hf⟩
    | cons p t ih =>
      intro hl f hf
      obtain ⟨hj, hk⟩ := hl p (by simp)
      obtain ⟨y, x, y', x', a1, a2, a3, a4, _, _, a5, a6, _, _, _, _, e⟩ := step_eq (hv p.1 p.2.1 p.2.2).1 (hv p.1 p.2.1 p.2.2).2 hj hk f
      obtain ⟨g, eg, hg⟩ := ih (fun q hq => hl q (by simp [hq])) _ (hP f y x y' x' hf a1 a2 a3 a4 a5 a6)
      exact ⟨g, by rw [List.foldlM_cons, e]; exact eg, hg⟩
  exact key _ (fun p hp => mem_order hp) f hf

end Imgaug.Corrupt
