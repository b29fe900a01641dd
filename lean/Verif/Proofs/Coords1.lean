import Verif.Spec.Coords
import Verif.Proofs.Boxes
import Verif.Proofs.MinMax
import Verif.Props.Boxes
import Verif.Model.Coords
/-! Helper lemmas for Props/Coords1.lean. -/
namespace Imgaug.Props
open Imgaug Imgaug.Spec

theorem refill_toKeypoints (l : List BB) (h : ∀ b ∈ l, WF b) :
    BBsOnImage.refill l (l.flatMap BB.toKeypoints) = l := by
  induction l with
  | nil => rfl
  | cons b l ih =>
    have hb := h b (by simp)
    simp only [List.flatMap_cons, BB.toKeypoints, List.cons_append, List.nil_append, BBsOnImage.refill]
    congr 1
    · simp [BB.minOf, BB.maxOf, hb.1, hb.2]
    · exact ih (fun b hb => h b (by simp [hb]))

theorem refill_spec (l : List BB) (kps : List Pt) (hl : kps.length = l.length * 4) :
    (BBsOnImage.refill l kps).length = l.length ∧
    ∀ i (hi : i < l.length), ∃ r, (BBsOnImage.refill l kps)[i]? = some r ∧ r.label = l[i].label ∧ WF r ∧
      (∀ p ∈ cornerPoints kps i, InBox r p.x p.y) ∧
      (∃ p ∈ cornerPoints kps i, p.x = r.x1) ∧ (∃ p ∈ cornerPoints kps i, p.x = r.x2) ∧
      (∃ p ∈ cornerPoints kps i, p.y = r.y1) ∧ (∃ p ∈ cornerPoints kps i, p.y = r.y2) := by
  induction l generalizing kps with
  | nil => simp at hl; subst hl; simp [BBsOnImage.refill]
  | cons bb l ih =>
    match kps, hl with
    | [], hl => simp at hl
    | [_], hl => simp at hl; omega
    | [_, _], hl => simp at hl; omega
    | [_, _, _], hl => simp at hl; omega
    | a :: b :: c :: d :: kps, hl =>
      have hl' : kps.length = l.length * 4 := by simp at hl; omega
      obtain ⟨ih1, ih2⟩ := ih kps hl'
      refine ⟨by simp [BBsOnImage.refill, ih1], ?_⟩
      intro i hi
      cases i with
      | zero =>
        have m1 := foldl_min_le a.x [b.x, c.x, d.x]
        have m2 := foldl_min_le a.y [b.y, c.y, d.y]
        have m3 := le_foldl_max a.x [b.x, c.x, d.x]
        have m4 := le_foldl_max a.y [b.y, c.y, d.y]
        have n1 := foldl_min_mem a.x [b.x, c.x, d.x]
        have n2 := foldl_min_mem a.y [b.y, c.y, d.y]
        have n3 := foldl_max_mem a.x [b.x, c.x, d.x]
        have n4 := foldl_max_mem a.y [b.y, c.y, d.y]
        simp only [List.mem_cons, List.not_mem_nil, or_false, forall_eq_or_imp, forall_eq] at m1 m2 m3 m4 n1 n2 n3 n4
        refine ⟨_, rfl, rfl, ⟨m1.1.trans m3.1, m2.1.trans m4.1⟩, ?_, ?_, ?_, ?_, ?_⟩
        · intro p hp
          simp only [cornerPoints, Nat.mul_zero, List.drop_zero, List.take_succ_cons, List.take_zero,
            List.mem_cons, List.not_mem_nil, or_false] at hp
          unfold InBox
          rcases hp with rfl | rfl | rfl | rfl <;> simp_all
        all_goals
          simp only [cornerPoints, Nat.mul_zero, List.drop_zero, List.take_succ_cons, List.take_zero,
            List.mem_cons, List.not_mem_nil, or_false]
        · rcases n1 with h | h | h | h <;> rw [h]
          exacts [⟨a, by simp, rfl⟩, ⟨b, by simp, rfl⟩, ⟨c, by simp, rfl⟩, ⟨d, by simp, rfl⟩]
        · rcases n3 with h | h | h | h <;> rw [h]
          exacts [⟨a, by simp, rfl⟩, ⟨b, by simp, rfl⟩, ⟨c, by simp, rfl⟩, ⟨d, by simp, rfl⟩]
        · rcases n2 with h | h | h | h <;> rw [h]
          exacts [⟨a, by simp, rfl⟩, ⟨b, by simp, rfl⟩, ⟨c, by simp, rfl⟩, ⟨d, by simp, rfl⟩]
        · rcases n4 with h | h | h | h <;> rw [h]
          exacts [⟨a, by simp, rfl⟩, ⟨b, by simp, rfl⟩, ⟨c, by simp, rfl⟩, ⟨d, by simp, rfl⟩]
      | succ i =>
        have := ih2 i (by simpa using hi)
        have e : cornerPoints (a :: b :: c :: d :: kps) (i + 1) = cornerPoints kps i := by
          unfold cornerPoints
          rw [show 4 * (i + 1) = 4 * i + 4 by ring]
          rfl
        rw [e]
        simpa [BBsOnImage.refill] using this

end Imgaug.Props
