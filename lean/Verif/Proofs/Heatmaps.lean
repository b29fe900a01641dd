import Verif.Spec.Heatmaps
import Verif.Model.Heatmaps
import Verif.Proofs.Num
/-! Helper lemmas for Props/Heatmaps.lean. -/
namespace Imgaug.Props
open Imgaug

theorem eps_pos : (0 : ℚ) < eps := by unfold eps; norm_num

theorem map_congr_flat {α : Type} (a : Arr α) (f : α → α) (h : ∀ v ∈ a.flat, f v = v) : a.map f = a := by
  obtain ⟨d, l⟩ := a
  simp only [Arr.map, Arr.mk.injEq, true_and]
  conv_rhs => rw [← List.map_id l]
  exact List.map_congr_left h

theorem not_beyond {a : Arr ℚ} {lo hi : ℚ} (h : AllIn a lo hi) : Heatmap.beyond a lo hi = false := by
  unfold Heatmap.beyond
  rw [List.any_eq_false]
  intro v hv
  have := h v (List.mem_of_mem_take hv)
  have e := eps_pos
  simp only [Bool.or_eq_true, decide_eq_true_eq, not_or, not_lt, gt_iff_lt]
  constructor <;> linarith

theorem init_eq (a : Arr ℚ) (lo hi : ℚ) (hne : NonEmpty a) (hlt : lo < hi) (hin : AllIn a lo hi) :
    Heatmap.init a lo hi = some ⟨if Heatmap.isUnit lo hi then a.to3d else a.to3d.map (fun v => (v - lo) / (hi - lo)),
      a.is2d, lo, hi⟩ := by
  unfold Heatmap.init
  rw [if_pos ⟨hne.1, hne.2.1, hlt, hne.2.2⟩]
  simp [not_beyond hin]

theorem to3d_flat {α : Type} (a : Arr α) : a.to3d.flat = a.flat := by
  unfold Arr.to3d; split <;> rfl

theorem to3d_of_3d {α : Type} (a : Arr α) (h : a.is2d = false) : a.to3d = a := by
  obtain ⟨d, l⟩ := a
  cases d <;> simp_all [Arr.is2d, Arr.to3d]

theorem to3d_is2d {α : Type} (a : Arr α) : a.to3d.is2d = false := by
  obtain ⟨d, l⟩ := a
  cases d <;> rfl

theorem isUnit_01 : Heatmap.isUnit 0 1 = true := by decide +kernel

theorem affine_compose (s t u : ℚ × ℚ) (ht : t.1 < t.2) (v : ℚ) : affine t u (affine s t v) = affine s u v := by
  unfold affine
  have : t.2 - t.1 ≠ 0 := by linarith
  have e : (t.1 + (v - s.1) / (s.2 - s.1) * (t.2 - t.1) - t.1) / (t.2 - t.1) = (v - s.1) / (s.2 - s.1) := by
    rw [add_sub_cancel_left, mul_div_assoc, div_self this, mul_one]
  rw [e]

theorem affine_self (s : ℚ × ℚ) (hs : s.1 < s.2) (v : ℚ) : affine s s v = v := by
  unfold affine
  have : s.2 - s.1 ≠ 0 := by linarith
  field_simp
  ring

theorem change_clear (a : Arr ℚ) (s t : ℚ × ℚ) (hs : s.1 < s.2) (ht : t.1 < t.2) (hc : Clear s t) :
    Heatmap.changeNormalization a s t = some (a.map (affine s t)) := by
  unfold Heatmap.changeNormalization
  rw [if_pos ⟨hs, ht⟩]
  rcases hc with rfl | hc
  · rw [map_congr_flat a _ (fun v _ => affine_self s hs v)]
    split
    · rfl
    · congr 1
      exact map_congr_flat a _ (fun v _ => affine_self s hs v)
  · rw [hc]; rfl

theorem cast_toInt32 (d : SegDtype) (v : Int) (hv : d.Holds v)
    (hd : d = .bool ∨ d = .uint 1 ∨ d = .uint 2 ∨ d = .int 1 ∨ d = .int 2 ∨ d = .int 4) :
    d.cast (SegDtype.toInt32 v) = v := by
  rcases hd with rfl | rfl | rfl | rfl | rfl | rfl <;> simp only [SegDtype.Holds] at hv <;>
    simp only [SegDtype.cast, SegDtype.toInt32] <;> norm_num at hv ⊢ <;> omega

end Imgaug.Props
