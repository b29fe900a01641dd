import Verif.Spec.Coords
import Verif.Spec.Boxes
import Verif.Props.Coords1
/-! Helper lemmas for Props/Polygons.lean. -/
namespace Imgaug.Props
open Imgaug Imgaug.Spec

theorem ptClose_self (p : Pt) : ptClose p p = true := by
  unfold ptClose npClose
  simp
  constructor <;> positivity

theorem init_of_not_close (e : List Pt) (l : Option String)
    (h : ∀ p q, e.head? = some p → e.getLast? = some q → 2 ≤ e.length → ptClose p q = false) :
    Polygon.init e l = ⟨e, l⟩ := by
  unfold Polygon.init
  split
  · rename_i p q hp hq
    by_cases h2 : 2 ≤ e.length
    · simp [h p q hp hq h2]
    · rw [if_neg]; simp; intro h; omega
  · rfl

theorem rotate_get (l : List Pt) (k i : Nat) (hk : k < l.length) (hi : i < l.length) :
    (l.drop k ++ l.take k)[i]? = l[(k + i) % l.length]? := by
  by_cases h : k + i < l.length
  · rw [List.getElem?_append_left (by simp; omega), List.getElem?_drop, Nat.mod_eq_of_lt h]
  · have e : (k + i) % l.length = k + i - l.length := by
      rw [Nat.mod_eq_sub_mod (by omega), Nat.mod_eq_of_lt (by omega)]
    rw [List.getElem?_append_right (by simp; omega), List.length_drop, e,
      show i - (l.length - k) = k + i - l.length by omega, List.getElem?_take_of_lt (by omega)]

theorem change_first_eq (p : Polygon) (k : Nat) (hk : k < p.exterior.length) (hc : ¬ ClosesAt p k) :
    p.changeFirstPointByIndex k = some ⟨p.exterior.drop k ++ p.exterior.take k, p.label⟩ := by
  have hrot : Polygon.init (p.exterior.drop k ++ p.exterior.take k) p.label =
      ⟨p.exterior.drop k ++ p.exterior.take k, p.label⟩ := by
    apply init_of_not_close
    intro a b ha hb h2
    have hl : (p.exterior.drop k ++ p.exterior.take k).length = p.exterior.length := by simp; omega
    rw [hl] at h2
    by_contra hne
    apply hc
    refine ⟨h2, a, b, ?_, ?_, by simpa using hne⟩
    · rw [List.head?_eq_getElem?, rotate_get _ _ _ hk (by omega)] at ha
      rwa [Nat.add_zero, Nat.mod_eq_of_lt hk] at ha
    · rw [List.getLast?_eq_getElem?, hl, rotate_get _ _ _ hk (by omega)] at hb
      rwa [← Nat.add_sub_assoc (by omega)] at hb
  unfold Polygon.changeFirstPointByIndex
  rw [if_pos ⟨by omega, by exact_mod_cast hk⟩]
  by_cases h0 : k = 0
  · subst h0
    simp only [List.drop_zero, List.take_zero, List.append_nil] at hrot ⊢
    simp [Polygon.deepcopy, hrot]
  · rw [if_neg (by omega)]
    simp [Polygon.deepcopy, hrot]

end Imgaug.Props
