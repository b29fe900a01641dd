import Verif.Spec.Lut
import Verif.Proofs.Dtypes
/-! Lemmas for Props/Lut.lean. -/
namespace Imgaug.Lut
open Imgaug

theorem normTable_some (c : Nat) (t : Table) : (normTable c t).isSome = true ↔ t.Fits c := by
  cases t with
  | list lens t =>
    simp only [normTable, Table.Fits]
    split_ifs with h1 h2
    · simpa [h1] using h2
    · simpa [h1] using h2
    · simp [h1]
  | one n t => simp only [normTable, Table.Fits]; split_ifs with h <;> simp [h]
  | two n c' t => simp only [normTable, Table.Fits]; split_ifs with h <;> simp [h]
  | three m n c' t => simp only [normTable, Table.Fits]; split_ifs with h <;> simp [h]

theorem normTable_fn (c : Nat) (t : Table) (n : Norm) (h : normTable c t = some n) :
    (∀ v k, n.fn v k = t.entry v k) ∧ ∀ c' t', n = .chan c' t' → c' = c := by
  cases t with
  | list lens t =>
    simp only [normTable] at h
    split_ifs at h
    rw [← Option.some.inj h]
    exact ⟨fun _ _ => rfl, fun c' t' e => by cases e; rfl⟩
  | one n t =>
    simp only [normTable] at h
    split_ifs at h
    rw [← Option.some.inj h]
    exact ⟨fun _ _ => rfl, fun c' t' e => by cases e⟩
  | two n c' t =>
    simp only [normTable] at h
    split_ifs at h
    rw [← Option.some.inj h]
    exact ⟨fun _ _ => rfl, fun c' t' e => by cases e; rfl⟩
  | three m n c' t =>
    simp only [normTable] at h
    split_ifs at h
    rw [← Option.some.inj h]
    exact ⟨fun _ _ => rfl, fun c' t' e => by cases e; rfl⟩

theorem cv2Lut_eq (i : Img) (n : Norm) (h : i.channels ≤ 512) (hc : ∀ c' t', n = .chan c' t' → c' = i.channels) :
    cv2Lut i n = some { i with px := fun y x k => n.fn (i.px y x k) k } := by
  cases n with
  | one t => simp [cv2Lut, h, Norm.fn]
  | chan c t => simp [cv2Lut, h, Norm.fn, hc c t rfl]

/-- The result that is expected. -/
def expected (i : Img) (f : Nat → Nat → Nat) : Img := { i with px := fun y x k => f (i.px y x k) k }

/-- Up to 512 channels. -/
theorem step_small (rec : Img → Table → Option Img) (i : Img) (t : Table) (he : i.empty = false) (hc : i.channels ≤ 512) :
    (i.uint8 = true → t.Fits i.channels → applyStep rec i t = some (expected i (fun v k => t.entry v k))) ∧
    ((applyStep rec i t).isSome = true → i.uint8 = true ∧ t.Fits i.channels) := by
  simp only [applyStep, he, Bool.false_eq_true, if_false, if_neg (not_lt.mpr hc), gt_iff_lt]
  constructor
  · intro hu hf
    obtain ⟨n, hn⟩ := Option.isSome_iff_exists.mp ((normTable_some _ t).mpr hf)
    obtain ⟨h1, h2⟩ := normTable_fn _ t n hn
    rw [hn, Option.bind_some, if_pos hu, cv2Lut_eq i n hc h2, expected]
    simp only [h1]
  · intro h
    cases hn : normTable i.channels t with
    | none => rw [hn] at h; cases h
    | some n =>
      rw [hn, Option.bind_some] at h
      split_ifs at h with hu
      · exact ⟨hu, (normTable_some _ t).mp (by rw [hn]; rfl)⟩
      · cases h

theorem channels_flat {i : Img} (h : i.channels > 512) : i.flat = false ∧ i.channels = i.c := by
  simp only [Img.channels] at *
  cases hf : i.flat
  · simp
  · rw [hf] at h; simp at h

/-- What concatenating consecutive groups gives: group `g` has the channels from `512 g` on. -/
theorem concat_groups (i : Img) (f : Nat → Nat → Nat) : ∀ (n : Nat), 0 < n → ∀ g, (g + n - 1) * 512 < i.c → i.c ≤ (g + n) * 512 →
    ∃ r, concat ((List.range' g n).map (fun g => expected (sliceImg i (g * 512) (g * 512 + 512)) (fun v k => f v (g * 512 + k)))) = some r ∧
      r.uint8 = i.uint8 ∧ r.flat = i.flat ∧ r.h = i.h ∧ r.w = i.w ∧ r.c = i.c - g * 512 ∧
      ∀ y x k, k < r.c → r.px y x k = f (i.px y x (g * 512 + k)) (g * 512 + k) := by
  intro n hn
  induction n, hn using Nat.le_induction with
  | base =>
    intro g h1 h2
    refine ⟨_, rfl, rfl, rfl, rfl, rfl, ?_, ?_⟩
    · simp only [expected, sliceImg]; omega
    · intro y x k _
      simp only [expected, sliceImg]
  | succ n hn ih =>
    intro g h1 h2
    have h1' : (g + 1 + n - 1) * 512 < i.c := by rw [show g + 1 + n - 1 = g + (n + 1) - 1 by omega]; exact h1
    have h2' : i.c ≤ (g + 1 + n) * 512 := by rw [show g + 1 + n = g + (n + 1) by omega]; exact h2
    obtain ⟨r, e, r0, r1, r2, r3, r4, r5⟩ := ih (g + 1) h1' h2'
    have hcons : ∃ a l, (List.range' (g + 1) n).map (fun g => expected (sliceImg i (g * 512) (g * 512 + 512)) (fun v k => f v (g * 512 + k))) = a :: l := by
      cases n with
      | zero => omega
      | succ m => exact ⟨_, _, rfl⟩
    obtain ⟨a, l, hl⟩ := hcons
    have hc : (sliceImg i (g * 512) (g * 512 + 512)).c = 512 := by simp only [sliceImg]; omega
    refine ⟨{ uint8 := i.uint8, flat := i.flat, h := i.h, w := i.w, c := 512 + r.c,
              px := fun y x k => if k < 512 then f (i.px y x (g * 512 + k)) (g * 512 + k) else r.px y x (k - 512) }, ?_, rfl, rfl, rfl, rfl, ?_, ?_⟩
    · rw [List.range'_succ, List.map_cons]
      rw [hl] at e ⊢
      simp only [concat]
      rw [e, Option.bind_some, if_pos ⟨r2.symm, r3.symm⟩]
      have hc' : (expected (sliceImg i (g * 512) (g * 512 + 512)) (fun v k => f v (g * 512 + k))).c = 512 := hc
      rw [hc']
      rfl
    · simp only [r4]; omega
    · intro y x k hk
      simp only at hk ⊢
      split_ifs with hk2
      · rfl
      · rw [r5 y x (k - 512) (by omega)]
        have : (g + 1) * 512 + (k - 512) = g * 512 + k := by omega
        rw [this]

theorem mapM_some_map {α β : Type} (f : α → Option β) (g : α → β) : ∀ l : List α, (∀ a ∈ l, f a = some (g a)) → l.mapM f = some (l.map g) := by
  intro l
  induction l with
  | nil => intro _; rfl
  | cons a l ih =>
    intro h
    rw [List.mapM_cons, h a List.mem_cons_self]
    simp only [Option.bind_eq_bind, Option.bind_some, ih (fun b hb => h b (List.mem_cons_of_mem _ hb)), Option.pure_def, List.map_cons]

end Imgaug.Lut
