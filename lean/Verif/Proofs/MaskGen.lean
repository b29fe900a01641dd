import Mathlib.Tactic.Ring
import Mathlib.Tactic.Linarith
import Mathlib.Tactic.NormNum
import Mathlib.Tactic.Positivity
import Mathlib.Tactic.FieldSimp
import Mathlib.Tactic.SplitIfs
import Verif.Spec.MaskGen
import Verif.Proofs.Num
/-! Helper lemmas for Props/MaskGen.lean. -/
namespace Imgaug.MaskGen
open Imgaug Imgaug.Dtypes
variable {α : Type}

theorem unit_id {q : ℚ} (h0 : 0 ≤ q) (h1 : q ≤ 1) : unit q = q := by
  unfold unit
  rw [max_eq_left h0, min_eq_left h1]

theorem unit_mem (q : ℚ) : 0 ≤ unit q ∧ unit q ≤ 1 := by
  unfold unit
  exact ⟨le_min (le_max_right _ _) zero_le_one, min_le_right _ _⟩

theorem atPx_le (q : ℚ) (n : Nat) : atPx q n ≤ n := by
  unfold atPx
  omega

theorem atPx_floor {q : ℚ} (h0 : 0 ≤ q) (h1 : q ≤ 1) (n : Nat) : atPx q n = ⌊q * n⌋₊ := by
  unfold atPx pyInt
  have hn : (0 : ℚ) ≤ n := by positivity
  have hq : 0 ≤ q * n := mul_nonneg h0 hn
  rw [if_neg (by linarith)]
  have hf : 0 ≤ ⌊q * n⌋ := Int.floor_nonneg.2 hq
  have hl : ⌊q * n⌋ ≤ (n : Int) := by
    have h2 : q * n ≤ n := by nlinarith
    have h3 := Int.floor_le (q * n)
    have : (⌊q * n⌋ : ℚ) ≤ (n : ℚ) := by linarith
    exact_mod_cast this
  rw [max_eq_left hf, min_eq_left hl]
  exact Int.floor_toNat _

theorem linspace_length (a b : ℚ) (n : Nat) : (linspace a b n).length = n := by simp [linspace]

theorem linspace_get (a b : ℚ) (n i : Nat) (h : i < n) :
    (linspace a b n)[i]? = some (if n = 1 then a else a + i * ((b - a) / ((n : ℚ) - 1))) := by
  simp [linspace, h]

/-- The values before an inversion. -/
def ramp (lo hi : ℚ) (s e i : Nat) : ℚ :=
  if i < s then lo else if e ≤ i then hi else if e - s = 1 then lo else lo + ((i - s : Nat) : ℚ) * ((hi - lo) / (((e - s : Nat) : ℚ) - 1))

theorem ramp_get (lo hi : ℚ) (n s e i : Nat) (hs : s ≤ e) (he : e ≤ n) (h : i < n) :
    (List.replicate s lo ++ linspace lo hi (e - s) ++ List.replicate (n - e) hi)[i]? = some (ramp lo hi s e i) := by
  unfold ramp
  by_cases h1 : i < s
  · rw [if_pos h1, List.append_assoc, List.getElem?_append_left (by simpa using h1)]
    simp [h1]
  · rw [if_neg h1]
    by_cases h2 : e ≤ i
    · rw [if_pos h2, List.getElem?_append_right (by simp [linspace_length]; omega)]
      simp only [List.length_append, List.length_replicate, linspace_length]
      rw [List.getElem?_replicate_of_lt (by omega)]
    · rw [if_neg h2, List.getElem?_append_left (by simp [linspace_length]; omega), List.getElem?_append_right (by simp; omega)]
      simp only [List.length_replicate]
      rw [linspace_get _ _ _ _ (by omega)]

theorem gradient_get (n : Nat) (lo hi start stop : ℚ) (i : Nat) (h : i < n) :
    (gradient n lo hi start stop)[i]? = some (if atPx stop n < atPx start n then 1 - ramp (unit lo) (unit hi) (atPx stop n) (atPx start n) i
      else ramp (unit lo) (unit hi) (atPx start n) (atPx stop n) i) := by
  unfold gradient
  simp only
  have h1 := atPx_le start n
  have h2 := atPx_le stop n
  split
  · rename_i hc
    rw [min_eq_right (by omega), max_eq_left (by omega), List.getElem?_map, ramp_get _ _ _ _ _ _ (by omega) (by omega) h]
    rfl
  · rename_i hc
    rw [min_eq_left (by omega), max_eq_right (by omega), ramp_get _ _ _ _ _ _ (by omega) (by omega) h]

theorem gradient_length (n : Nat) (lo hi start stop : ℚ) : (gradient n lo hi start stop).length = n := by
  have h1 := atPx_le start n
  have h2 := atPx_le stop n
  unfold gradient
  simp only
  split <;> simp [linspace_length] <;> omega

/-- A ramp is a mixture of its ends. -/
theorem ramp_mix (lo hi : ℚ) (s e i : Nat) : ∃ t : ℚ, 0 ≤ t ∧ t ≤ 1 ∧ ramp lo hi s e i = lo + t * (hi - lo) := by
  unfold ramp
  split
  · exact ⟨0, le_refl _, zero_le_one, by ring⟩
  · split
    · exact ⟨1, zero_le_one, le_refl _, by ring⟩
    · split
      · exact ⟨0, le_refl _, zero_le_one, by ring⟩
      · rename_i h1 h2 h3
        have h4 : (1 : ℚ) < ((e - s : Nat) : ℚ) := by exact_mod_cast (by omega : 1 < e - s)
        have h5 : ((i - s : Nat) : ℚ) + 1 ≤ ((e - s : Nat) : ℚ) := by exact_mod_cast (by omega : (i - s) + 1 ≤ e - s)
        refine ⟨((i - s : Nat) : ℚ) / (((e - s : Nat) : ℚ) - 1), ?_, ?_, by ring⟩
        · exact div_nonneg (by positivity) (by linarith)
        · rw [div_le_one (by linarith)]; linarith

theorem ramp_mono (lo hi : ℚ) (h : lo ≤ hi) (s e i j : Nat) (hij : i ≤ j) : ramp lo hi s e i ≤ ramp lo hi s e j := by
  obtain ⟨t, t0, t1, ht⟩ := ramp_mix lo hi s e i
  obtain ⟨u, u0, u1, hu⟩ := ramp_mix lo hi s e j
  have hd : 0 ≤ hi - lo := by linarith
  have lo_le : lo ≤ ramp lo hi s e j := by rw [hu]; nlinarith
  have le_hi : ramp lo hi s e i ≤ hi := by rw [ht]; nlinarith
  by_cases h1 : i < s
  · have : ramp lo hi s e i = lo := by unfold ramp; rw [if_pos h1]
    rw [this]; exact lo_le
  · by_cases h2 : e ≤ j
    · have : ramp lo hi s e j = hi := by unfold ramp; rw [if_neg (by omega), if_pos h2]
      rw [this]; exact le_hi
    · unfold ramp
      have h7 : ¬ e ≤ i := by omega
      have h8 : ¬ j < s := by omega
      simp only [if_neg h1, if_neg h7, if_neg h2, if_neg h8]
      split
      · exact le_refl _
      · have h4 : (1 : ℚ) < ((e - s : Nat) : ℚ) := by exact_mod_cast (by omega : 1 < e - s)
        have h5 : ((i - s : Nat) : ℚ) ≤ ((j - s : Nat) : ℚ) := by exact_mod_cast (by omega : i - s ≤ j - s)
        have h6 : 0 ≤ (hi - lo) / (((e - s : Nat) : ℚ) - 1) := div_nonneg hd (by linarith)
        have := mul_le_mul_of_nonneg_right h5 h6
        linarith

theorem clipCells_range (k : Int) (n : Nat) (h : 0 < n) : 1 ≤ clipCells k n ∧ clipCells k n ≤ n := by
  unfold clipCells
  omega

theorem clipCells_id (k n : Nat) (h1 : 1 ≤ k) (h2 : k ≤ n) : clipCells (k : Int) n = k := by
  unfold clipCells
  omega

/-- Arithmetic of the cells of an axis. -/
theorem cell_arith (n k : Nat) (h1 : 1 ≤ k) (h2 : k ≤ n) : 1 ≤ n / k ∧ k * (n / k) ≤ n ∧ n < k * (n / k) + k := by
  have := Nat.div_add_mod n k
  have := Nat.mod_lt n (by omega : 0 < k)
  exact ⟨Nat.div_pos h2 (by omega), by omega, by omega⟩

theorem reflect_lt (n : Nat) (i : Int) (h1 : -(n : Int) < i) (h2 : i < 2 * (n : Int) - 1) : reflect n i < n := by
  unfold reflect
  split_ifs <;> omega

theorem cellOf_lt (n k i : Nat) (h1 : 1 ≤ k) (h2 : k ≤ n) (hi : i < n) : cellOf n k i < k := by
  obtain ⟨c1, c2, c3⟩ := cell_arith n k h1 h2
  unfold cellOf
  simp only
  have hk : k ≤ k * (n / k) := Nat.le_mul_of_pos_right k (by omega)
  have hr : reflect (k * (n / k)) ((i : Int) - ((n - k * (n / k)) / 2 : Nat)) < k * (n / k) := by
    apply reflect_lt <;> omega
  generalize n / k = c at *
  exact Nat.div_lt_of_lt_mul (Nat.mul_comm k c ▸ hr)

theorem cellOf_inner (n k a t : Nat) (h1 : 1 ≤ k) (h2 : k ≤ n) (ha : a < k) (ht : t < n / k) :
    (n - k * (n / k)) / 2 + a * (n / k) + t < n ∧ cellOf n k ((n - k * (n / k)) / 2 + a * (n / k) + t) = a := by
  obtain ⟨c1, c2, c3⟩ := cell_arith n k h1 h2
  have h3 : a * (n / k) + t < k * (n / k) := by
    calc a * (n / k) + t < a * (n / k) + n / k := by omega
      _ = (a + 1) * (n / k) := by ring
      _ ≤ k * (n / k) := Nat.mul_le_mul_right _ ha
  unfold cellOf
  simp only
  generalize n / k = c at *
  refine ⟨by omega, ?_⟩
  have : reflect (k * c) ((((n - k * c) / 2 + a * c + t : Nat) : Int) - ((n - k * c) / 2 : Nat)) = a * c + t := by
    unfold reflect
    rw [if_neg (by omega), if_pos (by omega)]
    omega
  rw [this]
  exact Nat.div_eq_of_lt_le (by omega) (by rw [Nat.succ_mul]; omega)

theorem cellOf_exact (n k i : Nat) (hd : k ∣ n) (hi : i < n) : cellOf n k i = i / (n / k) := by
  unfold cellOf
  simp only
  rw [Nat.mul_div_cancel' hd, Nat.sub_self]
  unfold reflect
  rw [if_neg (by omega), if_pos (by omega)]
  congr 1

theorem pyInt_le_iff (q : ℚ) (n : Nat) : max (pyInt q) 0 ≤ (n : Int) ↔ q < n + 1 := by
  unfold pyInt
  have hn : (0 : ℚ) ≤ n := by positivity
  split
  · rename_i h
    have : 0 ≤ ⌊-q⌋ := Int.floor_nonneg.2 (by linarith)
    constructor
    · intro _; linarith
    · intro _; omega
  · rename_i h
    rw [max_eq_left (Int.floor_nonneg.2 (by linarith))]
    constructor
    · intro hf
      have h1 := Int.lt_floor_add_one q
      have h2 : (⌊q⌋ : ℚ) ≤ (n : ℚ) := by exact_mod_cast hf
      linarith
    · intro hq
      have : ⌊q⌋ < (n : Int) + 1 := Int.floor_lt.2 (by push_cast; exact hq)
      omega

theorem lt_pyInt_iff (q : ℚ) (n : Nat) : (n : Int) < max (pyInt q) 0 ↔ (n : ℚ) + 1 ≤ q := by
  rw [← not_le, pyInt_le_iff, not_lt]

theorem clipPx_le (q : ℚ) (n i : Nat) (hi : i < n) : clipPx q n ≤ i ↔ q < i + 1 := by
  rw [← pyInt_le_iff]
  unfold clipPx
  omega

theorem lt_clipPx (q : ℚ) (n i : Nat) (hi : i < n) : i < clipPx q n ↔ (i : ℚ) + 1 ≤ q := by
  rw [← lt_pyInt_iff]
  unfold clipPx
  omega

theorem markBox_hit (labels : Option (List Nat)) (h w y x : Nat) (hy : y < h) (hx : x < w) (mask : Nat → Nat → ℚ) (b : Box) :
    (Wanted labels b ∧ Covers b y x → markBox labels h w mask b y x = 1) ∧
    (¬ (Wanted labels b ∧ Covers b y x) → markBox labels h w mask b y x = mask y x) := by
  have hcov : Covers b y x ↔ clipPx b.x1 w ≤ x ∧ x < clipPx b.x2 w ∧ clipPx b.y1 h ≤ y ∧ y < clipPx b.y2 h := by
    rw [clipPx_le b.x1 w x hx, lt_clipPx b.x2 w x hx, clipPx_le b.y1 h y hy, lt_clipPx b.y2 h y hy, Covers]
  rw [hcov]
  have core : ∀ wanted : Bool, (wanted = true ↔ Wanted labels b) → ∀ f : Nat → Nat → ℚ,
      f = (if wanted then (if clipPx b.x1 w < clipPx b.x2 w ∧ clipPx b.y1 h < clipPx b.y2 h then
        fun y x => if clipPx b.y1 h ≤ y ∧ y < clipPx b.y2 h ∧ clipPx b.x1 w ≤ x ∧ x < clipPx b.x2 w then 1 else mask y x else mask) else mask) →
      (Wanted labels b ∧ (clipPx b.x1 w ≤ x ∧ x < clipPx b.x2 w ∧ clipPx b.y1 h ≤ y ∧ y < clipPx b.y2 h) → f y x = 1) ∧
      (¬ (Wanted labels b ∧ (clipPx b.x1 w ≤ x ∧ x < clipPx b.x2 w ∧ clipPx b.y1 h ≤ y ∧ y < clipPx b.y2 h)) → f y x = mask y x) := by
    intro wanted hw f hf
    subst hf
    constructor
    · rintro ⟨h1, h2⟩
      rw [if_pos (hw.2 h1), if_pos (by omega), if_pos (by omega)]
    · intro hn
      by_cases hc : wanted = true
      · rw [if_pos hc]
        have : ¬ (clipPx b.x1 w ≤ x ∧ x < clipPx b.x2 w ∧ clipPx b.y1 h ≤ y ∧ y < clipPx b.y2 h) := fun hh => hn ⟨hw.1 hc, hh⟩
        split
        · exact if_neg (by omega)
        · rfl
      · rw [if_neg hc]
  unfold markBox
  refine core _ ?_ _ rfl
  unfold Wanted
  cases labels with
  | none => simp
  | some ls =>
    cases hb : b.label with
    | none => simp
    | some l => simp

theorem fold_marks (labels : Option (List Nat)) (h w y x : Nat) (hy : y < h) (hx : x < w) (bs : List Box) : ∀ mask : Nat → Nat → ℚ,
    ((∃ b ∈ bs, Wanted labels b ∧ Covers b y x) → (bs.foldl (markBox labels h w) mask) y x = 1) ∧
    ((¬ ∃ b ∈ bs, Wanted labels b ∧ Covers b y x) → (bs.foldl (markBox labels h w) mask) y x = mask y x) := by
  induction bs with
  | nil => intro mask; simp
  | cons b bs ih =>
    intro mask
    rw [List.foldl_cons]
    obtain ⟨i1, i2⟩ := ih (markBox labels h w mask b)
    obtain ⟨s1, s2⟩ := markBox_hit labels h w y x hy hx mask b
    simp only [List.exists_mem_cons_iff]
    constructor
    · intro hc
      by_cases hbs : ∃ b ∈ bs, Wanted labels b ∧ Covers b y x
      · exact i1 hbs
      · rw [i2 hbs]
        exact s1 (hc.resolve_right hbs)
    · intro hn
      rw [i2 (fun hh => hn (Or.inr hh)), s2 (fun hh => hn (Or.inl hh))]

theorem foldl_or (f : Int → Bool) (l : List Int) (b : Bool) : l.foldl (fun acc id => acc || f id) b = (b || l.any f) := by
  induction l generalizing b with
  | nil => simp
  | cons a l ih => simp [ih, Bool.or_assoc]

/-- Entries of repeated lists. -/
theorem flatMap_replicate_get (l : List ℚ) (c k : Nat) (hc : 0 < c) : (l.flatMap (fun a => List.replicate c a))[k]? = l[k / c]? := by
  induction l generalizing k with
  | nil => simp
  | cons a l ih =>
    rw [List.flatMap_cons]
    by_cases h : k < c
    · rw [List.getElem?_append_left (by simpa using h), Nat.div_eq_of_lt h]
      simp [h]
    · rw [List.getElem?_append_right (by simpa using h), List.length_replicate, ih]
      have : k / c = (k - c) / c + 1 := by
        rw [Nat.div_eq_sub_div hc (by omega)]
      rw [this, List.getElem?_cons_succ]

end Imgaug.MaskGen
