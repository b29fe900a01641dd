import Verif.Spec.Pad
import Verif.Proofs.Dtypes
import Verif.Proofs.Num
import Mathlib.Tactic.Linarith
import Mathlib.Algebra.Order.Floor.Ring
namespace Imgaug.Pad
open Imgaug Imgaug.Dtypes Imgaug.Size

theorem clamp_eq (d : DType) (hd : d ∈ all) (v : ℚ) : max (min v (hi d)) (lo d) = clamp d v := by
  have : ((lo d : Int) : ℚ) ≤ hi d := by exact_mod_cast lo_le_hi d hd
  unfold clamp
  grind

/-- Truncation toward zero. -/
theorem pyInt_trunc (v : ℚ) : |(pyInt v : ℚ)| ≤ |v| ∧ |v| < |(pyInt v : ℚ)| + 1 ∧ 0 ≤ (pyInt v : ℚ) * v := by
  unfold pyInt
  split
  · rename_i h
    have h1 := Int.floor_le (-v)
    have h2 := Int.lt_floor_add_one (-v)
    have h3 : (0 : ℚ) ≤ ⌊-v⌋ := by exact_mod_cast Int.floor_nonneg.mpr (by linarith)
    push_cast
    rw [abs_neg, abs_of_nonneg h3, abs_of_neg h]
    exact ⟨h1, h2, by nlinarith⟩
  · rename_i h
    have h1 := Int.floor_le v
    have h2 := Int.lt_floor_add_one v
    have h3 : (0 : ℚ) ≤ ⌊v⌋ := by exact_mod_cast Int.floor_nonneg.mpr (by linarith)
    rw [abs_of_nonneg h3, abs_of_nonneg (by linarith)]
    exact ⟨h1, h2, by nlinarith⟩

theorem zero_within (d : DType) (hd : d ∈ all) : lo d ≤ 0 ∧ 0 ≤ hi d := by
  revert hd; revert d; decide +kernel

theorem pyInt_within (d : DType) (hd : d ∈ all) (v : ℚ) : lo d ≤ pyInt (clamp d v) ∧ pyInt (clamp d v) ≤ hi d := by
  obtain ⟨h1, h2⟩ := clamp_range d hd v
  have hz := zero_within d hd
  unfold pyInt
  split
  · rename_i h
    constructor
    · have : ((-⌊-clamp d v⌋ : Int) : ℚ) ≥ lo d := by
        have := Int.floor_le (-clamp d v)
        push_cast
        linarith
      exact_mod_cast this
    · have : 0 ≤ ⌊-clamp d v⌋ := Int.floor_nonneg.mpr (by linarith)
      omega
  · exact ⟨Int.le_floor.mpr h1, by exact_mod_cast le_trans (Int.floor_le _) h2⟩

theorem value_stored (d : DType) (hd : d ∈ all) (v : ℚ) : StoredAs d v (value d v) := by
  unfold value
  rw [clamp_eq d hd]
  have h1 := pyInt_within d hd v
  have h2 := pyInt_trunc (clamp d v)
  unfold StoredAs astype
  cases hk : d.kind <;> simp only
  case b => by_cases h : clamp d v = 0 <;> simp [h]
  all_goals
    rw [wrap_id d _ h1.1 h1.2]
    exact ⟨_, rfl, h2⟩

theorem index_shows (m : Mode) (n : Nat) (hn : 1 ≤ n) (i : Int) (hm : m = .edge ∨ m = .reflect ∨ m = .symmetric) : Shows m n i (index m n i) := by
  rcases hm with rfl | rfl | rfl
  · unfold Shows index
    simp only
    omega
  · unfold Shows index
    simp only
    by_cases h1 : n = 1
    · simp [h1]
    · rw [if_neg h1]
      have hp : 0 < 2 * ((n : Int) - 1) := by omega
      have h2 := Int.emod_nonneg i (ne_of_gt hp)
      have h3 := Int.emod_lt_of_pos i hp
      have h4 := Int.emod_add_mul_ediv i (2 * ((n : Int) - 1))
      generalize i % (2 * ((n : Int) - 1)) = k at *
      generalize i / (2 * ((n : Int) - 1)) = q at *
      split
      · exact ⟨by omega, Or.inr ⟨q, Or.inl (by rw [Int.toNat_of_nonneg h2]; linarith)⟩⟩
      · refine ⟨by omega, Or.inr ⟨q + 1, Or.inr ?_⟩⟩
        rw [Int.toNat_of_nonneg (by omega), mul_add]
        linarith
  · unfold Shows index
    simp only
    have hp : 0 < 2 * (n : Int) := by omega
    have h2 := Int.emod_nonneg i (ne_of_gt hp)
    have h3 := Int.emod_lt_of_pos i hp
    have h4 := Int.emod_add_mul_ediv i (2 * (n : Int))
    generalize i % (2 * (n : Int)) = k at *
    generalize i / (2 * (n : Int)) = q at *
    split
    · exact ⟨by omega, q, Or.inl (by rw [Int.toNat_of_nonneg h2]; linarith)⟩
    · refine ⟨by omega, q + 1, Or.inr ?_⟩
      rw [Int.toNat_of_nonneg (by omega), mul_add]
      linarith

/-- Two multiples of `p` that are less than `p` apart are equal. -/
theorem mult_eq (p k l d : Int) (hp : 0 < p) (h : p * k = p * l + d) (h1 : -p < d) (h2 : d < p) : d = 0 := by
  have e : d = p * (k - l) := by rw [mul_sub]; omega
  rcases lt_trichotomy (k - l) 0 with h | h | h
  · nlinarith
  · rw [e, h, mul_zero]
  · nlinarith

theorem shows_unique (m : Mode) (n : Nat) (i : Int) (j k : Nat) (hj : Shows m n i j) (hk : Shows m n i k) : j = k := by
  cases m <;> simp only [Shows] at hj hk
  · omega
  · obtain ⟨j1, hj⟩ := hj
    obtain ⟨k1, hk⟩ := hk
    by_cases h1 : n = 1
    · omega
    · have hp : 0 < 2 * ((n : Int) - 1) := by omega
      obtain ⟨p, hj⟩ := hj.resolve_left h1
      obtain ⟨q, hk⟩ := hk.resolve_left h1
      have key := mult_eq (2 * ((n : Int) - 1)) p q
      rcases hj with hj | hj <;> rcases hk with hk | hk
      · have := key (k - j) hp (by linarith) (by omega) (by omega); omega
      · by_cases hc : (k : Int) + j < 2 * ((n : Int) - 1)
        · have := key (-k - j) hp (by linarith) (by omega) (by omega); omega
        · omega
      · by_cases hc : (k : Int) + j < 2 * ((n : Int) - 1)
        · have := key (k + j) hp (by linarith) (by omega) (by omega); omega
        · omega
      · have := key (j - k) hp (by linarith) (by omega) (by omega); omega
  · obtain ⟨j1, p, hj⟩ := hj
    obtain ⟨k1, q, hk⟩ := hk
    have hp : 0 < 2 * (n : Int) := by omega
    have key := mult_eq (2 * (n : Int)) p q
    rcases hj with hj | hj <;> rcases hk with hk | hk
    · have := key (k - j) hp (by linarith) (by omega) (by omega); omega
    · have := key (-1 - k - j) hp (by linarith) (by omega) (by omega); omega
    · have := key (k + j + 1) hp (by linarith) (by omega) (by omega); omega
    · have := key (j - k) hp (by linarith) (by omega) (by omega); omega

theorem index_lt (m : Mode) (n : Nat) (hn : 1 ≤ n) (i : Int) (hm : m = .edge ∨ m = .reflect ∨ m = .symmetric) : index m n i < n := by
  have := index_shows m n hn i hm
  rcases hm with rfl | rfl | rfl
  · simp only [Shows] at this; omega
  · exact this.1
  · exact this.1

/-- Inside the frame is the array. -/
theorem frame_inside (a : Draw.Img) (t : Trbl) (b : Nat → Nat → Nat → ℚ) (y x ch : Nat) (hy : y < a.h) (hx : x < a.w) :
    (frame a t b).px (t.top.toNat + y) (t.left.toNat + x) ch = a.px y x ch := by
  simp only [frame]
  rw [if_pos ⟨by omega, by omega, by omega, by omega⟩]
  congr 1 <;> omega

theorem frame_outside (a : Draw.Img) (t : Trbl) (hn : NonNeg t) (b : Nat → Nat → Nat → ℚ) (y x ch : Nat) (ho : OnBorder a t y x) :
    (frame a t b).px y x ch = b y x ch := by
  obtain ⟨h1, h2, h3, h4⟩ := hn
  simp only [frame]
  rw [if_neg]
  simp only [OnBorder] at ho
  omega

theorem frame_middle (a r : Draw.Img) (t : Trbl) (hn : NonNeg t) (b : Nat → Nat → Nat → ℚ) (h1 : r.dt = a.dt) (h2 : r.c = a.c) (h3 : r.flat = a.flat)
    (h4 : r.h = (frame a t b).h) (h5 : r.w = (frame a t b).w)
    (h6 : ∀ y x ch, t.top.toNat ≤ y → y < t.top.toNat + a.h → t.left.toNat ≤ x → x < t.left.toNat + a.w → ch < a.c →
      r.px y x ch = (frame a t b).px y x ch) : InMiddle a r t := by
  obtain ⟨n1, n2, n3, n4⟩ := hn
  refine ⟨h1, h2, h3, ?_, ?_, ?_⟩
  · rw [h4]; simp only [frame]; push_cast; rw [Int.toNat_of_nonneg n1, Int.toNat_of_nonneg n3]; ring
  · rw [h5]; simp only [frame]; push_cast; rw [Int.toNat_of_nonneg n2, Int.toNat_of_nonneg n4]; ring
  · intro y x ch hy hx hc
    rw [h6 _ _ _ (by omega) (by omega) (by omega) (by omega) hc, frame_inside a t b y x ch hy hx]

/-- What the chunks of four channels give. -/
theorem chunks_px {m : Mode} {l : List ℚ} {a : Draw.Img} {t : Trbl} {parts : List Draw.Img}
    (h : (List.range ((a.c + 3) / 4)).mapM (fun (k : Nat) => copyMakeBorder m ((l.drop (4 * k)).take 4) (four a (4 * k)) t) = some parts)
    (y x ch : Nat) (hc : ch < a.c) :
    ∃ r, parts[ch / 4]? = some r ∧ r.px y x (ch % 4) = (frame a t (border m (fun _ _ c => l.getD c 0) a t)).px y x ch := by
  obtain ⟨r, e1, e2⟩ := mapM_nth _ _ _ h (ch / 4) (ch / 4) (by rw [List.getElem?_range (by omega)])
  refine ⟨r, e1, ?_⟩
  simp only [copyMakeBorder] at e2
  rw [if_neg (by simp)] at e2
  injection e2 with e2
  have hch : 4 * (ch / 4) + ch % 4 = ch := Nat.div_add_mod ch 4
  rw [← e2]
  simp only [frame, border, four, hch]
  have hg : ((l.drop (4 * (ch / 4))).take 4).getD (ch % 4) 0 = l.getD ch 0 := by
    simp only [List.getD_eq_getElem?_getD]
    rw [List.getElem?_take_of_lt (by omega), List.getElem?_drop, hch]
  rw [hg]

theorem copy_frame {m : Mode} {l : List ℚ} {a r : Draw.Img} {t : Trbl} (h : copyMakeBorder m l a t = some r) : ∃ b, r = frame a t b := by
  unfold copyMakeBorder at h
  split at h
  · simp at h
  · injection h with h
    exact ⟨_, h.symm⟩

theorem sum_fours (c : Nat) : ∀ n : Nat, ((List.range n).map (fun k => min 4 (c - 4 * k))).sum = min c (4 * n) := by
  intro n
  induction n with
  | zero => simp
  | succ n ih => rw [List.range_succ, List.map_append, List.sum_append, ih]; simp; omega

/-- The chunks have all channels. -/
theorem chunks_c {m : Mode} {l : List ℚ} {a : Draw.Img} {t : Trbl} {parts : List Draw.Img}
    (h : (List.range ((a.c + 3) / 4)).mapM (fun (k : Nat) => copyMakeBorder m ((l.drop (4 * k)).take 4) (four a (4 * k)) t) = some parts) :
    (parts.map (fun r => r.c)).sum = a.c := by
  have e : parts.map (fun r => r.c) = (List.range ((a.c + 3) / 4)).map (fun k => min 4 (a.c - 4 * k)) := by
    apply List.ext_getElem?
    intro i
    rw [List.getElem?_map, List.getElem?_map]
    by_cases hi : i < (a.c + 3) / 4
    · obtain ⟨r, e1, e2⟩ := mapM_nth _ _ _ h i i (by rw [List.getElem?_range hi])
      simp only [copyMakeBorder] at e2
      rw [if_neg (by simp)] at e2
      injection e2 with e2
      rw [e1, List.getElem?_range hi, ← e2]
      rfl
    · have hl := mapM_len _ _ _ h
      rw [List.length_range] at hl
      rw [List.getElem?_eq_none_iff.2 (by omega), List.getElem?_eq_none_iff.2 (by rw [List.length_range]; omega)]
      rfl
  rw [e, sum_fours]
  omega

theorem chunks_middle {m : Mode} {l : List ℚ} {a r : Draw.Img} {t : Trbl} {parts : List Draw.Img} (hn : NonNeg t)
    (h : (List.range ((a.c + 3) / 4)).mapM (fun (k : Nat) => copyMakeBorder m ((l.drop (4 * k)).take 4) (four a (4 * k)) t) = some parts)
    (h1 : r.dt = a.dt) (h2 : r.c = a.c) (h3 : r.flat = a.flat) (h4 : r.h = (frame a t (fun _ _ _ => 0)).h) (h5 : r.w = (frame a t (fun _ _ _ => 0)).w)
    (h6 : ∀ y x ch, r.px y x ch = match parts[ch / 4]? with
        | some r => r.px y x (ch % 4)
        | none => 0) : InMiddle a r t := by
  refine frame_middle a r t hn (border m (fun _ _ c => l.getD c 0) a t) h1 h2 h3 h4 h5 ?_
  intro y x ch _ _ _ _ hc
  obtain ⟨r, e1, e2⟩ := chunks_px h y x ch hc
  rw [h6]
  simp only [e1, e2]

theorem padCv_middle {m : Mode} {cval : Cval} {a r : Draw.Img} {t : Trbl} (hn : NonNeg t) (h : padCv m cval a t = some r) : InMiddle a r t := by
  unfold padCv at h
  split at h
  · obtain ⟨b, rfl⟩ := copy_frame h
    · exact frame_middle a _ t hn _ rfl rfl rfl rfl rfl (fun _ _ _ _ _ _ _ _ => rfl)
  · simp only [Option.map_eq_some_iff] at h
    obtain ⟨parts, h1, h2⟩ := h
    subst h2
    exact chunks_middle hn h1 rfl (chunks_c h1) rfl rfl rfl (fun _ _ _ => rfl)

theorem padNp_middle {np : Np} {m : Mode} {cval : Cval} {a r : Draw.Img} {t : Trbl} (hn : NonNeg t) (h : padNp np m cval a t = some r) :
    InMiddle a r t := by
  have key : ∃ b, r = frame a t b := by
    unfold padNp at h
    split at h
    · split at h
      · exact ⟨_, by injection h with h; exact h.symm⟩
      · split at h
        · simp only [Option.map_eq_some_iff] at h
          obtain ⟨b, _, h⟩ := h
          exact ⟨b, h.symm⟩
        · split at h
          · simp at h
          · exact ⟨_, by injection h with h; exact h.symm⟩
    · split at h
      · exact ⟨_, by injection h with h; exact h.symm⟩
      · simp only [Option.map_eq_some_iff] at h
        obtain ⟨b, _, h⟩ := h
        exact ⟨b, h.symm⟩
  obtain ⟨b, rfl⟩ := key
  exact frame_middle a _ t hn b rfl rfl rfl rfl rfl (fun _ _ _ _ _ _ _ _ => rfl)

theorem pad_middle {np : Np} {mode : Mode} {cval : Cval} {a r : Draw.Img} {t : Trbl} (h : pad np a t mode cval = some r) :
    NonNeg t ∧ InMiddle a r t := by
  unfold pad at h
  split at h
  · rename_i hn
    refine ⟨hn, ?_⟩
    split at h
    · extract_lets m at h
      split at h
      · exact padCv_middle hn h
      · exact padNp_middle hn h
    · rename_i hz
      injection h with h
      subst h
      obtain ⟨h1, h2, h3, h4⟩ := hn
      have e1 : t.top = 0 := by omega
      have e2 : t.right = 0 := by omega
      have e3 : t.bottom = 0 := by omega
      have e4 : t.left = 0 := by omega
      refine ⟨rfl, rfl, rfl, by omega, by omega, ?_⟩
      intro y x ch _ _ _
      simp [e1, e4]
  · simp at h

/-- The mode that is used. -/
def eff (a : Draw.Img) (m : Mode) : Mode := if a.h = 0 ∨ a.w = 0 then .constant else m

/-- The border as documented. -/
def documented (a : Draw.Img) (t : Trbl) (m : Mode) (cval : Cval) : Nat → Nat → Nat → ℚ :=
  border (eff a m) (fun _ _ ch => value a.dt (valueFor cval ch)) a t

theorem getD_map_value (d : DType) (l : List ℚ) (ch : Nat) (h : ch < l.length) : (l.map (value d)).getD ch 0 = value d (l.getD ch 0) := by
  simp [List.getD_eq_getElem?_getD, h]

theorem border_congr (m : Mode) (v w : Nat → Nat → Nat → ℚ) (a : Draw.Img) (t : Trbl) (y x ch : Nat) (h : v y x ch = w y x ch) :
    border m v a t y x ch = border m w a t y x ch := by
  simp only [border, h]

theorem frame_congr (a : Draw.Img) (t : Trbl) (b b' : Nat → Nat → Nat → ℚ) (y x ch : Nat) (h : b y x ch = b' y x ch) :
    (frame a t b).px y x ch = (frame a t b').px y x ch := by
  simp only [frame, h]

theorem padCv_eq (a : Draw.Img) (t : Trbl) (m : Mode) (cval : Cval) (hw : WellFormed a) (hc : Matches cval a.c) :
    ∃ r, padCv m cval a t = some r ∧ ∀ y x ch, ch < a.c →
      r.px y x ch = (frame a t (border m (fun _ _ ch => value a.dt (valueFor cval ch)) a t)).px y x ch := by
  unfold padCv
  by_cases h : a.flat = true ∨ a.c ≤ 4
  · rw [if_pos h]
    have hlen : a.c ≤ 4 := by rcases h with h | h; (· rw [hw h]; omega); exact h
    cases cval with
    | one v =>
      simp only [copyMakeBorder]
      rw [if_neg (by split <;> simp <;> omega)]
      refine ⟨_, rfl, ?_⟩
      intro y x ch hch
      refine frame_congr _ _ _ _ _ _ _ (border_congr _ _ _ _ _ _ _ _ ?_)
      simp only [valueFor]
      split
      · rename_i hf
        have := hw hf
        have : ch = 0 := by omega
        simp [this]
      · simp [List.getD_eq_getElem?_getD, hch]
    | many l =>
      obtain ⟨_, h2⟩ := hc
      simp only [copyMakeBorder]
      rw [if_neg (by simp; omega)]
      refine ⟨_, rfl, ?_⟩
      intro y x ch hch
      refine frame_congr _ _ _ _ _ _ _ (border_congr _ _ _ _ _ _ _ _ ?_)
      exact getD_map_value _ _ _ (by omega)
  · rw [if_neg h]
    extract_lets l
    have hm : (List.range ((a.c + 3) / 4)).mapM (fun (k : Nat) => copyMakeBorder m ((l.drop (4 * k)).take 4) (four a (4 * k)) t) =
        some ((List.range ((a.c + 3) / 4)).map (fun (k : Nat) =>
          frame (four a (4 * k)) t (border m (fun _ _ ch => ((l.drop (4 * k)).take 4).getD ch 0) (four a (4 * k)) t))) := by
      apply mapM_some
      intro k _
      simp only [copyMakeBorder]
      rw [if_neg (by simp)]
    rw [hm]
    refine ⟨_, rfl, ?_⟩
    intro y x ch hch
    obtain ⟨r, e1, e2⟩ := chunks_px hm y x ch hch
    simp only [e1, e2]
    refine frame_congr _ _ _ _ _ _ _ (border_congr _ _ _ _ _ _ _ _ ?_)
    cases cval with
    | one v => simp [l, valueFor, List.getD_eq_getElem?_getD, hch]
    | many l' => exact getD_map_value _ _ _ (by have := hc.2; omega)

theorem padNp_eq (np : Np) (a : Draw.Img) (t : Trbl) (m : Mode) (cval : Cval) (hm : m ∈ cv2Modes) (hw : WellFormed a) (hc : Matches cval a.c) :
    ∃ r, padNp np m cval a t = some r ∧ ∀ y x ch, ch < a.c →
      r.px y x ch = (frame a t (border m (fun _ _ ch => value a.dt (valueFor cval ch)) a t)).px y x ch := by
  unfold padNp
  by_cases h : m = .constant
  · rw [if_pos h]
    subst h
    cases cval with
    | one v =>
      refine ⟨_, rfl, ?_⟩
      intro y x ch hch
      exact frame_congr _ _ _ _ _ _ _ (by simp [border, valueFor])
    | many l =>
      obtain ⟨h1, h2⟩ := hc
      simp only
      by_cases hf : a.flat = true
      · rw [if_pos hf]
        have h3 := hw hf
        obtain ⟨v, rfl⟩ := List.length_eq_one_iff.mp (h2.trans h3)
        refine ⟨_, rfl, ?_⟩
        intro y x ch hch
        have : ch = 0 := by omega
        exact frame_congr _ _ _ _ _ _ _ (by simp [border, valueFor, this])
      · rw [if_neg hf, if_neg (by omega)]
        refine ⟨_, rfl, ?_⟩
        intro y x ch hch
        refine frame_congr _ _ _ _ _ _ _ ?_
        simp only [border, if_true, valueFor]
        exact getD_map_value _ _ _ (by omega)
  · rw [if_neg h, if_pos hm]
    refine ⟨_, rfl, ?_⟩
    intro y x ch hch
    exact frame_congr _ _ _ _ _ _ _ (by simp [border, h])

theorem pad_eq (np : Np) (a : Draw.Img) (t : Trbl) (m : Mode) (cval : Cval) (hn : NonNeg t) (hm : m ∈ cv2Modes) (hw : WellFormed a)
    (hc : Matches cval a.c) :
    ∃ r, pad np a t m cval = some r ∧ ∀ y x ch, y < r.h → x < r.w → ch < a.c → r.px y x ch = (frame a t (documented a t m cval)).px y x ch := by
  unfold pad
  rw [if_pos (show 0 ≤ t.top ∧ 0 ≤ t.right ∧ 0 ≤ t.bottom ∧ 0 ≤ t.left from hn)]
  by_cases hz : t.top > 0 ∨ t.right > 0 ∨ t.bottom > 0 ∨ t.left > 0
  · rw [if_pos hz]
    extract_lets m'
    have hm' : m' ∈ cv2Modes := by
      simp only [m']
      split
      · simp [cv2Modes]
      · exact hm
    have he : ∀ ch, ch < a.c → m' = eff a m := by
      intro ch hch
      simp only [m', eff]
      have : ¬ (a.flat = false ∧ a.c = 0) := by omega
      simp [this]
    have key : ∀ r : Draw.Img, (∀ y x ch, ch < a.c →
        r.px y x ch = (frame a t (border m' (fun _ _ ch => value a.dt (valueFor cval ch)) a t)).px y x ch) →
        ∀ y x ch, y < r.h → x < r.w → ch < a.c → r.px y x ch = (frame a t (documented a t m cval)).px y x ch := by
      intro r h y x ch _ _ hch
      rw [h y x ch hch, he ch hch]
      rfl
    split
    · obtain ⟨r, h1, h2⟩ := padCv_eq a t m' cval hw hc
      exact ⟨r, h1, key r h2⟩
    · obtain ⟨r, h1, h2⟩ := padNp_eq np a t m' cval hm' hw hc
      exact ⟨r, h1, key r h2⟩
  · rw [if_neg hz]
    refine ⟨_, rfl, ?_⟩
    obtain ⟨h1, h2, h3, h4⟩ := hn
    have e1 : t.top = 0 := by omega
    have e4 : t.left = 0 := by omega
    intro y x ch hy hx _
    have := frame_inside a t (documented a t m cval) y x ch hy hx
    simp only [e1, e4, Int.toNat_zero, zero_add] at this
    exact this.symm

theorem channel_wellFormed (a : Draw.Img) (ch : Nat) : WellFormed (channel a ch) := fun _ => rfl

theorem channel_frame (a : Draw.Img) (t : Trbl) (m : Mode) (cval : Cval) (y x ch : Nat) :
    (frame (channel a ch) t (documented (channel a ch) t m (.one (valueFor cval ch)))).px y x 0 = (frame a t (documented a t m cval)).px y x ch := by
  simp only [frame, documented, border, channel, eff, valueFor]
  rfl

/-- All pixels of an array padded with its edges. -/
theorem edge_px (a : Draw.Img) (t : Trbl) (hn : NonNeg t) (cval : Cval) (hh : 1 ≤ a.h) (hw : 1 ≤ a.w) (y x ch : Nat) :
    (frame a t (documented a t .edge cval)).px y x ch = a.px (index .edge a.h ((y : Int) - t.top)) (index .edge a.w ((x : Int) - t.left)) ch := by
  obtain ⟨h1, h2, h3, h4⟩ := hn
  simp only [frame]
  split
  · congr 1 <;> simp only [index] <;> omega
  · simp only [documented, border, eff]
    have : ¬ (a.h = 0 ∨ a.w = 0) := by omega
    simp [this]

/-- The pixels of an array padded with a color. -/
theorem const_px (a : Draw.Img) (t : Trbl) (m : Mode) (cval : Cval) (hm : eff a m = .constant) (y x ch : Nat) :
    (frame a t (documented a t m cval)).px y x ch =
      if t.top.toNat ≤ y ∧ y < t.top.toNat + a.h ∧ t.left.toNat ≤ x ∧ x < t.left.toNat + a.w then a.px (y - t.top.toNat) (x - t.left.toNat) ch
      else value a.dt (valueFor cval ch) := by
  simp only [frame, documented, border, hm, if_true]

theorem twice_px (a r : Draw.Img) (t s : Trbl) (m : Mode) (cval : Cval) (hm : m = .constant ∨ m = .edge) (ht : NonNeg t) (hs : NonNeg s)
    (hr : InMiddle a r t)
    (hp : ∀ y x ch, y < r.h → x < r.w → ch < a.c → r.px y x ch = (frame a t (documented a t m cval)).px y x ch)
    (y x ch : Nat) (hy : (y : Int) < s.top + r.h + s.bottom) (hx : (x : Int) < s.left + r.w + s.right) (hc : ch < a.c) :
    (frame r s (documented r s m cval)).px y x ch = (frame a (both t s) (documented a (both t s) m cval)).px y x ch := by
  obtain ⟨d1, d2, d3, d4, d5, d6⟩ := hr
  obtain ⟨t1, t2, t3, t4⟩ := ht
  obtain ⟨s1, s2, s3, s4⟩ := hs
  have b1 : (both t s).top = t.top + s.top := rfl
  have b2 : (both t s).left = t.left + s.left := rfl
  by_cases he : eff a m = .constant
  · rw [const_px a (both t s) m cval he]
    by_cases hre : eff r m = .constant
    · rw [const_px r s m cval hre]
      split
      · rw [hp _ _ _ (by omega) (by omega) hc, const_px a t m cval he]
        split <;> split
        · congr 1 <;> omega
        · exfalso; omega
        · exfalso; omega
        · rfl
      · split
        · exfalso; omega
        · rw [d1]
    · have hme : m = .edge := by
        rcases hm with h | h
        · exfalso; apply hre; simp [eff, h]
        · exact h
      subst hme
      have hne : ¬ (r.h = 0 ∨ r.w = 0) := fun h => hre (by simp [eff, h])
      have hz : a.h = 0 ∨ a.w = 0 := by
        by_contra hcon
        simp [eff, hcon] at he
      rw [edge_px r s ⟨s1, s2, s3, s4⟩ cval (by omega) (by omega)]
      rw [hp _ _ _ (index_lt _ _ (by omega) _ (Or.inl rfl)) (index_lt _ _ (by omega) _ (Or.inl rfl)) hc, const_px a t .edge cval he]
      split <;> split
      · exfalso; omega
      · exfalso; omega
      · exfalso; omega
      · rfl
  · have hme : m = .edge := by
      rcases hm with h | h
      · exfalso; apply he; simp [eff, h]
      · exact h
    subst hme
    have hne : ¬ (a.h = 0 ∨ a.w = 0) := fun h => he (by simp [eff, h])
    rw [edge_px r s ⟨s1, s2, s3, s4⟩ cval (by omega) (by omega),
      edge_px a (both t s) ⟨by simp only [both]; omega, by simp only [both]; omega, by simp only [both]; omega, by simp only [both]; omega⟩ cval
        (by omega) (by omega),
      hp _ _ _ (index_lt _ _ (by omega) _ (Or.inl rfl)) (index_lt _ _ (by omega) _ (Or.inl rfl)) hc,
      edge_px a t ⟨t1, t2, t3, t4⟩ cval (by omega) (by omega)]
    congr 1 <;> simp only [index, both] <;> omega

end Imgaug.Pad
