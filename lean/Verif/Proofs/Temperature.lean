import Verif.Spec.Temperature
import Verif.Proofs.Color
import Verif.Proofs.Num
/-! Lemmas on colour temperatures. -/
namespace Imgaug.Temperature
open Imgaug Imgaug.Dtypes Imgaug.Color Imgaug.Props

theorem mapM_exists {α β : Type} (f : α → Option β) (l : List α) (h : ∀ a ∈ l, (f a).isSome = true) : ∃ r, l.mapM f = some r := by
  induction l with
  | nil => exact ⟨[], rfl⟩
  | cons a t ih =>
    obtain ⟨r, hr⟩ := ih (fun x hx => h x (List.mem_cons_of_mem a hx))
    obtain ⟨b, hb⟩ := Option.isSome_iff_exists.1 (h a List.mem_cons_self)
    exact ⟨b :: r, by simp [List.mapM_cons, hb, hr]⟩

/-- Linear interpolation in a sequence. -/
def along (a : Nat → ℚ) (x : ℚ) : ℚ := a ⌊x⌋.toNat + (x - ⌊x⌋) * (a ⌈x⌉.toNat - a ⌊x⌋.toNat)

theorem lerp_along (c : Nat) (x : ℚ) : lerp c x = along (cell c) x := rfl

theorem along_seg (a : Nat → ℚ) (i : Nat) (t : ℚ) (h0 : 0 ≤ t) (h1 : t ≤ 1) : along a (i + t) = a i + t * (a (i + 1) - a i) := by
  unfold along
  rcases eq_or_lt_of_le h0 with h | h
  · subst h; simp
  · rcases eq_or_lt_of_le h1 with h' | h'
    · subst h'
      have e1 : ⌊(i : ℚ) + 1⌋ = ((i + 1 : Nat) : Int) := by rw [Int.floor_add_one, Int.floor_natCast]; push_cast; rfl
      have e2 : ⌈(i : ℚ) + 1⌉ = ((i + 1 : Nat) : Int) := by rw [Int.ceil_add_one, Int.ceil_natCast]; push_cast; rfl
      rw [e1, e2]
      simp
    · have e1 : ⌊(i : ℚ) + t⌋ = ((i : Nat) : Int) := by
        rw [Int.floor_eq_iff]; push_cast; constructor <;> linarith
      have e2 : ⌈(i : ℚ) + t⌉ = ((i + 1 : Nat) : Int) := by
        rw [Int.ceil_eq_iff]; push_cast; constructor <;> linarith
      rw [e1, e2]
      simp

theorem exists_seg (lo hi : Nat) (hlt : lo < hi) (x : ℚ) (h0 : (lo : ℚ) ≤ x) (h1 : x ≤ hi) :
    ∃ (i : Nat) (t : ℚ), lo ≤ i ∧ i + 1 ≤ hi ∧ 0 ≤ t ∧ t ≤ 1 ∧ x = i + t := by
  rcases eq_or_lt_of_le h1 with h | h
  · subst h
    refine ⟨hi - 1, 1, by omega, by omega, by norm_num, le_refl _, ?_⟩
    rw [Nat.cast_sub (by omega)]; push_cast; ring
  · have hf : (lo : Int) ≤ ⌊x⌋ := Int.le_floor.2 (by exact_mod_cast h0)
    have hg : ⌊x⌋ < (hi : Int) := Int.floor_lt.2 (by exact_mod_cast h)
    have hc : ((⌊x⌋.toNat : Nat) : ℚ) = (⌊x⌋ : ℚ) := by
      have : ((⌊x⌋.toNat : Nat) : Int) = ⌊x⌋ := Int.toNat_of_nonneg (by omega)
      exact_mod_cast this
    refine ⟨⌊x⌋.toNat, x - ⌊x⌋, by omega, by omega, ?_, ?_, ?_⟩
    · have := Int.floor_le x; linarith
    · have := Int.lt_floor_add_one x; linarith
    · rw [hc]; ring

theorem steps_mono (a : Nat → ℚ) (lo hi : Nat) (h : ∀ i, lo ≤ i → i < hi → a i ≤ a (i + 1)) (i j : Nat) (hi' : lo ≤ i) (hij : i ≤ j)
    (hj : j ≤ hi) : a i ≤ a j := by
  induction j, hij using Nat.le_induction with
  | base => exact le_refl _
  | succ j hij ih => exact le_trans (ih (by omega)) (h j (by omega) (by omega))

theorem along_mono (a : Nat → ℚ) (lo hi : Nat) (hlt : lo < hi) (h : ∀ i, lo ≤ i → i < hi → a i ≤ a (i + 1)) (x y : ℚ) (h0 : (lo : ℚ) ≤ x)
    (hxy : x ≤ y) (h1 : y ≤ hi) : along a x ≤ along a y := by
  obtain ⟨i, t, a1, a2, a3, a4, rfl⟩ := exists_seg lo hi hlt x h0 (le_trans hxy h1)
  obtain ⟨j, s, b1, b2, b3, b4, rfl⟩ := exists_seg lo hi hlt y (le_trans h0 hxy) h1
  rw [along_seg a i t a3 a4, along_seg a j s b3 b4]
  have e1 := h i a1 (by omega)
  have e2 := h j b1 (by omega)
  rcases Nat.lt_trichotomy i j with hij | hij | hij
  · have e3 := steps_mono a lo hi h (i + 1) j (by omega) hij (by omega)
    nlinarith
  · subst hij
    have : t ≤ s := by linarith
    nlinarith
  · have hq : ((j : ℚ) + 1) ≤ i := by exact_mod_cast hij
    have ht : t = 0 := by linarith
    have hs : s = 1 := by linarith
    have hji : i = j + 1 := by
      have : (i : ℚ) = j + 1 := by linarith
      exact_mod_cast this
    subst hji ht hs
    linarith

theorem along_neg (a : Nat → ℚ) (x : ℚ) : along (fun i => -a i) x = -along a x := by unfold along; ring

theorem along_anti (a : Nat → ℚ) (lo hi : Nat) (hlt : lo < hi) (h : ∀ i, lo ≤ i → i < hi → a (i + 1) ≤ a i) (x y : ℚ) (h0 : (lo : ℚ) ≤ x)
    (hxy : x ≤ y) (h1 : y ≤ hi) : along a y ≤ along a x := by
  have := along_mono (fun i => -a i) lo hi hlt (fun i p q => neg_le_neg (h i p q)) x y h0 hxy h1
  rw [along_neg, along_neg] at this
  linarith

theorem along_le (a b : Nat → ℚ) (lo hi : Nat) (hlt : lo < hi) (h : ∀ i, lo ≤ i → i ≤ hi → a i ≤ b i) (x : ℚ) (h0 : (lo : ℚ) ≤ x)
    (h1 : x ≤ hi) : along a x ≤ along b x := by
  obtain ⟨i, t, a1, a2, a3, a4, rfl⟩ := exists_seg lo hi hlt x h0 h1
  rw [along_seg a i t a3 a4, along_seg b i t a3 a4]
  have e1 := h i a1 (by omega)
  have e2 := h (i + 1) (by omega) a2
  nlinarith

theorem along_const (q : ℚ) (x : ℚ) : along (fun _ => q) x = q := by unfold along; ring

theorem cell_le (c d i j : Nat) (h : Px.get (table.getD i (0, 0, 0)) c ≤ Px.get (table.getD j (0, 0, 0)) d) : cell c i ≤ cell d j := by
  unfold cell
  have : ((Px.get (table.getD i (0, 0, 0)) c : Nat) : ℚ) ≤ (Px.get (table.getD j (0, 0, 0)) d : ℚ) := by exact_mod_cast h
  linarith

theorem table_length : table.length = 391 := by decide +kernel
theorem red_steps : ∀ i < 390, Px.get (table.getD (i + 1) (0, 0, 0)) 0 ≤ Px.get (table.getD i (0, 0, 0)) 0 := by decide +kernel
theorem blue_steps : ∀ i < 390, Px.get (table.getD i (0, 0, 0)) 2 ≤ Px.get (table.getD (i + 1) (0, 0, 0)) 2 := by decide +kernel
theorem green_up : ∀ i < 55, Px.get (table.getD i (0, 0, 0)) 1 ≤ Px.get (table.getD (i + 1) (0, 0, 0)) 1 := by decide +kernel
theorem green_down : ∀ i < 390, 56 ≤ i → Px.get (table.getD (i + 1) (0, 0, 0)) 1 ≤ Px.get (table.getD i (0, 0, 0)) 1 := by decide +kernel
theorem table_max : ∀ i < 391, (table.getD i (0, 0, 0)).1 ≤ 255 ∧ (table.getD i (0, 0, 0)).2.1 ≤ 249 ∧ (table.getD i (0, 0, 0)).2.2 ≤ 255 := by
  decide +kernel
theorem warm_rows : ∀ i < 391, i ≤ 52 → Px.get (table.getD i (0, 0, 0)) 1 ≤ Px.get (table.getD i (0, 0, 0)) 0 ∧
    Px.get (table.getD i (0, 0, 0)) 2 ≤ Px.get (table.getD i (0, 0, 0)) 1 := by decide +kernel
theorem cold_rows : ∀ i < 391, 62 ≤ i → Px.get (table.getD i (0, 0, 0)) 0 ≤ Px.get (table.getD i (0, 0, 0)) 1 ∧
    Px.get (table.getD i (0, 0, 0)) 1 ≤ Px.get (table.getD i (0, 0, 0)) 2 := by decide +kernel

/-- The position in the table. -/
def pos (k : ℚ) : ℚ := min (max k 1000) 40000 / 100 - 10

theorem multiplier_along (k : ℚ) (c : Nat) : multiplier k c = along (cell c) (pos k) := rfl

theorem pos_range (k : ℚ) : ((0 : Nat) : ℚ) ≤ pos k ∧ pos k ≤ ((390 : Nat) : ℚ) := by
  unfold pos
  have h1 : (1000 : ℚ) ≤ min (max k 1000) 40000 := le_min (le_max_right _ _) (by norm_num)
  have h2 : min (max k 1000) 40000 ≤ (40000 : ℚ) := min_le_right _ _
  push_cast
  constructor <;> linarith

theorem pos_mono (k k' : ℚ) (h : k ≤ k') : pos k ≤ pos k' := by
  unfold pos
  have : min (max k 1000) 40000 ≤ min (max k' 1000) (40000 : ℚ) := min_le_min_right _ (max_le_max_right _ h)
  linarith

theorem pos_eq (i : ℚ) (h0 : 0 ≤ i) (h1 : i ≤ 390) : pos (1000 + 100 * i) = i := by
  unfold pos
  rw [max_eq_left (by linarith), min_eq_left (by linarith)]
  ring

theorem pos_le (k : ℚ) (n : Nat) (h : k ≤ 1000 + 100 * n) : pos k ≤ n := by
  have hn : (0 : ℚ) ≤ n := by exact_mod_cast Nat.zero_le n
  unfold pos
  have : min (max k 1000) (40000 : ℚ) ≤ 1000 + 100 * n := le_trans (min_le_left _ _) (max_le h (by linarith))
  linarith

theorem le_pos (k : ℚ) (n : Nat) (hn : n ≤ 390) (h : 1000 + 100 * n ≤ k) : n ≤ pos k := by
  have hn' : (n : ℚ) ≤ 390 := by exact_mod_cast hn
  unfold pos
  have : 1000 + 100 * (n : ℚ) ≤ min (max k 1000) (40000 : ℚ) := le_min (le_trans h (le_max_left _ _)) (by linarith)
  linarith

theorem get_le (p : Px) (h : p.1 ≤ 255 ∧ p.2.1 ≤ 249 ∧ p.2.2 ≤ 255) (c : Nat) : Px.get p c ≤ 255 := by
  unfold Px.get; split_ifs <;> omega

theorem multiplier_range (k : ℚ) (c : Nat) : 0 ≤ multiplier k c ∧ multiplier k c ≤ 1 := by
  obtain ⟨h0, h1⟩ := pos_range k
  rw [multiplier_along]
  constructor
  · have := along_le (fun _ => 0) (cell c) 0 390 (by norm_num) (fun i _ _ => by unfold cell; positivity) (pos k) h0 h1
    rwa [along_const] at this
  · have := along_le (cell c) (fun _ => 1) 0 390 (by norm_num) (fun i _ h => by
      unfold cell
      have : ((Px.get (table.getD i (0, 0, 0)) c : Nat) : ℚ) ≤ 255 := by exact_mod_cast get_le _ (table_max i (by omega)) c
      linarith) (pos k) h0 h1
    rwa [along_const] at this

theorem green_max (k : ℚ) : multiplier k 1 ≤ 249 / 255 := by
  obtain ⟨h0, h1⟩ := pos_range k
  rw [multiplier_along]
  have := along_le (cell 1) (fun _ => 249 / 255) 0 390 (by norm_num) (fun i _ h => by
    unfold cell
    have : ((Px.get (table.getD i (0, 0, 0)) 1 : Nat) : ℚ) ≤ 249 := by exact_mod_cast (table_max i (by omega)).2.1
    linarith) (pos k) h0 h1
  rwa [along_const] at this

theorem toByte_eq (v : ℚ) (h0 : 0 ≤ v) (h1 : v ≤ 255) : (toByte v : Int) = npRound v := by
  unfold toByte
  have a := npRound_nonneg h0
  have b : npRound v ≤ 255 := npRound_le (by exact_mod_cast h1)
  rw [Int.emod_eq_of_lt a (by omega), Int.toNat_of_nonneg a]

theorem toByte_mono (v w : ℚ) (h0 : 0 ≤ v) (hvw : v ≤ w) (h1 : w ≤ 255) : toByte v ≤ toByte w := by
  have a := toByte_eq v h0 (le_trans hvw h1)
  have b := toByte_eq w (le_trans h0 hvw) h1
  have := npRound_mono hvw
  omega

theorem toByte_nat (n : Nat) (h : n ≤ 255) : toByte (n : ℚ) = n := by
  have a := toByte_eq (n : ℚ) (by positivity) (by exact_mod_cast h)
  have b := npRound_int (n : Int)
  push_cast at b
  rw [b] at a
  exact_mod_cast a

theorem prod_range (n : Nat) (h : n ≤ 255) (m : ℚ) (hm : 0 ≤ m ∧ m ≤ 1) : 0 ≤ (n : ℚ) * m ∧ (n : ℚ) * m ≤ n ∧ (n : ℚ) * m ≤ 255 := by
  have : (n : ℚ) ≤ 255 := by exact_mod_cast h
  have h0 : (0 : ℚ) ≤ n := by positivity
  refine ⟨mul_nonneg h0 hm.1, ?_, ?_⟩ <;> nlinarith [hm.1, hm.2]

theorem byte_mono (n n' : Nat) (m m' : ℚ) (hn : n ≤ n') (hn' : n' ≤ 255) (hm : 0 ≤ m) (hmm : m ≤ m') (hm' : m' ≤ 1) :
    toByte (n * m) ≤ toByte (n' * m') := by
  have h : (n : ℚ) ≤ n' := by exact_mod_cast hn
  have h0 : (0 : ℚ) ≤ n := by positivity
  exact toByte_mono _ _ (mul_nonneg h0 hm) (mul_le_mul h hmm hm (le_trans h0 h)) (prod_range n' hn' m' ⟨le_trans hm hmm, hm'⟩).2.2

theorem byte_le (n : Nat) (m : ℚ) (hn : n ≤ 255) (hm : 0 ≤ m ∧ m ≤ 1) : toByte (n * m) ≤ n := by
  obtain ⟨a, b, c⟩ := prod_range n hn m hm
  have := toByte_mono _ (n : ℚ) a b (by exact_mod_cast hn)
  rwa [toByte_nat n hn] at this

theorem adjust_bytes (k : ℚ) (p : Px) (h : p.Bytes) : (adjust k p).Bytes := by
  obtain ⟨a, b, c⟩ := h
  have := byte_le p.1 _ a (multiplier_range k 0)
  have := byte_le p.2.1 _ b (multiplier_range k 1)
  have := byte_le p.2.2 _ c (multiplier_range k 2)
  refine ⟨?_, ?_, ?_⟩ <;> simp only [adjust] <;> omega

theorem kelvinsOf_iff (n : Nat) (a : KArg) (ks : List ℚ) : kelvinsOf n a = some ks ↔ a.For n ks := by
  cases a with
  | one k => simp [kelvinsOf, KArg.For, eq_comm]
  | many l =>
    simp only [kelvinsOf, KArg.For]
    by_cases h : l.length = n
    · simp [h, eq_comm]
    · simp [h]

theorem validate_iff (n : Nat) (a : Arg) (fs : List Space) : validate n a = some fs ↔ SpacesFor n a fs := by
  cases a with
  | one k => simp [validate, SpacesFor, eq_comm]
  | many l =>
    simp only [validate, SpacesFor]
    by_cases h : l.length = n
    · simp [h, eq_comm]
    · simp [h]

theorem for_length (n : Nat) (a : KArg) (ks : List ℚ) (h : a.For n ks) : ks.length = n := by
  cases a with
  | one k => simp only [KArg.For] at h; simp [h]
  | many l => simp only [KArg.For] at h; rw [h.1, h.2]

theorem spaces_length (n : Nat) (a : Arg) (fs : List Space) (h : SpacesFor n a fs) : fs.length = n := by
  cases a with
  | one k => simp only [SpacesFor] at h; simp [h]
  | many l => simp only [SpacesFor] at h; rw [h.1, h.2]

theorem step_colour (cv : Cv) (hcv : cv.Bytes) (array : Bool) (k : ℚ) (f : Space) (im : Img) (hc : im.Colour) :
    step cv array k f im = if f = .gray then none else
      some { im with owned := (step cv array k f im).elim false Img.owned, px := im.px.map (tempered cv f k) } := by
  have hc' := hc
  obtain ⟨h1, h2, h3, h4, h5, h6, h7⟩ := hc
  have hne : ¬ (im.h = 0 ∨ im.w = 0) := by omega
  by_cases hg : f = .gray
  · subst hg
    rw [if_pos rfl, step, if_neg hne, change, if_neg hne, if_neg (not_not.2 h1), if_pos rfl]
    rfl
  · rw [if_neg hg]
    have hs : ∃ o : Out, change cv im .rgb f = some o ∧ o.result = { im with owned := o.result.owned, px := im.px.map (converted cv f .rgb) } := by
      refine ⟨_, change_some cv im .rgb f hc' hg, ?_⟩
      by_cases e : f = .rgb
      · rw [if_pos e]
        have : im.px.map (converted cv f .rgb) = im.px := by
          refine List.map_id'' (fun p => ?_) _
          rw [converted, if_pos e]
        rw [this]
      · rw [if_neg e, ← convert_result cv im .rgb f e hg]
        exact convert_shape cv im .rgb f
    obtain ⟨o, ho, hr⟩ := hs
    have hB : ∀ p ∈ im.px, (converted cv f .rgb p).Bytes := by
      intro p hp
      unfold converted
      rw [if_neg (show ¬ Space.rgb = .gray by decide), if_pos (Or.inr (Or.inl rfl) : f.Basic ∨ Space.rgb.Basic)]
      by_cases e : f = .rgb
      · rw [if_pos e]; exact h7 p hp
      · rw [if_neg e]; exact hcv.1 _ _ _
    set im2 : Img := { o.result with owned := true, px := o.result.px.map (adjust k) } with him2
    have e2 : im2 = { im with owned := true, px := im.px.map (adjust k ∘ converted cv f .rgb) } := by
      rw [him2, hr]; simp [List.map_map]
    have hc2 : im2.Colour := by
      rw [e2]
      refine ⟨h1, h2, h3, h4, h5, by simp [h6], ?_⟩
      intro p hp
      obtain ⟨q, hq, rfl⟩ := List.mem_map.1 hp
      exact adjust_bytes k _ (hB q hq)
    have hs2 : ∃ o' : Out, change cv im2 f .rgb = some o' ∧ o'.result = { im with owned := o'.result.owned, px := im.px.map (tempered cv f k) } := by
      refine ⟨_, change_some cv im2 f .rgb hc2 (by decide), ?_⟩
      by_cases e : Space.rgb = f
      · rw [if_pos e, e2]
        have : im.px.map (adjust k ∘ converted cv f .rgb) = im.px.map (tempered cv f k) := by
          refine List.map_congr_left (fun p _ => ?_)
          rw [tempered, converted.eq_def cv .rgb f, if_pos e]; rfl
        rw [this]
      · rw [if_neg e]
        have a := convert_result cv im2 f .rgb e (by decide)
        have b := convert_shape cv im2 f .rgb
        rw [a] at b
        rw [b, e2]
        simp only [List.map_map]
        rfl
    obtain ⟨o', ho', hr'⟩ := hs2
    have hstep : step cv array k f im = some (store array o'.result) := by
      rw [step, if_neg hne, ho, Option.bind_some, ← him2, ho', Option.map_some]
    rw [hstep]
    simp only [Option.elim]
    congr 1
    unfold store
    cases array
    · simp only [Bool.false_eq_true, if_false]; exact hr'
    · simp only [if_true]; rw [hr']

end Imgaug.Temperature
