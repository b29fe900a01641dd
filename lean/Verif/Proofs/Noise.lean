import Verif.Spec.Noise
import Verif.Proofs.Resize
import Verif.Proofs.Quantize
import Mathlib.Tactic.Ring
import Mathlib.Tactic.SplitIfs
/-! Lemmas on the parameters of noise. -/
namespace Imgaug.Noise
open Imgaug Imgaug.Dtypes Imgaug.Resize

theorem line_get (n i : Nat) (h : i < n) : (line n).getD i 0 = fromEnd n i := by
  have hr : ∀ m k : Nat, k < m → (List.range m).reverse[k]? = some (m - 1 - k) := by
    intro m k hk
    rw [List.getElem?_reverse (by simpa using hk), List.length_range, List.getElem?_range (by omega)]
  simp only [line, fromEnd, List.getD_eq_getElem?_getD]
  by_cases h1 : i < n / 2
  · rw [List.append_assoc, List.getElem?_append_left (by simpa using h1), List.getElem?_range h1]
    simp; omega
  · by_cases ho : n % 2 = 1
    · rw [if_pos ho]
      by_cases h2 : i = n / 2
      · rw [List.getElem?_append_left (by simp; omega), List.getElem?_append_right (by simp; omega)]
        subst h2
        simp; omega
      · rw [List.getElem?_append_right (by simp; omega)]
        simp only [List.length_append, List.length_range, List.length_singleton]
        rw [hr _ _ (by omega)]
        simp; omega
    · rw [if_neg ho, List.append_nil, List.getElem?_append_right (by simp; omega)]
      simp only [List.length_range]
      rw [hr _ _ (by omega)]
      simp; omega

theorem create_get (h w i j : Nat) (hi' : i < h) (hj : j < w) : (createDist h w).px i j = cornerDist h w i j := by
  simp only [createDist, line_get h i hi', line_get w j hj, cornerDist]

theorem fromEnd_zero (n i : Nat) (h : i < n) (h0 : fromEnd n i = 0) : i = 0 ∨ i + 1 = n := by
  simp only [fromEnd] at h0; omega

theorem start_stop (n m : Nat) (h : m ≤ n) : stop n m - start n m = m := by
  simp only [stop, start]; omega

theorem start_same (n : Nat) : start n n = 0 := by simp [start]
theorem stop_same (n : Nat) : stop n n = n := by simp [stop]

theorem cached_h (c : Mat) (h w : Nat) : (cached c h w).h = max c.h h := by
  simp only [cached]; split_ifs with hc
  · rfl
  · omega

theorem cached_w (c : Mat) (h w : Nat) : (cached c h w).w = max c.w w := by
  simp only [cached]; split_ifs with hc
  · rfl
  · omega

theorem after_append (hist : List (Nat × Nat)) (s : Nat × Nat) : after (hist ++ [s]) = (distances (after hist) s.1 s.2).2 := by
  simp [after]

theorem after_nil : after [] = noCache := rfl

theorem after_h (hist : List (Nat × Nat)) (s : Nat × Nat) : (after (hist ++ [s])).h = max (after hist).h s.1 := by
  rw [after_append]; exact cached_h _ _ _

theorem after_w (hist : List (Nat × Nat)) (s : Nat × Nat) : (after (hist ++ [s])).w = max (after hist).w s.2 := by
  rw [after_append]; exact cached_w _ _ _

theorem after_h_le (hist : List (Nat × Nat)) (h : Nat) (hs : ∀ s ∈ hist, s.1 ≤ h) : (after hist).h ≤ h := by
  induction hist using List.reverseRecOn with
  | nil => simp [after, noCache]
  | append_singleton l s ih =>
    rw [after_h]
    exact max_le (ih (fun t ht => hs t (by simp [ht]))) (hs s (by simp))

theorem after_w_le (hist : List (Nat × Nat)) (w : Nat) (hs : ∀ s ∈ hist, s.2 ≤ w) : (after hist).w ≤ w := by
  induction hist using List.reverseRecOn with
  | nil => simp [after, noCache]
  | append_singleton l s ih =>
    rw [after_w]
    exact max_le (ih (fun t ht => hs t (by simp [ht]))) (hs s (by simp))

/-- Only corners of the cache have distance zero. -/
theorem zero_corner (hist : List (Nat × Nat)) :
    ∀ i j, i < (after hist).h → j < (after hist).w → (after hist).px i j = 0 → Corner (after hist).h (after hist).w i j := by
  induction hist using List.reverseRecOn with
  | nil => intro i j hi' _ _; simp [after, noCache] at hi'
  | append_singleton l s ih =>
    intro i j hi' hj h0
    have hc : ∀ i j, i < (cached (after l) s.1 s.2).h → j < (cached (after l) s.1 s.2).w → (cached (after l) s.1 s.2).px i j = 0 →
        Corner (cached (after l) s.1 s.2).h (cached (after l) s.1 s.2).w i j := by
      intro i j hi' hj h0
      by_cases hb : (after l).h < s.1 ∨ (after l).w < s.2
      · simp only [cached, if_pos hb] at hi' hj h0 ⊢
        rw [create_get (max (after l).h s.1) (max (after l).w s.2) _ _ hi' hj] at h0
        simp only [cornerDist] at h0
        have h1 : fromEnd (max (after l).h s.1) i = 0 := by
          by_contra hc; have := Nat.pos_of_ne_zero hc; have := pow_pos this 2; omega
        have h2 : fromEnd (max (after l).w s.2) j = 0 := by
          by_contra hc; have := Nat.pos_of_ne_zero hc; have := pow_pos this 2; omega
        exact ⟨fromEnd_zero _ _ hi' h1, fromEnd_zero _ _ hj h2⟩
      · simp only [cached, if_neg hb] at hi' hj h0 ⊢
        exact ih i j hi' hj h0
    rw [after_append] at hi' hj h0 ⊢
    simp only [distances, mark] at hi' hj h0 ⊢
    split_ifs at h0
    exact hc i j hi' hj h0

theorem zero_corner_cached (hist : List (Nat × Nat)) (h w : Nat) :
    ∀ i j, i < (cached (after hist) h w).h → j < (cached (after hist) h w).w → (cached (after hist) h w).px i j = 0 →
      Corner (cached (after hist) h w).h (cached (after hist) h w).w i j := by
  intro i j hi' hj h0
  by_cases hb : (after hist).h < h ∨ (after hist).w < w
  · simp only [cached, if_pos hb] at hi' hj h0 ⊢
    rw [create_get (max (after hist).h h) (max (after hist).w w) _ _ hi' hj] at h0
    simp only [cornerDist] at h0
    have h1 : fromEnd (max (after hist).h h) i = 0 := by
      by_contra hc; have := Nat.pos_of_ne_zero hc; have := pow_pos this 2; omega
    have h2 : fromEnd (max (after hist).w w) j = 0 := by
      by_contra hc; have := Nat.pos_of_ne_zero hc; have := pow_pos this 2; omega
    exact ⟨fromEnd_zero _ _ hi' h1, fromEnd_zero _ _ hj h2⟩
  · simp only [cached, if_neg hb] at hi' hj h0 ⊢
    exact zero_corner hist i j hi' hj h0

/-- A cache of exactly the size that is asked for, with the right distances, gives these. -/
theorem distances_of (c : Mat) (h w : Nat) (hh : (cached c h w).h = h) (hw : (cached c h w).w = w)
    (hp : ∀ i j, i < h → j < w → ¬ Corner h w i j → (cached c h w).px i j = cornerDist h w i j) :
    (distances c h w).1.h = h ∧ (distances c h w).1.w = w ∧
    ∀ i j, i < h → j < w → ¬ Corner h w i j → (distances c h w).1.px i j = cornerDist h w i j := by
  simp only [distances, extract, mark, hh, hw, start_same, stop_same, Nat.sub_zero, Nat.zero_add]
  refine ⟨trivial, trivial, fun i j hi' hj hc => ?_⟩
  have : ¬ ((i = 0 ∨ i + 1 = h) ∧ (j = 0 ∨ j + 1 = w)) := hc
  rw [if_neg this]
  exact hp i j hi' hj hc

theorem cached_grown (c : Mat) (h w : Nat) (hh : c.h ≤ h) (hw : c.w ≤ w) (hlt : c.h < h ∨ c.w < w) : cached c h w = createDist h w := by
  simp only [cached, if_pos hlt, max_eq_right hh, max_eq_right hw]

/-- The cache after noise of one size only. -/
theorem after_same (hist : List (Nat × Nat)) (h w : Nat) (hs : ∀ s ∈ hist, s = (h, w)) :
    hist = [] ∨ ((after hist).h = h ∧ (after hist).w = w ∧
      ∀ i j, i < h → j < w → ¬ Corner h w i j → (after hist).px i j = cornerDist h w i j) := by
  induction hist using List.reverseRecOn with
  | nil => exact Or.inl rfl
  | append_singleton l s ih =>
    right
    have hse : s = (h, w) := hs s (by simp)
    subst hse
    have hh : (after l).h ≤ h := after_h_le l h (fun t ht => by rw [hs t (by simp [ht])])
    have hw : (after l).w ≤ w := after_w_le l w (fun t ht => by rw [hs t (by simp [ht])])
    refine ⟨by rw [after_h]; omega, by rw [after_w]; omega, fun i j hi' hj hc => ?_⟩
    rw [after_append]
    have ch : (cached (after l) h w).h = h := by rw [cached_h]; omega
    have cw : (cached (after l) h w).w = w := by rw [cached_w]; omega
    have hc' : ¬ ((i = 0 ∨ i + 1 = h) ∧ (j = 0 ∨ j + 1 = w)) := hc
    simp only [distances, mark, ch, cw, start_same, stop_same]
    rw [if_neg hc']
    by_cases hlt : (after l).h < h ∨ (after l).w < w
    · rw [cached_grown _ _ _ hh hw hlt, create_get _ _ _ _ hi' hj]
    · simp only [cached, if_neg hlt]
      rcases ih (fun t ht => hs t (by simp [ht])) with h0 | h0
      · subst h0
        simp only [after_nil, noCache] at hlt
        omega
      · exact h0.2.2 i j hi' hj hc

theorem scale_congr (h w : Nat) (a b : Mat) (hs : SameCells h w a b) (e : ℝ) : scale a e = scale b e := by
  obtain ⟨h1, h2, h3, h4, h5⟩ := hs
  funext i j
  simp only [scale, h1, h2, h3, h4]
  by_cases hin : i < h ∧ j < w
  · rw [if_pos hin, if_pos hin]
    by_cases hc : (i = 0 ∨ i + 1 = h) ∧ (j = 0 ∨ j + 1 = w)
    · rw [if_pos hc, if_pos hc]
    · rw [if_neg hc, if_neg hc, h5 i j hin.1 hin.2 hc]
  · rw [if_neg hin, if_neg hin]

theorem foldl_min_le (l : List ℚ) (a : ℚ) : l.foldl min a ≤ a ∧ ∀ v ∈ l, l.foldl min a ≤ v := by
  induction l generalizing a with
  | nil => simp
  | cons b l ih =>
    simp only [List.foldl_cons]
    refine ⟨le_trans (ih (min a b)).1 (min_le_left _ _), fun v hv => ?_⟩
    rcases List.mem_cons.1 hv with rfl | hv
    · exact le_trans (ih _).1 (min_le_right _ _)
    · exact (ih _).2 v hv

theorem le_foldl_max (l : List ℚ) (a : ℚ) : a ≤ l.foldl max a ∧ ∀ v ∈ l, v ≤ l.foldl max a := by
  induction l generalizing a with
  | nil => simp
  | cons b l ih =>
    simp only [List.foldl_cons]
    refine ⟨le_trans (le_max_left _ _) (ih (max a b)).1, fun v hv => ?_⟩
    rcases List.mem_cons.1 hv with rfl | hv
    · exact le_trans (le_max_right _ _) (ih _).1
    · exact (ih _).2 v hv

theorem mem_entries (h w : Nat) (p : Nat → Nat → ℚ) (i j : Nat) (hi' : i < h) (hj : j < w) : p i j ∈ entries h w p := by
  simp only [entries, List.mem_flatMap, List.mem_map, List.mem_range]
  exact ⟨i, hi', j, hj, rfl⟩

theorem normalise_range (h w : Nat) (p : Nat → Nat → ℚ) (i j : Nat) (hi' : i < h) (hj : j < w) :
    1 / 100 ≤ normalise h w p i j ∧ normalise h w p i j ≤ 1 := by
  have hm := mem_entries h w p i j hi' hj
  have h1 := (foldl_min_le (entries h w p) (p 0 0)).2 _ hm
  have h2 := (le_foldl_max (entries h w p) (p 0 0)).2 _ hm
  simp only [normalise]
  generalize (entries h w p).foldl min (p 0 0) = lo at *
  generalize (entries h w p).foldl max (p 0 0) = hi at *
  split_ifs with hk
  · have hpos : 0 < hi - lo := lt_trans (by norm_num) hk
    have e : p i j * (99 / 100 / (hi - lo)) + (1 / 100 - lo * (99 / 100 / (hi - lo))) = 1 / 100 + 99 / 100 * ((p i j - lo) / (hi - lo)) := by
      field_simp; ring
    have r1 : 0 ≤ (p i j - lo) / (hi - lo) := div_nonneg (by linarith) (le_of_lt hpos)
    have r2 : (p i j - lo) / (hi - lo) ≤ 1 := by rw [div_le_one hpos]; linarith
    rw [e]
    constructor <;> linarith
  · constructor <;> norm_num

/-- What resizing of a float32 plane does. -/
theorem single_f4 (cv : Cv) (i : Inter) (h w H W : Nat) (px : Nat → Nat → Nat → ℚ) (h0 : 0 < h) (w0 : 0 < w) (hne : (h, w) ≠ (H, W)) :
    single cv (some i) (.tuple [.int H, .int W]) ⟨⟨.f, 4⟩, h, w, none, px⟩ =
      some ⟨⟨.f, 4⟩, H, W, none, if H = 0 ∨ W = 0 then fun _ _ _ => 0 else
        fun y x k => cv i ⟨.f, 4⟩ h w H W (fun y x => px y x k) y x⟩ := by
  have hne' : ¬ (H = h ∧ W = w) := fun hc => hne (by rw [hc.1, hc.2])
  have ha : (⟨.f, 4⟩ : DType) ∈ allowed i := by cases i <;> decide
  have hp : pair (.tuple [.int H, .int W]) = some (.int H, .int W) := by
    simp [pair, Size.val]
  simp only [single, hp, Option.bind_some, core, target, Int.toNat_natCast]
  rw [if_neg (by simpa using hne')]
  by_cases hz : H = 0 ∨ W = 0
  · rw [if_pos (by simpa using hz), if_pos hz]; rfl
  · rw [if_neg (by simpa using hz), if_neg (by simp; omega), if_neg (by simpa [chosen] using ha), if_neg hz]
    simp [viaCv, cvResize, inner, Resize.before, Resize.after, chosen]

/-- What resizing of a uint8 image with three channels does. -/
theorem single_u1 (cv : Cv) (i : Inter) (h w H W : Nat) (px : Nat → Nat → Nat → ℚ) (h0 : 0 < h) (w0 : 0 < w) (hne : (h, w) ≠ (H, W)) :
    single cv (some i) (.tuple [.int H, .int W]) ⟨⟨.u, 1⟩, h, w, some 3, px⟩ =
      some ⟨⟨.u, 1⟩, H, W, some 3, if H = 0 ∨ W = 0 then fun _ _ _ => 0 else
        fun y x k => cv i ⟨.u, 1⟩ h w H W (fun y x => px y x k) y x⟩ := by
  have hne' : ¬ (H = h ∧ W = w) := fun hc => hne (by rw [hc.1, hc.2])
  have ha : (⟨.u, 1⟩ : DType) ∈ allowed i := by cases i <;> decide
  have hp : pair (.tuple [.int H, .int W]) = some (.int H, .int W) := by
    simp [pair, Size.val]
  simp only [single, hp, Option.bind_some, core, target, Int.toNat_natCast]
  rw [if_neg (by simpa using hne')]
  by_cases hz : H = 0 ∨ W = 0
  · rw [if_pos (by simpa using hz), if_pos hz]
  · rw [if_neg (by simpa using hz), if_neg (by simp; omega), if_neg (by simpa [chosen] using ha), if_neg hz]
    simp [viaCv, cvResize, inner, Resize.before, Resize.after, chosen]

theorem smallAxis_le (least maxlen s n : Nat) (hn : n ≤ maxlen) (hs : least ≤ s) : smallAxis least maxlen s n ≤ s := by
  simp only [smallAxis]
  apply max_le _ hs
  split_ifs with h
  · have hm : (0 : ℚ) < maxlen := by exact_mod_cast (show 0 < maxlen by omega)
    have hv : (n : ℚ) * ((s : ℚ) / maxlen) ≤ s := by
      rw [mul_div_assoc', div_le_iff₀ hm]
      have : (n : ℚ) ≤ maxlen := by exact_mod_cast hn
      have hs0 : (0 : ℚ) ≤ s := by positivity
      nlinarith
    rw [Quantize.pyInt_floor (by positivity)]
    have h1 : ⌊(n : ℚ) * ((s : ℚ) / maxlen)⌋ ≤ (s : Int) := by
      have := Int.floor_le_floor hv
      simpa using this
    omega
  · omega

theorem smallAxis_le_axis (least maxlen s n : Nat) : smallAxis least maxlen s n ≤ max n least := by
  simp only [smallAxis]
  apply max_le_max_right
  split_ifs with h
  · have hm : (0 : ℚ) < maxlen := by exact_mod_cast (show 0 < maxlen by omega)
    have hv : (n : ℚ) * ((s : ℚ) / maxlen) ≤ n := by
      have h1 : (s : ℚ) / maxlen ≤ 1 := by
        rw [div_le_one hm]; exact_mod_cast (le_of_lt h)
      have hn0 : (0 : ℚ) ≤ n := by positivity
      nlinarith
    rw [Quantize.pyInt_floor (by positivity)]
    have h1 : ⌊(n : ℚ) * ((s : ℚ) / maxlen)⌋ ≤ (n : Int) := by
      have := Int.floor_le_floor hv
      simpa using this
    omega
  · exact le_refl _

theorem combine_avg (l : List ℚ) : combine "avg" l = l.sum / l.length := by
  have : ∀ (l : List ℚ) (a : ℚ) (b : Bool), (l.foldl (fun (s : ℚ × Bool) v => (step "avg" s.2 s.1 v, false)) (a, b)).1 = a + l.sum := by
    intro l
    induction l with
    | nil => simp
    | cons x l ih =>
      intro a b
      rw [List.foldl_cons, ih, List.sum_cons]
      simp only [step, if_true]; ring
  simp only [combine, if_true, this, zero_add]

theorem combine_min (x : ℚ) (l : List ℚ) : combine "min" (x :: l) = l.foldl min x := by
  have : ∀ (l : List ℚ) (a : ℚ), (l.foldl (fun (s : ℚ × Bool) v => (step "min" s.2 s.1 v, false)) (a, false)).1 = l.foldl min a := by
    intro l
    induction l with
    | nil => simp
    | cons x l ih =>
      intro a
      rw [List.foldl_cons, List.foldl_cons, ← ih]
      simp [step]
  simp only [combine, List.foldl_cons]
  rw [if_neg (by decide)]
  have e : (step "min" true 0 x, false) = (x, false) := by simp [step]
  simp only [e, this]

theorem combine_max (m : String) (h1 : m ≠ "avg") (h2 : m ≠ "min") (x : ℚ) (l : List ℚ) : combine m (x :: l) = l.foldl max x := by
  have : ∀ (l : List ℚ) (a : ℚ), (l.foldl (fun (s : ℚ × Bool) v => (step m s.2 s.1 v, false)) (a, false)).1 = l.foldl max a := by
    intro l
    induction l with
    | nil => simp
    | cons x l ih =>
      intro a
      rw [List.foldl_cons, List.foldl_cons, ← ih]
      simp [step, h1, h2]
  simp only [combine, List.foldl_cons]
  rw [if_neg h1]
  have e : (step m true 0 x, false) = (x, false) := by simp [step, h1, h2]
  simp only [e, this]

theorem foldl_min_mem (l : List ℚ) (a : ℚ) : l.foldl min a ∈ a :: l := by
  induction l generalizing a with
  | nil => simp
  | cons b l ih =>
    rw [List.foldl_cons]
    rcases List.mem_cons.1 (ih (min a b)) with h | h
    · rw [h]
      rcases min_choice a b with h' | h' <;> simp [h']
    · simp [h]

theorem foldl_max_mem (l : List ℚ) (a : ℚ) : l.foldl max a ∈ a :: l := by
  induction l generalizing a with
  | nil => simp
  | cons b l ih =>
    rw [List.foldl_cons]
    rcases List.mem_cons.1 (ih (max a b)) with h | h
    · rw [h]
      rcases max_choice a b with h' | h' <;> simp [h']
    · simp [h]

theorem foldl_min_eq (l : List ℚ) (s m : ℚ) (hm : m ∈ l) (h : ∀ v ∈ l, m ≤ v) (hs : m ≤ s) : l.foldl min s = m := by
  induction l generalizing s with
  | nil => simp at hm
  | cons v l ih =>
    rw [List.foldl_cons]
    have hv := h v (by simp)
    rcases List.mem_cons.mp hm with rfl | hm'
    · by_cases hml : m ∈ l
      · exact ih _ hml (fun u hu => h u (by simp [hu])) (le_min hs le_rfl)
      · rw [min_eq_right hs]
        clear ih hm hml hv
        induction l with
        | nil => rfl
        | cons u l ih' =>
          rw [List.foldl_cons, min_eq_left (h u (by simp))]
          exact ih' (fun u' hu' => h u' (by simp only [List.mem_cons] at hu' ⊢; tauto))
    · exact ih _ hm' (fun u hu => h u (by simp [hu])) (le_min hs hv)

theorem foldl_max_eq (l : List ℚ) (s m : ℚ) (hm : m ∈ l) (h : ∀ v ∈ l, v ≤ m) (hs : s ≤ m) : l.foldl max s = m := by
  induction l generalizing s with
  | nil => simp at hm
  | cons v l ih =>
    rw [List.foldl_cons]
    have hv := h v (by simp)
    rcases List.mem_cons.mp hm with rfl | hm'
    · by_cases hml : m ∈ l
      · exact ih _ hml (fun u hu => h u (by simp [hu])) (max_le hs le_rfl)
      · rw [max_eq_right hs]
        clear ih hm hml hv
        induction l with
        | nil => rfl
        | cons u l ih' =>
          rw [List.foldl_cons, max_eq_left (h u (by simp))]
          exact ih' (fun u' hu' => h u' (by simp only [List.mem_cons] at hu' ⊢; tauto))
    · exact ih _ hm' (fun u hu => h u (by simp [hu])) (max_le hs hv)

end Imgaug.Noise
