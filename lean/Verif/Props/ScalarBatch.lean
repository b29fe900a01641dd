import Verif.Proofs.ScalarBatch
/-! C108: the augmenters `Add`, `Multiply` and `Invert` on batches. -/
namespace Imgaug.ScalarBatch
open Imgaug Imgaug.Dtypes Imgaug.Params Imgaug.AffineArgs
open Imgaug.AddMul (Img Operand fitted)
open Imgaug.Invert (Good Acceptable Fits)
variable {σ : Type}

/-- C108: `Add` accepts every batch of uint8 images. To each image it adds a drawn number, rounded to an integer: one that is the same for all
pixels and channels or, if so decided, one per channel. Results are limited to 0 and 255. -/
theorem add_uint8_images (P : Values ℚ) (S : Sampler σ Handled ℚ) (hS : Ok (Supports P) S) (dtOf : Handled → DType) (hT : Typed S dtOf) (value per : Val)
    (hf : AffineArgs.Val.Filled value) (c : Handled × Handled) (h : init value per = some c) (l : List Img)
    (hl : ∀ im ∈ l, im.dt = ⟨.u, 1⟩ ∧ Full im ∧ ∀ v ∈ im.vals, Holds im.dt v) (g : σ) :
    ∃ rs, add S dtOf c (some l) g = some (some rs) ∧ rs.length = l.length ∧
      ∀ (i : Nat) (im : Img), l[i]? = some im → ∃ im' V, rs[i]? = some im' ∧ Drawn P value per im.c V ∧ im'.dt = im.dt ∧ im'.flat = false ∧
        im'.c = im.c ∧ im'.vals = im.vals.zipIdx.map (fun p => clamp ⟨.u, 1⟩ (p.1 + npRound (V (p.2 % im.c)))) := by
  refine ⟨_, augment_images AddMul.addScalar S dtOf c l g (fun i im => im.vals.zipIdx.map (fun p => clamp ⟨.u, 1⟩ (p.1 +
    npRound (channelValues (S c.1 (l.length * maxChannels (l.map (fun im => im.c))) (S c.2 l.length g).2).1 (maxChannels (l.map (fun im => im.c))) i
      ((S c.2 l.length g).1.getD i 0) (p.2 % im.c))))) ?_, by simp, ?_⟩
  · intro i im hi
    have hm := List.mem_of_getElem? hi
    obtain ⟨h1, ⟨h2, n, h3⟩, h4⟩ := hl im hm
    have hn : i < l.length := (List.getElem?_eq_some_iff.1 hi).1
    have hc : im.c ≤ maxChannels (l.map (fun im => im.c)) := le_maxChannels _ _ (List.mem_map.2 ⟨im, hm, rfl⟩)
    by_cases he : im.vals = []
    · rw [AddMul.addScalar, if_pos (by simp [he]), he]; rfl
    have hc1 : 1 ≤ im.c := by
      by_contra hz
      have : im.c = 0 := by omega
      rw [this, Nat.mul_zero, List.length_eq_zero_iff] at h3
      exact he h3
    have hlen := hS.length c.1 (l.length * maxChannels (l.map (fun im => im.c))) (S c.2 l.length g).2
    rw [AddMul.add_uint8 im _ h1 he (operand_fits _ _ _ _ _ im _ hlen hn hc hc1 h2) (fun _ => ⟨n, h3⟩) h4
      (fun x hx => hT _ _ _ _ (operand_mem _ _ _ _ _ _ _ hx))]
    refine congrArg some (List.map_congr_left ?_)
    rintro ⟨v, j⟩ -
    simp only
    rw [operand_at _ _ _ _ _ _ _ hlen hn hc hc1]
    rfl
  · intro i im hi
    have hm := List.mem_of_getElem? hi
    have hn : i < l.length := (List.getElem?_eq_some_iff.1 hi).1
    exact ⟨_, _, zipIdx_map_get _ _ _ _ hi, channelValues_drawn P S hS value per hf c h l.length _ i im.c hn
      (le_maxChannels _ _ (List.mem_map.2 ⟨im, hm, rfl⟩)) _ _, rfl, (hl im hm).2.1.1, rfl, rfl⟩

/-- C108 (partial): `Add` accepts every batch of images of the other supported dtypes likewise, if the numbers are at most 32000, and adds
the drawn numbers without rounding them, up to what the dtype can hold. Missing: larger numbers, which may be rejected or wrap around (C66). -/
theorem add_other_images_partial (P : Values ℚ) (S : Sampler σ Handled ℚ) (hS : Ok (Supports P) S) (dtOf : Handled → DType) (hT : Typed S dtOf)
    (value per : Val) (hf : AffineArgs.Val.Filled value) (hp : ∀ v, Allows P value v → |v| ≤ 32000) (c : Handled × Handled) (h : init value per = some c)
    (hdt : dtOf c.1 = ⟨.i, 4⟩ ∨ dtOf c.1 = ⟨.f, 4⟩) (l : List Img)
    (hl : ∀ im ∈ l, im.dt ∈ [⟨.b, 1⟩, ⟨.u, 2⟩, ⟨.i, 1⟩, ⟨.i, 2⟩, ⟨.f, 2⟩, (⟨.f, 4⟩ : DType)] ∧ Full im ∧ ∀ v ∈ im.vals, Holds im.dt v) (g : σ) :
    ∃ rs, add S dtOf c (some l) g = some (some rs) ∧ rs.length = l.length ∧
      ∀ (i : Nat) (im : Img), l[i]? = some im → ∃ im' V, rs[i]? = some im' ∧ Drawn P value per im.c V ∧ im'.dt = im.dt ∧ im'.flat = false ∧
        im'.c = im.c ∧ im'.vals = im.vals.zipIdx.map (fun p => fitted im.dt (p.1 + V (p.2 % im.c))) := by
  refine ⟨_, augment_images AddMul.addScalar S dtOf c l g (fun i im => im.vals.zipIdx.map (fun p => fitted im.dt (p.1 +
    channelValues (S c.1 (l.length * maxChannels (l.map (fun im => im.c))) (S c.2 l.length g).2).1 (maxChannels (l.map (fun im => im.c))) i
      ((S c.2 l.length g).1.getD i 0) (p.2 % im.c)))) ?_, by simp, ?_⟩
  · intro i im hi
    have hm := List.mem_of_getElem? hi
    obtain ⟨h1, ⟨h2, n, h3⟩, h4⟩ := hl im hm
    have hn : i < l.length := (List.getElem?_eq_some_iff.1 hi).1
    have hc : im.c ≤ maxChannels (l.map (fun im => im.c)) := le_maxChannels _ _ (List.mem_map.2 ⟨im, hm, rfl⟩)
    by_cases he : im.vals = []
    · rw [AddMul.addScalar, if_pos (by simp [he]), he]; rfl
    have hc1 : 1 ≤ im.c := by
      by_contra hz
      have : im.c = 0 := by omega
      rw [this, Nat.mul_zero, List.length_eq_zero_iff] at h3
      exact he h3
    have hlen := hS.length c.1 (l.length * maxChannels (l.map (fun im => im.c))) (S c.2 l.length g).2
    have hfits := operand_fits (dtOf c.1) _ _ _ _ im ((S c.2 l.length g).1.getD i 0) hlen hn hc hc1 h2
    have hsm : ∀ x ∈ (operand (dtOf c.1) (rowOf (S c.1 (l.length * maxChannels (l.map (fun im => im.c))) (S c.2 l.length g).2).1
        (maxChannels (l.map (fun im => im.c))) i) ((S c.2 l.length g).1.getD i 0) im.c).vals, |x| ≤ 32000 := fun x hx =>
      hp x (continuous_supports P value _ c.1 _ (init_some value per c h).1 hf (hS.values _ _ _ _ (operand_mem _ _ _ _ _ _ _ hx)))
    have hov : ∀ x ∈ (operand (dtOf c.1) (rowOf (S c.1 (l.length * maxChannels (l.map (fun im => im.c))) (S c.2 l.length g).2).1
        (maxChannels (l.map (fun im => im.c))) i) ((S c.2 l.length g).1.getD i 0) im.c).vals, Holds (dtOf c.1) x := fun x hx =>
      hT _ _ _ _ (operand_mem _ _ _ _ _ _ _ hx)
    have hu : im.dt ≠ ⟨.u, 1⟩ := by
      intro e; rw [e] at h1; revert h1; decide
    have hall : dtOf c.1 ∈ all := by rcases hdt with e | e <;> rw [e] <;> decide
    have hne : (operand (dtOf c.1) (rowOf (S c.1 (l.length * maxChannels (l.map (fun im => im.c))) (S c.2 l.length g).2).1
        (maxChannels (l.map (fun im => im.c))) i) ((S c.2 l.length g).1.getD i 0) im.c).vals ≠ [] := by
      intro e
      rcases hfits with k | ⟨-, k⟩
      · rw [e] at k; simp at k
      · rw [e] at k; simp at k; omega
    have hacc := (AddMul.add_other_accepts im (operand (dtOf c.1) (rowOf (S c.1 (l.length * maxChannels (l.map (fun im => im.c))) (S c.2 l.length g).2).1
        (maxChannels (l.map (fun im => im.c))) i) ((S c.2 l.length g).1.getD i 0) im.c) he hu hall hov).2 (by
      have hb : ∀ d ∈ [⟨.b, 1⟩, ⟨.u, 2⟩, ⟨.i, 1⟩, ⟨.i, 2⟩, ⟨.f, 2⟩, (⟨.f, 4⟩ : DType)], ∀ k ∈ [Kind.i, Kind.f],
          lo ⟨k, d.bytes * 2⟩ ≤ -32000 ∧ 32000 ≤ Dtypes.hi ⟨k, d.bytes * 2⟩ := by decide +kernel
      have hk : (dtOf c.1).kind ∈ [Kind.i, Kind.f] := by rcases hdt with e | e <;> rw [e] <;> decide
      obtain ⟨b1, b2⟩ := hb im.dt h1 _ hk
      refine ⟨?_, h2, hne, ?_, ?_, ?_, ?_, ?_, ?_⟩
      · revert h1; generalize im.dt = d; revert d; decide
      · rcases hfits with k | ⟨-, k⟩
        · exact Or.inl k
        · exact Or.inr k
      · change (dtOf c.1).kind ≠ .b
        rcases hdt with e | e <;> rw [e] <;> decide
      · change dtOf c.1 ≠ _
        rcases hdt with e | e <;> rw [e] <;> decide
      · change dtOf c.1 ≠ _
        rcases hdt with e | e <;> rw [e] <;> decide
      · rintro ⟨-, e2⟩
        change (dtOf c.1).kind = .u at e2
        rcases hdt with e | e <;> rw [e] at e2 <;> cases e2
      · intro x hx
        have hx' := abs_le.1 (hsm x hx)
        have b1' : ((lo ⟨(dtOf c.1).kind, im.dt.bytes * 2⟩ : Int) : ℚ) ≤ -32000 := by exact_mod_cast b1
        have b2' : (32000 : ℚ) ≤ ((Dtypes.hi ⟨(dtOf c.1).kind, im.dt.bytes * 2⟩ : Int) : ℚ) := by exact_mod_cast b2
        exact ⟨le_trans b1' hx'.1, le_trans hx'.2 b2'⟩)
    rw [AddMul.add_other_partial im _ he hu hall h4 hov hacc hsm]
    refine congrArg some (List.map_congr_left ?_)
    rintro ⟨v, j⟩ -
    simp only
    rw [operand_at _ _ _ _ _ _ _ hlen hn hc hc1]
    rfl
  · intro i im hi
    have hm := List.mem_of_getElem? hi
    have hn : i < l.length := (List.getElem?_eq_some_iff.1 hi).1
    exact ⟨_, _, zipIdx_map_get _ _ _ _ hi, channelValues_drawn P S hS value per hf c h l.length _ i im.c hn
      (le_maxChannels _ _ (List.mem_map.2 ⟨im, hm, rfl⟩)) _ _, rfl, (hl im hm).2.1.1, rfl, rfl⟩

/-- C108 (partial): `Multiply` accepts every batch of uint8 images and multiplies each image with a drawn number, one for all channels or, if so
decided, one per channel. Missing: rounding to the nearest integer (the error is below one), see C67. -/
theorem multiply_uint8_images_partial (P : Values ℚ) (S : Sampler σ Handled ℚ) (hS : Ok (Supports P) S) (dtOf : Handled → DType) (value per : Val)
    (hf : AffineArgs.Val.Filled value) (c : Handled × Handled) (h : init value per = some c) (l : List Img)
    (hl : ∀ im ∈ l, im.dt = ⟨.u, 1⟩ ∧ Full im) (g : σ) :
    ∃ rs, multiply S dtOf c (some l) g = some (some rs) ∧ rs.length = l.length ∧
      ∀ (i : Nat) (im : Img), l[i]? = some im → ∃ im' V, rs[i]? = some im' ∧ Drawn P value per im.c V ∧ im'.dt = im.dt ∧ im'.flat = false ∧
        im'.c = im.c ∧ im'.vals.length = im.vals.length ∧
        ∀ (j : Nat) (v w : ℚ), im.vals[j]? = some v → im'.vals[j]? = some w →
          |w - clamp ⟨.u, 1⟩ (v * V (j % im.c))| < 1 ∧ (∃ n : Int, w = n) ∧ 0 ≤ w ∧ w ≤ 255 := by
  have key : ∀ (i : Nat) (im : Img), l[i]? = some im → ∃ r,
      AddMul.mulScalar im (operand (dtOf c.1) (rowOf (S c.1 (l.length * maxChannels (l.map (fun im => im.c))) (S c.2 l.length g).2).1
        (maxChannels (l.map (fun im => im.c))) i) ((S c.2 l.length g).1.getD i 0) im.c) = some r ∧ r.length = im.vals.length ∧
      ∀ (j : Nat) (v w : ℚ), im.vals[j]? = some v → r[j]? = some w →
        |w - clamp ⟨.u, 1⟩ (v * channelValues (S c.1 (l.length * maxChannels (l.map (fun im => im.c))) (S c.2 l.length g).2).1
          (maxChannels (l.map (fun im => im.c))) i ((S c.2 l.length g).1.getD i 0) (j % im.c))| < 1 ∧ (∃ n : Int, w = n) ∧ 0 ≤ w ∧ w ≤ 255 := by
    intro i im hi
    have hm := List.mem_of_getElem? hi
    obtain ⟨h1, h2, n, h3⟩ := hl im hm
    have hn : i < l.length := (List.getElem?_eq_some_iff.1 hi).1
    have hc : im.c ≤ maxChannels (l.map (fun im => im.c)) := le_maxChannels _ _ (List.mem_map.2 ⟨im, hm, rfl⟩)
    by_cases he : im.vals = []
    · exact ⟨im.vals, by rw [AddMul.mulScalar, if_pos (by simp [he])], rfl, fun j v w hj => by rw [he] at hj; simp at hj⟩
    have hc1 : 1 ≤ im.c := by
      by_contra hz
      have : im.c = 0 := by omega
      rw [this, Nat.mul_zero, List.length_eq_zero_iff] at h3
      exact he h3
    have hlen := hS.length c.1 (l.length * maxChannels (l.map (fun im => im.c))) (S c.2 l.length g).2
    have hfits := operand_fits (dtOf c.1) _ _ _ _ im ((S c.2 l.length g).1.getD i 0) hlen hn hc hc1 h2
    obtain ⟨r, r1, r2, r3⟩ := AddMul.mul_uint8_partial im _ h1 he hfits rfl (by
      intro e
      rcases hfits with k | ⟨-, k⟩
      · rw [e] at k; simp at k
      · rw [e] at k; simp at k; omega)
    refine ⟨r, r1, r2, fun j v w hv hw => ?_⟩
    have := r3 j v w hv hw
    rwa [operand_at _ _ _ _ _ _ _ hlen hn hc hc1] at this
  refine ⟨_, augment_images AddMul.mulScalar S dtOf c l g (fun i im => (AddMul.mulScalar im (operand (dtOf c.1)
    (rowOf (S c.1 (l.length * maxChannels (l.map (fun im => im.c))) (S c.2 l.length g).2).1
        (maxChannels (l.map (fun im => im.c))) i) ((S c.2 l.length g).1.getD i 0) im.c)).getD []) ?_, by simp, ?_⟩
  · intro i im hi
    obtain ⟨r, r1, -⟩ := key i im hi
    rw [r1]; rfl
  · intro i im hi
    have hm := List.mem_of_getElem? hi
    have hn : i < l.length := (List.getElem?_eq_some_iff.1 hi).1
    obtain ⟨r, r1, r2, r3⟩ := key i im hi
    refine ⟨_, _, zipIdx_map_get _ _ _ _ hi, channelValues_drawn P S hS value per hf c h l.length _ i im.c hn
      (le_maxChannels _ _ (List.mem_map.2 ⟨im, hm, rfl⟩)) (S c.2 l.length g).2 g, rfl, (hl im hm).2.1, rfl, ?_, ?_⟩
    · simp only [r1, Option.getD_some, r2]
    · simp only [r1, Option.getD_some]
      exact r3

/-- C108: batches without images are returned as they are, and images without components are not changed, whatever their dtype. -/
theorem nothing_to_do (S : Sampler σ Handled ℚ) (dtOf : Handled → DType) (c : Handled × Handled) (conf : InvertConf) (cache : Invert.Cache) (g : σ) :
    add S dtOf c none g = some none ∧ multiply S dtOf c none g = some none ∧ (invert S conf cache none g).1 = some none ∧
    (∀ l : List Img, (∀ im ∈ l, im.vals = []) → add S dtOf c (some l) g = some (some l) ∧ multiply S dtOf c (some l) g = some (some l)) := by
  refine ⟨rfl, rfl, rfl, fun l hl => ?_⟩
  have key : ∀ op : Img → Operand → Option (List ℚ), (∀ im o, im.vals = [] → op im o = some im.vals) → augment op S dtOf c (some l) g = some (some l) := by
    intro op hop
    rw [augment_images op S dtOf c l g (fun _ im => im.vals) (fun i im hi => hop im _ (hl im (List.mem_of_getElem? hi)))]
    simp
  exact ⟨key _ (fun im o he => by rw [AddMul.addScalar, if_pos (by simp [he])]), key _ (fun im o he => by rw [AddMul.mulScalar, if_pos (by simp [he])])⟩

/-- C108: exactly these arguments are accepted: numbers, pairs and lists of numbers, and parameters; for the decision about channels a bool, a
number between 0 and 1 or a parameter. -/
theorem accepts (value per : Val) : (init value per).isSome = true ↔
    ((∃ i, value = .atom (.par i)) ∨ NumericArg true true true value) ∧
    ((∃ b, per = .atom (.bool b)) ∨ (∃ i, per = .atom (.par i)) ∨ ∃ n, per = .atom (.num n) ∧ 0 ≤ n.q ∧ n.q ≤ 1) := by
  have e : (init value per).isSome = true ↔ (handleContinuous value .none true true).isSome = true ∧ (handleProbability per false false).isSome = true := by
    unfold init
    cases handleContinuous value .none true true <;> cases handleProbability per false false <;> simp
  rw [e, continuous_accepts, probability_accepts]
  have a1 : ∀ v, AllAllowed .none v := fun v n _ => trivial
  simp only [a1, and_true, Bool.false_eq_true, and_false, or_false, false_and]
  constructor
  · rintro ⟨h1, h2⟩
    refine ⟨h1, ?_⟩
    rcases h2 with h | h | ⟨ns, ⟨n, rfl, h3⟩, h4⟩
    · exact Or.inl h
    · exact Or.inr (Or.inl h)
    · exact Or.inr (Or.inr ⟨n, h3, h4 n (by simp)⟩)
  · rintro ⟨h1, h2⟩
    refine ⟨h1, ?_⟩
    rcases h2 with h | h | ⟨n, h3, h4⟩
    · exact Or.inl h
    · exact Or.inr (Or.inl h)
    · exact Or.inr (Or.inr ⟨[n], ⟨n, rfl, h3⟩, by simpa using h4⟩)

/-- C108: `Invert` accepts every batch of images to whose dtypes the range can be applied, whatever was inverted before. In each image it chooses all
channels or none, or, if so decided, each channel on its own. The components in the chosen channels get the values that the inversion of the whole
image yields (see C65), with a threshold for which the argument stands; everything else stays. -/
theorem inverted (P : Values ℚ) (S : Sampler σ Handled ℚ) (hS : Ok (Supports P) S) (a : InvertArgs)
    (hfill : ∀ v, a.threshold = some v → AffineArgs.Val.Filled v) (conf : InvertConf) (h : initInvert a = some conf) (cache : Invert.Cache)
    (hr : Reachable cache) (l : List Pic)
    (hl : ∀ im ∈ l, im.Ok ∧ Fits im.dt ⟨a.minV, a.maxV, none, true⟩ ∧ Acceptable im.dt ⟨a.minV, a.maxV, none, true⟩) (g : σ) :
    ∃ rs, (invert S conf cache (some l) g).1 = some (some rs) ∧ rs.length = l.length ∧
      ∀ (i : Nat) (im : Pic), l[i]? = some im → ∃ im' m x inv, rs[i]? = some im' ∧ Selected a.p a.perChannel im.c m ∧ Meant P a x ∧
        (Invert.invert [] im.dt x [im.h, im.w, im.c] im.vals).1 = some inv ∧ inv.length = im.vals.length ∧
        im'.dt = im.dt ∧ im'.h = im.h ∧ im'.w = im.w ∧ im'.c = im.c ∧ im'.vals.length = im.vals.length ∧
        ∀ j : Nat, im'.vals[j]? = if m (j % im.c) then inv[j]? else im.vals[j]? := by
  have hc := reachable_good cache hr
  have hargs : ∀ (x : Invert.Args) (im : Pic), im ∈ l → Meant P a x → Fits im.dt x ∧ Acceptable im.dt x := by
    intro x im hm hx
    obtain ⟨-, h2, h3⟩ := hl im hm
    obtain ⟨e1, e2, -⟩ := hx
    simp only [Fits, Acceptable, Invert.lower, Invert.upper, e1, e2] at h2 h3 ⊢
    exact ⟨h2, h3⟩
  have hmeant : ∀ (i : Nat) (im : Pic), l[i]? = some im →
      ∃ s, (drawInvert S conf l.length (maxChannels (l.map (fun im => im.c))) g)[i]? = some s ∧ Selected a.p a.perChannel im.c (chosen s) ∧ Meant P a s.args :=
    fun i im hi => drawn_meant P S hS a hfill conf h l.length _ i im.c (List.getElem?_eq_some_iff.1 hi).1
      (le_maxChannels _ _ (List.mem_map.2 ⟨im, List.mem_of_getElem? hi, rfl⟩)) g
  classical
  let F : DType → Invert.Args → ℚ → ℚ := fun d x => if hx : d ∈ all ∧ Fits d x ∧ Acceptable d x then (invert_pointwise d hx.1 x hx.2.1 hx.2.2).choose else id
  have hF : ∀ d x, d ∈ all ∧ Fits d x ∧ Acceptable d x → ∀ c, Good c → ∀ (shape : List Nat) (vals : List ℚ), (∀ v ∈ vals, Holds d v) →
      (Invert.invert c d x shape vals).1 = some (vals.map (F d x)) := by
    intro d x hx
    simp only [F, dif_pos hx]
    exact (invert_pointwise d hx.1 x hx.2.1 hx.2.2).choose_spec
  have hall := all_images (fun s im => { im with vals := im.vals.zipIdx.map (fun p => if chosen s (p.2 % im.c) then F im.dt s.args p.1 else p.1) })
    ((drawInvert S conf l.length (maxChannels (l.map (fun im => im.c))) g).zip l) cache hc (by
      rintro ⟨s, im⟩ hp c hc
      obtain ⟨i, hi⟩ := List.mem_iff_getElem?.1 hp
      obtain ⟨z1, z2⟩ := List.getElem?_zip_eq_some.1 hi
      obtain ⟨s', e1, -, e3⟩ := hmeant i im z2
      simp only at z1 z2
      rw [z1, Option.some.injEq] at e1
      subst e1
      have hm := List.mem_of_getElem? z2
      have hx := hargs _ im hm e3
      exact step_image s im (hl im hm).1 hx.1 hx.2 _ (hF im.dt s.args ⟨(hl im hm).1.1, hx⟩) c hc)
  refine ⟨_, by simp only [invert]; rw [hall]; rfl, by simp [drawInvert_length], ?_⟩
  intro i im hi
  obtain ⟨s, e1, e2, e3⟩ := hmeant i im hi
  have hm := List.mem_of_getElem? hi
  refine ⟨{ im with vals := im.vals.zipIdx.map (fun p => if chosen s (p.2 % im.c) then F im.dt s.args p.1 else p.1) }, chosen s, s.args, im.vals.map (F im.dt s.args), by
    rw [List.getElem?_map, List.getElem?_zip_eq_some (z := (s, im)) |>.2 ⟨e1, hi⟩]; rfl, e2, e3, hF im.dt s.args ⟨(hl im hm).1.1, hargs _ im hm e3⟩ [] good_nil _ _ (hl im hm).1.2.2,
    by simp, rfl, rfl, rfl, rfl, by simp, ?_⟩
  intro j
  simp only [List.getElem?_map, List.getElem?_zipIdx]
  cases im.vals[j]? with
  | none => simp
  | some v =>
    simp only [Option.map_some, Nat.zero_add]
    split <;> rfl

/-- C108: with a probability of 0 nothing is inverted, whatever the range and the dtypes. -/
theorem never_inverted (P : Values ℚ) (S : Sampler σ Handled ℚ) (hS : Ok (Supports P) S) (a : InvertArgs) (conf : InvertConf) (h : initInvert a = some conf)
    (hp : a.p = .atom (.bool false) ∨ ∃ n, a.p = .atom (.num n) ∧ n.q = 0) (cache : Invert.Cache) (l : List Pic)
    (hl : ∀ im ∈ l, im.vals.length = im.h * im.w * im.c) (g : σ) :
    (invert S conf cache (some l) g).1 = some (some l) := by
  obtain ⟨h1, -⟩ := initInvert_some a conf h
  have hs : ∀ s ∈ drawInvert S conf l.length (maxChannels (l.map (fun im => im.c))) g, ∀ b ∈ s.p, b = false := by
    intro s hs b hb
    rw [drawInvert, List.mem_map] at hs
    obtain ⟨i, -, rfl⟩ := hs
    obtain ⟨v, hv, rfl⟩ := List.mem_map.1 hb
    have hv' : v ∈ (S conf.p (l.length * maxChannels (l.map (fun im => im.c))) g).1 := List.mem_of_mem_drop (List.mem_of_mem_take hv)
    have := probability_supports P _ _ _ h1 (hS.values conf.p _ g v hv')
    rcases hp with e | ⟨n, e, hn⟩
    · rw [e] at this; exact this
    · rw [e] at this; exact this.1 hn
  have key : ∀ (ps : List (InvertSample × Pic)) (c : Invert.Cache),
      (∀ p ∈ ps, (∀ b ∈ p.1.p, b = false) ∧ p.2.vals.length = p.2.h * p.2.w * p.2.c) → (invertAll c ps).1 = some (ps.map (fun p => p.2)) := by
    intro ps
    induction ps with
    | nil => intro c _; rfl
    | cons p t ih =>
      intro c hps
      obtain ⟨s, im⟩ := p
      obtain ⟨b1, b2⟩ := hps (s, im) (by simp)
      simp only at b1 b2
      have hm : ∀ k, (s.p.take im.c).getD k false = false := by
        intro k
        simp only [List.getD]
        cases hq : (s.p.take im.c)[k]? with
        | none => rfl
        | some b => exact b1 b (List.mem_of_mem_take (List.mem_of_getElem? hq))
      have h0 : s.p.getD 0 false = false := by
        simp only [List.getD]
        cases hq : s.p[0]? with
        | none => rfl
        | some b => exact b1 b (List.mem_of_getElem? hq)
      have hput : put (s.p.take im.c) im.c 0 im.vals [] = im.vals := by
        have := put_picked (s.p.take im.c) im.c id im.vals 0
        simp only [hm, Bool.false_eq_true, if_false, List.filter_false, List.map_nil] at this
        rw [this]
        simp
      have hstep : (invertStep c s im).1 = some im := by
        unfold invertStep
        split
        · rfl
        · split
          · have he : picked (s.p.take im.c) im.c im.vals = [] := by simp only [picked, hm, List.filter_false, List.map_nil]
            simp only [he, Invert.invert, List.length_nil, if_true, Option.map_some, hput]
          · rw [if_neg (by rw [h0]; simp)]
      simp only [invertAll, hstep]
      rw [ih _ (fun p hp => hps p (List.mem_cons_of_mem _ hp))]
      rfl
  simp only [invert]
  rw [key _ cache (by
    rintro ⟨s, im⟩ hp
    obtain ⟨hp1, hp2⟩ := List.of_mem_zip hp
    exact ⟨hs s hp1, hl im hp2⟩)]
  have : ((drawInvert S conf l.length (maxChannels (l.map (fun im => im.c))) g).zip l).map (fun p => p.2) = l :=
    List.map_snd_zip (by rw [drawInvert_length])
  rw [this]
  rfl

/-- C108: with a probability of 1, a batch that contains an image with components to whose dtype the range cannot be applied is rejected. -/
theorem rejected (P : Values ℚ) (S : Sampler σ Handled ℚ) (hS : Ok (Supports P) S) (a : InvertArgs)
    (hfill : ∀ v, a.threshold = some v → AffineArgs.Val.Filled v) (conf : InvertConf) (h : initInvert a = some conf)
    (hp : a.p = .atom (.bool true) ∨ ∃ n, a.p = .atom (.num n) ∧ n.q = 1) (cache : Invert.Cache) (hr : Reachable cache) (l : List Pic)
    (hl : ∀ im ∈ l, im.Ok) (im : Pic) (hm : im ∈ l) (hne : im.vals ≠ []) (hna : ¬ Acceptable im.dt ⟨a.minV, a.maxV, none, true⟩) (g : σ) :
    (invert S conf cache (some l) g).1 = none := by
  have key : ∀ (ps : List (InvertSample × Pic)) (c : Invert.Cache), Good c → (∃ p ∈ ps, ∀ c, Good c → (invertStep c p.1 p.2).1 = none) → (invertAll c ps).1 = none := by
    intro ps
    induction ps with
    | nil => intro c _ hx; obtain ⟨p, hp, -⟩ := hx; simp at hp
    | cons p t ih =>
      intro c hc hx
      obtain ⟨s, im⟩ := p
      have hg : Good (invertStep c s im).2 := by
        unfold invertStep
        split
        · exact hc
        · split
          · exact (Invert.invert_good c hc _ _ _ _).2
          · split
            · exact (Invert.invert_good c hc _ _ _ _).2
            · exact hc
      simp only [invertAll]
      cases hs : (invertStep c s im).1 with
      | none => rfl
      | some im' =>
        simp only
        obtain ⟨q, hq, hn⟩ := hx
        rcases List.mem_cons.1 hq with rfl | hq
        · rw [hn c hc] at hs; simp at hs
        · rw [ih _ hg ⟨q, hq, hn⟩]; rfl
  obtain ⟨i, hi⟩ := List.mem_iff_getElem?.1 hm
  obtain ⟨s, e1, ⟨b, -, e2, -⟩, e3⟩ := drawn_meant P S hS a hfill conf h l.length (maxChannels (l.map (fun im => im.c))) i im.c (List.getElem?_eq_some_iff.1 hi).1
      (le_maxChannels _ _ (List.mem_map.2 ⟨im, hm, rfl⟩)) g
  have hsel : ∀ k, k < im.c → chosen s k = true := by
    intro k hk
    have := e2 k hk
    rcases hp with e | ⟨n, e, hn⟩
    · rw [e] at this; exact this
    · rw [e] at this; exact this.2 hn
  obtain ⟨hd, hlen, hh⟩ := hl im hm
  have hpos : 0 < im.vals.length := List.length_pos_iff.2 hne
  have hz : ¬(im.h = 0 ∨ im.w = 0 ∨ im.c = 0) := by
    intro hz
    rw [hlen] at hpos
    rcases hz with hz | hz | hz <;> simp [hz] at hpos
  have hc1 : 0 < im.c := by omega
  have hna' : ¬ Acceptable im.dt s.args := by
    intro hx
    apply hna
    obtain ⟨m1, m2, -⟩ := e3
    simp only [Acceptable, Invert.lower, Invert.upper, m1, m2] at hx ⊢
    exact hx
  have hnone : ∀ (c : Invert.Cache), Good c → ∀ (shape : List Nat) (vals : List ℚ), vals ≠ [] → (∀ v ∈ vals, Holds im.dt v) → (Invert.invert c im.dt s.args shape vals).1 = none := by
    intro c hc shape vals hv hh
    rw [(Invert.invert_good c hc _ _ _ _).1]
    have := (Invert.invert_accepts im.dt hd s.args shape vals hh).2 hv
    rw [← Option.not_isSome_iff_eq_none, this]
    exact hna'
  simp only [invert]
  rw [key _ cache (reachable_good cache hr) ⟨(s, im), List.mem_of_getElem? (List.getElem?_zip_eq_some.2 ⟨e1, hi⟩), ?_⟩]
  · rfl
  intro c hc
  simp only [invertStep]
  rw [if_neg hz]
  split
  · rename_i hpc
    simp only
    rw [hnone c hc _ _ ?_ (fun v hv => hh v (picked_mem _ _ _ _ hv))]
    · rfl
    · intro he
      obtain ⟨v, vs, hv⟩ := List.exists_cons_of_ne_nil hne
      have h0 := hsel 0 hc1
      simp only [chosen, hpc, if_true] at h0
      have : (s.p.take im.c).getD 0 false = true := by
        simp only [List.getD, List.getElem?_take_of_lt hc1] at h0 ⊢; exact h0
      rw [picked, hv, List.zipIdx_cons, List.filter_cons, if_pos (by simp only [Nat.zero_mod]; exact this)] at he
      simp at he
  · rename_i hpc
    have h0 := hsel 0 hc1
    simp only [chosen, hpc, Bool.false_eq_true, if_false] at h0
    rw [if_pos h0, hnone c hc _ _ hne hh]
    rfl

/- The hypotheses are met: a sampler that yields values that its parameters stand for, and images of several dtypes. -/
example : Reachable (Invert.invert [] ⟨.u, 1⟩ ⟨none, none, some 100, true⟩ [1, 1, 1] [7]).2 := .call _ _ _ _ _ .start

example : (initInvert ⟨.atom (.num ⟨false, 1 / 2⟩), .atom (.bool true), some 10, some 50, some (.tuple [.num ⟨true, 20⟩, .num ⟨true, 40⟩]), .atom (.num ⟨true, 1⟩)⟩).isSome = true := by
  decide +kernel

example : Pic.Ok ⟨⟨.u, 1⟩, 1, 2, 2, [20, 30, 40, 50]⟩ ∧ Fits ⟨.u, 1⟩ ⟨some 10, some 50, none, true⟩ ∧ Acceptable ⟨.u, 1⟩ ⟨some 10, some 50, none, true⟩ ∧
    ¬ Acceptable ⟨.i, 8⟩ ⟨some 10, some 50, none, true⟩ := by
  refine ⟨⟨by decide +kernel, by decide, ?_⟩, ?_, ?_, ?_⟩
  · intro v hv
    have : v = ((20 : Int) : ℚ) ∨ v = ((30 : Int) : ℚ) ∨ v = ((40 : Int) : ℚ) ∨ v = ((50 : Int) : ℚ) := by simpa using hv
    unfold Holds
    rcases this with rfl | rfl | rfl | rfl <;> exact ⟨by decide +kernel, by decide +kernel, fun _ => ⟨_, rfl⟩⟩
  · intro _; exact ⟨⟨10, by norm_num [Invert.lower]⟩, ⟨50, by norm_num [Invert.upper]⟩⟩
  · unfold Acceptable; decide +kernel
  · unfold Acceptable; decide +kernel

/- Channel 1 of an image is inverted, channel 0 is not. -/
example : (invertStep [] ⟨[false, true], true, ⟨some 10, some 50, none, true⟩⟩ ⟨⟨.u, 1⟩, 1, 2, 2, [20, 30, 40, 50]⟩).1.map (fun im => im.vals) = some [20, 30, 40, 10] := by
  decide +kernel

/- Two images with one and three channels. -/
example : (∀ im ∈ [(⟨⟨.u, 1⟩, false, 1, [3, 250]⟩ : Img), ⟨⟨.u, 1⟩, false, 3, [1, 2, 3, 4, 5, 6]⟩], im.dt = ⟨.u, 1⟩ ∧ Full im) ∧
    (init (.tuple [.num ⟨true, -10⟩, .num ⟨true, 10⟩]) (.atom (.bool true))).isSome = true := by
  refine ⟨?_, by decide +kernel⟩
  intro im h
  simp only [List.mem_cons, List.not_mem_nil, or_false] at h
  rcases h with rfl | rfl
  · exact ⟨rfl, rfl, 2, rfl⟩
  · exact ⟨rfl, rfl, 2, rfl⟩

example : Typed (σ := Unit) (fun _ n g => (List.replicate n 7, g)) (fun _ => ⟨.i, 4⟩) := by
  intro d n g v hv
  rw [List.eq_of_mem_replicate hv]
  show Holds ⟨.i, 4⟩ 7
  exact ⟨by decide +kernel, by decide +kernel, fun _ => ⟨7, rfl⟩⟩

/-- C108: what becomes of an image depends on its own draws only. It is what the augmenter makes of the image alone, if the draws yield the decision
for this image and then the numbers for its channels: the matrix of numbers has one row for each image and one column for each channel. -/
theorem images_apart (S : Sampler σ Handled ℚ) (dtOf : Handled → DType) (conf : Handled × Handled) (l : List Img) (rs : List Img) (g : σ) (cmax : Nat)
    (hcm : ∀ im ∈ l, im.c ≤ cmax) (hex : ∃ im ∈ l, im.c = cmax) (i : Nat) (im : Img) (hi : l[i]? = some im) (hc : 1 ≤ im.c) :
    let draws := [[(S conf.2 l.length g).1.getD i 0], ((S conf.1 (l.length * cmax) (S conf.2 l.length g).2).1.drop (i * cmax)).take im.c]
    (add S dtOf conf (some l) g = some (some rs) → add (replay draws) dtOf conf (some [im]) 0 = some (rs[i]?.map (fun r => [r]))) ∧
    (multiply S dtOf conf (some l) g = some (some rs) → multiply (replay draws) dtOf conf (some [im]) 0 = some (rs[i]?.map (fun r => [r]))) := by
  have e := maxChannels_eq (l.map (fun im => im.c)) cmax (by simpa using hcm) (by simpa using hex)
  intro draws
  constructor
  · intro h
    have := augment_apart AddMul.addScalar S dtOf conf l rs g h i im hi hc
    rw [e] at this
    exact this
  · intro h
    have := augment_apart AddMul.mulScalar S dtOf conf l rs g h i im hi hc
    rw [e] at this
    exact this

/-- C108: the same for `Invert`, with draws for the choice of channels, for the decision about channels, for the threshold (if there is one) and for the
side of the threshold. -/
theorem inverted_apart (S : Sampler σ Handled ℚ) (hS : ∀ d n g, (S d n g).1.length = n) (conf : InvertConf) (cache : Invert.Cache) (hr : Reachable cache)
    (l : List Pic) (rs : List Pic) (g : σ) (h : (invert S conf cache (some l) g).1 = some (some rs)) (cmax : Nat) (hcm : ∀ im ∈ l, im.c ≤ cmax)
    (hex : ∃ im ∈ l, im.c = cmax) (i : Nat) (im : Pic) (hi : l[i]? = some im) (hc : 1 ≤ im.c) :
    let p := S conf.p (l.length * cmax) g
    let pc := S conf.perChannel l.length p.2
    (conf.threshold = none → (invert (replay [(p.1.drop (i * cmax)).take im.c, [pc.1.getD i 0], [(S conf.above l.length pc.2).1.getD i 0]]) conf [] (some [im]) 0).1 =
      some (rs[i]?.map (fun r => [r]))) ∧
    (∀ d, conf.threshold = some d → (invert (replay [(p.1.drop (i * cmax)).take im.c, [pc.1.getD i 0], [(S d l.length pc.2).1.getD i 0],
      [(S conf.above l.length (S d l.length pc.2).2).1.getD i 0]]) conf [] (some [im]) 0).1 = some (rs[i]?.map (fun r => [r]))) := by
  have e := maxChannels_eq (l.map (fun im => im.c)) cmax (by simpa using hcm) (by simpa using hex)
  have hi' : i < l.length := (List.getElem?_eq_some_iff.1 hi).1
  have hcm' := hcm im (List.mem_of_getElem? hi)
  simp only [invert, e, Option.map_eq_some_iff, Option.some.injEq] at h
  obtain ⟨rs', h1, rfl⟩ := h
  have single : ∀ s, (invertAll [] [(s, im)]).1 = (invertStep [] s im).1.map (fun r => [r]) := by
    intro s
    simp only [invertAll]
    cases (invertStep [] s im).1 <;> rfl
  have mask : ∀ (r : List ℚ) (pc : Bool) (x : Invert.Args), invertStep [] ⟨((r.take im.c)).map (fun v => decide (v > 1 / 2)), pc, x⟩ im =
      invertStep [] ⟨(r.take cmax).map (fun v => decide (v > 1 / 2)), pc, x⟩ im := by
    intro r pc x
    have t1 : ((r.take im.c).map (fun v => decide (v > 1 / 2))).take im.c = ((r.take cmax).map (fun v => decide (v > 1 / 2))).take im.c := by
      rw [← List.map_take, ← List.map_take, List.take_take, List.take_take, Nat.min_self, Nat.min_eq_left hcm']
    have t2 : ((r.take im.c).map (fun v => decide (v > 1 / 2))).getD 0 false = ((r.take cmax).map (fun v => decide (v > 1 / 2))).getD 0 false := by
      simp only [List.getD, List.getElem?_map, List.getElem?_take_of_lt (show 0 < im.c by omega), List.getElem?_take_of_lt (show 0 < cmax by omega)]
    simp only [invertStep, t1, t2]
  intro p pc
  constructor
  · intro ht
    obtain ⟨r, hr1, hr2⟩ := invertAll_get _ cache (reachable_good cache hr) rs' h1 i (_, im) (List.getElem?_zip_eq_some.2 ⟨by
      rw [drawInvert, List.getElem?_map, List.getElem?_range hi']; rfl, hi⟩)
    rw [hr1]
    simp only [invert, drawInvert, replay, List.length_cons, List.length_nil, List.range_succ, List.range_zero, List.nil_append, List.map_cons, List.map_nil,
      List.zip_cons_cons, List.zip_nil_right, List.getD_cons_zero, List.getD_cons_succ, ht, single, rowOf, Nat.zero_mul, List.drop_zero, maxChannels,
      List.foldl_cons, List.foldl_nil, Nat.zero_max, List.take_take, Nat.min_self, mask]
    simp only [ht, rowOf, List.getD, List.getElem?_replicate, hi', if_true, Option.getD_some] at hr2
    exact congrArg (fun o => Option.map some (Option.map (fun r => [r]) o)) hr2
  · intro d ht
    obtain ⟨r, hr1, hr2⟩ := invertAll_get _ cache (reachable_good cache hr) rs' h1 i (_, im) (List.getElem?_zip_eq_some.2 ⟨by
      rw [drawInvert, List.getElem?_map, List.getElem?_range hi']; rfl, hi⟩)
    rw [hr1]
    simp only [invert, drawInvert, replay, List.length_cons, List.length_nil, List.range_succ, List.range_zero, List.nil_append, List.map_cons, List.map_nil,
      List.zip_cons_cons, List.zip_nil_right, List.getD_cons_zero, List.getD_cons_succ, ht, single, rowOf, Nat.zero_mul, List.drop_zero, maxChannels,
      List.foldl_cons, List.foldl_nil, Nat.zero_max, List.take_take, Nat.min_self, mask]
    have hl := hS d l.length (S conf.perChannel l.length (S conf.p (l.length * cmax) g).2).2
    have hg : ((S d l.length (S conf.perChannel l.length (S conf.p (l.length * cmax) g).2).2).1.map some).getD i none =
        some ((S d l.length (S conf.perChannel l.length (S conf.p (l.length * cmax) g).2).2).1.getD i 0) := by
      simp only [List.getD, List.getElem?_map]
      rw [List.getElem?_eq_getElem (by rw [hl]; exact hi')]
      rfl
    simp only [ht, rowOf, hg] at hr2
    exact congrArg (fun o => Option.map some (Option.map (fun r => [r]) o)) hr2

end Imgaug.ScalarBatch
