import Verif.Spec.AffineBatch
import Verif.Proofs.Affine
import Verif.Proofs.AffineArgs
import Verif.Proofs.Handle
import Verif.Props.Affine
import Verif.Props.AffineArgs
import Verif.Props.Dtypes
/-! Lemmas about `Affine` on batches. -/
namespace Imgaug.AffineBatch
open Imgaug Imgaug.Dtypes Imgaug.AffineArgs
open Imgaug.Affine hiding lo hi

theorem holds_zero (d : DType) : Holds d 0 := by
  refine ⟨?_, ?_, fun _ => ⟨0, by simp⟩⟩
  · have : Dtypes.lo d ≤ 0 := by
      unfold Dtypes.lo
      split
      · have : (0 : Int) < 2 ^ (8 * d.bytes - 1) := by positivity
        omega
      · rfl
      · rfl
      · have h1 : (0 : Int) < 2 ^ prec d := by positivity
        have h2 : (0 : Int) ≤ (2 ^ prec d - 1) * 2 ^ (maxExp d + 1 - prec d) := mul_nonneg (by omega) (by positivity)
        omega
    exact_mod_cast this
  · have : 0 ≤ Dtypes.hi d := by
      unfold Dtypes.hi
      split
      · have : (0 : Int) < 2 ^ (8 * d.bytes - 1) := by positivity
        omega
      · have : (0 : Int) < 2 ^ (8 * d.bytes) := by positivity
        omega
      · omega
      · have h1 : (0 : Int) < 2 ^ prec d := by positivity
        exact mul_nonneg (by omega) (by positivity)
    exact_mod_cast this

theorem spots_ok (out : DType → DType) : LibOk (spots out) out where
  typed := by
    intro c d h w ch x y _
    unfold spots
    split
    · assumption
    · exact holds_zero _
  moves := by
    intro c d h w ch x y x' y' _ hp hi hx hy _ _ he
    have hex : ∃ p : Nat × Nat, p.1 < w ∧ p.2 < h ∧ c.matrix.apply ((p.1 : ℝ), (p.2 : ℝ)) = ((x' : ℝ), (y' : ℝ)) := ⟨(x, y), hx, hy, he⟩
    have h1 := hex.choose_spec
    have h2 := hi (h1.2.2.trans he.symm)
    simp only [Prod.mk.injEq, Nat.cast_inj] at h2
    have h3 : pick c h w ch y' x' = ch y x := by
      unfold pick
      rw [dif_pos hex, h2.1, h2.2]
    unfold spots
    rw [h3, if_pos (hp x y hx hy)]
  copies := by
    intro c d h w ch x' y' _ hp _ hh hw hcv
    by_cases hex : ∃ p : Nat × Nat, p.1 < w ∧ p.2 < h ∧ c.matrix.apply ((p.1 : ℝ), (p.2 : ℝ)) = ((x' : ℝ), (y' : ℝ))
    · right
      have h1 := hex.choose_spec
      refine ⟨_, _, h1.1, h1.2.1, ?_⟩
      have h3 : pick c h w ch y' x' = ch hex.choose.2 hex.choose.1 := by
        unfold pick
        rw [dif_pos hex]
      unfold spots
      rw [h3, if_pos (hp _ _ h1.1 h1.2.1)]
    · by_cases hm : c.mode = "constant"
      · left
        refine ⟨hm, ?_⟩
        unfold spots pick
        rw [dif_neg hex, if_pos hm, if_pos hcv]
      · right
        refine ⟨0, 0, hw, hh, ?_⟩
        unfold spots pick
        rw [dif_neg hex, if_neg hm, if_pos (hp 0 0 hw hh)]

theorem fits : ∀ d ∈ all, d ≠ ⟨.f, 16⟩ → d ≠ ⟨.u, 8⟩ → d ≠ ⟨.i, 8⟩ → BoundFits ⟨.f, 8⟩ d := by decide +kernel

theorem ranges : ∀ d ∈ all, d ≠ ⟨.f, 16⟩ → lo ⟨.f, 8⟩ ≤ lo d ∧ hi d ≤ hi ⟨.f, 8⟩ := by decide +kernel

theorem holds_f8 {d : DType} (h1 : d ∈ all) (h2 : d ≠ ⟨.f, 16⟩) {v : ℚ} (h : Holds d v) : Holds ⟨.f, 8⟩ v := by
  obtain ⟨r1, r2⟩ := ranges d h1 h2
  have r1' : (lo ⟨.f, 8⟩ : ℚ) ≤ lo d := by exact_mod_cast r1
  have r2' : (hi d : ℚ) ≤ hi ⟨.f, 8⟩ := by exact_mod_cast r2
  exact ⟨r1'.trans h.1, h.2.1.trans r2', fun hk => absurd rfl hk⟩

theorem between_f8 {d : DType} (h1 : d ∈ all) (h2 : d ≠ ⟨.f, 16⟩) {v : ℚ} (h : (lo d : ℚ) ≤ v) (h' : v ≤ hi d) : Holds ⟨.f, 8⟩ v := by
  obtain ⟨r1, r2⟩ := ranges d h1 h2
  have r1' : (lo ⟨.f, 8⟩ : ℚ) ≤ lo d := by exact_mod_cast r1
  have r2' : (hi d : ℚ) ≤ hi ⟨.f, 8⟩ := by exact_mod_cast r2
  exact ⟨r1'.trans h, h'.trans r2', fun hk => absurd rfl hk⟩

/-- What happens to a pixel after the call of a library. -/
structure Post (src d : DType) (post : ℚ → ℚ) : Prop where
  keeps : ∀ v, Holds d v → post v = v
  holds : ∀ v, Holds src v → Holds d (post v)

theorem bool_holds {d : DType} (hd : d ∈ all) (hk : d.kind = .b) : d = ⟨.b, 1⟩ := by
  simp only [all, List.mem_cons, List.not_mem_nil, or_false] at hd
  rcases hd with rfl | rfl | rfl | rfl | rfl | rfl | rfl | rfl | rfl | rfl | rfl | rfl | rfl <;> simp_all

theorem bool_val {v : ℚ} (h : Holds ⟨.b, 1⟩ v) : v = 0 ∨ v = 1 := by
  obtain ⟨h1, h2, h3⟩ := h
  obtain ⟨n, rfl⟩ := h3 (by simp)
  have e1 : lo ⟨.b, 1⟩ = 0 := by decide +kernel
  have e2 : hi ⟨.b, 1⟩ = 1 := by decide +kernel
  rw [e1] at h1
  rw [e2] at h2
  have h1' : (0 : Int) ≤ n := by exact_mod_cast h1
  have h2' : n ≤ (1 : Int) := by exact_mod_cast h2
  have : n = 0 ∨ n = 1 := by omega
  rcases this with rfl | rfl <;> simp

theorem holds_one : Holds ⟨.b, 1⟩ 1 := by
  refine ⟨?_, ?_, fun _ => ⟨1, by simp⟩⟩ <;> decide +kernel

/-- `image_warped > 0.5`. -/
theorem post_bool (src : DType) : Post src ⟨.b, 1⟩ (fun v => if v > 1 / 2 then 1 else 0) where
  keeps := by
    intro v hv
    rcases bool_val hv with rfl | rfl <;> norm_num
  holds := by
    intro v _
    split
    · exact holds_one
    · exact holds_zero _

theorem change_holds (src dst : DType) (hd : dst ∈ all) (hc : clippable src = true) (hf : BoundFits src dst) (hh : ∀ v, Holds dst v → Holds src v) :
    Post src dst (fun v => (changeDtype src dst true v).getD 0) where
  keeps := by
    intro v hv
    simp only [change_dtype_keeps_partial src dst hd hc hf v (hh v hv) hv, Option.getD_some]
  holds := by
    intro v hv
    by_cases hne : src = dst
    · subst hne
      simpa [changeDtype] using hv
    · obtain ⟨w, h1, h2, -⟩ := change_dtype_partial src dst hd hne hc hf v hv
      simpa [h1] using h2

/-- The pixel-wise part of `warpSk`. -/
def postSk (d : DType) (v : ℚ) : ℚ := if d.kind = .b then (if v > 1 / 2 then 1 else 0) else (changeDtype ⟨.f, 8⟩ d true v).getD 0

/-- The pixel-wise part of `warpCv`. -/
def postCv (d : DType) (order : ℚ) (v : ℚ) : ℚ :=
  if d.kind = .b then (if v > 1 / 2 then 1 else 0)
  else if d = ⟨.i, 1⟩ ∨ d = ⟨.f, 2⟩ then (changeDtype (cvDtype d order) d true v).getD 0 else v

theorem postSk_ok (d : DType) (hd : d ∈ all) (h1 : d ≠ ⟨.f, 16⟩) (h2 : d ≠ ⟨.u, 8⟩) (h3 : d ≠ ⟨.i, 8⟩) : Post ⟨.f, 8⟩ d (postSk d) := by
  unfold postSk
  by_cases hk : d.kind = .b
  · simp only [if_pos hk]
    rw [bool_holds hd hk]
    exact post_bool _
  · simp only [if_neg hk]
    exact change_holds _ _ hd (by decide) (fits d hd h1 h2 h3) (fun v hv => holds_f8 hd h1 hv)

theorem holds_mono {d e : DType} (h1 : lo e ≤ lo d) (h2 : hi d ≤ hi e) (h3 : e.kind = .f ∨ d.kind ≠ .f) {v : ℚ} (h : Holds d v) : Holds e v := by
  have r1' : (lo e : ℚ) ≤ lo d := by exact_mod_cast h1
  have r2' : (hi d : ℚ) ≤ hi e := by exact_mod_cast h2
  refine ⟨r1'.trans h.1, h.2.1.trans r2', fun hk => ?_⟩
  rcases h3 with h3 | h3
  · exact absurd h3 hk
  · exact h.2.2 h3

theorem cvDtype_holds (d : DType) (order : ℚ) {v : ℚ} (h : Holds d v) : Holds (cvDtype d order) v := by
  unfold cvDtype
  split
  · rename_i hd
    rcases hd with rfl | rfl
    · exact holds_mono (by decide +kernel) (by decide +kernel) (Or.inl rfl) h
    · exact holds_mono (by decide +kernel) (by decide +kernel) (Or.inl rfl) h
  · split
    · rename_i hd
      obtain ⟨rfl, -⟩ := hd
      exact holds_mono (by decide +kernel) (by decide +kernel) (Or.inr (by simp)) h
    · exact h

theorem postCv_ok (d : DType) (hd : d ∈ all) (order : ℚ) : Post (cvDtype d order) d (postCv d order) := by
  unfold postCv
  by_cases hk : d.kind = .b
  · simp only [if_pos hk]
    rw [bool_holds hd hk]
    exact post_bool _
  · simp only [if_neg hk]
    by_cases hc : d = ⟨.i, 1⟩ ∨ d = ⟨.f, 2⟩
    · simp only [if_pos hc]
      refine change_holds _ _ hd ?_ ?_ (fun v hv => cvDtype_holds d order hv)
      · rcases hc with rfl | rfl
        · unfold cvDtype; simp; split <;> decide
        · unfold cvDtype; simp; decide
      · rcases hc with rfl | rfl
        · unfold cvDtype; simp; split <;> decide +kernel
        · unfold cvDtype; simp; decide +kernel
    · simp only [if_neg hc]
      have : cvDtype d order = d := by
        unfold cvDtype
        rw [if_neg, if_neg]
        · tauto
        · rintro (rfl | rfl)
          · exact hk rfl
          · exact hc (Or.inr rfl)
      rw [this]
      exact ⟨fun _ _ => rfl, fun _ h => h⟩

/-- What a call of a library does to the channels of an array. -/
structure Done (a r : Arr) (m : M3) (order : ℚ) (mode : String) (cval : List ℚ) (out : Shape) (lib : Lib) (src dst : DType) (post : ℚ → ℚ)
    (ord : ℚ) (fill : Nat → ℚ) : Prop where
  dt : r.dt = a.dt
  h : r.h = out.h
  w : r.w = out.w
  chans : r.chans.length = a.chans.length
  post' : Post dst a.dt post
  src' : ∀ v, Holds a.dt v → Holds src v
  dst' : ∀ v, Holds a.dt v → Holds dst v
  ord' : ord = 0 ↔ order = 0
  at' : ∀ (c : Nat) (ch : Chan), a.chans[c]? = some ch →
    r.chans[c]? = some (fun y x => post (lib ⟨m, out.h, out.w, ord, mode, fill c⟩ src a.h a.w ch y x))
  fillHolds : (∀ v ∈ cval, (lo a.dt : ℚ) ≤ v ∧ v ≤ hi a.dt) → ∀ c, Holds dst (fill c)
  fillOf : (∀ v ∈ cval, (lo a.dt : ℚ) ≤ v ∧ v ≤ hi a.dt) →
    ∀ c, ∃ k, (k = 0 ∨ (k = c ∧ a.chans.length ≤ 3)) ∧ FillOf a.dt (cval.getD k 0) (post (fill c))

theorem getD_range (d : DType) (cval : List ℚ) (h : ∀ v ∈ cval, (lo d : ℚ) ≤ v ∧ v ≤ hi d) (k : Nat) :
    (lo d : ℚ) ≤ cval.getD k 0 ∧ cval.getD k 0 ≤ hi d := by
  rw [List.getD_eq_getElem?_getD]
  cases hk : cval[k]? with
  | none => exact ⟨(holds_zero d).1, (holds_zero d).2.1⟩
  | some v => exact h v (List.mem_of_getElem? hk)

theorem sk_done (sk : Lib) (a r : Arr) (ha : a.dt ∈ all) (m : M3) (order : ℚ) (mode : String) (cval : List ℚ) (out : Shape)
    (h : warpSk sk a m (max (min (cval.getD 0 0) (hi a.dt)) (lo a.dt)) mode order out = some r) :
    ∃ src fill, Done a r m order mode cval out sk src ⟨.f, 8⟩ (postSk a.dt) order fill := by
  unfold warpSk at h
  split at h
  · cases h
  rename_i hn
  simp only [List.mem_cons, List.not_mem_nil, or_false, not_or] at hn
  obtain ⟨⟨n1, n2, n3⟩, -⟩ := hn
  simp only [Option.some.injEq] at h
  subst h
  have hp := postSk_ok a.dt ha n3 n1 n2
  refine ⟨if a.dt.kind = .b ∧ order ≠ 0 then ⟨.f, 4⟩ else a.dt, fun _ => max (min (cval.getD 0 0) (hi a.dt)) (lo a.dt),
    ⟨rfl, rfl, rfl, by simp, hp, ?_, fun v hv => holds_f8 ha n3 hv, Iff.rfl, ?_, ?_, ?_⟩⟩
  · intro v hv
    split
    · rename_i hb
      rw [bool_holds ha hb.1] at hv
      exact holds_mono (by decide +kernel) (by decide +kernel) (Or.inl rfl) hv
    · exact hv
  · intro c ch hc
    simp only [List.getElem?_map, hc, Option.map_some, Option.some.injEq]
    funext y x
    unfold postSk
    split <;> rfl
  · intro hr c
    obtain ⟨r1, r2⟩ := getD_range a.dt cval hr 0
    simp only [min_eq_left r2, max_eq_left r1]
    exact between_f8 ha n3 r1 r2
  · intro hr c
    refine ⟨0, Or.inl rfl, ?_⟩
    obtain ⟨r1, r2⟩ := getD_range a.dt cval hr 0
    simp only [min_eq_left r2, max_eq_left r1]
    generalize cval.getD 0 0 = v at r1 r2
    unfold FillOf
    split
    · rename_i hb
      unfold postSk
      rw [if_pos hb]
      split <;> simp
    · rename_i hf
      exact hp.keeps v ⟨r1, r2, fun hk => absurd hf hk⟩
    · rename_i hb hf
      right
      unfold postSk
      rw [if_neg hb]
      obtain ⟨w, h1, -, h3⟩ := change_dtype_partial ⟨.f, 8⟩ a.dt ha (by intro h; exact hf (by rw [← h])) (by decide) (fits a.dt ha n3 n1 n2) v
        (between_f8 ha n3 r1 r2)
      rw [h1, Option.getD_some, h3, if_pos ⟨rfl, hf⟩]
      obtain ⟨z1, z2⟩ := npRound_holds a.dt v r1 r2
      unfold clamp
      rw [max_eq_left (by exact_mod_cast z1), min_eq_left (by exact_mod_cast z2)]

theorem pyInt_zero : pyInt 0 = 0 := by decide +kernel

theorem cv_done (cv : Lib) (a r : Arr) (ha : a.dt ∈ all) (m : M3) (order : ℚ) (mode : String) (cval : List ℚ) (out : Shape)
    (h : warpCv cv a m (cval.map (fun v => if a.dt.kind = .f then v else (pyInt v : ℚ))) mode order out = some r) :
    ∃ fill, Done a r m order mode cval out cv (cvDtype a.dt order) (cvDtype a.dt order) (postCv a.dt order) (cvFlag order) fill := by
  unfold warpCv at h
  split at h
  · cases h
  simp only [Option.some.injEq] at h
  subst h
  have hp := postCv_ok a.dt ha order
  have hget : ∀ k, (cval.map (fun v => if a.dt.kind = .f then v else (pyInt v : ℚ))).getD k 0 =
      if a.dt.kind = .f then cval.getD k 0 else (pyInt (cval.getD k 0) : ℚ) := by
    intro k
    rw [List.getD_eq_getElem?_getD, List.getD_eq_getElem?_getD, List.getElem?_map]
    cases cval[k]? with
    | none => simp [pyInt_zero]
    | some v => simp
  have hfill : ∀ v, (lo a.dt : ℚ) ≤ v → v ≤ hi a.dt → Holds a.dt (if a.dt.kind = .f then v else (pyInt v : ℚ)) := by
    intro v h1 h2
    by_cases hk : a.dt.kind = .f
    · rw [if_pos hk]
      exact ⟨h1, h2, fun hk' => absurd hk hk'⟩
    · rw [if_neg hk]
      exact ⟨by exact_mod_cast Params.le_pyInt h1, by exact_mod_cast Params.pyInt_le h2, fun _ => ⟨_, rfl⟩⟩
  have hfc : ∀ c, ∃ k, (k = 0 ∨ (k = c ∧ a.chans.length ≤ 3)) ∧
      (if a.chans.length ≤ 3 then (cval.map (fun v => if a.dt.kind = .f then v else (pyInt v : ℚ))).getD c 0
        else (cval.map (fun v => if a.dt.kind = .f then v else (pyInt v : ℚ))).getD 0 0) =
      if a.dt.kind = .f then cval.getD k 0 else (pyInt (cval.getD k 0) : ℚ) := by
    intro c
    split
    · rename_i hl
      exact ⟨c, Or.inr ⟨rfl, hl⟩, hget c⟩
    · exact ⟨0, Or.inl rfl, hget 0⟩
  refine ⟨fun c => if a.chans.length ≤ 3 then (cval.map (fun v => if a.dt.kind = .f then v else (pyInt v : ℚ))).getD c 0
        else (cval.map (fun v => if a.dt.kind = .f then v else (pyInt v : ℚ))).getD 0 0,
    ⟨rfl, rfl, rfl, by simp, hp, fun v hv => cvDtype_holds _ _ hv, fun v hv => cvDtype_holds _ _ hv, ?_, ?_, ?_, ?_⟩⟩
  · unfold cvFlag
    grind
  · intro c ch hc
    simp only [List.getElem?_mapIdx, hc, Option.map_some, Option.some.injEq]
    funext y x
    unfold postCv
    split
    · rfl
    · split <;> rfl
  · intro hr c
    obtain ⟨k, -, hk⟩ := hfc c
    simp only [hk]
    obtain ⟨r1, r2⟩ := getD_range a.dt cval hr k
    exact cvDtype_holds _ _ (hfill _ r1 r2)
  · intro hr c
    obtain ⟨k, h1, hk⟩ := hfc c
    refine ⟨k, h1, ?_⟩
    simp only [hk]
    obtain ⟨r1, r2⟩ := getD_range a.dt cval hr k
    rw [hp.keeps _ (hfill _ r1 r2)]
    have hb := hfill _ r1 r2
    generalize cval.getD k 0 = v at *
    unfold FillOf
    split
    · rename_i hk'
      rw [bool_holds ha hk'] at hb ⊢
      exact bool_val hb
    · rename_i hf
      rw [if_pos hf]
    · rename_i hf
      rw [if_neg hf]
      exact Or.inl rfl

theorem warp_done {cv sk : Lib} (hl : LibsOk cv sk) (b : Backend) (a r : Arr) (ha : a.dt ∈ all) (he : ¬ a.empty) (m : M3) (order : ℚ) (mode : String)
    (cval : List ℚ) (out : Shape) (h : warp cv sk b a m order mode cval out = some r) :
    ∃ lib outd src post ord fill, LibOk lib outd ∧ Done a r m order mode cval out lib src (outd src) post ord fill := by
  unfold warp at h
  rw [if_neg he] at h
  extract_lets b1 b2 at h
  by_cases hb : b = .skimage ∨ (b = .auto ∧ (b1 || b2) = true)
  · rw [if_pos hb] at h
    obtain ⟨src, fill, h⟩ := sk_done sk a r ha m order mode cval out h
    exact ⟨sk, fun _ => ⟨.f, 8⟩, src, _, _, fill, hl.sk, h⟩
  · rw [if_neg hb] at h
    by_cases hd : b2 = true
    · rw [if_pos hd] at h
      cases h
    · rw [if_neg hd] at h
      obtain ⟨fill, h⟩ := cv_done cv a r ha m order mode cval out h
      exact ⟨cv, id, _, _, _, fill, hl.cv, h⟩

theorem aff_toMatrix (p : Samples) (arr img : Shape) (s : ℝ) (hs : s = 0 ∨ s = 1 / 2) : Aff (toMatrix p arr img false s).1 := by
  unfold toMatrix
  split
  · exact aff_one
  · exact (plain_spec p arr img _ hs).1

theorem near_identity {m : M3} (haff : Aff m) (hid : m.isIdentity) (u : ℝ × ℝ) (c : ℝ) (h1 : 1 ≤ c) (hx : |u.1| ≤ c) (hy : |u.2| ≤ c) :
    |(m.apply u).1 - u.1| ≤ 9 / 10000 * c ∧ |(m.apply u).2 - u.2| ≤ 9 / 10000 * c := by
  unfold M3.isIdentity at hid
  rw [apply_aff haff]
  have n1 := abs_nonneg (m.a - 1)
  have n2 := abs_nonneg m.b
  have n3 := abs_nonneg m.c
  have n4 := abs_nonneg m.d
  have n5 := abs_nonneg (m.e - 1)
  have n6 := abs_nonneg m.f
  have n7 := abs_nonneg m.g
  have n8 := abs_nonneg m.h
  have n9 := abs_nonneg (m.i - 1)
  have key : ∀ α β γ : ℝ, |α| + |β| + |γ| ≤ 9 / 10000 → |α * u.1 + β * u.2 + γ| ≤ 9 / 10000 * c := by
    intro α β γ hs
    calc |α * u.1 + β * u.2 + γ| ≤ |α * u.1| + |β * u.2| + |γ| := abs_add_three _ _ _
      _ = |α| * |u.1| + |β| * |u.2| + |γ| := by rw [abs_mul, abs_mul]
      _ ≤ |α| * c + |β| * c + |γ| * c := by
        have := mul_le_mul_of_nonneg_left hx (abs_nonneg α)
        have := mul_le_mul_of_nonneg_left hy (abs_nonneg β)
        have := mul_le_mul_of_nonneg_left h1 (abs_nonneg γ)
        linarith
      _ = (|α| + |β| + |γ|) * c := by ring
      _ ≤ _ := mul_le_mul_of_nonneg_right hs (by linarith)
  constructor
  · have := key (m.a - 1) m.b m.c (by linarith)
    rwa [show m.a * u.1 + m.b * u.2 + m.c - u.1 = (m.a - 1) * u.1 + m.b * u.2 + m.c by ring]
  · have := key m.d (m.e - 1) m.f (by linarith)
    rwa [show m.d * u.1 + m.e * u.2 + m.f - u.2 = m.d * u.1 + (m.e - 1) * u.2 + m.f by ring]

theorem nat_near (a b : Nat) (h : |(a : ℝ) - b| < 1) : a = b := by
  rw [abs_lt] at h
  have h1 : (a : ℝ) < b + 1 := by linarith [h.2]
  have h2 : (b : ℝ) < a + 1 := by linarith [h.1]
  have h1' : a < b + 1 := by exact_mod_cast h1
  have h2' : b < a + 1 := by exact_mod_cast h2
  omega

/-- A pixel that a matrix close to the identity takes to a pixel is taken to itself. -/
theorem same_pixel {m : M3} (haff : Aff m) (hid : m.isIdentity) (k : ℝ) (hk0 : 0 ≤ k) (hk : k ≤ 1) (x y x' y' : Nat) (hx : x < 1000) (hy : y < 1000)
    (h : m.apply ((x : ℝ) + k, (y : ℝ) + k) = ((x' : ℝ) + k, (y' : ℝ) + k)) : x' = x ∧ y' = y := by
  have hx' : (x : ℝ) + 1 ≤ 1000 := by exact_mod_cast hx
  have hy' : (y : ℝ) + 1 ≤ 1000 := by exact_mod_cast hy
  have px : (0 : ℝ) ≤ x := by positivity
  have py : (0 : ℝ) ≤ y := by positivity
  obtain ⟨n1, n2⟩ := near_identity haff hid ((x : ℝ) + k, (y : ℝ) + k) 1000 (by norm_num)
    (by rw [abs_of_nonneg (by simp only; linarith)]; simp only; linarith) (by rw [abs_of_nonneg (by simp only; linarith)]; simp only; linarith)
  rw [h] at n1 n2
  simp only [add_sub_add_right_eq_sub] at n1 n2
  exact ⟨nat_near _ _ (lt_of_le_of_lt n1 (by norm_num)), nat_near _ _ (lt_of_le_of_lt n2 (by norm_num))⟩

theorem at_some (a : Arr) (c x y : Nat) (v : ℚ) : a.at c x y = some v ↔ x < a.w ∧ y < a.h ∧ ∃ ch, a.chans[c]? = some ch ∧ ch y x = v := by
  unfold Arr.at
  split
  · rename_i h
    simp [h.1, h.2]
  · rename_i h
    simp only [reduceCtorEq, false_iff]
    tauto

theorem moved_of_done {lib : Lib} {outd : DType → DType} {src : DType} {post : ℚ → ℚ} {ord : ℚ} {fill : Nat → ℚ} {a r : Arr} {m : M3} {order : ℚ}
    {mode : String} {cval : List ℚ} {out : Shape} (hl : LibOk lib outd) (hv : a.Valid)
    (h : Done a r m order mode cval out lib src (outd src) post ord fill) (hi : Function.Injective m.apply) (c x y x' y' : Nat) (v : ℚ)
    (hat : a.at c x y = some v) (hx : x' < r.w) (hy : y' < r.h) (he : m.apply ((x : ℝ), (y : ℝ)) = ((x' : ℝ), (y' : ℝ))) : r.at c x' y' = some v := by
  rw [at_some] at hat ⊢
  obtain ⟨h1, h2, ch, h3, h4⟩ := hat
  refine ⟨hx, hy, _, h.at' c ch h3, ?_⟩
  have hp := hv.2 ch (List.mem_of_getElem? h3)
  have := hl.moves ⟨m, out.h, out.w, ord, mode, fill c⟩ src a.h a.w ch x y x' y' (fun x y hx hy => h.src' _ (hp x y hx hy))
    (fun x y hx hy => h.dst' _ (hp x y hx hy)) hi h1 h2 (by rw [← h.w]; exact hx) (by rw [← h.h]; exact hy) he
  simp only [this, h4]
  exact h.post'.keeps v (by rw [← h4]; exact hp x y h1 h2)

theorem valid_of_done {lib : Lib} {outd : DType → DType} {src : DType} {post : ℚ → ℚ} {ord : ℚ} {fill : Nat → ℚ} {a r : Arr} {m : M3} {order : ℚ}
    {mode : String} {cval : List ℚ} {out : Shape} (hl : LibOk lib outd) (hv : a.Valid)
    (h : Done a r m order mode cval out lib src (outd src) post ord fill) : r.Valid := by
  refine ⟨by rw [h.dt]; exact hv.1, ?_⟩
  intro ch hch x y _ _
  obtain ⟨c, hc⟩ := List.getElem?_of_mem hch
  have hlt : c < a.chans.length := by
    rw [← h.chans]
    exact (List.getElem?_eq_some_iff.mp hc).1
  have h3 := h.at' c _ (List.getElem?_eq_getElem hlt)
  rw [hc, Option.some.injEq] at h3
  subst h3
  rw [h.dt]
  have hp := hv.2 _ (List.getElem_mem hlt)
  exact h.post'.holds _ (hl.typed _ _ _ _ _ _ _ (fun x y hx hy => h.src' _ (hp x y hx hy)))

theorem copies_of_done {lib : Lib} {outd : DType → DType} {src : DType} {post : ℚ → ℚ} {ord : ℚ} {fill : Nat → ℚ} {a r : Arr} {m : M3} {order : ℚ}
    {mode : String} {cval : List ℚ} {out : Shape} (hl : LibOk lib outd) (hv : a.Valid) (he : ¬ a.empty)
    (h : Done a r m order mode cval out lib src (outd src) post ord fill) (h0 : order = 0)
    (hc : ∀ v ∈ cval, (lo a.dt : ℚ) ≤ v ∧ v ≤ hi a.dt) (c x' y' : Nat) (v : ℚ) (hat : r.at c x' y' = some v) :
    (mode = "constant" ∧ ∃ k, (k = 0 ∨ (k = c ∧ a.chans.length ≤ 3)) ∧ FillOf a.dt (cval.getD k 0) v) ∨ ∃ x y, a.at c x y = some v := by
  rw [at_some] at hat
  obtain ⟨-, -, ch, h3, h4⟩ := hat
  have hlt : c < a.chans.length := by
    rw [← h.chans]
    exact (List.getElem?_eq_some_iff.mp h3).1
  have h5 := h.at' c _ (List.getElem?_eq_getElem hlt)
  rw [h3, Option.some.injEq] at h5
  have hp := hv.2 _ (List.getElem_mem hlt)
  have he' : ¬ (a.h = 0 ∨ a.w = 0 ∨ a.chans = []) := he
  rcases hl.copies ⟨m, out.h, out.w, ord, mode, fill c⟩ src a.h a.w a.chans[c] x' y' (fun x y hx hy => h.src' _ (hp x y hx hy))
    (fun x y hx hy => h.dst' _ (hp x y hx hy)) (h.ord'.mpr h0) (by omega) (by omega) (h.fillHolds hc c) with ⟨m1, m2⟩ | ⟨x, y, hx, hy, e⟩
  · left
    refine ⟨m1, ?_⟩
    obtain ⟨k, k1, k2⟩ := h.fillOf hc c
    refine ⟨k, k1, ?_⟩
    rw [h5] at h4
    simp only [m2] at h4
    rwa [h4] at k2
  · right
    refine ⟨x, y, ?_⟩
    rw [at_some]
    refine ⟨hx, hy, _, List.getElem?_eq_getElem hlt, ?_⟩
    rw [h5] at h4
    simp only [e, h.post'.keeps _ (hp x y hx hy)] at h4
    exact h4

theorem col_spec {α β : Type} (f : Row → α → Option β) (rows : List Row) (x : Option (List α)) (y : Option (List β)) (h : col f rows x = some y)
    (hn : ∀ l, x = some l → l.length = rows.length) : Column (fun r a b => f r a = some b) rows x y := by
  cases x with
  | none =>
    simp only [col, Option.some.injEq] at h
    subst h
    trivial
  | some l =>
    simp only [col, Option.map_eq_some_iff] at h
    obtain ⟨l', h1, rfl⟩ := h
    have hl := hn l rfl
    refine ⟨by rw [mapM_len _ _ _ h1, List.length_zip, hl, min_self], fun i a hi => ?_⟩
    have hlt : i < rows.length := by rw [← hl]; exact (List.getElem?_eq_some_iff.mp hi).1
    have hz : (l.zip rows)[i]? = some (a, rows[i]) := by
      rw [List.getElem?_zip_eq_some]
      exact ⟨hi, List.getElem?_eq_getElem hlt⟩
    obtain ⟨b, b1, b2⟩ := mapM_nth _ _ _ h1 i _ hz
    exact ⟨rows[i], b, List.getElem?_eq_getElem hlt, b1, b2⟩

theorem col'_spec {α β : Type} (f : Row → α → β) (rows : List Row) (x : Option (List α)) (hn : ∀ l, x = some l → l.length = rows.length) :
    Column (fun r a b => f r a = b) rows x (col' f rows x) := by
  cases x with
  | none => trivial
  | some l =>
    have hl := hn l rfl
    refine ⟨by simp [hl], fun i a hi => ?_⟩
    have hlt : i < rows.length := by rw [← hl]; exact (List.getElem?_eq_some_iff.mp hi).1
    have hz : (l.zip rows)[i]? = some (a, rows[i]) := by
      rw [List.getElem?_zip_eq_some]
      exact ⟨hi, List.getElem?_eq_getElem hlt⟩
    refine ⟨rows[i], _, List.getElem?_eq_getElem hlt, ?_, rfl⟩
    simp [hz]

theorem column_mono {α β : Type} {R R' : Row → α → β → Prop} {rows : List Row} {x : Option (List α)} {y : Option (List β)} (h : Column R rows x y)
    (hi : ∀ r ∈ rows, ∀ a b, R r a b → R' r a b) : Column R' rows x y := by
  unfold Column at h ⊢
  split
  · trivial
  · simp only at h
    refine ⟨h.1, fun i a ha => ?_⟩
    obtain ⟨r, b, h1, h2, h3⟩ := h.2 i a ha
    exact ⟨r, b, h1, h2, hi r (List.mem_of_getElem? h1) a b h3⟩
  · rename_i h1 h2
    split at h
    · exact h1 rfl rfl
    · exact h2 _ _ rfl rfl
    · exact h

theorem tables : ∀ d ∈ all,
    (d ∈ cvOrder0 ↔ ¬ d ∈ [(⟨.u, 4⟩ : DType), ⟨.u, 8⟩, ⟨.i, 8⟩, ⟨.f, 16⟩]) ∧
    (d ∈ cvOrderNot0 ↔ ¬ d ∈ [(⟨.u, 4⟩ : DType), ⟨.u, 8⟩, ⟨.i, 8⟩, ⟨.f, 16⟩] ∧ ¬ d = ⟨.i, 4⟩) ∧
    (d ∈ [(⟨.u, 8⟩ : DType), ⟨.i, 8⟩, ⟨.f, 16⟩] ↔
      ¬ d ∈ [(⟨.b, 1⟩ : DType), ⟨.u, 1⟩, ⟨.u, 2⟩, ⟨.u, 4⟩, ⟨.i, 1⟩, ⟨.i, 2⟩, ⟨.i, 4⟩, ⟨.f, 2⟩, ⟨.f, 4⟩, ⟨.f, 8⟩]) ∧
    (d ∈ [(⟨.b, 1⟩ : DType), ⟨.u, 1⟩, ⟨.u, 2⟩, ⟨.i, 1⟩, ⟨.i, 2⟩, ⟨.f, 2⟩, ⟨.f, 4⟩, ⟨.f, 8⟩] ↔ d ∈ cvOrderNot0) ∧
    (d ∈ [(⟨.u, 8⟩ : DType), ⟨.i, 8⟩, ⟨.f, 16⟩] → d ∈ [(⟨.u, 4⟩ : DType), ⟨.u, 8⟩, ⟨.i, 8⟩, ⟨.f, 16⟩]) ∧
    (d = ⟨.i, 4⟩ → ¬ d ∈ [(⟨.u, 4⟩ : DType), ⟨.u, 8⟩, ⟨.i, 8⟩, ⟨.f, 16⟩]) := by decide +kernel

theorem warpSk_isSome (sk : Lib) (a : Arr) (m : M3) (cval : ℚ) (mode : String) (order : ℚ) (out : Shape) :
    (warpSk sk a m cval mode order out).isSome = true ↔ ¬ (a.dt ∈ [(⟨.u, 8⟩ : DType), ⟨.i, 8⟩, ⟨.f, 16⟩] ∨ mode ∉ modes) := by
  unfold warpSk
  split
  · rename_i h; simp only [Option.isSome_none, Bool.false_eq_true, h, not_true_eq_false]
  · rename_i h; simp only [Option.isSome_some, h, not_false_eq_true]

theorem warpCv_isSome (cv : Lib) (a : Arr) (m : M3) (cval : List ℚ) (mode : String) (order : ℚ) (out : Shape) :
    (warpCv cv a m cval mode order out).isSome = true ↔
      ¬ (a.dt ∈ [(⟨.u, 4⟩ : DType), ⟨.u, 8⟩, ⟨.i, 8⟩, ⟨.f, 16⟩] ∨ (order ≠ 0 ∧ a.dt = ⟨.i, 4⟩) ∨ mode ∉ modes) := by
  unfold warpCv
  split
  · rename_i h; simp only [Option.isSome_none, Bool.false_eq_true, h, not_true_eq_false]
  · rename_i h; simp only [Option.isSome_some, h, not_false_eq_true]

end Imgaug.AffineBatch
