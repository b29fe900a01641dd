import Verif.Model.Lambda
import Verif.Spec.Lambda
import Verif.Proofs.Boxes
import Mathlib.Tactic.Linarith
/-! Lemmas on `Lambda`. -/
namespace Imgaug.Lambda
open Imgaug Imgaug.Lambda.Spec

theorem mapM_id_some {ω : Type} (l : List ω) : (l.map some).mapM id = some l := by
  induction l with
  | nil => rfl
  | cons x xs ih => simp only [List.map_cons, List.mapM_cons, id, ih]; rfl

theorem mapM_id_iff {ω : Type} (l : List (Option ω)) (r : List ω) : l.mapM id = some r ↔ l = r.map some := by
  constructor
  · intro h
    induction l generalizing r with
    | nil => simp at h; subst h; rfl
    | cons x xs ih =>
      rw [List.mapM_cons] at h
      cases x with
      | none => simp at h
      | some x =>
        cases hxs : xs.mapM id with
        | none => simp [hxs] at h
        | some ys =>
          simp [hxs] at h
          subst h
          rw [ih ys hxs]
          rfl
  · rintro rfl
    exact mapM_id_some r

theorem check_moving (T : Pt → Pt) (S : Shape → Shape) (l : List KPsOnImage) :
    check (moving T S l) = some (l.map (fun k => ⟨k.kps.map T, S k.shape⟩)) := by
  rw [moving, check, mapM_id_iff, List.map_map]
  rfl

theorem zip_mapM {ω : Type} (toK : ω → KPsOnImage) (fromK : ω → KPsOnImage → Option ω) (g : KPsOnImage → KPsOnImage) (h : ω → ω)
    (l : List ω) (hl : ∀ x ∈ l, fromK x (g (toK x)) = some (h x)) :
    (l.zip ((l.map toK).map g)).mapM (fun p => fromK p.1 p.2) = some (l.map h) := by
  induction l with
  | nil => rfl
  | cons x xs ih =>
    simp only [List.map_cons, List.zip_cons_cons, List.mapM_cons]
    rw [hl x (by simp), ih (fun y hy => hl y (by simp [hy]))]
    rfl

theorem asKeypoints_map {ω : Type} (toK : ω → KPsOnImage) (fromK : ω → KPsOnImage → Option ω) (f : Option (List KPsOnImage → Ret KPsOnImage))
    (g : KPsOnImage → KPsOnImage) (h : ω → ω) (l : List ω) (hf : plain f (l.map toK) = some ((l.map toK).map g))
    (hl : ∀ x ∈ l, fromK x (g (toK x)) = some (h x)) : asKeypoints toK fromK f l = some (l.map h) := by
  unfold asKeypoints
  rw [hf]
  exact zip_mapM toK fromK g h l hl

theorem refillRings_map (rs : List Polygon) (T : Pt → Pt) :
    refillRings rs ((rs.flatMap (·.exterior)).map T) = rs.map (fun p => { p with exterior := p.exterior.map T }) := by
  induction rs with
  | nil => rfl
  | cons p ps ih =>
    have e : (p.exterior.length) = (p.exterior.map T).length := by simp
    simp only [refillRings, List.flatMap_cons, List.map_append, List.map_cons]
    rw [e, List.take_left, List.drop_left, ih]

theorem sum_lengths (rs : List Polygon) : (rs.flatMap (·.exterior)).length = (rs.map (·.exterior.length)).sum := by
  induction rs with
  | nil => rfl
  | cons p ps ih => simp

theorem ringsFromKps_map (r : RingsOnImage) (T : Pt → Pt) (s : Shape) :
    ringsFromKps r ⟨(ringsToKps r).kps.map T, s⟩ = some ⟨r.rings.map (fun p => { p with exterior := p.exterior.map T }), s⟩ := by
  rw [ringsFromKps, if_pos (by rw [List.length_map]; exact sum_lengths r.rings)]
  simp only [ringsToKps]
  rw [refillRings_map]

/-- The box around the moved corners. -/
def movedBox (T : Pt → Pt) (b : BB) : BB :=
  let p := T ⟨b.x1, b.y1⟩
  let q := T ⟨b.x2, b.y1⟩
  let r := T ⟨b.x2, b.y2⟩
  let s := T ⟨b.x1, b.y2⟩
  { b with x1 := BB.minOf p.x [q.x, r.x, s.x], y1 := BB.minOf p.y [q.y, r.y, s.y],
           x2 := BB.maxOf p.x [q.x, r.x, s.x], y2 := BB.maxOf p.y [q.y, r.y, s.y] }

theorem refill_map (bs : List BB) (T : Pt → Pt) :
    BBsOnImage.refill bs ((bs.flatMap BB.toKeypoints).map T) = bs.map (movedBox T) := by
  induction bs with
  | nil => rfl
  | cons b bs ih =>
    simp only [List.flatMap_cons, BB.toKeypoints, List.map_append, List.map_cons, List.map_nil, List.cons_append, List.nil_append,
      BBsOnImage.refill]
    rw [← ih]
    rfl

theorem boxesFromKps_map (b : BBsOnImage) (T : Pt → Pt) (s : Shape) :
    boxesFromKps b ⟨(boxesToKps b).kps.map T, s⟩ = some ⟨b.boxes.map (movedBox T), s⟩ := by
  rw [boxesFromKps, BBsOnImage.invertToKeypointsOnImage, if_pos]
  · simp only [boxesToKps, BBsOnImage.toKeypointsOnImage]
    rw [refill_map]
  · simp only [boxesToKps, BBsOnImage.toKeypointsOnImage, List.length_map]
    induction b.boxes with
    | nil => rfl
    | cons x xs ih => simp only [List.flatMap_cons, List.length_append, ih, BB.toKeypoints, List.length_cons, List.length_nil]; omega

theorem movedBox_moved (T : Pt → Pt) (b : BB) : Moved T b (movedBox T b) := by
  unfold Moved movedBox
  refine ⟨rfl, ?_, ?_, ?_, ?_, ?_⟩
  · intro c hc
    simp only [List.mem_cons, List.not_mem_nil, or_false] at hc
    simp only [BB.minOf, BB.maxOf, List.foldl]
    rcases hc with rfl | rfl | rfl | rfl <;> simp
  all_goals
    simp only [BB.minOf, BB.maxOf, List.foldl, List.mem_cons, List.not_mem_nil, or_false, exists_eq_or_imp, exists_eq_left]
    grind

theorem movedBox_id (b : BB) (h : Imgaug.Spec.WF b) : movedBox id b = b := by
  obtain ⟨x1, y1, x2, y2, l⟩ := b
  obtain ⟨h1, h2⟩ := h
  simp only at h1 h2
  simp only [movedBox, id, BB.minOf, BB.maxOf, List.foldl, BB.mk.injEq, and_true]
  refine ⟨?_, ?_, ?_, ?_⟩ <;> grind

theorem order_wf (b : BB) : (order b).x1 ≤ (order b).x2 ∧ (order b).y1 ≤ (order b).y2 := by
  unfold order
  by_cases h1 : b.x1 > b.x2
  · simp only [if_pos h1]
    by_cases h2 : b.y1 > b.y2
    · rw [if_pos h2]
      exact ⟨h1.le, h2.le⟩
    · rw [if_neg h2]
      exact ⟨h1.le, not_lt.1 h2⟩
  · simp only [if_neg h1]
    by_cases h2 : b.y1 > b.y2
    · rw [if_pos h2]
      exact ⟨not_lt.1 h1, h2.le⟩
    · rw [if_neg h2]
      exact ⟨not_lt.1 h1, not_lt.1 h2⟩

theorem mapM_mem {β γ : Type} (f : β → Option γ) (l : List β) (r : List γ) (h : l.mapM f = some r) :
    ∀ y ∈ r, ∃ x ∈ l, f x = some y := by
  induction l generalizing r with
  | nil => simp at h; subst h; simp
  | cons x xs ih =>
    rw [List.mapM_cons] at h
    cases hx : f x with
    | none => simp [hx] at h
    | some z =>
      cases hxs : xs.mapM f with
      | none => simp [hx, hxs] at h
      | some zs =>
        simp [hx, hxs] at h
        subst h
        intro y hy
        rcases List.mem_cons.1 hy with rfl | hy
        · exact ⟨x, by simp, hx⟩
        · obtain ⟨w, hw, e⟩ := ih zs hxs y hy
          exact ⟨w, by simp [hw], e⟩

theorem recoverOne_valid (env : Recover.Env) (r : RingsOnImage)
    (h : ∀ p ∈ r.rings, 3 ≤ p.exterior.length ∧ env.valid p.exterior = true ∧ Open p) : recoverOne env r r = some r := by
  obtain ⟨rs, s⟩ := r
  simp only at h
  unfold recoverOne
  simp only
  have : (rs.zip rs).mapM (fun p => (Recover.recoverFrom env p.1.exterior p.2.deepcopy).map (fun q => { p.1 with exterior := q.exterior }))
      = some rs := by
    induction rs with
    | nil => rfl
    | cons p ps ih =>
      obtain ⟨h1, h2, h3⟩ := h p (by simp)
      have e : p.deepcopy = p := h3
      have e' : p.deepcopy (some p.exterior) = p := h3
      simp only [List.zip_cons_cons, List.mapM_cons]
      rw [ih (fun q hq => h q (by simp [hq])), e, Recover.recoverFrom, if_neg (by omega)]
      simp only [e', h2, if_true]
      rfl
  rw [this]
  rfl

theorem recoverOne_moved (env : Recover.Env) (T : Pt → Pt) (s s' : Shape) (rs : List Polygon)
    (h : ∀ p ∈ rs, 3 ≤ p.exterior.length ∧ env.valid (p.exterior.map T) = true ∧ Open ⟨p.exterior.map T, p.label⟩) :
    recoverOne env ⟨rs.map (fun p => ⟨p.exterior.map T, p.label⟩), s'⟩ ⟨rs, s⟩ = some ⟨rs.map (fun p => ⟨p.exterior.map T, p.label⟩), s'⟩ := by
  unfold recoverOne
  simp only
  have : ((rs.map (fun p => (⟨p.exterior.map T, p.label⟩ : Polygon))).zip rs).mapM (fun p => (Recover.recoverFrom env p.1.exterior p.2.deepcopy).map
      (fun q => { p.1 with exterior := q.exterior })) = some (rs.map (fun p => ⟨p.exterior.map T, p.label⟩)) := by
    induction rs with
    | nil => rfl
    | cons p ps ih =>
      obtain ⟨h1, h2, h3⟩ := h p (by simp)
      have e : ∀ l : Option String, (Polygon.init (p.exterior.map T) l).exterior = p.exterior.map T := by
        intro l
        have := congrArg Polygon.exterior h3
        simp only at this
        unfold Polygon.init at this ⊢
        revert this
        cases (p.exterior.map T).head? <;> cases (p.exterior.map T).getLast? <;> simp only [imp_self]
        split <;> simp
      simp only [List.map_cons, List.zip_cons_cons, List.mapM_cons]
      rw [ih (fun q hq => h q (by simp [hq])), Recover.recoverFrom, if_neg (by rw [List.length_map]; omega)]
      simp only [Polygon.deepcopy, Option.getD_some, e, h2, if_true, Option.map_some]
      rfl
  rw [this]
  rfl

theorem fraction_on_image (p : Pt) (s : Shape) : decide (p.outOfImageFraction s < 1 / 2) = true ↔ OnImage p s := by
  have hb : p.isOutOfImage s = false ↔ OnImage p s := by
    simp only [Pt.isOutOfImage, OnImage, Bool.or_eq_false_iff, Bool.not_eq_false', Bool.and_eq_true, decide_eq_true_eq]
    tauto
  rw [decide_eq_true_eq, Pt.outOfImageFraction, ← hb]
  cases p.isOutOfImage s <;> norm_num

end Imgaug.Lambda
