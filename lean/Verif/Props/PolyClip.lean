import Verif.Proofs.PolyClip
import Verif.Props.Lines
import Verif.Proofs.Dtypes
/-! C115: clipping polygons to the image plane. -/
namespace Imgaug.PolyClip
open Imgaug

/-- C115 (partial): a polygon becomes one polygon for each component of its intersection with the image plane. All of them have its label, and only points of the
component, which are in the image plane. If no two neighbours are close to each other (`np.allclose`), they are the component: the same points in the
same cyclic order, hence with the same area. Missing: components with close neighbours, see `point_lost`. -/
theorem clipped_polygons_partial (lib : Lib) (hlib : LibOk lib) (inter : Pt → Pt → List Pt) (s : Shape) (p : Polygon) (h3 : 3 ≤ p.exterior.length) (g : Geom)
    (hg : lib p.exterior s = some g) (rs : List (List Pt)) (hr : rings g = some rs) :
    ∃ cs l, rs = cs.map closed ∧ clip lib inter s p = some l ∧
      List.Forall₂ (fun (c : List Pt) (q : Polygon) => q.label = p.label ∧ (∀ v ∈ q.exterior, InPlane s v ∧ v ∈ c) ∧
        (Spread c → q.exterior ~r c ∧ area q.exterior = area c)) cs l := by
  obtain ⟨cs, h1, h2, -⟩ := hlib _ _ _ hg _ hr
  have hne : p.exterior ≠ [] := by intro h; rw [h] at h3; simp at h3
  obtain ⟨r, e, hf⟩ := mapM_forall₂ (fun c => reorder p.exterior (fromShapely (closed c) p.label))
    (fun (c : List Pt) (l : List Polygon) => ∃ q, l = [q] ∧ (q.label = p.label ∧ (∀ v ∈ q.exterior, InPlane s v ∧ v ∈ c) ∧
        (Spread c → q.exterior ~r c ∧ area q.exterior = area c))) cs (by
    intro c hc
    obtain ⟨hl, hp⟩ := h2 c hc
    have hcn : c ≠ [] := by intro h; rw [h] at hl; simp at hl
    obtain ⟨i, q, hi, e, hq, -⟩ := reorder_spec p.exterior hne c hcn p.label
    rw [fromShapely_closed c (by omega)]
    refine ⟨[q], e, q, rfl, ?_⟩
    have rot := rot_isRotated c i hi.le
    obtain ⟨k1, k2⟩ := init_cases (c.drop i ++ c.take i) p.label
    rw [← hq] at k1 k2
    refine ⟨k1, ?_, ?_⟩
    · intro v hv
      have hv' : v ∈ c := by
        rcases k2 with k2 | ⟨-, k2, -⟩
        · rw [k2] at hv; exact rot.mem_iff.1 hv
        · rw [k2] at hv; exact rot.mem_iff.1 (List.dropLast_subset _ hv)
      exact ⟨hp v hv', hv'⟩
    · intro hs
      rcases k2 with k2 | ⟨-, k2, a, b, ha, hb, hab⟩
      · rw [k2]; exact ⟨rot, area_isRotated rot⟩
      · rw [hs _ rot a b ha hb] at hab; cases hab)
  refine ⟨cs, r.flatten, h1, ?_, ?_⟩
  · unfold clip
    rw [if_neg (by omega), if_neg (by omega)]
    simp only [hg, hr, Option.bind_eq_bind, Option.bind_some, h1, List.map_map]
    rw [List.mapM_map]
    simp only [Function.comp_def, e, Option.bind_some, Option.pure_def]
  · clear e h1 h2 hr
    induction hf with
    | nil => exact .nil
    | cons h _ ih =>
      obtain ⟨q, rfl, h⟩ := h
      exact .cons h ih

/-- C115: a polygon becomes as many polygons as its intersection with the image plane has parts: none if they touch at most in points and lines, one
for a polygon, and one for each of several polygons. -/
theorem number_of_polygons (lib : Lib) (hlib : LibOk lib) (inter : Pt → Pt → List Pt) (s : Shape) (p : Polygon) (h3 : 3 ≤ p.exterior.length) :
    (lib p.exterior s = some .thin → clip lib inter s p = some []) ∧
    (∀ r, lib p.exterior s = some (.polygon r) → ∃ q, clip lib inter s p = some [q]) ∧
    (∀ rs, lib p.exterior s = some (.multi rs) → ∃ l, clip lib inter s p = some l ∧ l.length = rs.length) := by
  refine ⟨fun hg => ?_, fun r hg => ?_, fun rs hg => ?_⟩
  · obtain ⟨cs, l, h1, h2, h3⟩ := clipped_polygons_partial lib hlib inter s p h3 _ hg [] rfl
    have : cs = [] := by simpa using h1.symm
    subst this
    cases h3
    exact h2
  · obtain ⟨cs, l, h1, h2, h3⟩ := clipped_polygons_partial lib hlib inter s p h3 _ hg [r] rfl
    have e := congrArg List.length h1
    have := h3.length_eq
    simp only [List.length_map, List.length_cons, List.length_nil] at e
    obtain ⟨q, rfl⟩ := List.length_eq_one_iff.1 (by omega : l.length = 1)
    exact ⟨q, h2⟩
  · obtain ⟨cs, l, h1, h2, h3⟩ := clipped_polygons_partial lib hlib inter s p h3 _ hg rs rfl
    refine ⟨l, h2, ?_⟩
    have e := congrArg List.length h1
    have := h3.length_eq
    simp only [List.length_map] at e
    omega

/-- C115: the first point of each of the polygons is, of all of their points, the closest to points of the clipped polygon. So it is a point of the clipped
polygon whenever the component has one. -/
theorem first_points (lib : Lib) (hlib : LibOk lib) (inter : Pt → Pt → List Pt) (s : Shape) (p : Polygon) (h3 : 3 ≤ p.exterior.length) (l : List Polygon)
    (h : clip lib inter s p = some l) :
    ∀ q ∈ l, ∃ u, q.exterior.head? = some u ∧ (∃ v₀ ∈ p.exterior, ∀ v ∈ p.exterior, ∀ w ∈ q.exterior, dist u v₀ ≤ dist w v) ∧
      ((∃ w ∈ q.exterior, w ∈ p.exterior) → u ∈ p.exterior) := by
  have hne : p.exterior ≠ [] := by intro h; rw [h] at h3; simp at h3
  unfold clip at h
  rw [if_neg (by omega), if_neg (by omega)] at h
  simp only [Option.bind_eq_bind, Option.bind_eq_some_iff, Option.pure_def, Option.some.injEq] at h
  obtain ⟨g, hg, rs, hr, qs, hq, rfl⟩ := h
  obtain ⟨cs, rfl, h2, -⟩ := hlib _ _ _ hg _ hr
  intro q hq'
  obtain ⟨ql, hql, hqm⟩ := List.mem_flatten.1 hq'
  obtain ⟨j, hj⟩ := List.mem_iff_getElem?.1 hql
  have hlen := Imgaug.Dtypes.mapM_len _ _ _ hq
  obtain ⟨c, hc⟩ : ∃ c, cs[j]? = some c := by
    have : j < cs.length := by
      have := (List.getElem?_eq_some_iff.1 hj).1
      simp at hlen; omega
    exact ⟨_, List.getElem?_eq_getElem this⟩
  obtain ⟨v, hv, e⟩ := Imgaug.Dtypes.mapM_nth _ _ _ hq j (fromShapely (closed c) p.label) (by simp [hc])
  rw [hj, Option.some.injEq] at hv
  subst hv
  obtain ⟨hl, -⟩ := h2 c (List.mem_of_getElem? hc)
  have hcn : c ≠ [] := by intro h; rw [h] at hl; simp at hl
  obtain ⟨i, q', hi, e', hq1, d, v₀, hv₀, hcl, hmin⟩ := reorder_spec p.exterior hne c hcn p.label
  rw [fromShapely_closed c (by omega), e', Option.some.injEq] at e
  subst e
  rw [List.mem_singleton] at hqm
  subst hqm
  have rot := rot_isRotated c i hi.le
  obtain ⟨⟨u, hu, hd⟩, -⟩ := closest_spec v₀ c i d hcl
  have hhead : (c.drop i ++ c.take i).head? = some u := by
    have : (c.drop i).head? = some u := by rw [List.head?_drop]; exact hu
    rw [List.head?_append, this]; rfl
  obtain ⟨-, k2⟩ := init_cases (c.drop i ++ c.take i) p.label
  rw [← hq1] at k2
  have hsub : ∀ w ∈ q.exterior, w ∈ c := by
    intro w hw
    rcases k2 with k2 | ⟨-, k2, -⟩
    · rw [k2] at hw; exact rot.mem_iff.1 hw
    · rw [k2] at hw; exact rot.mem_iff.1 (List.dropLast_subset _ hw)
  have hfirst : q.exterior.head? = some u := by
    rcases k2 with k2 | ⟨k0, k2, -⟩
    · rw [k2, hhead]
    · rw [k2]
      match hm : c.drop i ++ c.take i with
      | [] => rw [hm] at k0; simp at k0
      | [x] => rw [hm] at k0; simp at k0
      | x :: y :: m => rw [hm] at hhead; simpa using hhead
  refine ⟨u, hfirst, ⟨v₀, hv₀, ?_⟩, ?_⟩
  · intro v hv w hw
    rw [← hd]
    exact hmin v hv w (hsub w hw)
  · rintro ⟨w, hw, hwp⟩
    have h0 : dist u v₀ ≤ 0 := by
      rw [← hd]
      refine le_trans (hmin w hwp w (hsub w hw)) ?_
      simp [dist]
    have hx : u.x - v₀.x = 0 ∧ u.y - v₀.y = 0 := by
      unfold dist at h0
      constructor <;> nlinarith [sq_nonneg (u.x - v₀.x), sq_nonneg (u.y - v₀.y)]
    have : u = v₀ := by
      obtain ⟨ux, uy⟩ := u
      obtain ⟨vx, vy⟩ := v₀
      simp only at hx
      rw [Pt.mk.injEq]
      exact ⟨by linarith [hx.1], by linarith [hx.2]⟩
    rw [this]; exact hv₀

/-- C115: polygons that the image plane does not change come back with the same points in the same order, wherever shapely begins to list them; if shapely lists
them in the other direction, the order is reversed, but the first point remains the first. -/
theorem unclipped_polygons (lib : Lib) (inter : Pt → Pt → List Pt) (s : Shape) (a : Pt) (t : List Pt) (label : Option String) (h3 : 2 ≤ t.length)
    (hd : (a :: t).Nodup) (hs : Spread (a :: t)) (hs' : Spread (a :: t.reverse)) (c : List Pt) (hg : lib (a :: t) s = some (.polygon (closed c))) :
    (c ~r (a :: t) → clip lib inter s ⟨a :: t, label⟩ = some [⟨a :: t, label⟩]) ∧
    (c ~r (a :: t).reverse → clip lib inter s ⟨a :: t, label⟩ = some [⟨a :: t.reverse, label⟩]) := by
  have key : ∀ m : List Pt, (a :: m).Nodup → Spread (a :: m) → (∀ x, x ∈ a :: m ↔ x ∈ a :: t) → c ~r (a :: m) →
      clip lib inter s ⟨a :: t, label⟩ = some [⟨a :: m, label⟩] := by
    intro m hm hsm hmem hc
    have hac : a ∈ c := hc.mem_iff.2 (by simp)
    have hcn : c ≠ [] := List.ne_nil_of_mem hac
    obtain ⟨⟨i, d⟩, hcl⟩ := closest_some a c hcn
    obtain ⟨⟨q, hq, e1⟩, h2, -⟩ := closest_spec a c i d hcl
    have hd0 : dist q a ≤ 0 := by rw [← e1]; refine le_trans (h2 a hac) ?_; simp [dist]
    have hqa : q = a := dist_zero hd0
    have hi : i < c.length := (List.getElem?_eq_some_iff.1 hq).1
    have hb : bestIndex c (a :: t) none = some (some (i, d)) := by
      simp only [bestIndex, hcl, Option.bind_eq_bind, Option.bind_some]
      exact bestIndex_stays c hcn t i d (by rw [e1]; exact hd0)
    have hrot : c.drop i ++ c.take i = a :: m := by
      have r1 : (c.drop i ++ c.take i) ~r (a :: m) := (rot_isRotated c i hi.le).trans hc
      have hh : (c.drop i ++ c.take i).head? = some a := by
        have : (c.drop i).head? = some q := by rw [List.head?_drop]; exact hq
        rw [List.head?_append, this, hqa]; rfl
      exact rotated_same_head hm r1 hh
    have hre : reorder (a :: t) ⟨c, label⟩ = some [⟨a :: m, label⟩] := by
      simp only [reorder, hb, Option.bind_eq_bind, Option.bind_some, Polygon.changeFirstPointByIndex]
      rw [if_pos ⟨by omega, by exact_mod_cast hi⟩]
      have hinit : Polygon.init (a :: m) label = ⟨a :: m, label⟩ := by
        obtain ⟨k1, k2⟩ := init_cases (a :: m) label
        rcases k2 with k2 | ⟨-, -, x, y, hx, hy, hxy⟩
        · cases hP : Polygon.init (a :: m) label with
          | mk ex lb => rw [hP] at k1 k2; simp only at k1 k2; rw [k1, k2]
        · rw [hsm _ (List.IsRotated.refl _) x y hx hy] at hxy; cases hxy
      by_cases h0 : i = 0
      · subst h0
        simp only [List.drop_zero, List.take_zero, List.append_nil] at hrot
        simp [Polygon.deepcopy, hrot, hinit]
      · rw [if_neg (by exact_mod_cast h0)]
        simp [Polygon.deepcopy, hrot, hinit]
    unfold clip
    simp only [List.length_cons]
    rw [if_neg (by omega), if_neg (by omega)]
    simp only [hg, rings, Option.bind_eq_bind, Option.bind_some, List.map_cons, List.map_nil]
    rw [fromShapely_closed c (List.length_pos_iff.2 hcn)]
    simp [hre]
  refine ⟨key t hd hs (fun x => Iff.rfl), ?_⟩
  intro hc
  refine key t.reverse ?_ hs' (by simp) (hc.trans ?_)
  · simpa using hd
  · rw [List.reverse_cons]
    exact ⟨t.reverse.length, by rw [List.rotate_append_length_eq]; rfl⟩

/-- C115: clipping fails if shapely fails, or if shapely returns a geometry collection that is not empty: that is what it returns for polygons that have an area
and also a line or point apart from it in common with the image plane. Else it succeeds. Without points, there is nothing to clip; polygons of one
or two points become at most one polygon of points in the image, with the same label, and never fail. -/
theorem when_clipping_fails (lib : Lib) (hlib : LibOk lib) (inter : Pt → Pt → List Pt) (s : Shape) (hI : Lines.InterOk s inter) (p : Polygon) :
    (3 ≤ p.exterior.length → (clip lib inter s p = none ↔
      lib p.exterior s = none ∨ lib p.exterior s = some (.collection false) ∨ lib p.exterior s = some .other)) ∧
    (p.exterior.length = 0 → clip lib inter s p = some []) ∧
    (p.exterior.length = 1 ∨ p.exterior.length = 2 →
      clip lib inter s p = some [] ∨ ∃ q, clip lib inter s p = some [q] ∧ q.label = p.label ∧ ∀ v ∈ q.exterior, Lines.InImage s v ∧ Lines.OnLine p.exterior v) := by
  refine ⟨?_, ?_, ?_⟩
  · intro h3
    constructor
    · intro h
      by_contra hn
      simp only [not_or] at hn
      obtain ⟨n1, n2, n3⟩ := hn
      obtain ⟨g, hg⟩ := Option.ne_none_iff_exists'.1 n1
      have hr : ∃ rs, rings g = some rs := by
        cases g with
        | polygon r => exact ⟨_, rfl⟩
        | multi rs => exact ⟨_, rfl⟩
        | thin => exact ⟨_, rfl⟩
        | collection e => cases e with
          | true => exact ⟨_, rfl⟩
          | false => exact absurd hg n2
        | other => exact absurd hg n3
      obtain ⟨rs, hr⟩ := hr
      obtain ⟨cs, l, -, hl, -⟩ := clipped_polygons_partial lib hlib inter s p h3 g hg rs hr
      rw [hl] at h
      cases h
    · intro h
      unfold clip
      rw [if_neg (by omega), if_neg (by omega)]
      rcases h with h | h | h <;> simp [h, rings]
  · intro h
    rw [clip, if_pos h]
  · intro h
    rw [clip, if_neg (by omega), if_pos h]
    have hls : p.toLineString false = p.exterior := by simp [Polygon.toLineString]
    rw [hls]
    have hin := Lines.clip_inside s inter hI p.exterior
    have hcnt := clip_short s inter p.exterior (by omega)
    match hc : Lines.clip s inter p.exterior with
    | [] => left; rfl
    | [l] =>
      right
      rw [hc] at hin
      obtain ⟨-, h1, h2⟩ := hin l (by simp)
      refine ⟨_, rfl, ?_, ?_⟩
      · exact (init_cases l p.label).1
      · intro v hv
        have hv' : v ∈ l := by
          simp only [Polygon.deepcopy, Option.getD_some] at hv
          rcases (init_cases l p.label).2 with k | ⟨-, k, -⟩
          · rwa [k] at hv
          · rw [k] at hv; exact List.dropLast_subset _ hv
        exact ⟨h2 v (Lines.mem_onLine l v hv'), h1 v hv'⟩
    | _ :: _ :: _ => rw [hc] at hcnt; simp at hcnt

/-- C115 (partial): the area out of the image is the area of the polygon without the areas of the components, between 0 and the area of the polygon; the fraction of the area
that is out of the image is between 0 and 1. For polygons without area it is that of their lines. Missing: components with close neighbours, see
`point_lost`. -/
theorem out_of_image_area_partial (lib : Lib) (hlib : LibOk lib) (inter : Pt → Pt → List Pt) (s : Shape) (hI : Lines.InterOk s inter) (p : Polygon)
    (h3 : 3 ≤ p.exterior.length) (g : Geom) (hg : lib p.exterior s = some g) (cs : List (List Pt)) (hr : rings g = some (cs.map closed))
    (hc : ∀ c ∈ cs, 3 ≤ c.length ∧ Spread c) :
    outArea lib inter s p = some (area p.exterior - (cs.map area).sum) ∧
    0 ≤ area p.exterior - (cs.map area).sum ∧ area p.exterior - (cs.map area).sum ≤ area p.exterior ∧
    ∃ f, outFraction lib inter s p = some f ∧ 0 ≤ f ∧ f ≤ 1 := by
  have inj : ∀ a b : List (List Pt), (∀ c ∈ a, 3 ≤ c.length) → (∀ c ∈ b, 3 ≤ c.length) → a.map closed = b.map closed → a = b := by
    intro a
    induction a with
    | nil => intro b _ _ h; cases b with
      | nil => rfl
      | cons => simp at h
    | cons x a ih =>
      intro b ha hb h
      cases b with
      | nil => simp at h
      | cons y b =>
        simp only [List.map_cons, List.cons.injEq] at h
        rw [closed_inj (ha x (by simp)) (hb y (by simp)) h.1, ih b (fun c hc => ha c (by simp [hc])) (fun c hc => hb c (by simp [hc])) h.2]
  obtain ⟨cs', e1, hin, hsum⟩ := hlib _ _ _ hg _ hr
  have : cs = cs' := inj _ _ (fun c h => (hc c h).1) (fun c h => (hin c h).1) e1
  subst this
  obtain ⟨cs', l, e2, hl, hf⟩ := clipped_polygons_partial lib hlib inter s p h3 g hg _ hr
  have hcs' : ∀ c ∈ cs', 3 ≤ c.length := by
    intro c hcc
    have : closed c ∈ cs.map closed := by rw [e2]; exact List.mem_map_of_mem hcc
    obtain ⟨c', hc', e⟩ := List.mem_map.1 this
    have h1 := (hc c' hc').1
    have h2 : (closed c').length = (closed c).length := by rw [e]
    by_contra hlt
    simp only [closed, List.length_append, List.length_take] at h2
    omega
  have : cs = cs' := inj _ _ (fun c h => (hc c h).1) hcs' e2
  subst this
  have hareas : (l.map (fun q => area q.exterior)) = cs.map area := by
    clear hl e1 e2 hr hin hsum hcs' inj
    induction hf with
    | nil => rfl
    | cons h _ ih =>
      simp only [List.map_cons]
      rw [(h.2.2 (hc _ (by simp)).2).2, ih (fun c hcc => hc c (by simp [hcc]))]
  have hnn : 0 ≤ (cs.map area).sum := List.sum_nonneg (by
    intro x hx; obtain ⟨c, -, rfl⟩ := List.mem_map.1 hx; exact area_nonneg c)
  have harea : outArea lib inter s p = some (area p.exterior - (cs.map area).sum) := by
    rw [outArea, hl, Option.map_some, hareas]
    split_ifs with h0
    · have : cs = [] := by
        have := hf.length_eq
        rw [h0] at this
        exact List.length_eq_zero_iff.1 this
      rw [this]; simp
    · rfl
  refine ⟨harea, by linarith, by linarith, ?_⟩
  unfold outFraction
  split_ifs with h0
  · obtain ⟨-, f0, f1⟩ := Lines.fraction_range s inter hI (p.toLineString true)
    exact ⟨_, rfl, f0, f1⟩
  · rw [harea]
    have hpos : 0 < area p.exterior := lt_of_le_of_ne (area_nonneg _) (Ne.symm h0)
    refine ⟨_, rfl, ?_, ?_⟩
    · have : 0 ≤ (area p.exterior - (cs.map area).sum) / area p.exterior := div_nonneg (by linarith) hpos.le
      show (0 : ℝ) ≤ ((_ : ℚ) : ℝ)
      exact_mod_cast this
    · have : (area p.exterior - (cs.map area).sum) / area p.exterior ≤ 1 := by rw [div_le_one hpos]; linarith
      show ((_ : ℚ) : ℝ) ≤ 1
      exact_mod_cast this

/-- C115: all polygons of an image: their clipped parts, in the order of the polygons. -/
theorem all_polygons (lib : Lib) (inter : Pt → Pt → List Pt) (s : Shape) (ps r : List Polygon) (h : clipAll lib inter s ps = some r) :
    ∃ parts : List (List Polygon), r = parts.flatten ∧ List.Forall₂ (fun p part => clip lib inter s p = some part) ps parts := by
  simp only [clipAll, Option.map_eq_some_iff] at h
  obtain ⟨parts, h, rfl⟩ := h
  exact ⟨parts, rfl, forall₂_of_mapM _ _ _ h⟩

/-- C115 is false for components with close neighbours: here a rectangle loses its corner at the border of the image, since the distance of 0.005 between it
and the next point of the polygon is taken for none; its area is too small by 0.025. -/
theorem point_lost (lib : Lib) (inter : Pt → Pt → List Pt)
    (h : lib [⟨1010, 0⟩, ⟨1000 - 1 / 200, 0⟩, ⟨990, 0⟩, ⟨990, 10⟩, ⟨1010, 10⟩] ⟨1000, 1000⟩ =
      some (.polygon (closed [⟨1000, 0⟩, ⟨1000 - 1 / 200, 0⟩, ⟨990, 0⟩, ⟨990, 10⟩, ⟨1000, 10⟩]))) :
    clip lib inter ⟨1000, 1000⟩ ⟨[⟨1010, 0⟩, ⟨1000 - 1 / 200, 0⟩, ⟨990, 0⟩, ⟨990, 10⟩, ⟨1010, 10⟩], none⟩ =
      some [⟨[⟨1000 - 1 / 200, 0⟩, ⟨990, 0⟩, ⟨990, 10⟩, ⟨1000, 10⟩], none⟩] ∧
    area [⟨1000, 0⟩, ⟨1000 - 1 / 200, 0⟩, ⟨990, 0⟩, ⟨990, 10⟩, ⟨1000, 10⟩] = 100 ∧
    area [⟨1000 - 1 / 200, 0⟩, ⟨990, 0⟩, ⟨990, 10⟩, ⟨1000, 10⟩] = 100 - 25 / 1000 := by
  refine ⟨?_, by decide +kernel, by decide +kernel⟩
  have e : reorder [⟨1010, 0⟩, ⟨1000 - 1 / 200, 0⟩, ⟨990, 0⟩, ⟨990, 10⟩, ⟨1010, 10⟩]
      (fromShapely (closed [⟨1000, 0⟩, ⟨1000 - 1 / 200, 0⟩, ⟨990, 0⟩, ⟨990, 10⟩, ⟨1000, 10⟩]) none) =
      some [⟨[⟨1000 - 1 / 200, 0⟩, ⟨990, 0⟩, ⟨990, 10⟩, ⟨1000, 10⟩], none⟩] := by decide +kernel
  unfold clip
  rw [if_neg (by decide), if_neg (by decide)]
  simp only [h, rings, Option.bind_eq_bind, Option.bind_some, List.map_cons, List.map_nil, List.mapM_cons, List.mapM_nil, e, Option.pure_def]
  rfl

/-- A library as assumed: it returns polygons within the image plane, and nothing for others. -/
def demoLib : Lib := fun l s =>
  if 3 ≤ l.length ∧ ∀ p ∈ l, 0 ≤ p.x ∧ p.x ≤ s.w ∧ 0 ≤ p.y ∧ p.y ≤ s.h then some (.polygon (closed l)) else some (.collection true)

example : LibOk demoLib := by
  intro l s g h rs hr
  unfold demoLib at h
  split_ifs at h with hc
  · cases h
    cases hr
    exact ⟨[l], rfl, by simpa [InPlane] using hc, by simp⟩
  · cases h
    simp [rings] at hr
    subst hr
    exact ⟨[], rfl, by simp, by simpa using area_nonneg l⟩

/-- The hypotheses are met: a triangle that shapely lists from another point. -/
example : Spread [⟨1, 1⟩, ⟨5, 1⟩, ⟨1, 5⟩] ∧ [⟨5, 1⟩, ⟨1, 5⟩, ⟨1, 1⟩] ~r [(⟨1, 1⟩ : Pt), ⟨5, 1⟩, ⟨1, 5⟩] ∧ [(⟨1, 1⟩ : Pt), ⟨5, 1⟩, ⟨1, 5⟩].Nodup := by
  refine ⟨?_, ⟨2, rfl⟩, by decide +kernel⟩
  intro l' h a b ha hb
  have : l' ∈ [(⟨1, 1⟩ : Pt), ⟨5, 1⟩, ⟨1, 5⟩].cyclicPermutations := List.mem_cyclicPermutations_iff.2 h
  have hl : [(⟨1, 1⟩ : Pt), ⟨5, 1⟩, ⟨1, 5⟩].cyclicPermutations = [[⟨1, 1⟩, ⟨5, 1⟩, ⟨1, 5⟩], [⟨5, 1⟩, ⟨1, 5⟩, ⟨1, 1⟩], [⟨1, 5⟩, ⟨1, 1⟩, ⟨5, 1⟩]] := by decide +kernel
  rw [hl] at this
  simp only [List.mem_cons, List.not_mem_nil, or_false] at this
  rcases this with rfl | rfl | rfl <;> simp at ha hb <;> subst ha <;> subst hb <;> decide +kernel

end Imgaug.PolyClip
