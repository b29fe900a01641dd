import Verif.Model.Coords
/-! Model of `_ConcavePolygonRecoverer` (imgaug/augmentables/polys.py 2187-2762).

Parameters of the model: shapely's validity test, scipy's convex hull, the euclidean distance used for duplicates, the noise
steps, the intersection search, and the order in which candidates are tried (random subsampling and sorting). -/
namespace Imgaug.Recover
open Imgaug

/-- `_remove_consecutive_duplicate_points`, polys.py 2285-2294: the loop. `same p q` stands for
`norm(p - q) < threshold_duplicate_points`. -/
def dedupLoop (same : Pt → Pt → Bool) : List Pt → List Pt → List Pt
  | result, [] => result
  | result, p :: ps =>
    match result.getLast? with
    | some q => dedupLoop same (if same p q then result else result ++ [p]) ps
    | none => dedupLoop same (result ++ [p]) ps

/-- `_remove_consecutive_duplicate_points`, polys.py 2285-2301. -/
def removeConsecutiveDuplicates (same : Pt → Pt → Bool) (points : List Pt) : List Pt :=
  let result := dedupLoop same [] points
  match result.head?, result.getLast? with
  | some a, some b => if result.length ≥ 2 && same a b then result.dropLast else result
  | _, _ => result

/-- `_insert_intersection_points`, polys.py 2577-2591. `none` is the assertion on the lengths. -/
def insertIntersectionPoints (exterior : List Pt) (add : List (List Pt)) : Option (List Pt) :=
  if exterior.length = add.length then some ((exterior.zip add).flatMap (fun (p, ps) => p :: ps)) else none

/-- A candidate: a point that is not used yet and a used point after which it may be inserted. -/
abbrev Cand := Nat × Nat

/-- The combinations of polys.py 2644-2673: all pairs of left and kept points whose distance along the ring of `n` points is
at most `maxDist`. `np.tile` / `np.repeat`: kept points are the outer loop. -/
def combos (n maxDist : Nat) (kept left : List Nat) : List Cand :=
  (kept.flatMap (fun k => left.map (fun l => (l, k)))).filter (fun (l, k) =>
    let lo := min l k
    let hi := max l k
    min (hi - lo) (n - hi + lo) ≤ maxDist)

/-- State of the fit loop. -/
structure FitSt where
  kept : List Nat
  left : List Nat
  changes : Nat
  isValid : Bool
  done : List Cand

/-- The loop over the candidates, polys.py 2721-2748. `.inl` is the early return of line 2746; `none` is the `IndexError`
of line 2730. `valid ids` stands for `Polygon([points[i] for i in ids]).is_valid`. -/
def fitCandidates (valid : List Nat → Bool) (changesMax : Nat) : List Cand → FitSt → Option (List Nat ⊕ FitSt)
  | [], s => some (.inr s)
  | (l, k) :: rest, s =>
    if (l, k) ∈ s.done then fitCandidates valid changesMax rest s
    else
      match s.kept.findIdx? (· == k) with
      | none => none
      | some pos =>
        let hyp := s.kept.insertIdx (pos + 1) l
        let done := (k, l) :: (l, k) :: s.done
        if valid hyp then
          if s.changes + 1 ≥ changesMax then some (.inl hyp)
          else fitCandidates valid changesMax rest
            ⟨hyp, s.left.filter (· != l), s.changes + 1, true, done⟩
        else fitCandidates valid changesMax rest { s with done := done }

/-- The outer loop, polys.py 2622-2762. `fuel` is the number of iterations that may still be started; `order it` stands for
subsampling, sorting and truncating the candidates (lines 2674-2707). Lines 2670-2672: the larger distance is used in the
first iteration. -/
def fitLoop (valid : List Nat → Bool) (order : Nat → List Cand → List Cand) (n changesMax : Nat) :
    (fuel iteration : Nat) → (kept left : List Nat) → (changes : Nat) → Option (List Nat)
  | 0, _, kept, _, _ => some kept
  | fuel + 1, iteration, kept, left, changes =>
    let maxDist := if iteration > 0 then 1 else 2
    match fitCandidates valid changesMax (order iteration (combos n maxDist kept left)) ⟨kept, left, changes, false, []⟩ with
    | none => none
    | some (.inl result) => some result
    | some (.inr s) =>
      if !s.isValid && iteration > 0 then some s.kept
      else fitLoop valid order n changesMax fuel (iteration + 1) s.kept s.left s.changes

/-- `_fit_best_valid_polygon`, polys.py 2593-2762, with the limits of lines 2205 and 2208: at most 100 changes; the loop
leaves when `iteration > 3`, i.e. after four rounds. `none` also covers the `return None` for fewer than two points (the
caller then fails). -/
def fitBest (valid : List Nat → Bool) (hull : List Nat) (order : Nat → List Cand → List Cand) (n : Nat) :
    Option (List Nat) :=
  if n < 2 then none
  else if valid (List.range n) then some (List.range n)
  else fitLoop valid order n 100 4 0 hull ((List.range n).filter (fun i => !hull.contains i)) 0

/-- The external parts of `recover_from`. -/
structure Env where
  /-- `is_valid` of a polygon with this exterior. -/
  valid : List Pt → Bool
  same : Pt → Pt → Bool
  /-- `_fix_polygon_is_line` after its assertion, polys.py 2308-2319. -/
  fixLine : List Pt → List Pt
  /-- `_jitter_duplicate_points`, polys.py 2332-2394. -/
  jitter : List Pt → List Pt
  /-- `_generate_intersection_points` and `_oversample_intersection_points`, polys.py 2411-2575. -/
  inter : List Pt → List (List Pt)
  /-- `scipy.spatial.ConvexHull(points).vertices`. -/
  hull : List Pt → List Nat
  order : Nat → List Cand → List Cand

/-- `points[i] for i in ids`; `none` is an `IndexError`. -/
def pick (points : List Pt) (ids : List Nat) : Option (List Pt) := ids.mapM (fun (i : Nat) => points[i]?)

/-- Validity of the polygon built from some of the points (goes through the `Polygon` constructor). -/
def validIds (valid : List Pt → Bool) (points : List Pt) (ids : List Nat) : Bool :=
  match pick points ids with
  | some ps => valid (Polygon.init ps).exterior
  | none => false

/-- `recover_from`, polys.py 2234-2283. `none` is one of the assertions of lines 2241, 2305, 2581 (or a failure of the fit
step). -/
def recoverFrom (env : Env) (newExterior : List Pt) (old : Polygon) : Option Polygon :=
  if newExterior.length < 3 then none
  else
    let polygon := old.deepcopy (some newExterior)
    if env.valid polygon.exterior then some polygon
    else
      let ext := removeConsecutiveDuplicates env.same newExterior
      if ext.length < 3 then none
      else
        let ext := env.jitter (env.fixLine ext)
        match insertIntersectionPoints ext (env.inter ext) with
        | none => none
        | some pts =>
          match fitBest (validIds env.valid pts) (env.hull pts) env.order pts.length with
          | none => none
          | some ids => (pick pts ids).map (fun ps => old.deepcopy (some ps))

end Imgaug.Recover
