import Verif.Model.Coords
import Verif.Model.Dtypes
import Mathlib.Data.Real.Sqrt
/-! Model of the search for points at which an outline crosses itself: imgaug/external/poly_point_isect_py2py3.py 135-157, 222-620 and 653-768,
`_generate_intersection_points` and `_oversample_intersection_points` of imgaug/augmentables/polys.py 2411-2575, and
`compute_line_intersection_point` of imgaug/imgaug.py 721-785.

Parameters. The balanced tree with the segments that the sweep line crosses is a parameter: its order is not consistent (it compares with a tolerance),
so that no order is assumed. In which order Python returns the elements of a set is a parameter, too.

Simplifications. Floating point numbers are exact. The sorted map of the events is a sorted list. -/
namespace Imgaug.Isect
open Imgaug

/-- A segment. -/
abbrev Seg := Pt × Pt

/-- `a < b` for tuples. -/
def lt (a b : Pt) : Bool := decide (a.x < b.x ∨ (a.x = b.x ∧ a.y < b.y))

/-- `line_point_factor_v2` with `default=-NUM_ONE`, poly_point_isect_py2py3.py 653-657. -/
def factor (p a b : Pt) : ℚ :=
  let d := (b.x - a.x) * (b.x - a.x) + (b.y - a.y) * (b.y - a.y)
  if d ≠ 0 then ((b.x - a.x) * (p.x - a.x) + (b.y - a.y) * (p.y - a.y)) / d else -1

/-- `isect_seg_seg_v2_point` after the points were ordered, poly_point_isect_py2py3.py 670-691, with `bias` 0. -/
def core (a b c d : Pt) : Option Pt :=
  let div := (b.x - a.x) * (d.y - c.y) - (b.y - a.y) * (d.x - c.x)
  if div = 0 then none
  else
    let p : Pt := ⟨((c.x - d.x) * (a.x * b.y - a.y * b.x) - (a.x - b.x) * (c.x * d.y - c.y * d.x)) / div,
      ((c.y - d.y) * (a.x * b.y - a.y * b.x) - (a.y - b.y) * (c.x * d.y - c.y * d.x)) / div⟩
    if factor p a b < 0 ∨ factor p a b > 1 then none
    else if factor p c d < 0 ∨ factor p c d > 1 then none
    else some p

/-- The points of a segment in ascending order, poly_point_isect_py2py3.py 560-565 and 662-665. -/
def order (s : Seg) : Seg := if lt s.2 s.1 then (s.2, s.1) else s

/-- `(v1, v2) > (v3, v4)`, poly_point_isect_py2py3.py 667. -/
def segGt (s t : Seg) : Bool := lt t.1 s.1 || (s.1 == t.1 && lt t.2 s.2)

/-- `isect_seg_seg_v2_point`, poly_point_isect_py2py3.py 660-691. -/
def point (s t : Seg) : Option Pt :=
  let s := order s
  let t := order t
  if segGt s t then core t.1 t.2 s.1 s.2 else core s.1 s.2 t.1 t.2

/-- `len_squared_v2v2(p, q) < NUM_EPS_SQ`, poly_point_isect_py2py3.py 56, 83 and 648-650. -/
def near (p q : Pt) : Bool := decide ((p.x - q.x) * (p.x - q.x) + (p.y - q.y) * (p.y - q.y) < 1 / 10000 * (1 / 10000))

/-- The point is at an end of the segment, poly_point_isect_py2py3.py 307-310. -/
def ends (p : Pt) (s : Seg) : Bool := near p s.1 || near p s.2

/-- `a0 not in (b0, b1) and a1 not in (b0, b1)`, poly_point_isect_py2py3.py 728. -/
def apart (s t : Seg) : Bool := s.1 != t.1 && s.1 != t.2 && s.2 != t.1 && s.2 != t.2

/-- All pairs of elements, the earlier one first: the two loops, poly_point_isect_py2py3.py 724-727. -/
def pairs : List Seg → List (Seg × Seg)
  | [] => []
  | s :: l => l.map (fun t => (s, t)) ++ pairs l

/-- `isect_segments__naive`, poly_point_isect_py2py3.py 698-734. -/
def naive (l : List Seg) : List Pt :=
  (pairs (l.map (fun s => if s.1.x ≤ s.2.x then s else (s.2, s.1)))).filterMap (fun q => if apart q.1 q.2 then point q.1 q.2 else none)

/-- The edges of a polygon, poly_point_isect_py2py3.py 600-602. -/
def ring (l : List Pt) : List Seg := l.zip (l.drop 1 ++ l.take 1)

/-- `isect_polygon__naive`, poly_point_isect_py2py3.py 737-768. -/
def naivePolygon (l : List Pt) : List Pt :=
  (pairs (ring l)).filterMap (fun q =>
    if apart q.1 q.2 then (point q.1 q.2).filter (fun p => !(ends p q.1 && ends p q.2)) else none)

/-- The types of events at segments, poly_point_isect_py2py3.py 104-109. -/
inductive Kind where
  | stop | start | vertical
  deriving DecidableEq

/-- An event at the segment with the given position. -/
structure Ev where
  kind : Kind
  id : Nat
  seg : Seg
  deriving DecidableEq

/-- An event in the queue; those of type INTERSECTION have no segment. -/
inductive QEv where
  | at (e : Ev)
  | cross
  deriving DecidableEq

/-- `y_intercept_x`, poly_point_isect_py2py3.py 135-157. `none` is `None`. -/
def yIntercept (s : Seg) (x : ℚ) : Option ℚ :=
  if s.2.x - s.1.x = 0 then none
  else if x ≤ s.1.x then some s.1.y
  else if x ≥ s.2.x then some s.2.y
  else
    let d0 := x - s.1.x
    let d1 := s.2.x - x
    if d0 > d1 then
      let ifac := d0 / (s.2.x - s.1.x)
      some (s.1.y * (1 - ifac) + s.2.y * ifac)
    else
      let fac := d1 / (s.2.x - s.1.x)
      some (s.1.y * fac + s.2.y * (1 - fac))

/-- What the comparison of events depends on: `_current_event_point_x` and `_before`. -/
structure Ctx where
  x : ℚ
  before : Bool

/-- The tree of events, poly_point_isect_py2py3.py 336-381, with the asserts of `insert` and `remove`: `none` is an exception. -/
structure Tree (T : Type) where
  empty : T
  insert : Ctx → Ev → T → Option T
  remove : Ctx → Ev → T → Option (Bool × T)
  above : Ctx → Ev → T → Option Ev
  below : Ctx → Ev → T → Option Ev
  slice : Ctx → Ev → T → List Ev

/-- `SweepLine`, poly_point_isect_py2py3.py 243-248, with its queue. The position of the line is `None` before the first event, where it is not read. -/
structure St (T : Type) where
  inter : List (Pt × List Ev)
  queue : List (Pt × List QEv)
  x : ℚ
  before : Bool
  tree : T

/-- `EventQueue.offer`, poly_point_isect_py2py3.py 527-542. -/
def offer (p : Pt) (e : QEv) : List (Pt × List QEv) → List (Pt × List QEv)
  | [] => [(p, [e])]
  | (q, l) :: t => if p = q then (q, l ++ [e]) :: t else if lt p q then (p, [e]) :: (q, l) :: t else (q, l) :: offer p e t

/-- `set.add` -/
def addTo (l : List Ev) (e : Ev) : List Ev := if e ∈ l then l else l ++ [e]

variable {T : Type}

/-- `_check_intersection`, poly_point_isect_py2py3.py 282-326. -/
def check (st : St T) (a b : Option Ev) : St T :=
  match a, b with
  | some a, some b =>
    if a = b then st
    else match point a.seg b.seg with
      | none => st
      | some p =>
        if ends p a.seg && ends p b.seg then st
        else
          let old := (st.inter.lookup p).getD []
          { st with
            inter := st.inter.filter (fun i => i.1 ≠ p) ++ [(p, addTo (addTo old a) b)]
            queue := if old = [] ∧ st.x ≤ p.x then offer p .cross st.queue else st.queue }
  | _, _ => st

/-- The context of the comparisons. -/
def St.ctx (st : St T) : Ctx := ⟨st.x, st.before⟩

/-- The insertion of an event and the tests with its neighbours, poly_point_isect_py2py3.py 405-411 and 446-452. -/
def insertAndCheck (V : Tree T) (e : Ev) (st : St T) : Option (St T) :=
  (V.insert st.ctx e st.tree).map (fun t =>
    let st := { st with tree := t }
    check (check st (some e) (V.above st.ctx e t)) (some e) (V.below st.ctx e t))

/-- The removal of the events at an intersection, poly_point_isect_py2py3.py 434-439: the events that were removed and the state. -/
def removeAll (V : Tree T) : List Ev → St T → Option (List Ev × St T)
  | [], st => some ([], st)
  | e :: l, st => (V.remove st.ctx e st.tree).bind (fun r =>
      (removeAll V l { st with tree := r.2 }).map (fun q => (if r.1 then e :: q.1 else q.1, q.2)))

/-- The loop over the events above a vertical segment, poly_point_isect_py2py3.py 466-483. A segment that is not vertical has a y. -/
def aboveAll (e : Ev) (top : ℚ) : List Ev → St T → St T
  | [], st => st
  | o :: l, st =>
    if o.kind = .vertical then aboveAll e top l st
    else if (yIntercept o.seg st.x).getD 0 ≥ top - 1 / 10000 then st
    else aboveAll e top l (check st (some e) (some o))

/-- `handle_event`, poly_point_isect_py2py3.py 400-485. `none` is an exception. `perm` is the order in which a set is iterated over. -/
def handleEvent (V : Tree T) (perm : List Ev → List Ev) (p : Pt) (q : QEv) (st : St T) : Option (St T) :=
  match q with
  | .at e =>
    match e.kind with
    | .start => insertAndCheck V e { st with before := false }
    | .stop =>
      let st := { st with before := true }
      let a := V.above st.ctx e st.tree
      let b := V.below st.ctx e st.tree
      (V.remove st.ctx e st.tree).map (fun r => check { st with tree := r.2 } a b)
    | .vertical =>
      if e.seg.1.x = e.seg.2.x ∧ e.seg.1.y ≤ e.seg.2.y then some (aboveAll e e.seg.2.y (V.slice st.ctx e st.tree) st) else none
  | .cross =>
    (st.inter.lookup p).bind (fun l =>
      (removeAll V (perm l) { st with before := true }).bind (fun r =>
        r.1.reverse.foldlM (fun st e => insertAndCheck V e st) { r.2 with before := false }))

/-- The index of the list for an event, poly_point_isect_py2py3.py 104-109 and 542. -/
def QEv.rank : QEv → Nat
  | .at ⟨.stop, _, _⟩ => 0
  | .cross => 1
  | .at ⟨.start, _, _⟩ => 2
  | .at ⟨.vertical, _, _⟩ => 3

/-- The events of a point by type. -/
def byType (l : List QEv) : List QEv := [0, 1, 2, 3].flatMap (fun k => l.filter (fun e => e.rank == k))

/-- `EventQueue.__init__`, poly_point_isect_py2py3.py 496-525. -/
def offerAll : Nat → List Seg → List (Pt × List QEv) → List (Pt × List QEv)
  | _, [], q => q
  | i, s :: l, q =>
    if s.1 = s.2 then offerAll (i + 1) l q
    else if s.1.x = s.2.x then offerAll (i + 1) l (offer s.1 (.at ⟨.vertical, i, s⟩) q)
    else offerAll (i + 1) l (offer s.2 (.at ⟨.stop, i, s⟩) (offer s.1 (.at ⟨.start, i, s⟩) q))

/-- The loop, poly_point_isect_py2py3.py 583-590, of at most `n` rounds. `none` is an exception or that there are more rounds. -/
def run (V : Tree T) (perm : List Ev → List Ev) : Nat → St T → Option (St T)
  | 0, st =>
    match st.queue with
    | [] => some st
    | _ :: _ => none
  | n + 1, st =>
    match st.queue with
    | [] => some st
    | (p, l) :: rest => ((byType l).foldlM (fun st e => handleEvent V perm p e st) { st with queue := rest, x := p.x }).bind (run V perm n)

/-- `isect_segments_include_segments`, poly_point_isect_py2py3.py 557-595 and 614-615: points with the segments on which they lie. -/
def search (V : Tree T) (perm : List Ev → List Ev) (n : Nat) (l : List Seg) : Option (List (Pt × List Seg)) :=
  (run V perm n ⟨[], offerAll 0 (l.map order) [], 0, true, V.empty⟩).map (fun st =>
    st.inter.map (fun i => (i.1, (perm i.2).map (fun e => e.seg))))

/-- `np.round(v, 4)` -/
def round4 (v : ℚ) : ℚ := npRound (v * 10000) / 10000

/-- The edges of an outline with rounded coordinates, polys.py 2446-2460. -/
def edges (l : List Pt) : List Seg := ring (l.map (fun p => ⟨round4 p.x, round4 p.y⟩))

/-- `np.linalg.norm(a - b)` -/
noncomputable def dist (a b : Pt) : ℝ := Real.sqrt (((a.x - b.x) ^ 2 + (a.y - b.y) ^ 2 : ℚ) : ℝ)

/-- `diff`, polys.py 2495-2499. -/
noncomputable def diff (s t : Seg) : ℝ := min (dist s.1 t.1 + dist s.2 t.2) (dist s.1 t.2 + dist s.2 t.1)

open Classical in
/-- `np.argmin` of a list that is not empty. -/
noncomputable def argmin : List ℝ → Nat
  | [] => 0
  | a :: l => if ∀ b ∈ l, a ≤ b then 0 else argmin l + 1

open Classical in
/-- The edge to which an intersection point belongs, polys.py 2493-2514, if one is found. `max` is `max_segment_difference`. -/
noncomputable def assign (max : ℝ) (segs : List Seg) (s : Seg) : Option Nat :=
  let diffs := segs.map (fun t => diff t s)
  if diffs.getD (argmin diffs) 0 < max then some (argmin diffs) else none

/-- `sorted(..., key=...)` by the distance to the start of the edge, polys.py 2519-2529. -/
noncomputable def sortFrom (a : Pt) (l : List Pt) : List Pt :=
  l.mergeSort (fun p q => @decide (dist a p ≤ dist a q) (Classical.propDecidable _))

/-- The points for each edge, polys.py 2484-2529, where `one_point_per_intersection` is true, as in the only call. `none` is an exception. -/
noncomputable def distribute (max : ℝ) (segs : List Seg) (r : List (Pt × List Seg)) : Option (List (List Pt)) :=
  (r.mapM (fun (i : Pt × List Seg) => i.2.head?.map (fun s => (i.1, assign max segs s)))).map (fun l =>
    segs.mapIdx (fun k s => sortFrom s.1 ((l.filter (fun q => q.2 == some k)).map (fun q => q.1))))

/-- `_generate_intersection_points`, polys.py 2411-2530, where `find` is `isect_segments_include_segments`, whose exceptions are caught. -/
noncomputable def generate (find : List Seg → Option (List (Pt × List Seg))) (limit : ℚ) (max : ℝ) (l : List Pt) : Option (List (List Pt)) :=
  if l.any (fun p => decide (|p.x| > limit ∨ |p.y| > limit)) then some (l.map (fun _ => []))
  else match find (edges l) with
    | none => some (l.map (fun _ => []))
    | some r => distribute max (edges l) r

/-- `last + dist * direction`, polys.py 2550-2551. -/
def between (a b : Pt) (t : ℚ) : Pt := ⟨a.x + t * (b.x - a.x), a.y + t * (b.y - a.y)⟩

/-- The loop over the points of an edge, polys.py 2542-2573: the points, the count and whether the limit is exceeded. -/
def overEdge (o : ℚ) (limit : Nat) (next : Pt) : Bool → Pt → List Pt → Nat → List Pt → List Pt × Nat × Bool
  | _, _, acc, n, [] => (acc, n, false)
  | first, last, acc, n, p :: l =>
    let acc := acc ++ (if first then [between last p (1 - o)] else [between last p o, between last p (1 - o)]) ++ [p]
    let acc := if l = [] then acc ++ [between p next o] else acc
    let n := n + acc.length
    if n > limit then (acc, n, true) else overEdge o limit next false p acc n l

/-- The loop over the edges, polys.py 2540-2575. -/
def overLoop (o : ℚ) (limit : Nat) : Nat → List (Seg × List Pt) → List (List Pt)
  | _, [] => []
  | n, (s, l) :: t =>
    let r := overEdge o limit s.2 true s.1 [] n l
    if r.2.2 then r.1 :: t.map (fun _ => []) else r.1 :: overLoop o limit r.2.1 t

/-- `_oversample_intersection_points`, polys.py 2532-2575. There is a list of points for each point of the outline. -/
def oversample (o : Option ℚ) (limit : Nat) (l : List Pt) (add : List (List Pt)) : List (List Pt) :=
  match o with
  | none => add
  | some o => if o ≤ 0 then add else overLoop o limit l.length ((ring l).zip add)

/-- `compute_line_intersection_point`, imgaug.py 768-785, for the lines through two points. `none` is `False`. -/
def lines (a b c d : Pt) : Option Pt :=
  let l1 : ℚ × ℚ × ℚ := (a.y - b.y, b.x - a.x, -(a.x * b.y - b.x * a.y))
  let l2 : ℚ × ℚ × ℚ := (c.y - d.y, d.x - c.x, -(c.x * d.y - d.x * c.y))
  let D := l1.1 * l2.2.1 - l1.2.1 * l2.1
  let Dx := l1.2.2 * l2.2.1 - l1.2.1 * l2.2.2
  let Dy := l1.1 * l2.2.2 - l1.2.2 * l2.1
  if D ≠ 0 then some ⟨Dx / D, Dy / D⟩ else none

end Imgaug.Isect
