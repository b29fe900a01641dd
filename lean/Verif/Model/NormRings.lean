import Verif.Model.Normalize
/-! Model of the conversion of polygons and line strings to the standard form and back,
imgaug/augmentables/normalization.py 389-522 (`normalize_polygons`, `normalize_line_strings`) and 864-1048
(`invert_normalize_polygons`, `invert_normalize_line_strings`), with the constructors `Polygon.__init__` (polys.py 104-145) and
`LineString.__init__` (lines.py 48-70).

Simplifications as in `Model/Normalize.lean`: exact numbers, the size of trailing axes of empty arrays is not represented,
iterables with entries of different kinds are errors. Labels are not modelled. -/
namespace Imgaug.NormRings
open Imgaug

/-- `PolygonsOnImage` or `LineStringsOnImage`. -/
structure Rings where
  rings : List (List Pt)
  shape : Shape
  deriving DecidableEq, Repr

/-- Inputs: objects are keypoints or single polygons (line strings). -/
abbrev Val := PyVal (Sum Pt (List Pt)) Rings

/-- Which of the two classes. -/
inductive Cls where
  | polygon
  | lineString
  deriving DecidableEq, Repr

/-- The points of an object made from these points: `Polygon` drops the last one if it is close to the first one,
polys.py 139-143. -/
def outline : Cls → List Pt → List Pt
  | .polygon, pts => (Polygon.init pts).exterior
  | .lineString, pts => pts

/-- `[point[0], point[1]]` of a tuple, polys.py 122, or a check for exactly two entries, lines.py 60. -/
def toPoint (c : Cls) (v : Val) : Option Pt :=
  match c, v.toNums with
  | .polygon, some (x :: y :: _) => some ⟨x, y⟩
  | .lineString, some [x, y] => some ⟨x, y⟩
  | _, _ => none

/-- A `Keypoint`. -/
def toKp : Val → Option Pt
  | .ent (.inl p) => some p
  | _ => none

/-- A `Polygon` or `LineString`. -/
def toRing : Val → Option (List Pt)
  | .ent (.inr r) => some r
  | _ => none

/-- What the constructors accept as container of points: `Polygon` only lists (polys.py 109-127). -/
def container (c : Cls) : Val → Option (List Val)
  | .list l => some l
  | .tuple l => if c = .polygon then none else some l
  | _ => none

/-- `cls_single(points)` for `(x,y)` tuples. -/
def ofTuples (c : Cls) (v : Val) : Option (List Pt) :=
  (container c v).bind (fun l => (l.mapM (toPoint c)).map (outline c))

/-- `cls_single(points)` for keypoints. `LineString` calls `len(keypoint)`, which raises (lines.py 60). -/
def ofKps (c : Cls) (v : Val) : Option (List Pt) :=
  (container c v).bind (fun l =>
    if c = .lineString ∧ l ≠ [] then none else (l.mapM toKp).map (outline c))

/-- A row of an array with last axis of size 2. -/
def toPt : List ℚ → Option Pt
  | [x, y] => some ⟨x, y⟩
  | _ => none

/-- `cls_single(points)` for an array with two axes. -/
def ofRows (c : Cls) (rows : List (List ℚ)) : Option (List Pt) := (rows.mapM toPt).map (outline c)

/-- Objects for each image. -/
def perImage (shapes : Option (List Shape)) (rss : List (List (List Pt))) : Option (List Rings) :=
  (shapesOf shapes rss.length).map (fun ss => (rss.zip ss).map (fun x => ⟨x.1, x.2⟩))

/-- All objects on one image. -/
def onOne (shapes : Option (List Shape)) (rs : List (List Pt)) : Option (List Rings) := (oneShape shapes).map (fun s => [⟨rs, s⟩])

/-- An array with three axes. -/
def toD3 : Val → Option (List (List (List ℚ)))
  | .arr _ (.d3 rows) => some rows
  | _ => none

/-- An array with four axes. -/
def toD4 : Val → Option (List (List (List (List ℚ))))
  | .arr _ (.d4 rows) => some rows
  | _ => none

/-- Is the first object that is found a keypoint? (Part of the type string.) -/
def leafIsKp (v : Val) : Bool :=
  match (findFirst v []).val with
  | .ent (.inl _) => true
  | _ => false

/-- All entries of an iterable. -/
def entries {β : Type} (f : Val → Option β) (v : Val) : Option (List β) := v.items.bind (fun l => l.mapM f)

/-- `_normalize_polygons_and_line_strings`, normalization.py 415-522. The outer `none` is an exception, the inner one is
Python's `None`. -/
def normalize (c : Cls) (v : Val) (shapes : Option (List Shape)) : Option (Option (List Rings)) :=
  match ntype v with
  | some .none => some none
  | some (.of 0 (.arr dt)) => if dt = .bool then none else
      ((toD4 v).bind (fun rows => rows.mapM (fun r => r.mapM (ofRows c)))).bind (fun rss => (perImage shapes rss).map some)
  | some (.of 0 .ent) => (toRing v).bind (fun r => (onOne shapes [r]).map some)
  | some (.of 0 .oi) => v.toOi.map (fun o => some [o])
  | some (.of 0 .empty) => some none
  | some (.of 1 (.arr dt)) => if dt = .bool then none else
      (entries (fun x => (toD3 x).bind (fun r => r.mapM (ofRows c))) v).bind (fun rss => (perImage shapes rss).map some)
  | some (.of 1 (.tup n)) => if n = 2 then (ofTuples c v).bind (fun r => (onOne shapes [r]).map some) else none
  | some (.of 1 .ent) =>
      if leafIsKp v then (ofKps c v).bind (fun r => (onOne shapes [r]).map some)
      else (entries toRing v).bind (fun rs => (onOne shapes rs).map some)
  | some (.of 1 .oi) => (entries PyVal.toOi v).map some
  | some (.of 1 .empty) => some none
  | some (.of 2 (.arr dt)) => if dt = .bool then none else
      (entries (entries (fun x => x.toD2.bind (ofRows c))) v).bind (fun rss => (perImage shapes rss).map some)
  | some (.of 2 (.tup n)) => if n = 2 then (entries (ofTuples c) v).bind (fun rs => (onOne shapes rs).map some) else none
  | some (.of 2 .ent) =>
      if leafIsKp v then (entries (ofKps c) v).bind (fun rs => (onOne shapes rs).map some)
      else (entries (entries toRing) v).bind (fun rss => (perImage shapes rss).map some)
  | some (.of 2 .empty) => some none
  | some (.of 3 (.tup n)) =>
      if n = 2 then (entries (entries (ofTuples c)) v).bind (fun rss => (perImage shapes rss).map some) else none
  | some (.of 3 .ent) =>
      if leafIsKp v then (entries (entries (ofKps c)) v).bind (fun rss => (perImage shapes rss).map some) else none
  | _ => none

/-- `(point[0], point[1])`. -/
def tupleOf (p : Pt) : Val := .tuple [.num p.x, .num p.y]

/-- `Keypoint(x=point[0], y=point[1])`. -/
def kpOf (p : Pt) : Val := .ent (.inl p)

/-- The points of an object with the values of the dtype. -/
def rowsOf (dt : DT) (r : List Pt) : List (List ℚ) := r.map (fun p => [dt.restore p.x, dt.restore p.y])

/-- `restore_dtype_and_merge` of the point array of an object, normalization.py 1192-1202. -/
def restoreOne (dt : DT) (r : List Pt) : Val := .arr dt (.d2 (rowsOf dt r))

/-- The condition `len(set(shapes)) == 1` for the point arrays of some objects. -/
def sameLength (rs : List (List Pt)) : Bool :=
  match rs with
  | [] => false
  | r :: rs => rs.all (fun x => x.length == r.length)

/-- `restore_dtype_and_merge` of a list of point arrays: an array if all have the same shape, otherwise a list. -/
def restoreMany (dt : DT) (rs : List (List Pt)) : Val :=
  if sameLength rs then .arr dt (.d3 (rs.map (rowsOf dt))) else .list (rs.map (restoreOne dt))

/-- The condition `len(set(shapes)) == 1` for arrays with three axes. -/
def sameShape (rss : List (List (List Pt))) : Bool :=
  match rss with
  | [] => false
  | r :: rss => rss.all (fun x => x.length == r.length && (x.map List.length).head? == (r.map List.length).head?)

/-- `restore_dtype_and_merge` of a list of lists of point arrays. If one of the inner lists stays a list, `arr_i.shape` raises
(normalization.py 1196). -/
def restoreNested (dt : DT) (rss : List (List (List Pt))) : Option Val :=
  if rss.all sameLength then
    some (if sameShape rss then .arr dt (.d4 (rss.map (fun rs => rs.map (rowsOf dt)))) else .list (rss.map (restoreMany dt)))
  else none

/-- `len(inputs) == 1`. -/
def single (n : Option (List Rings)) : Option Rings :=
  match n with
  | some [o] => some o
  | _ => none

/-- `len(get_entities_func(inputs[0])) == 1`. -/
def singleRing (n : Option (List Rings)) : Option (List Pt) :=
  match n with
  | some [⟨[r], _⟩] => some r
  | _ => none

/-- `len(inputs_old)` of an iterable. -/
def oldLength (v : Val) : Nat := (v.items.getD []).length

/-- `_invert_normalize_polygons_and_line_strings`, normalization.py 882-1048. -/
def invert (n : Option (List Rings)) (old : Val) : Option Val :=
  match ntype old with
  | some .none => if n.isNone then some .none else none
  | some (.of 0 (.arr dt)) => n.bind (fun os => restoreNested dt (os.map Rings.rings))
  | some (.of 0 .ent) => (singleRing n).map (fun r => .ent (.inr r))
  | some (.of 0 .oi) => (single n).map .oi
  | some (.of 0 .empty) => if n.isNone then some (.list []) else none
  | some (.of 1 (.arr dt)) => n.map (fun os => .list (os.map (fun o => restoreMany dt o.rings)))
  | some (.of 1 (.tup _)) => (singleRing n).map (fun r => .list (r.map tupleOf))
  | some (.of 1 .ent) =>
      if leafIsKp old then (singleRing n).map (fun r => .list (r.map kpOf))
      else (single n).bind (fun o => if o.rings.length = oldLength old then some (.list (o.rings.map (fun r => .ent (.inr r)))) else none)
  | some (.of 1 .oi) => n.map (fun os => .list (os.map .oi))
  | some (.of 1 .empty) => if n.isNone then some old else none
  | some (.of 2 (.arr dt)) => n.map (fun os => .list (os.map (fun o => .list (o.rings.map (restoreOne dt)))))
  | some (.of 2 (.tup _)) => (single n).map (fun o => .list (o.rings.map (fun r => .list (r.map tupleOf))))
  | some (.of 2 .ent) =>
      if leafIsKp old then (single n).map (fun o => .list (o.rings.map (fun r => .list (r.map kpOf))))
      else n.map (fun os => .list (os.map (fun o => .list (o.rings.map (fun r => .ent (.inr r))))))
  | some (.of 2 .empty) => some old
  | some (.of 3 (.tup _)) => n.map (fun os => .list (os.map (fun o => .list (o.rings.map (fun r => .list (r.map tupleOf))))))
  | some (.of 3 .ent) => n.map (fun os => .list (os.map (fun o => .list (o.rings.map (fun r => .list (r.map kpOf))))))
  | _ => none

end Imgaug.NormRings
