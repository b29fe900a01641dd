import Verif.Model.Coords
import Verif.Model.Num
/-! Model of `imgaug/augmentables/normalization.py`: which input forms are accepted for keypoints, bounding boxes and images,
how they are turned into the standard form and how that is inverted after augmentation.

Simplifications. Numbers are exact. Arrays of coordinates are nested lists of numbers (the size of the trailing axes of an
empty array is not represented). Iterables whose entries are of different kinds (e.g. a keypoint and a tuple in one list) are
undefined behaviour in the code; the model returns `none` (an error) for them. -/
namespace Imgaug

/-- The dtypes that matter: kind and, for integers, the value range. -/
inductive DT where
  | float
  | int (lo hi : Int)
  | uint (hi : Int)
  | bool
  deriving DecidableEq, Repr

/-- `restore_dtypes_` / `change_dtype_` on one value, dtypes.py 70-88: round and clip for integer dtypes. -/
def DT.restore : DT → ℚ → ℚ
  | .float, v => v
  | .int lo hi, v => (clipI (npRound v) lo hi : Int)
  | .uint hi, v => (clipI (npRound v) 0 hi : Int)
  | .bool, v => if v > 1 / 2 then 1 else 0

/-- A number array of two to four axes, e.g. `(K, 2)`, `(N, K, 2)` or `(N, P, K, 2)`; other numbers of axes are `bad`. -/
inductive NArr where
  | d2 (rows : List (List ℚ))
  | d3 (rows : List (List (List ℚ)))
  | d4 (rows : List (List (List (List ℚ))))
  | bad
  deriving DecidableEq, Repr

/-- Python values that occur as inputs for keypoints or bounding boxes. `ε` is the type of single objects (`Keypoint`,
`BoundingBox`), `ω` that of collections on an image (`KeypointsOnImage`, `BoundingBoxesOnImage`). -/
inductive PyVal (ε ω : Type) where
  | none
  | num (v : ℚ)
  | arr (dt : DT) (a : NArr)
  | ent (e : ε)
  | oi (o : ω)
  | list (l : List (PyVal ε ω))
  | tuple (l : List (PyVal ε ω))
  | other

variable {ε ω : Type}

/-- The result of `find_first_nonempty`: the value found, `success`, and the iterables around it, outermost first. -/
structure FoundVal (ε ω : Type) where
  val : PyVal ε ω
  success : Bool
  parents : List (PyVal ε ω)

mutual
/-- `find_first_nonempty`, normalization.py 1214-1254. (The test `attr[0] is attr` is for strings only.) -/
def findFirst : PyVal ε ω → List (PyVal ε ω) → FoundVal ε ω
  | .list l, ps => findFirstIn l (ps ++ [.list l]) ⟨.none, false, ps⟩
  | .tuple l, ps => findFirstIn l (ps ++ [.tuple l]) ⟨.none, false, ps⟩
  | v, ps => ⟨v, true, ps⟩
/-- The loop of `find_first_nonempty`, normalization.py 1237-1252. -/
def findFirstIn : List (PyVal ε ω) → List (PyVal ε ω) → FoundVal ε ω → FoundVal ε ω
  | [], _, best => best
  | v :: vs, ps, best =>
    if (findFirst v ps).success then findFirst v ps
    else if (findFirst v ps).parents.length > best.parents.length then findFirstIn vs ps (findFirst v ps)
    else findFirstIn vs ps best
end

/-- The type strings of `estimate_normalization_type`, without the `iterable-` prefixes. -/
inductive NLeaf where
  | empty
  | tup (size : Nat)
  | arr (dt : DT)
  | ent | oi
  | other
  deriving DecidableEq, Repr

/-- A type string: `"None"`, or a number of `iterable-` prefixes and a rest. -/
inductive NType where
  | none
  | of (depth : Nat) (leaf : NLeaf)
  deriving DecidableEq, Repr

def PyVal.isNum : PyVal ε ω → Bool
  | .num _ => true
  | _ => false

/-- The size of the last parent if it is a tuple of numbers only, normalization.py 1267-1277. -/
def numTupleSize : Option (PyVal ε ω) → Option Nat
  | some (.tuple l) => if l.length > 0 ∧ l.all PyVal.isNum = true then some l.length else Option.none
  | _ => Option.none

/-- `_nonempty_info_to_type_str`, normalization.py 1257-1296. The outer `none` is the assertion on the nesting depth. -/
def toNType (f : FoundVal ε ω) : Option NType :=
  if f.parents.length ≤ 4 then
    some (if !f.success then .of f.parents.length .empty
    else match numTupleSize f.parents.getLast? with
      | some n => .of (f.parents.length - 1) (.tup n)
      | Option.none => match f.val with
        | .none => .none
        | .arr dt _ => .of f.parents.length (.arr dt)
        | .ent _ => .of f.parents.length .ent
        | .oi _ => .of f.parents.length .oi
        | _ => .of f.parents.length .other)
  else Option.none

/-- `estimate_normalization_type`, normalization.py 1186-1189. -/
def ntype (v : PyVal ε ω) : Option NType := toNType (findFirst v [])

/-- What distinguishes keypoints from bounding boxes here: how many numbers describe one object, how an object is made from
them and back, and how a collection is made and read. -/
structure Fam (ε ω : Type) where
  size : Nat
  make : List ℚ → Option ε
  nums : ε → List ℚ
  coll : List ε → Shape → ω
  ents : ω → List ε
  /-- `normalize_keypoints` has `return inputs` for type `"None"` (line 245), `normalize_bounding_boxes` `return None`. -/
  noneReturnsInput : Bool

/-- Keypoints: normalization.py 233-303 and 672-762, `Keypoint(x=, y=)`, `from_xy_array`. -/
def kpFam : Fam Pt KPsOnImage where
  size := 2
  make := fun | [x, y] => some ⟨x, y⟩ | _ => none
  nums := fun p => [p.x, p.y]
  coll := fun l s => ⟨l, s⟩
  ents := fun k => k.kps
  noneReturnsInput := true

/-- Bounding boxes: normalization.py 306-386 and 765-861. `from_xyxy_array` makes boxes with `from_point_soup`, which for two
points gives the same as `BoundingBox(x1=, y1=, x2=, y2=)`. -/
def bbFam : Fam BB BBsOnImage where
  size := 4
  make := fun | [x1, y1, x2, y2] => some (BB.init x1 y1 x2 y2) | _ => none
  nums := fun b => [b.x1, b.y1, b.x2, b.y2]
  coll := fun l s => ⟨l, s⟩
  ents := fun k => k.boxes
  noneReturnsInput := false

/-- The entries of an iterable. -/
def PyVal.items : PyVal ε ω → Option (List (PyVal ε ω))
  | .list l => some l
  | .tuple l => some l
  | _ => Option.none

def PyVal.toNum : PyVal ε ω → Option ℚ
  | .num v => some v
  | _ => Option.none

/-- A tuple of numbers. -/
def PyVal.toNums : PyVal ε ω → Option (List ℚ)
  | .tuple l => l.mapM PyVal.toNum
  | _ => Option.none

def PyVal.toEnt : PyVal ε ω → Option ε
  | .ent e => some e
  | _ => Option.none

def PyVal.toOi : PyVal ε ω → Option ω
  | .oi o => some o
  | _ => Option.none

/-- An array of two axes as rows. -/
def PyVal.toD2 : PyVal ε ω → Option (List (List ℚ))
  | .arr _ (.d2 rows) => some rows
  | _ => Option.none

/-- `assert_exactly_n_shapes`, normalization.py 36-60. -/
def shapesOf (shapes : Option (List Shape)) (n : Nat) : Option (List Shape) :=
  match shapes with
  | Option.none => Option.none
  | some l => if l.length = n then some l else Option.none

/-- `shapes[0]` after the check for exactly one shape. -/
def oneShape (shapes : Option (List Shape)) : Option Shape := (shapesOf shapes 1).bind List.head?

namespace Fam

/-- The collection made of the objects with the given coordinates. -/
def ofRows (F : Fam ε ω) (rows : List (List ℚ)) (s : Shape) : Option ω := (rows.mapM F.make).map (fun l => F.coll l s)

/-- One collection per row and shape. -/
def ofRowss (F : Fam ε ω) (rowss : List (List (List ℚ))) (shapes : Option (List Shape)) : Option (List ω) :=
  (shapesOf shapes rowss.length).bind (fun ss => (rowss.zip ss).mapM (fun x => F.ofRows x.1 x.2))

/-- `normalize_keypoints`, normalization.py 233-303, and `normalize_bounding_boxes`, 306-386. The outer `none` is an
exception, the inner one is Python's `None`. -/
def normalize (F : Fam ε ω) (v : PyVal ε ω) (shapes : Option (List Shape)) : Option (Option (List ω)) :=
  match ntype v with
  | Option.none => Option.none
  | some .none =>
    if F.noneReturnsInput then (match v with | .none => some Option.none | _ => Option.none) else some Option.none
  | some (.of 0 (.arr dt)) =>
    if dt = .bool then Option.none else
    match v with
    | .arr _ (.d3 rowss) => (F.ofRowss rowss shapes).map some
    | _ => Option.none
  | some (.of 0 (.tup n)) =>
    if n = F.size then do
      let s ← oneShape shapes
      let row ← v.toNums
      let o ← F.ofRows [row] s
      return some [o]
    else Option.none
  | some (.of 0 .ent) => do
    let s ← oneShape shapes
    let e ← v.toEnt
    return some [F.coll [e] s]
  | some (.of 0 .oi) => do
    let o ← v.toOi
    return some [o]
  | some (.of 0 .empty) => some Option.none
  | some (.of 1 (.arr dt)) =>
    if dt = .bool then Option.none else do
      let l ← v.items
      let rowss ← l.mapM PyVal.toD2
      let os ← F.ofRowss rowss shapes
      return some os
  | some (.of 1 (.tup n)) =>
    if n = F.size then do
      let s ← oneShape shapes
      let l ← v.items
      let rows ← l.mapM PyVal.toNums
      let o ← F.ofRows rows s
      return some [o]
    else Option.none
  | some (.of 1 .ent) => do
    let s ← oneShape shapes
    let l ← v.items
    let es ← l.mapM PyVal.toEnt
    return some [F.coll es s]
  | some (.of 1 .oi) => do
    let l ← v.items
    let os ← l.mapM PyVal.toOi
    return some os
  | some (.of 1 .empty) => some Option.none
  | some (.of 2 (.tup n)) =>
    if n = F.size then do
      let l ← v.items
      let rowss ← l.mapM (fun x => x.items.bind (fun y => y.mapM PyVal.toNums))
      let os ← F.ofRowss rowss shapes
      return some os
    else Option.none
  | some (.of 2 .ent) => do
    let l ← v.items
    let ess ← l.mapM (fun x => x.items.bind (fun y => y.mapM PyVal.toEnt))
    let ss ← shapesOf shapes l.length
    return some ((ess.zip ss).map (fun x => F.coll x.1 x.2))
  | _ => Option.none

/-- The coordinates of all objects of a collection, `to_xy_array` / `to_xyxy_array`. -/
def rows (F : Fam ε ω) (o : ω) : List (List ℚ) := (F.ents o).map F.nums

/-- A row of numbers as tuple. -/
def toTuple (F : Fam ε ω) (e : ε) : PyVal ε ω := .tuple ((F.nums e).map .num)

/-- `restore_dtype_and_merge` of one two-axis array, normalization.py 1192-1202. -/
def restoreArr (dt : DT) (rows : List (List ℚ)) : PyVal ε ω := .arr dt (.d2 (rows.map (fun r => r.map dt.restore)))

/-- `restore_dtype_and_merge` of a list of two-axis arrays: they are merged only if all have the same shape. -/
def restoreMerge (dt : DT) (rowss : List (List (List ℚ))) : PyVal ε ω :=
  match rowss with
  | [] => .list []
  | r :: rs => if rs.all (fun x => x.length == r.length) then
      .arr dt (.d3 ((r :: rs).map (fun rows => rows.map (fun r => r.map dt.restore))))
    else .list ((r :: rs).map (restoreArr dt))

/-- `invert_normalize_keypoints`, normalization.py 672-762, and `invert_normalize_bounding_boxes`, 765-861. `n` is the
augmented standard form, `old` the input. `none` is an exception (an assertion). -/
def invert (F : Fam ε ω) (n : Option (List ω)) (old : PyVal ε ω) : Option (PyVal ε ω) :=
  match ntype old with
  | Option.none => Option.none
  | some .none => if n.isNone then some .none else Option.none
  | some (.of 0 (.arr dt)) => n.bind (fun os =>
      if os.length = 1 then some (restoreMerge dt (os.map F.rows)) else Option.none)
  | some (.of 0 (.tup _)) => n.bind (fun os => match os with
      | [o] => match F.ents o with
        | [e] => some (F.toTuple e)
        | _ => Option.none
      | _ => Option.none)
  | some (.of 0 .ent) => n.bind (fun os => match os with
      | [o] => match F.ents o with
        | [e] => some (.ent e)
        | _ => Option.none
      | _ => Option.none)
  | some (.of 0 .oi) => n.bind (fun os => match os with
      | [o] => some (.oi o)
      | _ => Option.none)
  | some (.of 0 .empty) => if n.isNone then some (.list []) else Option.none
  | some (.of 1 (.arr dt)) => n.bind (fun os => some (.list (os.map (fun o => restoreArr dt (F.rows o)))))
  | some (.of 1 (.tup _)) => n.bind (fun os => match os with
      | [o] => some (.list ((F.ents o).map F.toTuple))
      | _ => Option.none)
  | some (.of 1 .ent) => n.bind (fun os => match os with
      | [o] => some (.list ((F.ents o).map .ent))
      | _ => Option.none)
  | some (.of 1 .oi) => n.bind (fun os => some (.list (os.map .oi)))
  | some (.of 1 .empty) => if n.isNone then some old else Option.none
  | some (.of 2 (.tup _)) => n.bind (fun os => some (.list (os.map (fun o => .list ((F.ents o).map F.toTuple)))))
  | some (.of 2 .ent) => n.bind (fun os => some (.list (os.map (fun o => .list ((F.ents o).map .ent)))))
  | _ => Option.none

end Fam

/-! ### Images -/

/-- An array of images or a single image: axes and the flat data. -/
structure ImArr where
  dims : List Nat
  data : List ℚ
  deriving DecidableEq, Repr

/-- Inputs for images: `None`, an array, or an iterable of arrays. -/
inductive ImVal where
  | none
  | arr (a : ImArr)
  | list (l : List ImArr)
  deriving DecidableEq, Repr

/-- `image[..., np.newaxis]` for two-axis images, normalization.py 148-151. -/
def normImage (a : ImArr) : Option ImArr :=
  match a.dims with
  | [h, w] => some ⟨[h, w, 1], a.data⟩
  | [_, _, _] => some a
  | _ => Option.none

/-- `normalize_images`, normalization.py 130-156. -/
def normalizeImages : ImVal → Option ImVal
  | .none => some .none
  | .arr a => some (.arr (match a.dims with
      | [h, w] => ⟨[1, h, w, 1], a.data⟩
      | [n, h, w] => ⟨[n, h, w, 1], a.data⟩
      | _ => a))
  | .list l => (l.mapM normImage).map .list

/-- The body of the loop of `invert_normalize_images`, normalization.py 568-581. -/
def invImage (new old : ImArr) : Option ImArr :=
  if old.dims.length = 2 then
    match new.dims with
    | [h, w, c] => if c = 1 then some ⟨[h, w], new.data⟩ else Option.none
    | _ => Option.none
  else if old.dims.length = 3 then some new else Option.none

/-- `list(images_old)`: the images of an array, as far as `invert_normalize_images` looks at them (their number of axes). -/
def unstack (a : ImArr) : List ImArr :=
  match a.dims with
  | n :: rest => (List.range n).map (fun (i : Nat) =>
      ⟨rest, (a.data.drop (i * rest.foldl (· * ·) 1)).take (rest.foldl (· * ·) 1)⟩)
  | [] => []

/-- The loop over `zip(images, images_old)`, normalization.py 567-582. -/
def invList (news olds : List ImArr) : Option ImVal := ((news.zip olds).mapM (fun x => invImage x.1 x.2)).map .list

/-- `invert_normalize_images`, normalization.py 525-586. -/
def invertNormalizeImages (new old : ImVal) : Option ImVal :=
  match old, new with
  | .none, .none => some .none
  | .none, _ => Option.none
  | .arr o, .arr a =>
    match o.dims with
    | [_, _] => match a.dims with
      | [1, h, w, 1] => some (.arr ⟨[h, w], a.data⟩)
      | _ => Option.none
    | [_, _, _] => match a.dims with
      | [n, h, w, 1] => some (.arr ⟨[n, h, w], a.data⟩)
      | _ => Option.none
    | _ => some (.arr a)
  | .arr o, .list l => if o.dims.length = 2 then invList l [o] else invList l (unstack o)
  | .arr _, .none => Option.none
  | .list o, .list l => invList l o
  | .list o, .arr a => invList (unstack a) o
  | .list _, .none => Option.none

end Imgaug
