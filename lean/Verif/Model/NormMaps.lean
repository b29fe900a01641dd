import Verif.Model.Normalize
import Verif.Model.Heatmaps
import Verif.Model.Dtypes
/-! Model of the conversion of heatmaps and segmentation maps to the standard form and back,
imgaug/augmentables/normalization.py 159-230 (`normalize_heatmaps`, `normalize_segmentation_maps`) and 589-669
(`invert_normalize_heatmaps`, `invert_normalize_segmentation_maps`).

Simplifications. Values are exact. A list of objects with an array among them is passed on unchecked by the code; the model
has an error for it. That image shapes have two or three entries is part of the type `Shape`. -/
namespace Imgaug.NormMaps
open Imgaug Imgaug.Dtypes

/-- The contents of an array: two or three axes, four axes (the values of each entry of the first axis), or another number of
axes (with the size of the first one). -/
inductive Body (α : Type) where
  | one (a : Arr α)
  | stack (h w c : Nat) (items : List (List α))
  | other (lead : Nat)
  deriving DecidableEq, Repr

/-- A numpy array. -/
structure MArr (α : Type) where
  dt : DType
  body : Body α
  deriving DecidableEq, Repr

/-- `arr.shape[0]`. -/
def Body.lead {α : Type} : Body α → Nat
  | .one a => a.dims.h
  | .stack _ _ _ items => items.length
  | .other n => n

/-- Inputs. `.ent` is a numpy array and `.oi` a `HeatmapsOnImage` or `SegmentationMapsOnImage`; `.arr` (arrays of coordinates)
does not occur. -/
abbrev Val (α ω : Type) := PyVal (MArr α) ω

/-- What distinguishes the two classes: which dtypes are recognised (`estimate_heatmaps_norm_type`, normalization.py 1058-1069,
and `estimate_segmaps_norm_type`, 1072-1088), the constructor, the array read back from an object and the conversion of a value
to another dtype. -/
structure MFam (α ω : Type) where
  known : DType → Bool
  make : DType → Arr α → Shape → Option ω
  read : ω → Option (DType × Arr α)
  conv : DType → DType → α → Option α

/-- `HeatmapsOnImage` and the image shape. -/
structure HmObj where
  map : Heatmap
  shape : Shape
  deriving DecidableEq, Repr

/-- `SegmentationMapsOnImage` and the image shape. -/
structure SmObj where
  map : Segmap
  shape : Shape
  deriving DecidableEq, Repr

/-- Heatmaps. The constructor demands float32, heatmaps.py 53; read back is `arr_0to1`, normalization.py 606 and 625. -/
def hmFam : MFam ℚ HmObj where
  known := fun d => d.kind == .f
  make := fun d a s => if d = ⟨.f, 4⟩ then (Heatmap.init a 0 1).map (fun m => ⟨m, s⟩) else none
  read := fun o => some (⟨.f, 4⟩, o.map.arr)
  conv := fun s d v => changeDtype s d true v

/-- The dtype in the vocabulary of the segmentation map model. -/
def segDtype (d : DType) : Option SegDtype :=
  match d.kind with
  | .b => some .bool
  | .u => some (.uint d.bytes)
  | .i => some (.int d.bytes)
  | .f => none

/-- The dtype of an array that a segmentation map gives back. -/
def ofSegDtype : SegDtype → DType
  | .bool => ⟨.b, 1⟩
  | .uint b => ⟨.u, b⟩
  | .int b => ⟨.i, b⟩

/-- Segmentation maps. Read back is `get_arr()`, normalization.py 649 and 668. -/
def smFam : MFam Int SmObj where
  known := fun d => d.kind != .f
  make := fun d a s => (segDtype d).bind (fun sd => (Segmap.init a sd).map (fun m => ⟨m, s⟩))
  read := fun o => o.map.getArr.map (fun a => (ofSegDtype o.map.dtype, a))
  conv := fun s d v => (changeDtype s d true (v : ℚ)).map pyInt

variable {α ω : Type}

/-- One object for each array and shape. -/
def makeAll (F : MFam α ω) (dtas : List (DType × Arr α)) (shapes : Option (List Shape)) : Option (List ω) :=
  (shapesOf shapes dtas.length).bind (fun ss => (dtas.zip ss).mapM (fun x => F.make x.1.1 x.1.2 x.2))

/-- The arrays of a single array with four axes, normalization.py 173 and 208. -/
def stacked : MArr α → Option (List (DType × Arr α))
  | ⟨dt, .stack h w c items⟩ => some (items.map (fun l => (dt, ⟨.d3 h w c, l⟩)))
  | _ => none

/-- An array with three axes, normalization.py 183 and 224. -/
def toD3 : Val α ω → Option (DType × Arr α)
  | .ent ⟨dt, .one ⟨.d3 h w c, l⟩⟩ => some (dt, ⟨.d3 h w c, l⟩)
  | _ => none

/-- The dtype of the first array that is found. -/
def firstDtype (v : Val α ω) : Option DType :=
  match (findFirst v []).val with
  | .ent a => some a.dt
  | _ => none

/-- Is the dtype one of those recognised? -/
def knownDtype (F : MFam α ω) (v : Val α ω) : Option DType := (firstDtype v).bind (fun d => if F.known d then some d else none)

/-- `normalize_heatmaps`, normalization.py 159-188, and `normalize_segmentation_maps`, 191-230. The outer `none` is an exception,
the inner one is Python's `None`. -/
def normalize (F : MFam α ω) (v : Val α ω) (shapes : Option (List Shape)) : Option (Option (List ω)) :=
  match ntype v with
  | some .none => some none
  | some (.of 0 .ent) =>
    (knownDtype F v).bind (fun _ => (v.toEnt.bind stacked).bind (fun l => (makeAll F l shapes).map some))
  | some (.of 0 .oi) => v.toOi.map (fun o => some [o])
  | some (.of 0 .empty) => some none
  | some (.of 1 .ent) =>
    (knownDtype F v).bind (fun _ => (v.items.bind (fun l => l.mapM toD3)).bind (fun l => (makeAll F l shapes).map some))
  | some (.of 1 .oi) => (v.items.bind (fun l => l.mapM PyVal.toOi)).map some
  | _ => none

/-- `restore_dtype_and_merge` of one array, normalization.py 1200-1202. -/
def restoreOne (F : MFam α ω) (dt : DType) (x : DType × Arr α) : Option (Arr α) :=
  (x.2.flat.mapM (F.conv x.1 dt)).map (fun l => ⟨x.2.dims, l⟩)

/-- The array read from an object, with the dtype restored. -/
def readAs (F : MFam α ω) (dt : DType) (o : ω) : Option (Arr α) := (F.read o).bind (restoreOne F dt)

/-- `np.array(arrs)` of arrays of shape `dims`. -/
def stackOf (dims : Dims) (arrs : List (Arr α)) : Body α :=
  match dims with
  | .d2 h w => .one ⟨.d3 arrs.length h w, (arrs.map (fun a => a.flat)).flatten⟩
  | .d3 h w c => .stack h w c (arrs.map (fun a => a.flat))

/-- `restore_dtype_and_merge` of a list of arrays whose dtype is restored, normalization.py 1193-1202: one array if all have the
same shape, otherwise a list. -/
def merge (dt : DType) (arrs : List (Arr α)) : Val α ω :=
  match arrs with
  | [] => .list []
  | a :: rest =>
    if rest.all (fun b => decide (b.dims = a.dims)) then .ent ⟨dt, stackOf a.dims (a :: rest)⟩
    else .list ((a :: rest).map (fun b => .ent ⟨dt, .one b⟩))

/-- The single array of the input and the results: one array again, normalization.py 596-607 and 640-650. -/
def invertStack (F : MFam α ω) (os : Option (List ω)) (old : MArr α) : Option (Val α ω) :=
  os.bind (fun l => if l.length = old.body.lead then (l.mapM (readAs F old.dt)).map (merge old.dt) else none)

/-- The list of arrays for a list of arrays, normalization.py 621-626 and 664-669. -/
def invertList (F : MFam α ω) (os : Option (List ω)) (dt : DType) : Option (Val α ω) :=
  os.bind (fun l => (l.mapM (readAs F dt)).map (fun as => .list (as.map (fun a => .ent ⟨dt, .one a⟩))))

/-- The only object of a list. -/
def onlyOne : List ω → Option (Val α ω)
  | [o] => some (.oi o)
  | _ => none

/-- `invert_normalize_heatmaps`, normalization.py 589-630, and `invert_normalize_segmentation_maps`, 633-673. -/
def invert (F : MFam α ω) (os : Option (List ω)) (old : Val α ω) : Option (Val α ω) :=
  match ntype old with
  | some .none => if os.isNone then some .none else none
  | some (.of 0 .ent) => (knownDtype F old).bind (fun _ => old.toEnt.bind (invertStack F os))
  | some (.of 0 .oi) => os.bind onlyOne
  | some (.of 0 .empty) => if os.isNone then some (.list []) else none
  | some (.of 1 .ent) => (knownDtype F old).bind (invertList F os)
  | some (.of 1 .oi) => some (match os with | none => .none | some l => .list (l.map .oi))
  | _ => none

end Imgaug.NormMaps
