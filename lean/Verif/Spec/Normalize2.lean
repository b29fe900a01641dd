import Verif.Model.Normalize
/-! Specification for C23: which objects an input describes, and how an input of the same form describes other objects. -/
namespace Imgaug.Props
open Imgaug
variable {ε ω : Type}

/-- The objects that an input describes, one list per image, for the documented forms. -/
inductive Means (F : Fam ε ω) : PyVal ε ω → List (List ε) → Prop
  /-- `(N, K, 2)` or `(N, B, 4)` array -/
  | array (dt : DT) (rowss : List (List (List ℚ))) (ess : List (List ε)) (hdt : dt ≠ .bool)
      (h : List.Forall₂ (List.Forall₂ (fun r e => F.make r = some e)) rowss ess) : Means F (.arr dt (.d3 rowss)) ess
  /-- the coordinates of one object -/
  | coords (r : List ℚ) (e : ε) (hl : r.length = F.size) (h : F.make r = some e) : Means F (.tuple (r.map .num)) [[e]]
  | object (e : ε) : Means F (.ent e) [[e]]
  /-- one array per image -/
  | arrays (dt : DT) (rowss : List (List (List ℚ))) (ess : List (List ε)) (hdt : dt ≠ .bool) (hne : rowss ≠ [])
      (h : List.Forall₂ (List.Forall₂ (fun r e => F.make r = some e)) rowss ess) :
      Means F (.list (rowss.map (fun r => .arr dt (.d2 r)))) ess
  /-- the coordinates of objects on one image -/
  | coordsList (rows : List (List ℚ)) (es : List ε) (hne : rows ≠ []) (hl : ∀ r ∈ rows, r.length = F.size)
      (h : List.Forall₂ (fun r e => F.make r = some e) rows es) :
      Means F (.list (rows.map (fun r => .tuple (r.map .num)))) [es]
  | objects (es : List ε) (hne : es ≠ []) : Means F (.list (es.map .ent)) [es]
  /-- the coordinates of the objects on each image; there may be images without objects, but not only such -/
  | coordsLists (rowss : List (List (List ℚ))) (ess : List (List ε)) (hne : ∃ rows ∈ rowss, rows ≠ [])
      (hl : ∀ rows ∈ rowss, ∀ r ∈ rows, r.length = F.size)
      (h : List.Forall₂ (List.Forall₂ (fun r e => F.make r = some e)) rowss ess) :
      Means F (.list (rowss.map (fun rows => .list (rows.map (fun r => .tuple (r.map .num)))))) ess
  | objectLists (ess : List (List ε)) (hne : ∃ es ∈ ess, es ≠ []) :
      Means F (.list (ess.map (fun es => .list (es.map .ent)))) ess


/-- `Rewritten F v es v'`: `v'` is the input `v` with the objects on the images replaced by `es`, one list per image. An
array keeps its dtype. -/
inductive Rewritten (F : Fam ε ω) : PyVal ε ω → List (List ε) → PyVal ε ω → Prop
  | coords (r : List ℚ) (e : ε) : r.length = F.size → Rewritten F (.tuple (r.map .num)) [[e]] (.tuple ((F.nums e).map .num))
  | object (e e' : ε) : Rewritten F (.ent e) [[e']] (.ent e')
  | array (dt : DT) (rows : List (List ℚ)) (es : List ε) : Rewritten F (.arr dt (.d3 [rows])) [es]
      (.arr dt (.d3 [es.map (fun e => (F.nums e).map dt.restore)]))
  | arrays (dt : DT) (rowss : List (List (List ℚ))) (ess : List (List ε)) (hne : rowss ≠ []) :
      Rewritten F (.list (rowss.map (fun r => .arr dt (.d2 r)))) ess
        (.list (ess.map (fun es => .arr dt (.d2 (es.map (fun e => (F.nums e).map dt.restore))))))
  | coordsList (rows : List (List ℚ)) (es : List ε) (hne : rows ≠ []) (hl : ∀ r ∈ rows, r.length = F.size) :
      Rewritten F (.list (rows.map (fun r => .tuple (r.map .num)))) [es]
        (.list (es.map (fun e => .tuple ((F.nums e).map .num))))
  | objects (es es' : List ε) (hne : es ≠ []) : Rewritten F (.list (es.map .ent)) [es'] (.list (es'.map .ent))
  | coordsLists (rowss : List (List (List ℚ))) (ess : List (List ε)) (hne : ∃ rows ∈ rowss, rows ≠ [])
      (hl : ∀ rows ∈ rowss, ∀ r ∈ rows, r.length = F.size) :
      Rewritten F (.list (rowss.map (fun rows => .list (rows.map (fun r => .tuple (r.map .num)))))) ess
        (.list (ess.map (fun es => .list (es.map (fun e => .tuple ((F.nums e).map .num))))))
  | objectLists (ess ess' : List (List ε)) (hne : ∃ es ∈ ess, es ≠ []) :
      Rewritten F (.list (ess.map (fun es => .list (es.map .ent)))) ess'
        (.list (ess'.map (fun es => .list (es.map .ent))))

end Imgaug.Props
