import Mathlib.Data.Nat.Basic
import Mathlib.Order.Basic
import Mathlib.Data.List.Basic
/-! Model of the search tree in which the sweep for crossings keeps its events: imgaug/external/poly_point_isect_py2py3.py 791-1229.

Simplifications. A node is a value, not an object that can be changed. `insert`, which changes nodes on its way down, is modelled with the way back to the root
as a list; its variables for the parents of the node always denote the current parents, also right after a rotation, when the code keeps the former ones for
one or two rounds in which it does not use them if no two nodes in a row are red. `remove` is not modelled. `_count` is the number of nodes. -/
namespace Imgaug.OrdTree

variable {α β : Type}

/-- A node and what is below it, `nil` being `None`; poly_point_isect_py2py3.py 1116-1125. -/
inductive T (α β : Type) where
  | nil
  | node (red : Bool) (l : T α β) (k : α) (v : β) (r : T α β)

/-- The default of `cmp`, poly_point_isect_py2py3.py 796-803. -/
def dfltCmp [LinearOrder α] (a b : α) : Int := if a < b then -1 else if a > b then 1 else 0

/-- `get_value`, poly_point_isect_py2py3.py 825-835. `none` is an exception. -/
def getValue (cmp : α → α → Int) (key : α) : T α β → Option β
  | .nil => none
  | .node _ l k v r => if cmp key k = 0 then some v else if cmp key k < 0 then getValue cmp key l else getValue cmp key r

/-- `min_item`, poly_point_isect_py2py3.py 857-864. -/
def minItem : T α β → Option (α × β)
  | .nil => none
  | .node _ .nil k v _ => some (k, v)
  | .node _ (.node c l k v r) _ _ _ => minItem (.node c l k v r)

/-- `max_item`, poly_point_isect_py2py3.py 866-873. -/
def maxItem : T α β → Option (α × β)
  | .nil => none
  | .node _ _ k v .nil => some (k, v)
  | .node _ _ _ _ (.node c l k v r) => maxItem (.node c l k v r)

/-- The comparison of `succ_node` with another node, poly_point_isect_py2py3.py 889-890 and 905-908. -/
def closer (cmp : α → α → Int) (s : Option (α × β)) (n : α × β) : Option (α × β) :=
  match s with
  | none => some n
  | some p => if cmp n.1 p.1 < 0 then some n else some p

/-- The search in `succ_item`, poly_point_isect_py2py3.py 882-893: the subtree below the key that was found, to the right, and `succ_node`. -/
def findSucc (cmp : α → α → Int) (key : α) : T α β → Option (α × β) → Option (T α β × Option (α × β))
  | .nil, _ => none
  | .node _ l k v r, s =>
    if cmp key k = 0 then some (r, s)
    else if cmp key k < 0 then
      findSucc cmp key l (closer cmp s (k, v))
    else findSucc cmp key r s

/-- `succ_item`, poly_point_isect_py2py3.py 875-913. `none` is an exception, or the default. -/
def succItem (cmp : α → α → Int) (t : T α β) (key : α) : Option (α × β) :=
  (findSucc cmp key t none).bind (fun p =>
    match minItem p.1 with
    | some n => closer cmp p.2 n
    | none => p.2)

/-- The comparison of `prev_node` with another node, poly_point_isect_py2py3.py 932-933 and 946-949. -/
def closerBelow (cmp : α → α → Int) (s : Option (α × β)) (n : α × β) : Option (α × β) :=
  match s with
  | none => some n
  | some p => if cmp p.1 n.1 < 0 then some n else some p

/-- The search in `prev_item`, poly_point_isect_py2py3.py 922-934. -/
def findPrev (cmp : α → α → Int) (key : α) : T α β → Option (α × β) → Option (T α β × Option (α × β))
  | .nil, _ => none
  | .node _ l k v r, s =>
    if cmp key k = 0 then some (l, s)
    else if cmp key k < 0 then findPrev cmp key l s
    else
      findPrev cmp key r (closerBelow cmp s (k, v))

/-- `prev_item`, poly_point_isect_py2py3.py 915-954. -/
def prevItem (cmp : α → α → Int) (t : T α β) (key : α) : Option (α × β) :=
  (findPrev cmp key t none).bind (fun p =>
    match maxItem p.1 with
    | some n => closerBelow cmp p.2 n
    | none => p.2)

/-- `_count`, the number of nodes; poly_point_isect_py2py3.py 820-823. -/
def T.size : T α β → Nat
  | .nil => 0
  | .node _ l _ _ r => l.size + r.size + 1

/-- `node is None`; poly_point_isect_py2py3.py 1085 and 1091. -/
def T.isNil : T α β → Bool
  | .nil => true
  | .node .. => false

/-- `_iter_items`, poly_point_isect_py2py3.py 1084-1098: at most `n` rounds of the loop, the node, the stack and `go_left`. `none`: there were not enough
rounds, or the node is `None`. -/
def iter (inRange : α → Bool) : Nat → T α β → List (T α β) → Bool → Option (List (α × β))
  | 0, _, _, _ => none
  | _ + 1, .nil, _, _ => none
  | n + 1, .node c l k v r, stack, goLeft =>
    if !l.isNil && goLeft then iter inRange n l (.node c l k v r :: stack) true
    else
      let out := if inRange k then [(k, v)] else []
      if !r.isNil then (iter inRange n r stack true).map (out ++ ·)
      else
        match stack with
        | [] => some out
        | s :: st => (iter inRange n s st false).map (out ++ ·)

/-- `_get_in_range_func`, poly_point_isect_py2py3.py 1100-1110. -/
def inRange (cmp : α → α → Int) (t : T α β) (start stop : Option α) (x : α) : Bool :=
  match start, stop with
  | none, none => true
  | _, _ =>
    let above := match start with
      | some s => decide (cmp s x ≤ 0)
      | none => match minItem t with
        | some m => decide (cmp m.1 x ≤ 0)
        | none => true
    match stop with
    | none => above
    | some e => above && decide (cmp x e < 0)

/-- The tree with left and right swapped, as `_iter_items_backward` sees it, poly_point_isect_py2py3.py 1073-1076. -/
def T.mirror : T α β → T α β
  | .nil => .nil
  | .node c l k v r => .node c r.mirror k v l.mirror

/-- `iter_items`, poly_point_isect_py2py3.py 1055-1076; every node is visited at most twice. -/
def iterItems (cmp : α → α → Int) (t : T α β) (start stop : Option α) (reverse : Bool) : Option (List (α × β)) :=
  if t.isNil then some []
  else iter (inRange cmp t start stop) (2 * t.size) (if reverse then t.mirror else t) [] true

/-- `jsw_single`, poly_point_isect_py2py3.py 1158-1166; `toRight` is the direction 1. `none` is an exception. -/
def jswSingle (toRight : Bool) : T α β → Option (T α β)
  | .nil => none
  | .node _ l k v r =>
    if toRight then
      match l with
      | .nil => none
      | .node _ ll lk lv lr => some (.node false ll lk lv (.node true lr k v r))
    else
      match r with
      | .nil => none
      | .node _ rl rk rv rr => some (.node false (.node true l k v rl) rk rv rr)

/-- `jsw_double`, poly_point_isect_py2py3.py 1168-1172. -/
def jswDouble (toRight : Bool) : T α β → Option (T α β)
  | .nil => none
  | .node c l k v r =>
    if toRight then (jswSingle false l).bind (fun l' => jswSingle true (.node c l' k v r))
    else (jswSingle true r).bind (fun r' => jswSingle false (.node c l k v r'))

/-- `is_red`, poly_point_isect_py2py3.py 1151-1156. -/
def T.isRed : T α β → Bool
  | .nil => false
  | .node c _ _ _ _ => c

/-- `node.red = False`, poly_point_isect_py2py3.py 1203 and 1229. -/
def T.black : T α β → T α β
  | .nil => .nil
  | .node _ l k v r => .node false l k v r

/-- A parent, without the child on the way: the direction to that child, and the child on the other side. -/
structure Frame (α β : Type) where
  right : Bool
  red : Bool
  key : α
  value : β
  other : T α β

/-- The parent with the child on the way; poly_point_isect_py2py3.py 1133-1142. -/
def Frame.plug (f : Frame α β) (t : T α β) : T α β :=
  if f.right then .node f.red f.other f.key f.value t else .node f.red t f.key f.value f.other

/-- The tree with a node at the end of a way, `head.right`; poly_point_isect_py2py3.py 1228. -/
def zip : List (Frame α β) → T α β → T α β
  | [], t => t
  | f :: fs, t => zip fs (f.plug t)

/-- The new node at the bottom, or the color flip; poly_point_isect_py2py3.py 1199-1205. -/
def flipOrNew (key : α) (value : β) : T α β → T α β
  | .nil => .node true .nil key value .nil
  | .node c l k v r => if l.isRed && r.isRed then .node true l.black k v r.black else .node c l k v r

/-- "Fix red violation", poly_point_isect_py2py3.py 1207-1213. `none` is an exception: the parent is red and has no parent. -/
def fixRed (path : List (Frame α β)) (t : T α β) : Option (List (Frame α β) × T α β) :=
  match path with
  | [] => some ([], t)
  | p :: up =>
    if t.isRed && p.red then
      match up with
      | [] => none
      | g :: up =>
        if p.right = g.right then
          match jswSingle (!g.right) (g.plug (p.plug t)) with
          | some (.node c l k v r) => some (⟨g.right, c, k, v, if g.right then l else r⟩ :: up, if g.right then r else l)
          | _ => none
        else (jswDouble (!g.right) (g.plug (p.plug t))).map (fun u => (up, u))
    else some (path, t)

/-- The loop of `insert`, poly_point_isect_py2py3.py 1198-1226: at most `n` rounds, the parents, the node. -/
def insertGo (cmp : α → α → Int) (key : α) (value : β) : Nat → List (Frame α β) → T α β → Option (T α β)
  | 0, _, _ => none
  | n + 1, path, t =>
    match fixRed path (flipOrNew key value t) with
    | some (path, .node c l k v r) =>
      if cmp key k = 0 then some (zip path (.node c l k value r))
      else if cmp key k < 0 then insertGo cmp key value n (⟨false, c, k, v, r⟩ :: path) l
      else insertGo cmp key value n (⟨true, c, k, v, l⟩ :: path) r
    | _ => none

/-- `insert`, poly_point_isect_py2py3.py 1179-1229, with at most `n` rounds of the loop. `none` is an exception, or there were not enough rounds. -/
def insert (cmp : α → α → Int) (n : Nat) (key : α) (value : β) (t : T α β) : Option (T α β) :=
  if t.isNil then some (.node false .nil key value .nil) else (insertGo cmp key value n [] t).map T.black

end Imgaug.OrdTree
