import Verif.Model.ResizeArgs
import Verif.Spec.AffineArgs
import Verif.Spec.Size2
import Verif.Spec.Resize
/-! Vocabulary for the statements in Props/ResizeArgs.lean. -/
namespace Imgaug.ResizeArgs
open Imgaug Imgaug.Params Imgaug.Resize Imgaug.KeepSize
open Imgaug.Size (SizeArg)

/-- A python number as a size: integers are numbers of pixels, floats are fractions. -/
def IsNum (n : Num) (s : SizeArg) : Prop :=
  (n.isInt = true ∧ ∃ z : Int, n.q = z ∧ s = .int z) ∨ (n.isInt = false ∧ s = .float n.q)

/-- The sizes for which a value stands. `P`: what the user's parameters may yield. -/
def Allows (P : Nat → SizeArg → Prop) : SVal → SizeArg → Prop
  | .keep, s => s = .keep
  | .ratio, s => s = .keepAspectRatio
  | .val (.atom (.num n)), s => IsNum n s
  | .val (.atom (.par i)), s => P i s
  | .val (.atom _), _ => False
  | .val (.tuple l), s => ∃ a b : Num, l = [.num a, .num b] ∧
      (if a.isInt = true ∧ b.isInt = true then ∃ z : Int, s = .int z ∧ min a.q b.q ≤ z ∧ z ≤ max a.q b.q
      else ∃ q : ℚ, s = .float q ∧ min a.q b.q ≤ q ∧ q ≤ max a.q b.q)
  | .val (.iter l), s => (l = [] ∧ s = .keep) ∨ ∃ n : Num, .num n ∈ l ∧ IsNum n s

/-- The value that is given for the height of an image. -/
def SArg.forHeight (a : SArg) (s : Shape) : SVal :=
  match a with
  | .one v => v
  | .dict d =>
    if d.height.isSome || d.width.isSome then d.height.getD .keep
    else if s.h < s.w then d.shorter.getD .keep else d.longer.getD .keep

/-- The value that is given for the width of an image. -/
def SArg.forWidth (a : SArg) (s : Shape) : SVal :=
  match a with
  | .one v => v
  | .dict d =>
    if d.height.isSome || d.width.isSome then d.width.getD .keep
    else if s.h < s.w then d.longer.getD .keep else d.shorter.getD .keep

/-- The numbers of a value are positive; a tuple has two numbers, the numbers of a list are all integers or all floats. -/
def SVal.Good : SVal → Prop
  | .keep => True
  | .ratio => False
  | .val (.atom (.num n)) => 0 < n.q
  | .val (.atom (.par _)) => True
  | .val (.atom _) => False
  | .val (.tuple l) => ∃ a b : Num, l = [.num a, .num b] ∧ 0 < a.q ∧ 0 < b.q
  | .val (.iter l) => ∃ ns : List Num, l = ns.map .num ∧ (∀ n ∈ ns, 0 < n.q) ∧ ((∀ n ∈ ns, n.isInt = true) ∨ ∀ n ∈ ns, n.isInt = false)

/-- Two values of a dictionary: at most one is `"keep-aspect-ratio"`. -/
def GoodPair (a b : SVal) : Prop := (a.Good ∧ b.Good) ∨ (a = .ratio ∧ b.Good) ∨ (a.Good ∧ b = .ratio)

/-- An argument for the size. Keys that are not known are only allowed beside known ones, and the keys of sides only count if there are none
of the axes. -/
def SArg.Good : SArg → Prop
  | .one v => v.Good
  | .dict d =>
    if d.height.isSome || d.width.isSome then GoodPair (d.height.getD .keep) (d.width.getD .keep)
    else if d.shorter.isSome || d.longer.isSome then GoodPair (d.shorter.getD .keep) (d.longer.getD .keep)
    else d.others = false

/-- Python integers have integer values. -/
def SVal.Whole : SVal → Prop
  | .val v => AffineArgs.IntNums v
  | _ => True

/-- All integers in the argument have integer values. -/
def SArg.Whole (a : SArg) : Prop := ∀ s, (a.forHeight s).Whole ∧ (a.forWidth s).Whole

/-- The values of a parameter that was created. -/
def Dist.Supports (P : Nat → SizeArg → Prop) : Dist → SizeArg → Prop
  | .keep, s => s = .keep
  | .ratio, s => s = .keepAspectRatio
  | .num (.det n), s => s = if n.isInt then .int (pyInt n.q) else .float n.q
  | .num (.uniform a b), s => ∃ q : ℚ, s = .float q ∧ min a.q b.q ≤ q ∧ q ≤ max a.q b.q
  | .num (.discreteUniform a b), s => ∃ z : Int, s = .int z ∧ min a b ≤ z ∧ z ≤ max a b
  | .num (.choice l), s => l ≠ [] → ∃ n ∈ l, s = if n.isInt then .int (pyInt n.q) else .float n.q
  | .num (.par i), s => P i s
  | .num _, _ => True

/-- The methods of a parameter that was created. -/
def IDist.Supports (Q : Nat → Option Inter → Prop) : IDist → Option Inter → Prop
  | .det i, j => j = i
  | .choice l, j => l ≠ [] → j ∈ l
  | .par k, j => Q k j

/-- A method for which the argument `interpolation` stands. -/
def IArg.Allows (Q : Nat → Option Inter → Prop) : IArg → Option Inter → Prop
  | .all, i => i ≠ none
  | .one j, i => i = j
  | .list l, i => l ≠ [] → i ∈ l
  | .par k, i => Q k i
  | .other, _ => False

/-- An axis with "keep-aspect-ratio" gets the size that keeps the ratio, to within half a pixel; `other` and `other'` are the sizes of the
other axis before and after. -/
def Ratio (s : SizeArg) (axis other : Nat) (axis' other' : Nat) : Prop :=
  s = .keepAspectRatio → |(axis' : ℚ) - other' * ((axis : ℚ) / other)| ≤ 1 / 2

/-- What becomes of the size of an image, if `a` is demanded for the height and `b` for the width. -/
structure Becomes (s : Shape) (a b : SizeArg) (s' : Shape) : Prop where
  height : Size.Requested s.h a s'.h
  width : Size.Requested s.w b s'.w
  ratioH : Ratio a s.h s.w s'.h s'.w
  ratioW : Ratio b s.w s.h s'.w s'.h

/-- A row is as requested by the arguments, whatever the shape of the image is. -/
structure Requested (P : Nat → SizeArg → Prop) (Q : Nat → Option Inter → Prop) (a : SArg) (i : IArg) (sl : Bool) (r : Row) : Prop where
  height : ∀ s, Allows P (a.forHeight s) (if sl ∧ ¬ s.h < s.w then r.b else r.a)
  width : ∀ s, Allows P (a.forWidth s) (if sl ∧ ¬ s.h < s.w then r.a else r.b)
  same : (∀ d, a ≠ .dict d) → r.a = r.b
  inter : i.Allows Q r.inter

/-- The size `n'` of an axis of a map of size `n`, if that of its image goes from `img` to `img'`: resized by the same factor. -/
def MapSize (n img img' n' : Nat) : Prop :=
  (1 / 2 < (n : ℚ) * ((img' : ℚ) / img) → |(n' : ℚ) - n * ((img' : ℚ) / img)| ≤ 1 / 2) ∧ ((n : ℚ) * ((img' : ℚ) / img) ≤ 1 / 2 → n' = 1) ∧
  (n = img → 0 < img' → n' = img')

/-- What becomes of a map of an image. -/
structure MapFollows (im im' : Im) (m m' : MapOn) : Prop where
  shape : m'.shape = ⟨im'.h, im'.w⟩
  heat : m'.heat = m.heat
  height : MapSize m.arr.h im.h im'.h m'.arr.h
  width : MapSize m.arr.w im.w im'.w m'.arr.w
  dtype : m'.arr.dt = m.arr.dt ∧ m'.arr.c = m.arr.c

/-- A sampler whose values alternate between the ends of intervals and go through lists. Parameters yield "keep". -/
def alternating : AffineArgs.Sampler Nat Dist SizeArg := fun d n g =>
  ((List.range n).map (fun (k : Nat) =>
    match d with
    | .keep => .keep
    | .ratio => .keepAspectRatio
    | .num (.det m) => if m.isInt then .int (pyInt m.q) else .float m.q
    | .num (.uniform a b) => if (g + k) % 2 = 0 then .float a.q else .float b.q
    | .num (.discreteUniform a b) => if (g + k) % 2 = 0 then .int a else .int b
    | .num (.choice l) => (l.map (fun m => if m.isInt then SizeArg.int (pyInt m.q) else .float m.q)).getD ((g + k) % l.length) .keep
    | _ => .keep), g + n)

/-- The same for methods. -/
def alternatingInter : AffineArgs.Sampler Nat IDist (Option Inter) := fun d n g =>
  ((List.range n).map (fun (k : Nat) =>
    match d with
    | .det i => i
    | .choice l => l.getD ((g + k) % l.length) none
    | .par _ => none), g + n)

end Imgaug.ResizeArgs
