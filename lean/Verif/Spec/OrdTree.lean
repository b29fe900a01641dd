import Verif.Model.OrdTree
/-! Specification of the search tree. -/
namespace Imgaug.OrdTree
variable {α β : Type}

/-- The comparison orders all keys: exactly one of less, equal, greater, and transitive. -/
structure Lawful (cmp : α → α → Int) : Prop where
  zero : ∀ a b, cmp a b = 0 ↔ a = b
  flip : ∀ a b, cmp a b < 0 ↔ 0 < cmp b a
  trans : ∀ a b c, cmp a b < 0 → cmp b c < 0 → cmp a c < 0

/-- The items from the left to the right. -/
def T.items : T α β → List (α × β)
  | .nil => []
  | .node _ l k v r => l.items ++ (k, v) :: r.items

/-- The keys increase from the left to the right. -/
def Ordered (cmp : α → α → Int) (t : T α β) : Prop := t.items.Pairwise (fun a b => cmp a.1 b.1 < 0)

/-- No red node has a red child. -/
def NoRedRed : T α β → Prop
  | .nil => True
  | .node c l _ _ r => (c = true → l.isRed = false ∧ r.isRed = false) ∧ NoRedRed l ∧ NoRedRed r

/-- Every way from the root down to a missing child has `n` black nodes. -/
def Balanced : Nat → T α β → Prop
  | n, .nil => n = 0
  | n, .node true l _ _ r => Balanced n l ∧ Balanced n r
  | n, .node false l _ _ r => ∃ m, n = m + 1 ∧ Balanced m l ∧ Balanced m r

/-- The number of nodes on the longest way down. -/
def height : T α β → Nat
  | .nil => 0
  | .node _ l _ _ r => max (height l) (height r) + 1

end Imgaug.OrdTree
