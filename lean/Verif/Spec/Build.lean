import Verif.Model.Build
/-! What is expected of the arguments of constructors. -/
namespace Imgaug.Build
variable {α : Type}

/-- The augmenters a user names by an argument: none, one, or those of a list. -/
inductive Names (o : Objects α) : Arg α → List α → Prop where
  | nothing : Names o .none []
  | one (x : α) : o.isAug x = true → Names o (.obj x) [x]
  | list (l : List α) : (∀ x ∈ l, o.isAug x = true) → Names o (.iter (.list l)) l

/-- The argument is a generator. -/
def IsGenerator : Arg α → Prop
  | .iter (.generator _) => True
  | _ => False

/-- The augmenters applied, one after the other, by a treated list. -/
def Lst.applied : Lst α → List α
  | .default => []
  | .same x => [x]
  | .sequential l _ => l

/-- `n` is an integer with the fraction of `q` cut off. -/
def IsTrunc (q : ℚ) (n : Int) : Prop := (0 ≤ q → (n : ℚ) ≤ q ∧ q < n + 1) ∧ (q < 0 → q ≤ n ∧ (n : ℚ) < q + 1)

end Imgaug.Build
