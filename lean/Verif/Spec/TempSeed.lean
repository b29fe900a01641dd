import Verif.Model.TempSeed
/-! Specification for temporary seeds. -/
namespace Imgaug.TempSeed
variable {σ : Type}

/-- The program does not use the context object `i`. -/
def Code.Avoids (i : Nat) : Code σ → Prop
  | .draw => True
  | .change _ => True
  | .raise => True
  | .seq a b => a.Avoids i ∧ b.Avoids i
  | .tryExcept a b => a.Avoids i ∧ b.Avoids i
  | .withCtx j body => j ≠ i ∧ body.Avoids i

/-- No context object is used within its own block. -/
def Code.NoReentry : Code σ → Prop
  | .draw => True
  | .change _ => True
  | .raise => True
  | .seq a b => a.NoReentry ∧ b.NoReentry
  | .tryExcept a b => a.NoReentry ∧ b.NoReentry
  | .withCtx j body => body.Avoids j ∧ body.NoReentry

end Imgaug.TempSeed
