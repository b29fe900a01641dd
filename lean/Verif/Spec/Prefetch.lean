import Verif.Model.Prefetch
import Mathlib.Data.List.Perm.Subperm
import Mathlib.Tactic.Common
/-! Vocabulary for the statements in Props/Prefetch.lean. -/
namespace Imgaug.Props
open Imgaug
variable {S V A : Type}

/-- A parameter that also records everything it was asked for, in order. -/
def logged (p : Param S V) : Param (S × List V) V :=
  ⟨fun n s => ((p.draw n s.1).1, ((p.draw n s.1).2, s.2 ++ (p.draw n s.1).1))⟩

/-- `draw_samples(n)` gives `n` samples. -/
def Sized (p : Param S V) : Prop := ∀ n s, (p.draw n s).1.length = n

/-- The outputs that belong to requests made with generator `i`. -/
def outputsOf (i : Nat) (reqs : List (Bool × Nat × Nat)) (outs : List (List V)) : List V :=
  ((reqs.zip outs).filter (fun x => decide (x.1.2.1 = i))).flatMap (fun x => x.2)

/-- The unused samples, if they were drawn from generator `i`. -/
def bufferOf (i : Nat) (pf : PF V) : List V :=
  match pf.lastIdx with
  | some j => if j = i then pf.unused else []
  | none => []

/-- A parameter whose samples are the positions in the stream. -/
def counting : Param Nat Nat := ⟨fun n s => (List.range' s n, s + n)⟩

/-- Code that changes the flag by context managers only. -/
def OnlyContexts : FlagProg → Prop
  | .skip => True
  | .raise => True
  | .seq a b => OnlyContexts a ∧ OnlyContexts b
  | .set _ => False
  | .withToggled _ b => OnlyContexts b

/-- Calls of a deterministic augmenter one after the other, on inputs with the codes `progs`. -/
def callMany (P : Nat) (p : Nat → Param S V) (det : Bool) (idx : Nat) : List (Prog V A) → (Nat → PF V) → S → List (Option A)
  | [], _, _ => []
  | c :: cs, pfs, s =>
    (c.callAug P p det idx pfs s).1 :: callMany P p det idx cs (c.callAug P p det idx pfs s).2.1 (c.callAug P p det idx pfs s).2.2

end Imgaug.Props
