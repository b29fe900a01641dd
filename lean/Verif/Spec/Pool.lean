import Verif.Model.Pool
import Verif.Spec.Prefetch
import Mathlib.Data.List.Perm.Subperm
import Mathlib.Data.List.Forall2
import Mathlib.Tactic.Common
/-! Vocabulary for the statements in Props/Pool.lean. -/
namespace Imgaug.Props
open Imgaug Imgaug.Pool
variable {S V A : Type}

/-- Code that uses the global generator at most directly, not together with a parameter. -/
def LocalOnly : Code S V A → Prop
  | .ret _ => True
  | .raise => True
  | .draw _ _ k => ∀ v, LocalOnly (k v)
  | .drawTemp _ _ _ k => ∀ v, LocalOnly (k v)
  | .spawn _ k => ∀ t, LocalOnly (k t)
  | .spawnTemp _ _ k => ∀ t, LocalOnly (k t)
  | .drawGlobal _ _ k => ∀ v, LocalOnly (k v)
  | .drawGlobalParam _ _ _ => False
  | .block _ b k => LocalOnly b ∧ ∀ r, LocalOnly (k r)

/-- A world that a worker process of the pool can have: ids of `RNG` objects that a prefetcher remembers have been given to
`RNG` objects of this process or of the process it was forked from, and deterministic augmenters have the states `d0` that
they have in the main process. Nothing is assumed about the rest. -/
def Possible (env : Env S V) (d0 : Nat → S) (w : World S V) : Prop :=
  (∀ k l, (w.pfs k).lastIdx = some l → l < w.counter) ∧ ∀ j < env.size, env.det j = true → (w.nodes j).2 = d0 j

/-- Results that the tasks of a schedule have if each of them is run alone, as the first task of a process with the world
`w0`. -/
def resultsAlone (env : Env S V) (start : Int) (w0 : World S V) : List (Event S V A) → List (Int × Option A)
  | [] => []
  | .task _ i code :: es => (i, (worker env start i code w0).1) :: resultsAlone env start w0 es
  | .restart _ _ :: es => resultsAlone env start w0 es

/-- Schedules: every augmentation uses the global generator at most directly, and restarted processes have a possible
world. -/
def Schedule (env : Env S V) (d0 : Nat → S) (es : List (Event S V A)) : Prop :=
  (∀ p i code, Event.task p i code ∈ es → LocalOnly code) ∧ ∀ p w, Event.restart p w ∈ es → Possible env d0 w

/-- An environment with a root augmenter with two children, the second one deterministic, whose generators count. -/
def demoEnv : Env Nat Nat where
  P := 10
  params := fun _ => counting
  det := fun j => j == 2
  children := .cons .nil (.cons .nil .nil)
  ofSeed := fun s => s.toNat
  derive := fun s => (1000 * s, s + 1)

/-- A process that has just been forked. -/
def demoWorld : World Nat Nat := ⟨10, fun j => (j, 0), [], (5, 0), fun _ => PF.fresh⟩

/-- The root and its children draw samples; the deterministic child draws some and then fails, which is caught. -/
def demoCode : Code Nat Nat (List Nat) :=
  .draw 0 2 fun a => .block 1 (.draw 0 3 .ret) fun b => .block 2 (.draw 1 2 fun _ => .raise) fun _ =>
    .spawn (fun s => (s + 7, s + 1)) fun t => .drawTemp t 1 4 fun c => .drawGlobal 0 2 fun d =>
      .ret (a ++ b.getD [] ++ c ++ d)

/-- Uses of a pool where nothing happens between a generator yielding an id and being resumed. -/
def Orderly (s : Ids) : List IdOp → Prop
  | [] => True
  | op :: ops => (∀ g left, s.gens[g]? = some (true, left) → op = .next g) ∧ Orderly (s.step op) ops

end Imgaug.Props
