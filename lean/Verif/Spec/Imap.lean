import Verif.Model.Imap
import Mathlib.Data.List.Perm.Subperm
import Mathlib.Data.List.Range
import Mathlib.Tactic.Common
/-! Vocabulary for the statements in Props/Imap.lean. -/
namespace Imgaug.Props
open Imgaug Imgaug.Imap

/-- A participant can do something. -/
def CanStep (cfg : Cfg) (s : St) : Prop := ∃ t, Step cfg s t

/-- Bound for the number of steps that are still possible. -/
def remaining (cfg : Cfg) (s : St) : Nat :=
  5 * (cfg.N - s.loaded) + 4 * s.buf.length + (s.sent.map fun p => 3 * p.2.length + (if p.1 then 0 else 1)).sum +
    2 * s.cur.length + (s.out.length - s.released) + (if s.ended then 0 else 1)

end Imgaug.Props
