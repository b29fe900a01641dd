import Verif.Model.Loader
/-! Specification of `BatchLoader`. -/
namespace Imgaug.Loader

/-- The batches that a load function yields before it ends or raises. -/
def valid : List (Option Nat) → List Nat
  | some b :: l => b :: valid l
  | _ => []

/-- The batches of worker `w` among entries of the user's queue. -/
def ofWorker (w : Nat) (l : List (Option (Nat × Nat))) : List Nat :=
  l.filterMap (fun x => match x with | some e => if e.1 = w then some e.2 else none | none => none)

/-- The batches among entries of the user's queue. -/
def batches (l : List (Option (Nat × Nat))) : List Nat := l.filterMap (fun x => x.map (·.2))

/-- What the user took or can take from the queue. -/
def St.delivered (s : St) : List (Option (Nat × Nat)) := s.out ++ s.queue

/-- The number of batches in both queues. -/
def St.stored (s : St) : Nat :=
  (s.buf.filter (·.2.isSome)).length + (s.pipe.filter (·.2.isSome)).length + (s.queue.filter (·.isSome)).length

end Imgaug.Loader
