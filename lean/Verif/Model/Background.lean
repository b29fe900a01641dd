/-! Model of `BackgroundAugmenter` (imgaug/multicore.py 764-930): worker processes take batches from a source queue, augment
them and put them into a result queue, from which the caller takes them with `get_batch`.

Batches are numbers. The source is a queue into which one loader puts the batches and then `None`. The result queue
keeps the order of the entries of each process, but not the order of entries of different processes (queues of
`multiprocessing` are filled by a thread of each process). Not modelled: timeouts and polling (a worker that finds the source
queue empty tries again), a limit of the size of the source queue, `terminate`. -/
namespace Imgaug.Background

/-- What a worker process is doing, multicore.py 889-909. -/
inductive WSt where
  /-- at `queue_source.get`, line 892 -/
  | idle
  /-- has a batch (augments it), lines 900-904 -/
  | has (b : Nat)
  /-- took `None` from the source queue and will put it back, line 898 -/
  | gotNone
  /-- will put `None` into the result queue, line 908 -/
  | ending
  | done
  /-- the augmentation of a batch raised an exception, which ends the process -/
  | dead (b : Nat)
  deriving DecidableEq

structure St where
  /-- batches that the loader will put into the source queue -/
  left : List Nat
  /-- the loader has put `None` -/
  loaderDone : Bool
  src : List (Option Nat)
  workers : Nat → WSt
  /-- result queue, with the number of the process that made the entry -/
  res : List (Nat × Option Nat)
  /-- batches returned by `get_batch` -/
  out : List Nat
  /-- processes whose `None` was received; its length is `nb_workers_finished` -/
  closed : List Nat

/-- Start with the given batches. -/
def init (batches : List Nat) : St := ⟨batches, false, [], fun _ => .idle, [], [], []⟩

def setW (f : Nat → WSt) (w : Nat) (v : WSt) : Nat → WSt := fun (i : Nat) => if i = w then v else f i

/-- One step of the loader, of one of the `n` workers, or of the caller (who keeps calling `get_batch`). `Q` is `queue_size`;
`crashes` says whether augmentations may raise. -/
inductive Step (n Q : Nat) (crashes : Bool) : St → St → Prop
  | load (s : St) (b : Nat) (l : List Nat) (h : s.left = b :: l) :
      Step n Q crashes s { s with left := l, src := s.src ++ [some b] }
  | loadEnd (s : St) (h : s.left = []) (h2 : s.loaderDone = false) :
      Step n Q crashes s { s with loaderDone := true, src := s.src ++ [none] }
  /-- line 892 -/
  | get (s : St) (w b : Nat) (l : List (Option Nat)) (hw : w < n) (h : s.workers w = .idle) (hs : s.src = some b :: l) :
      Step n Q crashes s { s with src := l, workers := setW s.workers w (.has b) }
  | getNone (s : St) (w : Nat) (l : List (Option Nat)) (hw : w < n) (h : s.workers w = .idle) (hs : s.src = none :: l) :
      Step n Q crashes s { s with src := l, workers := setW s.workers w .gotNone }
  /-- line 904; `put` waits while the queue is full -/
  | put (s : St) (w b : Nat) (hw : w < n) (h : s.workers w = .has b) (hq : s.res.length < Q) :
      Step n Q crashes s { s with res := s.res ++ [(w, some b)], workers := setW s.workers w .idle }
  /-- line 898 -/
  | putBack (s : St) (w : Nat) (hw : w < n) (h : s.workers w = .gotNone) :
      Step n Q crashes s { s with src := s.src ++ [none], workers := setW s.workers w .ending }
  /-- line 908 -/
  | putNone (s : St) (w : Nat) (hw : w < n) (h : s.workers w = .ending) (hq : s.res.length < Q) :
      Step n Q crashes s { s with res := s.res ++ [(w, none)], workers := setW s.workers w .done }
  /-- lines 856-859 -/
  | recv (s : St) (w b : Nat) (l1 l2 : List (Nat × Option Nat)) (hr : s.res = l1 ++ (w, some b) :: l2)
      (hf : ∀ p ∈ l1, p.1 ≠ w) (hn : s.closed.length ≠ n) : Step n Q crashes s { s with res := l1 ++ l2, out := s.out ++ [b] }
  /-- lines 861-869 -/
  | recvNone (s : St) (w : Nat) (l1 l2 : List (Nat × Option Nat)) (hr : s.res = l1 ++ (w, none) :: l2)
      (hf : ∀ p ∈ l1, p.1 ≠ w) (hn : s.closed.length ≠ n) :
      Step n Q crashes s { s with res := l1 ++ l2, closed := s.closed ++ [w] }
  | crash (s : St) (w b : Nat) (hw : w < n) (h : s.workers w = .has b) (hc : crashes = true) :
      Step n Q crashes s { s with workers := setW s.workers w (.dead b) }

/-- States that occur in some interleaving. -/
inductive Reach (n Q : Nat) (crashes : Bool) (s0 : St) : St → Prop
  | refl : Reach n Q crashes s0 s0
  | step (s t : St) : Reach n Q crashes s0 s → Step n Q crashes s t → Reach n Q crashes s0 t

/-- `all_finished()`, lines 837-838: from now on `get_batch` returns `None`. It also returns `None` when the last worker's
`None` arrives, which makes this true. -/
def St.allFinished (n : Nat) (s : St) : Bool := s.closed.length == n

end Imgaug.Background
