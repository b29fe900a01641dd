import Mathlib.Logic.Function.Basic
/-! Model of `BatchLoader` (imgaug/multicore.py 561-761): workers (threads or processes) load batches and put them into an internal queue; a further
thread moves them to the queue from which the user takes them.

A queue of `multiprocessing` has a buffer and a pipe: `put` stores an entry in the buffer of its process, and a feeder thread of that process writes it
to the pipe later. Readers only see the pipe. A process ends when its buffer has been written, a thread ends at once. The second queue has only one
writing process and is modelled without its buffer. Batches are numbers. Timeouts are not modelled: a reader or writer that has to wait does not make
a step, except where the program goes on because the queue is empty. The last part of `terminate` (lines 737-757, cleaning of the queues) and dying
processes are not modelled. The number of living workers may be read a little before the queue; in the model the loop may always read once more. -/
namespace Imgaug.Loader

/-- What a worker is doing, multicore.py 691-709. -/
inductive WSt where
  /-- loading; the list is what the load function will still yield, `none` is an exception or something that is no batch -/
  | loading (l : List (Option Nat))
  /-- will put the end marker `""`, line 708 -/
  | ending
  /-- has left the function, but still `is_alive` -/
  | leaving
  | dead
  deriving DecidableEq, Repr

/-- What the thread between the queues is doing, multicore.py 643-674. The batches have the number of the worker in front. -/
inductive MSt where
  /-- first loop, line 646-659 -/
  | poll
  /-- will put a batch, line 653 -/
  | hold (e : Nat × Nat)
  /-- second loop, lines 663-671 -/
  | drain
  /-- will put a batch, line 667 -/
  | drainHold (e : Nat × Nat)
  /-- will put `None`, line 673 -/
  | last
  | done
  deriving DecidableEq, Repr

/-- What the user's thread is doing: using the loader, or in `terminate`, waiting for the thread between the queues (line 721), for the workers
(723-735), or after that. In all states but `run` the join signal is set (line 715). -/
inductive CSt where
  | run | joinMain | joinWorkers | closed
  deriving DecidableEq, Repr

structure St where
  ws : Nat → WSt
  /-- entries of the internal queue that were put, but are not yet in the pipe; `none` is the end marker -/
  buf : List (Nat × Option Nat)
  pipe : List (Nat × Option Nat)
  main : MSt
  /-- the queue of the user; `none` is `None` -/
  queue : List (Option (Nat × Nat))
  /-- what was taken out of it -/
  out : List (Option (Nat × Nat))
  caller : CSt

/-- The constructor, multicore.py 590-626: `load w` is what the load function yields in worker `w`. -/
def init (load : Nat → List (Option Nat)) : St := ⟨fun w => .loading (load w), [], [], .poll, [], [], .run⟩

/-- The settings: number of workers, `queue_size // 2`, threads or processes, whether others than the caller of `terminate` take batches, and whether
the feeder of the buffer is always faster than the timeout of 5 ms in line 665. -/
structure Conf where
  n : Nat
  Q : Nat
  threaded : Bool
  others : Bool
  prompt : Bool

/-- One step of anyone. -/
inductive Step (c : Conf) : St → St → Prop
  /-- lines 691-702: a batch is put, which waits while the queue is full. If the signal was set, the loop ends (703-704) -/
  | put (s : St) (w b : Nat) (l : List (Option Nat)) (hw : w < c.n) (h : s.ws w = .loading (some b :: l))
      (hq : s.buf.length + s.pipe.length < c.Q) :
      Step c s { s with buf := s.buf ++ [(w, some b)],
                        ws := Function.update s.ws w (if s.caller = .run then .loading l else .ending) }
  /-- lines 697 and 703: the signal was set before the batch was put -/
  | quit (s : St) (w : Nat) (l : List (Option Nat)) (hw : w < c.n) (h : s.ws w = .loading l) (hc : s.caller ≠ .run) :
      Step c s { s with ws := Function.update s.ws w .ending }
  /-- the load function has no further batches -/
  | loaded (s : St) (w : Nat) (hw : w < c.n) (h : s.ws w = .loading []) : Step c s { s with ws := Function.update s.ws w .ending }
  /-- line 705: an exception -/
  | raised (s : St) (w : Nat) (l : List (Option Nat)) (hw : w < c.n) (h : s.ws w = .loading (none :: l)) :
      Step c s { s with ws := Function.update s.ws w .ending }
  /-- line 708 -/
  | putEnd (s : St) (w : Nat) (hw : w < c.n) (h : s.ws w = .ending) (hq : s.buf.length + s.pipe.length < c.Q) :
      Step c s { s with buf := s.buf ++ [(w, none)], ws := Function.update s.ws w .leaving }
  /-- a thread ends; a process ends when its buffer is empty -/
  | die (s : St) (w : Nat) (hw : w < c.n) (h : s.ws w = .leaving) (hb : c.threaded = false → ∀ e ∈ s.buf, e.1 ≠ w) :
      Step c s { s with ws := Function.update s.ws w .dead }
  /-- the feeder thread writes the first entry of its process to the pipe; threads share one buffer -/
  | flush (s : St) (w : Nat) (x : Option Nat) (l1 l2 : List (Nat × Option Nat)) (h : s.buf = l1 ++ (w, x) :: l2) (h1 : ∀ e ∈ l1, e.1 ≠ w)
      (ht : c.threaded = true → l1 = []) : Step c s { s with buf := l1 ++ l2, pipe := s.pipe ++ [(w, x)] }
  /-- lines 649-653 -/
  | get (s : St) (w b : Nat) (l : List (Nat × Option Nat)) (h : s.main = .poll) (hp : s.pipe = (w, some b) :: l) :
      Step c s { s with pipe := l, main := .hold (w, b) }
  /-- lines 649-651 -/
  | getEnd (s : St) (w : Nat) (l : List (Nat × Option Nat)) (h : s.main = .poll) (hp : s.pipe = (w, none) :: l) : Step c s { s with pipe := l }
  /-- line 653 -/
  | move (s : St) (e : Nat × Nat) (h : s.main = .hold e) (hq : s.queue.length < c.Q) :
      Step c s { s with queue := s.queue ++ [some e], main := .poll }
  /-- line 646: the loop ends -/
  | leave (s : St) (h : s.main = .poll) (hd : (∀ w < c.n, s.ws w = .dead) ∨ s.caller ≠ .run) : Step c s { s with main := .drain }
  /-- lines 665-667 -/
  | drainGet (s : St) (w b : Nat) (l : List (Nat × Option Nat)) (h : s.main = .drain) (hp : s.pipe = (w, some b) :: l) :
      Step c s { s with pipe := l, main := .drainHold (w, b) }
  /-- lines 665-666 -/
  | drainEnd (s : St) (w : Nat) (l : List (Nat × Option Nat)) (h : s.main = .drain) (hp : s.pipe = (w, none) :: l) : Step c s { s with pipe := l }
  /-- line 667 -/
  | drainMove (s : St) (e : Nat × Nat) (h : s.main = .drainHold e) (hq : s.queue.length < c.Q) :
      Step c s { s with queue := s.queue ++ [some e], main := .drain }
  /-- lines 668-669: nothing arrives within 5 ms -/
  | empty (s : St) (h : s.main = .drain) (hp : s.pipe = []) (hb : c.prompt = true → s.buf = []) : Step c s { s with main := .last }
  /-- line 673 -/
  | putNone (s : St) (h : s.main = .last) (hq : s.queue.length < c.Q) : Step c s { s with queue := s.queue ++ [none], main := .done }
  /-- the user takes the next entry -/
  | take (s : St) (x : Option (Nat × Nat)) (l : List (Option (Nat × Nat))) (h : s.queue = x :: l) (hc : s.caller = .run ∨ c.others = true) :
      Step c s { s with queue := l, out := s.out ++ [x] }
  /-- lines 714-715 -/
  | terminate (s : St) (h : s.caller = .run) : Step c s { s with caller := .joinMain }
  /-- lines 720-721 -/
  | joinMain (s : St) (h : s.caller = .joinMain) (hm : s.main = .done) : Step c s { s with caller := .joinWorkers }
  /-- line 730: `terminate` of a process; what is in its buffer is lost -/
  | kill (s : St) (w : Nat) (hw : w < c.n) (h : s.caller = .joinWorkers) (ht : c.threaded = false) (hd : s.ws w ≠ .dead) :
      Step c s { s with ws := Function.update s.ws w .dead, buf := s.buf.filter (fun e => e.1 ≠ w) }
  /-- lines 723-735 -/
  | joinWorkers (s : St) (h : s.caller = .joinWorkers) (hd : ∀ w < c.n, s.ws w = .dead) : Step c s { s with caller := .closed }

/-- States that occur in some interleaving. -/
inductive Reach (c : Conf) (s0 : St) : St → Prop
  | refl : Reach c s0 s0
  | step (s t : St) : Reach c s0 s → Step c s t → Reach c s0 t

end Imgaug.Loader
