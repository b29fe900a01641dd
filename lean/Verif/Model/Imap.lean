/-! Model of `Pool.imap_batches` and `imap_batches_unordered` (imgaug/multicore.py 298-404, 461-476) together with the part of
the standard library that they use: `multiprocessing.pool.Pool.imap(func, iterable, chunksize)` and `imap_unordered` let a
thread take elements from the iterable, collect them in chunks of `chunksize` (the last one may be smaller) and hand full
chunks to worker processes; the results are returned chunk by chunk, by `imap` in the order of the chunks.

The batches of the source are represented by their positions `0 .. N-1`. Exceptions, `terminate` and processes that die are
not modelled. -/
namespace Imgaug.Imap

/-- Parameters of a call: number of batches of the source, `chunksize`, `output_buffer_size` (`none` for no limit, which is
also the meaning of 0, multicore.py 471), and `imap_batches` or `imap_batches_unordered`. -/
structure Cfg where
  N : Nat
  chunk : Nat
  B : Option Nat
  ordered : Bool

structure St where
  /-- number of batches taken from the source and passed through the semaphore -/
  loaded : Nat
  /-- batches of the chunk that is being collected -/
  buf : List Nat
  /-- chunks handed to the workers and not yet fetched by the caller's generator; `true` if augmented -/
  sent : List (Bool × List Nat)
  /-- rest of the chunk that is being yielded -/
  cur : List Nat
  /-- batches yielded to the caller -/
  out : List Nat
  /-- number of calls of `release` of the semaphore -/
  released : Nat
  /-- the end of the source was noticed -/
  ended : Bool
  deriving DecidableEq

def init : St := ⟨0, [], [], [], [], 0, false⟩

/-- Loading of one batch: it is added to the chunk, which is handed over if it is full. -/
def St.load (cfg : Cfg) (s : St) : St :=
  if (s.buf ++ [s.loaded]).length = cfg.chunk then
    { s with loaded := s.loaded + 1, buf := [], sent := s.sent ++ [(false, s.buf ++ [s.loaded])] }
  else { s with loaded := s.loaded + 1, buf := s.buf ++ [s.loaded] }

/-- The source is exhausted: an incomplete chunk is handed over. -/
def St.finish (s : St) : St :=
  if s.buf = [] then { s with ended := true } else { s with buf := [], sent := s.sent ++ [(false, s.buf)], ended := true }

/-- One step of one of the participants. The caller is one that keeps calling `next`. -/
inductive Step (cfg : Cfg) : St → St → Prop
  /-- multicore.py 463-466: the semaphore has `B - loaded + released` tokens left; `acquire` waits for one -/
  | load (s : St) (h : s.loaded < cfg.N) (hB : ∀ b, cfg.B = some b → s.loaded < s.released + b) : Step cfg s (s.load cfg)
  | finish (s : St) (h : s.loaded = cfg.N) (he : s.ended = false) : Step cfg s s.finish
  /-- a worker augments a chunk -/
  | work (s : St) (i : Nat) (c : List Nat) (h : s.sent[i]? = some (false, c)) :
      Step cfg s { s with sent := s.sent.set i (true, c) }
  /-- the caller's generator fetches the next chunk, multicore.py 347 and 401 -/
  | fetch (s : St) (i : Nat) (c : List Nat) (h : s.sent[i]? = some (true, c)) (ho : cfg.ordered = true → i = 0)
      (hc : s.cur = []) (hr : s.released = s.out.length) : Step cfg s { s with sent := s.sent.eraseIdx i, cur := c }
  /-- multicore.py 348 and 402 -/
  | yield (s : St) (x : Nat) (xs : List Nat) (h : s.cur = x :: xs) (hr : s.released = s.out.length) :
      Step cfg s { s with cur := xs, out := s.out ++ [x] }
  /-- the caller asks for the next batch and the generator releases the semaphore, multicore.py 349-350 and 403-404 -/
  | resume (s : St) (h : s.released < s.out.length) : Step cfg s { s with released := s.released + 1 }

/-- States that occur, for any interleaving. -/
inductive Reach (cfg : Cfg) : St → Prop
  | init : Reach cfg init
  | step (s t : St) : Reach cfg s → Step cfg s t → Reach cfg t

end Imgaug.Imap
