import Mathlib.Data.Multiset.Range
import Mathlib.Algebra.BigOperators.Group.Finset.Basic
import Mathlib.Algebra.Order.Group.Multiset
import Mathlib.Logic.Relation
import Mathlib.Logic.Function.Basic

/-!
# A file in coroutines: `AioStream`

Model of `lib/python/moteus/aiostream.py`.  Coroutines of the main thread share a queue of jobs with one
worker thread; the steps of the two threads are interleaved arbitrarily.

The bytes of the file are identified by their position, so that reading means to obtain the next
positions.  How many bytes `fd.read` returns is arbitrary, up to the requested number (a serial port with a
time out, a terminal, a pipe).
-/

namespace Verif.Aio

/-! ## Reading -/

/-- Where a call of `read` is. -/
inductive Phase
  /-- In `await f`, the future has no result yet. -/
  | waiting
  /-- The future has a result, the coroutine has not been resumed yet. -/
  | ready (data : List ℕ)
  /-- `CancelledError` was raised in `await f`, before the handler has the lock. -/
  | cancelling
  /-- Left with `CancelledError`. -/
  | cancelled
  /-- Returned. -/
  | finished
  deriving DecidableEq

/-- A call of `read(size, block)` (aiostream.py:59-89): its parameters, its variables
`accumulated_result` and `remaining`, and `skip` of the current round.  There is at most one job per call
in the queue, with the worker or on the way back, as the next is created after the result of the last has
arrived. -/
structure Call where
  size : ℕ
  block : Bool
  acc : List ℕ := []
  remaining : ℕ
  phase : Phase := .waiting
  skip : Bool := false

/-- The state: how far the file was read, the queue `_read_queue` (the calls whose jobs it holds), the job
for which the worker is inside of `fd.read` (it then holds `_read_lock`), the results on the way to the
main thread (the calls that `run_coroutine_threadsafe` has scheduled), and all calls so far. -/
structure Reads where
  pos : ℕ
  queue : List ℕ
  worker : Option ℕ
  posted : List (ℕ × List ℕ)
  next : ℕ
  calls : ℕ → Call

/-- At the beginning. -/
def Reads.init : Reads := ⟨0, [], none, [], 0, fun _ => ⟨0, false, [], 0, .finished, false⟩⟩

/-- Replace the record of a call. -/
def Reads.set (s : Reads) (c : ℕ) (x : Call) : Reads := { s with calls := Function.update s.calls c x }

/-- The call is over. -/
def Call.Over (x : Call) : Prop := x.phase = .finished ∨ x.phase = .cancelled

/-- aiostream.py:86-89, after the result `d` of a round: the call returns or starts the next round. -/
def Call.resumed (x : Call) (d : List ℕ) : Call :=
  { x with
    acc := x.acc ++ d, remaining := x.remaining - d.length
    phase := if !x.block || x.remaining - d.length == 0 then .finished else .waiting }

/-- The steps.  `seq`: a call is started only when all earlier calls are over.  `clean`: a call is
cancelled only before the worker has started its first job. -/
inductive Step (seq clean : Bool) : Reads → Reads → Prop
  /-- `read` is called (aiostream.py:59-77): a job is queued. -/
  | start (s : Reads) (size : ℕ) (block : Bool)
      (h : seq = true → ∀ c, c < s.next → (s.calls c).Over) :
      Step seq clean s { (s.set s.next ⟨size, block, [], size, .waiting, false⟩) with
        next := s.next + 1, queue := s.queue ++ [s.next] }
  /-- The worker takes a job whose call was cancelled (aiostream.py:36-37, 70-72). -/
  | pass (s : Reads) (c : ℕ) (q : List ℕ) (hw : s.worker = none) (hq : s.queue = c :: q)
      (hs : (s.calls c).skip = true) : Step seq clean s { s with queue := q }
  /-- The worker takes a job and enters `fd.read` (aiostream.py:36-37, 70-74). -/
  | take (s : Reads) (c : ℕ) (q : List ℕ) (hw : s.worker = none) (hq : s.queue = c :: q)
      (hs : (s.calls c).skip = false) : Step seq clean s { s with queue := q, worker := some c }
  /-- `fd.read` returns `k` bytes, and the worker sends them to the main thread (aiostream.py:74-75). -/
  | finish (s : Reads) (c k : ℕ) (hw : s.worker = some c) (hk : k ≤ (s.calls c).remaining) :
      Step seq clean s { s with
        worker := none, pos := s.pos + k, posted := s.posted ++ [(c, List.range' s.pos k)] }
  /-- `_async_set_future` with a future that waits (aiostream.py:24-28). -/
  | deliver (s : Reads) (c : ℕ) (d : List ℕ) (p : List (ℕ × List ℕ)) (hp : s.posted = (c, d) :: p)
      (hc : (s.calls c).phase = .waiting) :
      Step seq clean s { (s.set c { s.calls c with phase := .ready d }) with posted := p }
  /-- `_async_set_future` with a future that was cancelled (aiostream.py:25-27). -/
  | lose (s : Reads) (c : ℕ) (d : List ℕ) (p : List (ℕ × List ℕ)) (hp : s.posted = (c, d) :: p)
      (hc : (s.calls c).phase ≠ .waiting) : Step seq clean s { s with posted := p }
  /-- The coroutine continues after `await f` and returns (aiostream.py:86-89). -/
  | done (s : Reads) (c : ℕ) (d : List ℕ) (hc : (s.calls c).phase = .ready d)
      (h : ((s.calls c).resumed d).phase = .finished) :
      Step seq clean s (s.set c ((s.calls c).resumed d))
  /-- The coroutine continues after `await f` and queues the next job (aiostream.py:86-88, 65-77). -/
  | again (s : Reads) (c : ℕ) (d : List ℕ) (hc : (s.calls c).phase = .ready d)
      (h : ((s.calls c).resumed d).phase = .waiting) :
      Step seq clean s { (s.set c ((s.calls c).resumed d)) with queue := s.queue ++ [c] }
  /-- The coroutine is cancelled in `await f` (aiostream.py:79-80). -/
  | cancel (s : Reads) (c : ℕ) (hn : clean = false)
      (hc : (s.calls c).phase = .waiting ∨ ∃ d, (s.calls c).phase = .ready d) :
      Step seq clean s (s.set c { s.calls c with phase := .cancelling })
  /-- The handler has the lock, which the worker holds while it is in `fd.read` (aiostream.py:81-84). -/
  | release (s : Reads) (c : ℕ) (hn : clean = false) (hc : (s.calls c).phase = .cancelling)
      (hw : s.worker = none) :
      Step seq clean s (s.set c { s.calls c with phase := .cancelled, skip := true })
  /-- Both at once, before the worker has taken the first job of the call. -/
  | drop (s : Reads) (c : ℕ) (hc : (s.calls c).phase = .waiting) (hq : c ∈ s.queue)
      (ha : (s.calls c).acc = []) (hw : s.worker = none) :
      Step seq clean s (s.set c { s.calls c with phase := .cancelled, skip := true })

/-- The states that can be reached. -/
def Reach (seq clean : Bool) (s : Reads) : Prop :=
  Relation.ReflTransGen (Step seq clean) Reads.init s

/-- The step `drop` is two of the steps that are always possible. -/
theorem drop_is_cancel (seq : Bool) (s : Reads) (c : ℕ) (hc : (s.calls c).phase = .waiting)
    (hw : s.worker = none) : ∃ m, Step seq false s m ∧
      Step seq false m (s.set c { s.calls c with phase := .cancelled, skip := true }) := by
  refine ⟨_, .cancel s c rfl (.inl hc), ?_⟩
  have := Step.release (seq := seq) (clean := false) (s.set c { s.calls c with phase := .cancelling }) c rfl
    (by simp [Reads.set]) hw
  simpa [Reads.set] using this

end Verif.Aio
