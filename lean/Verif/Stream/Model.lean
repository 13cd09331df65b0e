import Verif.Can.Model
import Verif.Multiplex.Model

/-!
# The diagnostic stream and the adapter line protocol

Models `Stream`, `parse_diagnostic_data`, `make_diagnostic_write` and
`make_diagnostic_read` of lib/python/moteus/moteus.py and the reading side of
lib/python/moteus/fdcanusb.py.

What arrives from outside is a list of polls (or serial chunks); an operation
that needs more than this list provides blocks forever, which is `none`.
asyncio is modelled as far as the order of lock acquisition matters (see
`Event`); timeouts (`flush_read`) are not modelled.
-/

namespace Verif.Stream

open Verif Verif.Multiplex

/-! ## Frames -/

/-- moteus.py:1304-1318 `make_diagnostic_write`, the payload. -/
def makeDiagnosticWrite (data : Bytes) (channel : Nat) : Except Err Bytes :=
  if 61 < data.length then .error .assertionError
  else match writeInt8 0x40 with
    | .error e => .error e
    | .ok a => match writeInt8 channel with
      | .error e => .error e
      | .ok b => match writeInt8 data.length with
        | .error e => .error e
        | .ok c => .ok (a ++ b ++ c ++ data)

/-- moteus.py:1323-1336 `make_diagnostic_read`: payload and expected reply
size. -/
def makeDiagnosticRead (maxLength channel : Nat) : Except Err (Bytes × Nat) :=
  match writeInt8 0x42 with
  | .error e => .error e
  | .ok a => match writeInt8 channel with
    | .error e => .error e
    | .ok b => match writeInt8 maxLength with
      | .error e => .error e
      | .ok c => .ok (a ++ b ++ c, 3 + maxLength)

/-- moteus.py:597-613 `parse_diagnostic_data`; `none` is Python's `None`. -/
def parseDiagnosticData (data : Bytes) (channel : Nat) : Option Bytes :=
  if data.length < 3 then none
  else if data[0]? ≠ some 0x41 then none
  else if (data[1]?).map UInt8.toNat ≠ some channel then none
  else match readVaruint 2 data with
    | (none, _) => none
    | (some datalen, nextoff) =>
      if datalen > data.length - nextoff then none
      else some ((data.drop nextoff).take datalen)

/-! ## Writing -/

/-- The state of a `Stream` object for writing, moteus.py:1440-1449, together
with what happened outside.  `waiting` holds the chunks taken by `drain` calls
that wait for the lock, in the order in which asyncio.Lock will serve them;
`sent` the chunks handed to the transport. -/
structure WriteState where
  pending : Bytes := []
  waiting : List Bytes := []
  sent : List Bytes := []
deriving DecidableEq, Repr

/-- Steps of any number of tasks that use the stream:
`write`: moteus.py:1451-1452;
`take`: a task executes line 1456 of `drain` and asks for the lock;
`grant`: the first waiter gets the lock and sends, lines 1458-1460. -/
inductive Event
  | write (data : Bytes)
  | take
  | grant
deriving DecidableEq, Repr

/-- moteus.py:1451-1460 -/
def WriteState.step (s : WriteState) : Event → WriteState
  | .write data => { s with pending := s.pending ++ data }
  | .take =>
    if 0 < s.pending.length then
      { s with pending := s.pending.drop 61, waiting := s.waiting ++ [s.pending.take 61] }
    else s
  | .grant =>
    match s.waiting with
    | [] => s
    | c :: cs => { s with waiting := cs, sent := s.sent ++ [c] }

def WriteState.run (s : WriteState) (es : List Event) : WriteState := es.foldl WriteState.step s

/-- moteus.py:1454-1460 `drain` without other tasks. -/
def drainEvents : Nat → List Event
  | 0 => []
  | n + 1 => .take :: .grant :: drainEvents n

/-! ## Reading -/

/-- Reading state: the buffer and what later polls will deliver. -/
structure St (α : Type) where
  buf : Bytes
  polls : List α

/-- `while not stop(buffer): buffer += next poll` -/
def fill {α : Type} (join : α → Bytes) (stop : Bytes → Bool) : Bytes → List α → Option (St α)
  | buf, [] => if stop buf then some ⟨buf, []⟩ else none
  | buf, p :: ps => if stop buf then some ⟨buf, p :: ps⟩ else fill join stop (buf ++ join p) ps

/-- moteus.py:1471, 1503: `b''.join(x.data for x in these_results if x.data)`
-/
def joinPoll (replies : List (Option Bytes)) : Bytes := replies.flatMap (·.getD [])

/-- moteus.py:1462-1480 `read(size, block=True)` -/
def read {α : Type} (join : α → Bytes) (size : Nat) (s : St α) : Option (Bytes × St α) :=
  match fill join (fun b => !(decide (b.length < size) || decide (b.length = 0))) s.buf s.polls with
  | none => none
  | some s => some (s.buf.take size, ⟨s.buf.drop size, s.polls⟩)

/-- moteus.py:1462-1480 `read(size, block=False)` -/
def readSome {α : Type} (join : α → Bytes) (size : Nat) (s : St α) : Option (Bytes × St α) :=
  match fill join (fun b => !decide (b.length = 0)) s.buf s.polls with
  | none => none
  | some s => some (s.buf.take size, ⟨s.buf.drop size, s.polls⟩)

def isNewline (c : UInt8) : Bool := c == 10 || c == 13

/-- moteus.py:1497-1515 `_read_maybe_empty_line`; the minimum of the two `find`
results is the first line end of either kind. -/
def readMaybeEmptyLine {α : Type} (join : α → Bytes) (s : St α) : Option (Bytes × St α) :=
  match fill join (fun b => b.any isNewline) s.buf s.polls with
  | none => none
  | some s =>
    let first := s.buf.findIdx isNewline
    some (s.buf.take (first + 1), ⟨s.buf.drop (first + 1), s.polls⟩)

/-- `bytes.rstrip()` -/
def rstrip (l : Bytes) : Bytes := (l.reverse.dropWhile Can.isSpace).reverse

/-- All bytes that will ever be available. -/
def St.flat {α : Type} (join : α → Bytes) (s : St α) : Bytes := s.buf ++ s.polls.flatMap join

/-- moteus.py:1517-1523 `readline`.  `n` bounds the number of lines; every
line takes at least one byte, so that the number of available bytes is enough.
-/
def readlineLoop {α : Type} (join : α → Bytes) : Nat → St α → Option (Bytes × St α)
  | 0, _ => none
  | n + 1, s =>
    match readMaybeEmptyLine join s with
    | none => none
    | some (line, s) =>
      if 0 < (rstrip line).length then some (rstrip line, s) else readlineLoop join n s

def readline {α : Type} (join : α → Bytes) (s : St α) : Option (Bytes × St α) :=
  readlineLoop join ((s.flat join).length + 1) s

inductive Out
  | bytes (b : Bytes)
  | commandError (line : Bytes)
  | runtimeError
deriving DecidableEq, Repr

/-- moteus.py:1525-1533 `read_until_OK` -/
def readUntilOkLoop {α : Type} (join : α → Bytes) : Nat → Bytes → St α → Option (Out × St α)
  | 0, _, _ => none
  | n + 1, result, s =>
    match readline join s with
    | none => none
    | some (line, s) =>
      if [79, 75].isPrefixOf line then some (.bytes result, s)
      else if [69, 82, 82].isPrefixOf line then some (.commandError line, s)
      else readUntilOkLoop join n (result ++ (line ++ [10])) s

def readUntilOk {α : Type} (join : α → Bytes) (s : St α) : Option (Out × St α) :=
  readUntilOkLoop join ((s.flat join).length + 1) [] s

/-- moteus.py:1551-1556 `read_binary_blob` -/
def readBinaryBlob {α : Type} (join : α → Bytes) (s : St α) : Option (Out × St α) :=
  match read join 5 s with
  | none => none
  | some (sizeBytes, s) =>
    if sizeBytes[0]? ≠ some 0x0a then some (.runtimeError, s)
    else match read join (leNat (sizeBytes.drop 1)) s with
      | none => none
      | some (b, s) => some (.bytes b, s)

/-- The reading operations of `Stream`. -/
inductive Op
  | read (size : Nat)
  | readline
  | readUntilOk
  | readBinaryBlob
deriving DecidableEq, Repr

def exec {α : Type} (join : α → Bytes) (s : St α) : Op → Option (Out × St α)
  | .read n => (read join n s).map fun r => (.bytes r.1, r.2)
  | .readline => (readline join s).map fun r => (.bytes r.1, r.2)
  | .readUntilOk => readUntilOk join s
  | .readBinaryBlob => readBinaryBlob join s

/-- At most `n` operations of a client that chooses the next operation from
the results so far; the results, and whether the last operation blocks. -/
def session {α : Type} (join : α → Bytes) (client : List Out → Option Op) :
    Nat → List Out → St α → List Out × Bool
  | 0, h, _ => (h, false)
  | n + 1, h, s =>
    match client h with
    | none => (h, false)
    | some op =>
      match exec join s op with
      | none => (h, true)
      | some (o, s) => session join client n (h ++ [o]) s

/-! ## The adapter -/

/-- fdcanusb.py:79-92 `_readline`: a single line end at the start is dropped. -/
def adapterLineLoop : Nat → St Bytes → Option (Bytes × St Bytes)
  | 0, _ => none
  | n + 1, s =>
    match fill id (fun b => b.any isNewline) s.buf s.polls with
    | none => none
    | some s =>
      let offset := s.buf.findIdx isNewline
      let s' : St Bytes := ⟨s.buf.drop (offset + 1), s.polls⟩
      if 0 < offset then some (s.buf.take (offset + 1), s') else adapterLineLoop n s'

def adapterLine (s : St Bytes) : Option (Bytes × St Bytes) :=
  adapterLineLoop ((s.flat id).length + 1) s

/-- fdcanusb.py:139-169 `_do_command`, after the command has been written:
`none` in the result is Python's `None`; the received frame is what is handed
to the parser of the command. -/
def doCommand (replyRequired : Bool) (s : St Bytes) :
    Option (Except Err (Option (Int × Bytes)) × St Bytes) :=
  match adapterLine s with
  | none => none
  | some (ok, s) =>
    if ¬ [79, 75].isPrefixOf ok then some (.error .runtimeError, s)
    else if replyRequired then
      match adapterLine s with
      | none => none
      | some (line, s) =>
        if ¬ [114, 99, 118].isPrefixOf line then some (.error .runtimeError, s)
        else match Can.parseRcv line with
          | none => some (.error .valueError, s)
          | some f => some (.ok (some f), s)
    else some (.ok none, s)

/-- fdcanusb.py:123-137 `cycle`: one result for each command; an exception
ends it. -/
def cycle : List Bool → St Bytes → Option (Except Err (List (Option (Int × Bytes))) × St Bytes)
  | [], s => some (.ok [], s)
  | r :: rs, s =>
    match doCommand r s with
    | none => none
    | some (.error e, s) => some (.error e, s)
    | some (.ok x, s) =>
      match cycle rs s with
      | none => none
      | some (.error e, s) => some (.error e, s)
      | some (.ok xs, s) => some (.ok (x :: xs), s)

end Verif.Stream
