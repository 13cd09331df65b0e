import Mathlib.Data.List.Basic
import Mathlib.Data.List.Induction
import Mathlib.Data.List.TakeDrop
import Mathlib.Data.List.TakeWhile
import Mathlib.Tactic.Linarith
import Mathlib.Tactic.SplitIfs

/-!
# What tview makes of the bytes of a controller (C105)

`utils/gui/moteus_gui/tview.py` polls each controller with diagnostic reads, appends what comes back to
a buffer and takes text lines and binary blocks out of it.  Lines are cut at the first CR or LF; a binary
block follows some lines (`emit`, `schema`, `cschema`, `cdata`).  The task that consumes the buffer runs
until it has to wait and is woken by every accepted message.

A byte is a natural number; a text is the list of its (latin-1) byte values.  The consumer is a machine:
it wants a line, a block or a resynchronization and is given what it wants.  The machine of tview is `dev`.
-/

namespace Verif.Tool.Tview

abbrev Bs := List ℕ

/-- the bytes of an ASCII text. -/
def tx (s : String) : Bs := s.toList.map Char.toNat

/-! ## the messages -/

/-- `DeviceStream.process_message` (tview.py:517-538): the bytes a message appends to the buffer, `none`
when the message is refused.  An accepted message wakes the consumer, also when it appends nothing. -/
def accept (d : Bs) : Option Bs :=
  match d with
  | a :: b :: n :: rest =>
    if a ≠ 0x41 then none else if b ≠ 1 then none else if n > 61 then none
    else if n > rest.length then none else some (rest.take n)
  | _ => none

/-! ## the buffer -/

def isNl (c : ℕ) : Bool := c = 13 || c = 10

/-- `_read_maybe_empty_line` (540-548): everything up to and including the first CR or LF. -/
def cut : Bs → Option (Bs × Bs)
  | [] => none
  | c :: cs => if isNl c then some ([c], cs) else (cut cs).map fun p => (c :: p.1, p.2)

/-- the bytes `bytes.rstrip()` removes: tab, LF, VT, FF, CR and space. -/
def isWs (c : ℕ) : Bool := (9 ≤ c && c ≤ 13) || c = 32

/-- `bytes.rstrip()` (554). -/
def rstrip (l : Bs) : Bs := (l.reverse.dropWhile isWs).reverse

/-- `struct.unpack('<I', data[1:5])` (573). -/
def sizeOf (buf : Bs) : Option ℕ :=
  match buf with
  | _ :: a :: b :: c :: d :: _ => some (a + 256 * (b + 256 * (c + 256 * d)))
  | _ => none

inductive Blk where
  /-- not enough bytes yet -/
  | wait
  /-- `return False` (574-575) -/
  | big
  | got (block rest : Bs)
  deriving DecidableEq

/-- one pass of the loop of `read_sized_block` (570-583). -/
def block (buf : Bs) : Blk :=
  match sizeOf buf with
  | none => .wait
  | some n =>
    if n > 2 ^ 24 then .big
    else if buf.length < 5 + n then .wait
    else .got ((buf.drop 5).take n) (buf.drop (5 + n))

/-! ## the consumer -/

inductive Want where
  | line | block | resync | done
  deriving DecidableEq

/-- a task that consumes the stream. -/
structure Machine (σ ε : Type) where
  want : σ → Want
  onLine : σ → Bs → σ × List ε
  /-- the argument is `none` when `read_sized_block` returns False -/
  onBlock : σ → Option Bs → σ × List ε
  onResync : σ → σ × List ε
  /-- after a refused block the task does not ask for a block again at once -/
  refused : ∀ s, want (onBlock s none).1 ≠ .block

inductive Act (σ ε : Type) where
  /-- the task waits, the buffer is as it was -/
  | wait
  /-- `readline` took a line of white space out of the buffer -/
  | blank (rest : Bs)
  | next (s : σ) (rest : Bs) (out : List ε)

variable {σ ε : Type}

/-- what the task does with the buffer: `readline` (550-558), `read_sized_block` (570-583). -/
def act (m : Machine σ ε) (s : σ) (buf : Bs) : Act σ ε :=
  match m.want s with
  | .line =>
    match cut buf with
    | none => .wait
    | some (l, rest) =>
      if rstrip l = [] then .blank rest
      else .next (m.onLine s (rstrip l)).1 rest (m.onLine s (rstrip l)).2
  | .block =>
    match block buf with
    | .wait => .wait
    | .big => .next (m.onBlock s none).1 buf (m.onBlock s none).2
    | .got b rest => .next (m.onBlock s (some b)).1 rest (m.onBlock s (some b)).2
  | .resync => .wait
  | .done => .wait

/-- a bound on the number of things the task can do with a buffer. -/
def mu (m : Machine σ ε) (s : σ) (buf : Bs) : ℕ := 2 * buf.length + if m.want s = .block then 1 else 0

/-- the task runs until it waits.  After a blank line `readline` waits for the condition, whatever the
buffer still holds (550-558).  The first argument bounds the number of steps. -/
def driveN (m : Machine σ ε) : ℕ → σ → Bs → σ × Bs × List ε
  | 0, s, buf => (s, buf, [])
  | n + 1, s, buf =>
    match act m s buf with
    | .wait => (s, buf, [])
    | .blank rest => (s, rest, [])
    | .next s' rest out => ((driveN m n s' rest).1, (driveN m n s' rest).2.1, out ++ (driveN m n s' rest).2.2)

def drive (m : Machine σ ε) (s : σ) (buf : Bs) : σ × Bs × List ε := driveN m (mu m s buf + 1) s buf

/-- a task at work: where it stands, the buffer, and what it has done. -/
structure Run (σ ε : Type) where
  at_ : σ
  buf : Bs
  out : List ε

/-- one accepted message (or several that arrive before the task gets to run): its bytes are appended and
the task wakes.  `resynchronize` (560-568) goes on waiting unless nothing was appended, and then drops the
buffer. -/
def wake (m : Machine σ ε) (r : Run σ ε) (chunk : Bs) : Run σ ε :=
  if m.want r.at_ = .resync then
    if chunk = [] then
      { at_ := (drive m (m.onResync r.at_).1 []).1, buf := (drive m (m.onResync r.at_).1 []).2.1,
        out := r.out ++ (m.onResync r.at_).2 ++ (drive m (m.onResync r.at_).1 []).2.2 }
    else { r with buf := r.buf ++ chunk }
  else
    { at_ := (drive m r.at_ (r.buf ++ chunk)).1, buf := (drive m r.at_ (r.buf ++ chunk)).2.1,
      out := r.out ++ (drive m r.at_ (r.buf ++ chunk)).2.2 }

def wakes (m : Machine σ ε) (r : Run σ ε) (chunks : List Bs) : Run σ ε := chunks.foldl (wake m) r

/-- the messages of a controller, refused ones included (tview.py:517-538, 1027-1039). -/
def messages (m : Machine σ ε) (r : Run σ ε) (ds : List Bs) : Run σ ε := wakes m r (ds.filterMap accept)

/-! ## the task of a device -/

def isPrefix (p l : Bs) : Bool := l.take p.length == p

inductive Cmd where
  | confList | confEnumerate | telList
  deriving DecidableEq

/-- what can be seen of a device task. -/
inductive Ev where
  /-- a line of the console -/
  | text (line : Bs)
  /-- a line sent to the controller, without its CR LF -/
  | send (line : Bs)
  /-- a group of the configuration tree, with its schema and its data -/
  | config (name schema data : Bs)
  /-- a line of `conf enumerate` -/
  | enumerate (line : Bs)
  /-- a telemetry channel, with its schema -/
  | channel (name schema : Bs)
  /-- a telemetry record that is shown -/
  | record (name data : Bs)
  deriving DecidableEq

inductive Ph where
  /-- `command` (823-845), `body = false` in its first loop -/
  | cmd (c : Cmd) (body : Bool) (acc : List Bs)
  /-- `read_schema` (735-744, which replaces 724-733) for a group, then its block -/
  | schema (name : Bs) (todo : List Bs)
  | schemaBlock (name : Bs) (todo : List Bs)
  /-- `read_data` (746-754) -/
  | data (name : Bs) (schema : Option Bs) (todo : List Bs)
  | dataBlock (name : Bs) (schema : Option Bs) (todo : List Bs)
  /-- `read_schema` for a channel -/
  | tel (name : Bs) (todo known : List Bs)
  | telBlock (name : Bs) (todo known : List Bs)
  /-- `run` (705-721) -/
  | run (known : List Bs)
  | runBlock (name : Bs) (known : List Bs)
  | runSync (line : Bs) (known : List Bs)
  /-- an exception that nobody handles: the task has ended -/
  | dead
  deriving DecidableEq

/-- white space of `str.strip()` among the latin-1 characters. -/
def isWsStr (c : ℕ) : Bool := (9 ≤ c && c ≤ 13) || (28 ≤ c && c ≤ 32) || c = 0x85 || c = 0xa0

def strip (l : Bs) : Bs := (((l.dropWhile isWsStr).reverse).dropWhile isWsStr).reverse

/-- the text of a command. -/
def Cmd.text : Cmd → Bs
  | .confList => tx "conf list"
  | .confEnumerate => tx "conf enumerate"
  | .telList => tx "tel list"

def start (c : Cmd) : Ph × List Ev := (.cmd c false [], [.send c.text])

/-- the next group of the configuration, or the telemetry (661-683, 685-703). -/
def nextGroup : List Bs → Ph × List Ev
  | [] => start .telList
  | n :: ns => (.schema n ns, [.send (tx "conf schema " ++ n)])

def nextChannel (known : List Bs) : List Bs → Ph × List Ev
  | [] => (.run known, [])
  | n :: ns => (.tel n ns known, [.send (tx "tel schema " ++ n)])

/-- a command has answered OK. -/
def finished (c : Cmd) (acc : List Bs) : Ph × List Ev :=
  match c with
  | .confList => nextGroup ((acc.map strip).filter fun x => !x.isEmpty)
  | .confEnumerate =>
    ((start .telList).1, (acc.filter fun x => !(strip x).isEmpty).map Ev.enumerate ++ (start .telList).2)
  | .telList => nextChannel [] (acc.filter fun x => !(strip x).isEmpty)

/-- `CommandError`: `update_config` falls back to `conf enumerate` (642-652), elsewhere nobody handles it. -/
def failed : Cmd → Ph × List Ev
  | .confList => start .confEnumerate
  | .confEnumerate => (.dead, [])
  | .telList => (.dead, [])

/-- the channel of an `emit` line: `line.split(' ')[1]` (714). -/
def second (line : Bs) : Bs := ((line.dropWhile (· ≠ 32)).drop 1).takeWhile (· ≠ 32)

/-- what a line does, apart from the console. -/
def lineStep (p : Ph) (l : Bs) : Ph × List Ev :=
  match p with
  | .cmd c body acc =>
    if body = false ∧ (isPrefix (tx "emit ") l = true ∨ isPrefix (tx "schema ") l = true) then (.cmd c false acc, [])
    else if isPrefix (tx "ERR") l then failed c
    else if isPrefix (tx "OK") l then finished c acc
    else (.cmd c true (acc ++ [l]), [])
  | .schema n ns =>
    if isPrefix (tx "ERR") l then failed .confList
    else if l = tx "schema " ++ n ∨ l = tx "cschema " ++ n then (.schemaBlock n ns, [])
    else (.schema n ns, [])
  | .data n s ns => if l = tx "cdata " ++ n then (.dataBlock n s ns, []) else (.data n s ns, [])
  | .tel n ns k =>
    if isPrefix (tx "ERR") l then (.dead, [])
    else if l = tx "schema " ++ n ∨ l = tx "cschema " ++ n then (.telBlock n ns k, [])
    else (.tel n ns k, [])
  | .run k =>
    if l.any (127 < ·) then (.runSync l k, [])
    else if isPrefix (tx "emit ") l then (.runBlock (second l) k, [])
    else (.run k, [])
  | p => (p, [])

/-- `Device.readline` (817-821) shows every line that does not begin with `emit `. -/
def onLine (p : Ph) (l : Bs) : Ph × List Ev :=
  ((lineStep p l).1, (if isPrefix (tx "emit ") l then [] else [.text l]) ++ (lineStep p l).2)

/-- what a block does: `schema_update_config` (665-683), `update_telemetry` (693-703), `do_data` (756-774).  `io.BytesIO(False)` raises. -/
def onBlock (p : Ph) (b : Option Bs) : Ph × List Ev :=
  match p, b with
  -- the schema is looked at only after the data was read
  | .schemaBlock n ns, s => (.data n s ns, [.send (tx "conf data " ++ n)])
  | .dataBlock n (some s) ns, some d => ((nextGroup ns).1, .config n s d :: (nextGroup ns).2)
  | .dataBlock _ _ _, _ => (.dead, [])
  | .telBlock n ns k, some s => ((nextChannel (k ++ [n]) ns).1,
      .channel n s :: .text (tx "<schema name=" ++ n ++ tx ">") :: (nextChannel (k ++ [n]) ns).2)
  | .telBlock _ _ _, none => (.dead, [])
  | .runBlock n k, some d => (.run k, if d ≠ [] ∧ n ∈ k then [.record n d] else [])
  | .runBlock _ k, none => (.run k, [])
  | _, _ => (.dead, [])

/-- after `resynchronize` the line that caused it is still looked at (705-721). -/
def onResync (p : Ph) : Ph × List Ev :=
  match p with
  | .runSync l k => if isPrefix (tx "emit ") l then (.runBlock (second l) k, []) else (.run k, [])
  | p => (p, [])

def want : Ph → Want
  | .cmd _ _ _ => .line
  | .schema _ _ => .line
  | .schemaBlock _ _ => .block
  | .data _ _ _ => .line
  | .dataBlock _ _ _ => .block
  | .tel _ _ _ => .line
  | .telBlock _ _ _ => .block
  | .run _ => .line
  | .runBlock _ _ => .block
  | .runSync _ _ => .resync
  | .dead => .done

/-- the task of a device: `start` (619-632) from `update_config` on. -/
def dev : Machine Ph Ev where
  want := want
  onLine := onLine
  onBlock := onBlock
  onResync := onResync
  refused := by intro s; cases s <;> simp [onBlock, want]

/-- the task once `ignore_all` has run (627): the first command is written. -/
def begun : Run Ph Ev := { at_ := (start .confList).1, buf := [], out := (start .confList).2 }

/-! ## writing -/

/-- `DeviceStream.write` and `maybe_emit_one` (500-515). -/
inductive WOp where
  | write (d : Bs)
  | emit

/-- the write buffer and the frames sent so far (`make_diagnostic_write`, moteus.py:1304-1318). -/
def wstep (s : Bs × List Bs) : WOp → Bs × List Bs
  | .write d => (s.1 ++ d, s.2)
  | .emit => if s.1.length = 0 then s else
      (s.1.drop 61, s.2 ++ [[0x40, 1, (s.1.take 61).length] ++ s.1.take 61])

/-! ## the whole stream at once -/

/-- put `out` before what a run does. -/
def pre (out : List ε) (r : σ × Bs × List ε) : σ × Bs × List ε := (r.1, r.2.1, out ++ r.2.2)

/-- the task reading a stream that is all there, blank lines skipped. -/
def idealN (m : Machine σ ε) : ℕ → σ → Bs → σ × Bs × List ε
  | 0, s, buf => (s, buf, [])
  | n + 1, s, buf =>
    match act m s buf with
    | .wait => (s, buf, [])
    | .blank rest => idealN m n s rest
    | .next s' rest out => pre out (idealN m n s' rest)

def ideal (m : Machine σ ε) (s : σ) (buf : Bs) : σ × Bs × List ε := idealN m (mu m s buf + 1) s buf

theorem pre_pre (a b : List ε) (r : σ × Bs × List ε) : pre a (pre b r) = pre (a ++ b) r := by
  simp [pre]

theorem pre_nil (r : σ × Bs × List ε) : pre [] r = r := by simp [pre]

theorem cut_some {buf l rest : Bs} (h : cut buf = some (l, rest)) :
    buf = l ++ rest ∧ l ≠ [] := by
  induction buf generalizing l rest with
  | nil => simp [cut] at h
  | cons c cs ih =>
    simp only [cut] at h
    split at h
    · simp only [Option.some.injEq, Prod.mk.injEq] at h
      rw [← h.1, ← h.2]; simp
    · cases hc : cut cs with
      | none => rw [hc] at h; simp at h
      | some q =>
        rw [hc] at h
        simp only [Option.map_some, Option.some.injEq, Prod.mk.injEq] at h
        have := (ih (l := q.1) (rest := q.2) hc).1
        rw [← h.1, ← h.2]
        exact ⟨by simp [← this], by simp⟩

theorem cut_append {buf l rest : Bs} (x : Bs) (h : cut buf = some (l, rest)) :
    cut (buf ++ x) = some (l, rest ++ x) := by
  induction buf generalizing l rest with
  | nil => simp [cut] at h
  | cons c cs ih =>
    simp only [cut] at h
    simp only [List.cons_append, cut]
    split at h
    · rename_i hc
      rw [if_pos hc]
      simp only [Option.some.injEq, Prod.mk.injEq] at h
      rw [← h.1, ← h.2]
    · rename_i hc
      rw [if_neg hc]
      cases hq : cut cs with
      | none => rw [hq] at h; simp at h
      | some q =>
        rw [hq] at h
        simp only [Option.map_some, Option.some.injEq, Prod.mk.injEq] at h
        rw [ih (l := q.1) (rest := q.2) hq, ← h.1, ← h.2]
        rfl

theorem sizeOf_append {buf : Bs} {n : ℕ} (x : Bs) (h : sizeOf buf = some n) : sizeOf (buf ++ x) = some n := by
  match buf, h with
  | _ :: a :: b :: c :: d :: t, h => exact h

theorem sizeOf_length {buf : Bs} {n : ℕ} (h : sizeOf buf = some n) : 5 ≤ buf.length := by
  match buf, h with
  | _ :: a :: b :: c :: d :: t, h => simp

theorem block_got {buf b rest : Bs} (h : block buf = .got b rest) : rest.length + 5 ≤ buf.length := by
  rw [block] at h
  split at h
  · simp at h
  · rename_i n hn
    have := sizeOf_length hn
    split at h
    · simp at h
    · split at h
      · simp at h
      · simp only [Blk.got.injEq] at h
        rw [← h.2, List.length_drop]
        omega

theorem block_append_got {buf b rest : Bs} (x : Bs) (h : block buf = .got b rest) :
    block (buf ++ x) = .got b (rest ++ x) := by
  rw [block] at h
  split at h
  · simp at h
  · rename_i n hn
    split at h
    · simp at h
    · rename_i h1
      split at h
      · simp at h
      · rename_i h2
        simp only [Blk.got.injEq] at h
        rw [block, sizeOf_append x hn]
        simp only
        rw [if_neg h1, if_neg (by simp; omega), ← h.1, ← h.2,
          List.drop_append_of_le_length (by omega), List.drop_append_of_le_length (by omega),
          List.take_append_of_le_length (by simp; omega)]

theorem block_append_big {buf : Bs} (x : Bs) (h : block buf = .big) : block (buf ++ x) = .big := by
  rw [block] at h
  split at h
  · simp at h
  · rename_i n hn
    split at h
    · rename_i h1
      rw [block, sizeOf_append x hn]
      simp only
      rw [if_pos h1]
    · split at h <;> simp at h

theorem act_next_mu (m : Machine σ ε) {s s' : σ} {buf rest : Bs} {out : List ε}
    (h : act m s buf = .next s' rest out) : mu m s' rest < mu m s buf := by
  rw [act] at h
  unfold mu
  split at h
  · rename_i hw
    split at h
    · simp at h
    · rename_i l r hc
      split at h
      · simp at h
      · simp only [Act.next.injEq] at h
        obtain ⟨e, ne⟩ := cut_some hc
        have h1 := congrArg List.length e
        have h2 := List.length_pos_of_ne_nil ne
        rw [List.length_append] at h1
        rw [h.2.1] at h1
        split <;> split <;> omega
  · rename_i hw
    split at h
    · simp at h
    · simp only [Act.next.injEq] at h
      rw [← h.1, ← h.2.1, if_neg (m.refused s), if_pos hw]
      omega
    · rename_i hb
      simp only [Act.next.injEq] at h
      have := block_got hb
      rw [h.2.1] at this
      split <;> omega
  · simp at h
  · simp at h

theorem act_blank_mu (m : Machine σ ε) {s : σ} {buf rest : Bs}
    (h : act m s buf = .blank rest) : mu m s rest < mu m s buf := by
  rw [act] at h
  unfold mu
  split at h
  · split at h
    · simp at h
    · rename_i l r hc
      split at h
      · simp only [Act.blank.injEq] at h
        obtain ⟨e, ne⟩ := cut_some hc
        have h1 := congrArg List.length e
        have h2 := List.length_pos_of_ne_nil ne
        rw [List.length_append] at h1
        rw [h] at h1
        omega
      · simp at h
  · split at h <;> simp at h
  · simp at h
  · simp at h

theorem act_append_next (m : Machine σ ε) {s s' : σ} {buf rest : Bs} {out : List ε} (x : Bs)
    (h : act m s buf = .next s' rest out) : act m s (buf ++ x) = .next s' (rest ++ x) out := by
  rw [act] at h
  rw [act]
  split at h
  · split at h
    · simp at h
    · rename_i l r hc
      rw [cut_append x hc]
      simp only
      split at h
      · simp at h
      · rename_i hr
        rw [if_neg hr]
        simp only [Act.next.injEq] at h ⊢
        exact ⟨h.1, by rw [h.2.1], h.2.2⟩
  · split at h
    · simp at h
    · rename_i hb
      rw [block_append_big x hb]
      simp only [Act.next.injEq] at h ⊢
      exact ⟨h.1, by rw [h.2.1], h.2.2⟩
    · rename_i hb
      rw [block_append_got x hb]
      simp only [Act.next.injEq] at h ⊢
      exact ⟨h.1, by rw [h.2.1], h.2.2⟩
  · simp at h
  · simp at h

theorem act_append_blank (m : Machine σ ε) {s : σ} {buf rest : Bs} (x : Bs)
    (h : act m s buf = .blank rest) : act m s (buf ++ x) = .blank (rest ++ x) := by
  rw [act] at h
  rw [act]
  split at h
  · split at h
    · simp at h
    · rename_i l r hc
      rw [cut_append x hc]
      simp only
      split at h
      · rename_i hr
        rw [if_pos hr]
        simp only [Act.blank.injEq] at h ⊢
        rw [h]
      · simp at h
  · split at h <;> simp at h
  · simp at h
  · simp at h

theorem idealN_enough (m : Machine σ ε) : ∀ (n k : ℕ) (s : σ) (buf : Bs), mu m s buf < n → mu m s buf < k →
    idealN m n s buf = idealN m k s buf := by
  intro n
  induction n with
  | zero => intro k s buf h; omega
  | succ n ih =>
    intro k s buf h1 h2
    cases k with
    | zero => omega
    | succ k =>
      simp only [idealN]
      cases ha : act m s buf with
      | wait => rfl
      | blank rest =>
        have := act_blank_mu m ha
        exact ih k s rest (by omega) (by omega)
      | next s' rest out =>
        have := act_next_mu m ha
        simp only
        rw [ih k s' rest (by omega) (by omega)]

theorem driveN_enough (m : Machine σ ε) : ∀ (n k : ℕ) (s : σ) (buf : Bs), mu m s buf < n → mu m s buf < k →
    driveN m n s buf = driveN m k s buf := by
  intro n
  induction n with
  | zero => intro k s buf h; omega
  | succ n ih =>
    intro k s buf h1 h2
    cases k with
    | zero => omega
    | succ k =>
      simp only [driveN]
      cases ha : act m s buf with
      | wait => rfl
      | blank rest => rfl
      | next s' rest out =>
        have := act_next_mu m ha
        simp only
        rw [ih k s' rest (by omega) (by omega)]

theorem ideal_wait (m : Machine σ ε) {s : σ} {buf : Bs} (h : act m s buf = .wait) : ideal m s buf = (s, buf, []) := by
  simp [ideal, idealN, h]

theorem ideal_blank (m : Machine σ ε) {s : σ} {buf rest : Bs} (h : act m s buf = .blank rest) :
    ideal m s buf = ideal m s rest := by
  rw [ideal, idealN, h]
  have := act_blank_mu m h
  exact idealN_enough m _ _ _ _ (by omega) (by omega)

theorem ideal_next (m : Machine σ ε) {s s' : σ} {buf rest : Bs} {out : List ε}
    (h : act m s buf = .next s' rest out) : ideal m s buf = pre out (ideal m s' rest) := by
  rw [ideal, idealN, h]
  have := act_next_mu m h
  simp only
  rw [idealN_enough m _ (mu m s' rest + 1) s' rest (by omega) (by omega)]
  rfl

theorem drive_wait (m : Machine σ ε) {s : σ} {buf : Bs} (h : act m s buf = .wait) : drive m s buf = (s, buf, []) := by
  simp [drive, driveN, h]

theorem drive_blank (m : Machine σ ε) {s : σ} {buf rest : Bs} (h : act m s buf = .blank rest) :
    drive m s buf = (s, rest, []) := by
  simp [drive, driveN, h]

theorem drive_next (m : Machine σ ε) {s s' : σ} {buf rest : Bs} {out : List ε}
    (h : act m s buf = .next s' rest out) : drive m s buf = pre out (drive m s' rest) := by
  rw [drive, driveN, h]
  have := act_next_mu m h
  simp only
  rw [driveN_enough m _ (mu m s' rest + 1) s' rest (by omega) (by omega)]
  rfl

/-- an induction principle: along the steps of the task. -/
theorem steps_induction (m : Machine σ ε) {P : σ → Bs → Prop}
    (hw : ∀ s buf, act m s buf = .wait → P s buf)
    (hb : ∀ s buf rest, act m s buf = .blank rest → P s rest → P s buf)
    (hn : ∀ s buf s' rest out, act m s buf = .next s' rest out → P s' rest → P s buf) : ∀ s buf, P s buf := by
  have : ∀ (n : ℕ) (s : σ) (buf : Bs), mu m s buf < n → P s buf := by
    intro n
    induction n with
    | zero => intro s buf h; omega
    | succ n ih =>
      intro s buf h
      cases ha : act m s buf with
      | wait => exact hw s buf ha
      | blank rest => exact hb s buf rest ha (ih s rest (by have := act_blank_mu m ha; omega))
      | next s' rest out => exact hn s buf s' rest out ha (ih s' rest (by have := act_next_mu m ha; omega))
  exact fun s buf => this _ s buf (Nat.lt_succ_self _)

/-- what the task does at one wake is the beginning of what it does with the whole stream. -/
theorem drive_ideal (m : Machine σ ε) (s : σ) (buf : Bs) :
    ideal m s buf = pre (drive m s buf).2.2 (ideal m (drive m s buf).1 (drive m s buf).2.1) := by
  refine steps_induction m (P := fun s buf => ideal m s buf =
    pre (drive m s buf).2.2 (ideal m (drive m s buf).1 (drive m s buf).2.1)) ?_ ?_ ?_ s buf
  · intro s buf h; rw [drive_wait m h, pre_nil]
  · intro s buf rest h _; rw [drive_blank m h, pre_nil, ideal_blank m h]
  · intro s buf s' rest out h ih
    rw [drive_next m h, ideal_next m h, ih]
    simp [pre]

/-- more data does not change what was done with the data before. -/
theorem ideal_append (m : Machine σ ε) (x : Bs) (s : σ) (buf : Bs) :
    ideal m s (buf ++ x) = pre (ideal m s buf).2.2 (ideal m (ideal m s buf).1 ((ideal m s buf).2.1 ++ x)) := by
  refine steps_induction m (P := fun s buf => ideal m s (buf ++ x) =
    pre (ideal m s buf).2.2 (ideal m (ideal m s buf).1 ((ideal m s buf).2.1 ++ x))) ?_ ?_ ?_ s buf
  · intro s buf h; rw [ideal_wait m h, pre_nil]
  · intro s buf rest h ih; rw [ideal_blank m h, ideal_blank m (act_append_blank m x h), ih]
  · intro s buf s' rest out h ih
    rw [ideal_next m h, ideal_next m (act_append_next m x h), ih]
    simp [pre]

/-- a wake that leaves the task and the buffer as they are finds nothing left to do. -/
theorem drive_shrinks (m : Machine σ ε) (s : σ) (buf : Bs) :
    act m s buf = .wait ∨ mu m (drive m s buf).1 (drive m s buf).2.1 < mu m s buf := by
  refine steps_induction m (P := fun s buf => act m s buf = .wait ∨
    mu m (drive m s buf).1 (drive m s buf).2.1 < mu m s buf) ?_ ?_ ?_ s buf
  · intro s buf h; exact Or.inl h
  · intro s buf rest h _
    right; rw [drive_blank m h]; exact act_blank_mu m h
  · intro s buf s' rest out h ih
    right
    have := act_next_mu m h
    rw [drive_next m h]
    simp only [pre]
    rcases ih with ih | ih
    · rw [drive_wait m ih]; exact this
    · omega

/-- the task is where the whole stream would have taken it, up to what is still in the buffer. -/
def Follows (m : Machine σ ε) (r0 : Run σ ε) (all : Bs) (r : Run σ ε) : Prop :=
  pre r0.out (ideal m r0.at_ (r0.buf ++ all)) = pre r.out (ideal m r.at_ r.buf)

theorem follows_wake (m : Machine σ ε) {r0 r : Run σ ε} {all : Bs} (chunk : Bs) (h : Follows m r0 all r)
    (hw : m.want r.at_ ≠ .resync) : Follows m r0 (all ++ chunk) (wake m r chunk) := by
  have h1 : pre r0.out (ideal m r0.at_ (r0.buf ++ (all ++ chunk))) =
      pre r.out (ideal m r.at_ (r.buf ++ chunk)) := by
    unfold Follows at h
    rw [← List.append_assoc, ideal_append m chunk r0.at_, ideal_append m chunk r.at_, pre_pre, pre_pre]
    simp only [pre, Prod.mk.injEq] at h
    rw [h.1, h.2.1, h.2.2]
  unfold Follows
  rw [h1, wake, if_neg hw]
  simp only
  rw [drive_ideal m r.at_ (r.buf ++ chunk), pre_pre]

/-- along the messages the task never asks for a resynchronization. -/
def Steady (m : Machine σ ε) (r : Run σ ε) (chunks : List Bs) : Prop :=
  ∀ k, m.want (wakes m r (chunks.take k)).at_ ≠ .resync

theorem steady_cons {m : Machine σ ε} {r : Run σ ε} {c : Bs} {cs : List Bs} (h : Steady m r (c :: cs)) :
    m.want r.at_ ≠ .resync ∧ Steady m (wake m r c) cs :=
  ⟨h 0, fun k => h (k + 1)⟩

theorem follows_wakes (m : Machine σ ε) (r0 : Run σ ε) (chunks : List Bs) : ∀ (all : Bs) (r : Run σ ε),
    Follows m r0 all r → Steady m r chunks → Follows m r0 (all ++ chunks.flatten) (wakes m r chunks) := by
  induction chunks with
  | nil => intro all r h _; simpa [wakes] using h
  | cons c cs ih =>
    intro all r h hs
    have hs := steady_cons hs
    have := ih (all ++ c) (wake m r c) (follows_wake m c h hs.1) hs.2
    simpa [wakes] using this

theorem wakes_empty (m : Machine σ ε) (k : ℕ) : ∀ (r : Run σ ε), mu m r.at_ r.buf < k →
    Steady m r (List.replicate k []) →
    act m (wakes m r (List.replicate k [])).at_ (wakes m r (List.replicate k [])).buf = .wait := by
  induction k with
  | zero => intro r h; omega
  | succ k ih =>
    intro r h hs
    have hs := steady_cons (by rw [List.replicate_succ] at hs; exact hs)
    have e : wake m r [] = ⟨(drive m r.at_ r.buf).1, (drive m r.at_ r.buf).2.1,
        r.out ++ (drive m r.at_ r.buf).2.2⟩ := by
      rw [wake, if_neg hs.1]; simp
    have hr : wakes m r (List.replicate (k + 1) []) = wakes m (wake m r []) (List.replicate k []) := by
      simp [wakes, List.replicate_succ]
    rw [hr]
    rcases drive_shrinks m r.at_ r.buf with h1 | h1
    · have hid : wake m r [] = r := by
        rw [e, drive_wait m h1]; simp
      rw [hid]
      have : ∀ k, wakes m r (List.replicate k []) = r := by
        intro k
        induction k with
        | zero => rfl
        | succ k ih => rw [List.replicate_succ]; simp only [wakes, List.foldl_cons]; rw [hid]; exact ih
      rw [this]; exact h1
    · exact ih (wake m r []) (by rw [e]; simp only; omega) hs.2

theorem steady_of (m : Machine σ ε) (r0 : Run σ ε) (x : Bs) (chunks : List Bs) : ∀ (all : Bs) (r : Run σ ε),
    Follows m r0 all r → m.want (ideal m r0.at_ (r0.buf ++ (all ++ chunks.flatten ++ x))).1 ≠ .resync →
    Steady m r chunks := by
  have key : ∀ (all y : Bs) (r : Run σ ε), Follows m r0 all r →
      m.want (ideal m r0.at_ (r0.buf ++ (all ++ y))).1 ≠ .resync → m.want r.at_ ≠ .resync := by
    intro all y r h hw hr
    have ha : ∀ buf, act m r.at_ buf = .wait := by intro buf; rw [act, hr]
    rw [← List.append_assoc, ideal_append] at hw
    unfold Follows at h
    rw [ideal_wait m (ha _)] at h
    simp only [pre, Prod.mk.injEq] at h
    simp only [pre, h.1] at hw
    rw [ideal_wait m (ha _)] at hw
    exact hw hr
  induction chunks with
  | nil =>
    intro all r h hw k
    simp only [List.take_nil, wakes, List.foldl_nil]
    refine key all x r h ?_
    simpa using hw
  | cons c cs ih =>
    intro all r h hw k
    have h0 : m.want r.at_ ≠ .resync := key all (c ++ cs.flatten ++ x) r h (by simpa using hw)
    cases k with
    | zero => exact h0
    | succ k =>
      exact ih (all ++ c) (wake m r c) (follows_wake m c h h0) (by simpa using hw) k

theorem drive_length (m : Machine σ ε) (s : σ) (buf : Bs) : (drive m s buf).2.1.length ≤ buf.length := by
  rcases drive_shrinks m s buf with h | h
  · rw [drive_wait m h]
  · unfold mu at h
    split at h <;> split at h <;> omega

theorem wakes_length (m : Machine σ ε) (chunks : List Bs) : ∀ (r : Run σ ε), Steady m r chunks →
    (wakes m r chunks).buf.length ≤ r.buf.length + chunks.flatten.length := by
  induction chunks with
  | nil => intro r _; simp [wakes]
  | cons c cs ih =>
    intro r hs
    have hs := steady_cons hs
    have h1 := ih _ hs.2
    have h2 : (wake m r c).buf.length ≤ r.buf.length + c.length := by
      rw [wake, if_neg hs.1]
      have := drive_length m r.at_ (r.buf ++ c)
      rw [List.length_append] at this
      exact this
    have e : wakes m r (c :: cs) = wakes m (wake m r c) cs := rfl
    rw [e, List.flatten_cons, List.length_append]
    omega

theorem wakes_append (m : Machine σ ε) (r : Run σ ε) (a b : List Bs) :
    wakes m r (a ++ b) = wakes m (wakes m r a) b := by simp [wakes]

theorem steady_append {m : Machine σ ε} {r : Run σ ε} {a b : List Bs} (h : Steady m r (a ++ b)) :
    Steady m r a ∧ Steady m (wakes m r a) b := by
  refine ⟨fun k => ?_, fun k => ?_⟩
  · by_cases hk : k ≤ a.length
    · have := h k
      rwa [List.take_append_of_le_length hk] at this
    · have := h a.length
      rw [List.take_append_of_le_length (le_refl _)] at this
      rw [List.take_of_length_le (by omega)]
      rwa [List.take_of_length_le (le_refl _)] at this
  · have := h (a.length + k)
    rwa [List.take_length_add_append, wakes_append] at this

/-- where a task ends once everything has arrived and enough messages without data have come. -/
theorem settled (m : Machine σ ε) (r : Run σ ε) (cs : List Bs) (k : ℕ)
    (hs : Steady m r (cs ++ List.replicate k [])) (hk : 2 * (r.buf.length + cs.flatten.length) + 2 ≤ k) :
    (wakes m r (cs ++ List.replicate k [])).at_ = (ideal m r.at_ (r.buf ++ cs.flatten)).1 ∧
    (wakes m r (cs ++ List.replicate k [])).buf = (ideal m r.at_ (r.buf ++ cs.flatten)).2.1 ∧
    (wakes m r (cs ++ List.replicate k [])).out = r.out ++ (ideal m r.at_ (r.buf ++ cs.flatten)).2.2 := by
  have h1 := follows_wakes m r (cs ++ List.replicate k []) [] r (by simp [Follows]) hs
  have h2 := steady_append hs
  have h3 := wakes_length m cs r h2.1
  have h4 := wakes_empty m k (wakes m r cs) (by unfold mu; split <;> omega) h2.2
  rw [← wakes_append] at h4
  unfold Follows at h1
  rw [ideal_wait m h4] at h1
  have e : ([] : Bs) ++ (cs ++ List.replicate k []).flatten = cs.flatten := by simp
  rw [e] at h1
  simp only [pre, Prod.mk.injEq, List.append_nil] at h1
  exact ⟨h1.1.symm, h1.2.1.symm, h1.2.2.symm⟩

/-! ## the specification -/

namespace Spec

/-- a length as four bytes, least significant first. -/
def le32 (n : ℕ) : Bs := [n % 256, n / 256 % 256, n / 65536 % 256, n / 16777216 % 256]

/-- a line as a controller sends it. -/
def line (l : Bs) : Bs := l ++ [13, 10]

/-- a line followed by a binary block. -/
def blocked (l b : Bs) : Bs := line l ++ le32 b.length ++ b

/-- a printable name without blanks. -/
def IsName (n : Bs) : Prop := n ≠ [] ∧ ∀ c ∈ n, 33 ≤ c ∧ c ≤ 126

/-- a name that cannot be taken for the end of a listing. -/
def Listed (n : Bs) : Prop := IsName n ∧ ¬ tx "OK" <+: n ∧ ¬ tx "ERR" <+: n

/-- a group of the configuration: name, schema, data. -/
structure Group where
  name : Bs
  schema : Bs
  data : Bs

/-- a telemetry channel: name, schema. -/
structure Channel where
  name : Bs
  schema : Bs

/-- what a controller sends later on. -/
inductive Item where
  /-- a line of text followed by blanks -/
  | text (l pad : Bs)
  | blank (pad : Bs)
  | record (name data : Bs)

def Item.bytes : Item → Bs
  | .text l pad => line (l ++ pad)
  | .blank pad => line pad
  | .record n d => blocked (tx "emit " ++ n) d

/-- blanks other than line ends. -/
def IsPad (pad : Bs) : Prop := ∀ c ∈ pad, c = 32 ∨ c = 9

def Item.Ok : Item → Prop
  | .text l pad => (∃ i c, l = i ++ [c] ∧ 33 ≤ c) ∧ (∀ c ∈ l, c ≤ 127 ∧ c ≠ 13 ∧ c ≠ 10) ∧ ¬ tx "emit " <+: l ∧
      IsPad pad
  | .blank pad => IsPad pad
  | .record n d => IsName n ∧ d.length ≤ 2 ^ 24

/-- what is seen of an item, given the names of the channels. -/
def Item.seen (known : List Bs) : Item → List Ev
  | .text l _ => [.text l]
  | .blank _ => []
  | .record n d => if d ≠ [] ∧ n ∈ known then [.record n d] else []

/-- what a controller sends in answer to the commands of `start`, and the items it sends afterwards. -/
def stream (gs : List Group) (cs : List Channel) (is : List Item) : Bs :=
  gs.flatMap (fun g => line g.name) ++ line (tx "OK") ++
  gs.flatMap (fun g => blocked (tx "cschema " ++ g.name) g.schema ++ blocked (tx "cdata " ++ g.name) g.data) ++
  cs.flatMap (fun c => line c.name) ++ line (tx "OK") ++
  cs.flatMap (fun c => blocked (tx "schema " ++ c.name) c.schema) ++
  is.flatMap Item.bytes

/-- what is seen: the commands in their order, the tree of the configuration, the channels, the records. -/
def seen (gs : List Group) (cs : List Channel) (is : List Item) : List Ev :=
  [.send (tx "conf list")] ++ gs.map (fun g => .text g.name) ++ [.text (tx "OK")] ++
  gs.flatMap (fun g => [.send (tx "conf schema " ++ g.name), .text (tx "cschema " ++ g.name),
    .send (tx "conf data " ++ g.name), .text (tx "cdata " ++ g.name), .config g.name g.schema g.data]) ++
  [.send (tx "tel list")] ++ cs.map (fun c => .text c.name) ++ [.text (tx "OK")] ++
  cs.flatMap (fun c => [.send (tx "tel schema " ++ c.name), .text (tx "schema " ++ c.name),
    .channel c.name c.schema, .text (tx "<schema name=" ++ c.name ++ tx ">")]) ++
  is.flatMap (Item.seen (cs.map (·.name)))

end Spec

/-! ## lines and blocks in the stream -/

theorem cut_line (l rest : Bs) (h : ∀ c ∈ l, c ≠ 13 ∧ c ≠ 10) : cut (l ++ 13 :: rest) = some (l ++ [13], rest) := by
  induction l with
  | nil => simp [cut, isNl]
  | cons c cs ih =>
    have hc := h c (by simp)
    simp only [List.cons_append, cut]
    rw [if_neg (by simp [isNl, hc.1, hc.2]), ih (fun d hd => h d (by simp [hd]))]
    rfl

theorem rstrip_pad (i pad : Bs) (c : ℕ) (hc : isWs c = false) (hp : ∀ d ∈ pad, isWs d = true) :
    rstrip (i ++ [c] ++ pad) = i ++ [c] := by
  have : List.dropWhile isWs (pad.reverse ++ (c :: i.reverse)) = c :: i.reverse := by
    rw [List.dropWhile_append_of_pos (by simpa using hp), List.dropWhile_cons_of_neg (by simp [hc])]
  simp only [rstrip, List.reverse_append, List.reverse_cons, List.reverse_nil, List.nil_append,
    List.singleton_append]
  rw [this]; simp

theorem rstrip_ws (pad : Bs) (hp : ∀ d ∈ pad, isWs d = true) : rstrip pad = [] := by
  rw [rstrip, List.reverse_eq_nil_iff, List.dropWhile_eq_nil_iff]
  simpa using hp

/-- a line as it is taken: its text, and the blanks after it. -/
structure Line (l pad : Bs) : Prop where
  last : ∃ i c, l = i ++ [c] ∧ isWs c = false
  noNl : ∀ c ∈ l, c ≠ 13 ∧ c ≠ 10
  pad : ∀ c ∈ pad, c = 32 ∨ c = 9

theorem act_line (m : Machine σ ε) {s : σ} {l pad : Bs} (rest : Bs) (hl : Line l pad) (hw : m.want s = .line) :
    act m s (l ++ pad ++ 13 :: rest) = .next (m.onLine s l).1 rest (m.onLine s l).2 := by
  obtain ⟨i, c, e, hc⟩ := hl.last
  have h1 : rstrip (l ++ pad ++ [13]) = l := by
    rw [e, List.append_assoc, rstrip_pad i (pad ++ [13]) c hc]
    intro d hd
    simp only [List.mem_append, List.mem_singleton] at hd
    rcases hd with hd | hd
    · rcases hl.pad d hd with h | h <;> subst h <;> decide
    · subst hd; decide
  have h2 : cut (l ++ pad ++ 13 :: rest) = some (l ++ pad ++ [13], rest) := by
    apply cut_line
    intro c hc
    rcases List.mem_append.1 hc with h | h
    · exact hl.noNl c h
    · rcases hl.pad c h with h | h <;> subst h <;> decide
  rw [act, hw]
  simp only [h2, h1]
  rw [if_neg (by rw [e]; simp)]

theorem act_blank (m : Machine σ ε) {s : σ} {pad : Bs} (n : ℕ) (hn : n = 13 ∨ n = 10) (rest : Bs)
    (hp : ∀ c ∈ pad, c = 32 ∨ c = 9) (hw : m.want s = .line) : act m s (pad ++ n :: rest) = .blank rest := by
  have h1 : cut (pad ++ n :: rest) = some (pad ++ [n], rest) := by
    rcases hn with hn | hn
    · subst hn
      apply cut_line
      intro c hc
      rcases hp c hc with h | h <;> subst h <;> decide
    · subst hn
      clear hw
      induction pad with
      | nil => simp [cut, isNl]
      | cons c cs ih =>
        simp only [List.cons_append, cut]
        rw [if_neg (by rcases hp c (by simp) with h | h <;> subst h <;> decide), ih (fun d hd => hp d (by simp [hd]))]
        rfl
  have h2 : rstrip (pad ++ [n]) = [] := by
    apply rstrip_ws
    intro d hd
    simp only [List.mem_append, List.mem_singleton] at hd
    rcases hd with hd | hd
    · rcases hp d hd with h | h <;> subst h <;> decide
    · rcases hn with hn | hn <;> subst hn <;> subst hd <;> decide
  rw [act, hw]
  simp only [h1, h2]
  rw [if_pos trivial]

theorem ideal_line (m : Machine σ ε) {s : σ} {l pad : Bs} (rest : Bs) (hl : Line l pad) (hw : m.want s = .line)
    (hw' : m.want (m.onLine s l).1 = .line) :
    ideal m s (Spec.line (l ++ pad) ++ rest) = pre (m.onLine s l).2 (ideal m (m.onLine s l).1 rest) := by
  have e : Spec.line (l ++ pad) ++ rest = l ++ pad ++ 13 :: (10 :: rest) := by simp [Spec.line]
  rw [e, ideal_next m (act_line m (10 :: rest) hl hw)]
  have := act_blank m (pad := []) 10 (Or.inr rfl) rest (by simp) hw'
  rw [List.nil_append] at this
  rw [ideal_blank m this]

theorem ideal_blankline (m : Machine σ ε) {s : σ} {pad : Bs} (rest : Bs) (hp : ∀ c ∈ pad, c = 32 ∨ c = 9)
    (hw : m.want s = .line) : ideal m s (Spec.line pad ++ rest) = ideal m s rest := by
  have e : Spec.line pad ++ rest = pad ++ 13 :: ([] ++ 10 :: rest) := by simp [Spec.line]
  rw [e, ideal_blank m (act_blank m 13 (Or.inl rfl) _ hp hw),
    ideal_blank m (act_blank m (pad := []) 10 (Or.inr rfl) rest (by simp) hw)]

theorem block_le (b rest : Bs) (c : ℕ) (hb : b.length ≤ 2 ^ 24) :
    block (c :: (Spec.le32 b.length ++ b ++ rest)) = .got b rest := by
  have hs : sizeOf (c :: (Spec.le32 b.length ++ b ++ rest)) = some b.length := by
    simp only [Spec.le32, sizeOf, List.cons_append, List.nil_append, Option.some.injEq]
    generalize b.length = n at *
    omega
  rw [block, hs]
  simp only
  rw [if_neg (by omega), if_neg (by simp [Spec.le32]; omega)]
  have e1 : (c :: (Spec.le32 b.length ++ b ++ rest)).drop 5 = b ++ rest := by simp [Spec.le32]
  rw [← List.drop_drop, e1]
  simp

theorem ideal_blocked (m : Machine σ ε) {s : σ} {l b : Bs} (rest : Bs) (hl : Line l []) (hw : m.want s = .line)
    (hw' : m.want (m.onLine s l).1 = .block) (hb : b.length ≤ 2 ^ 24) :
    ideal m s (Spec.blocked l b ++ rest) =
      pre ((m.onLine s l).2 ++ (m.onBlock (m.onLine s l).1 (some b)).2)
        (ideal m (m.onBlock (m.onLine s l).1 (some b)).1 rest) := by
  have e : Spec.blocked l b ++ rest = l ++ [] ++ 13 :: (10 :: (Spec.le32 b.length ++ b ++ rest)) := by
    simp [Spec.line, Spec.blocked]
  rw [e, ideal_next m (act_line m _ hl hw)]
  have : act m (m.onLine s l).1 (10 :: (Spec.le32 b.length ++ b ++ rest)) =
      .next (m.onBlock (m.onLine s l).1 (some b)).1 rest (m.onBlock (m.onLine s l).1 (some b)).2 := by
    rw [act, hw']
    simp only [block_le b rest 10 hb]
  rw [ideal_next m this, pre_pre]

/-! ## the task of a device on the stream of a controller -/

theorem isPrefix_iff (p l : Bs) : isPrefix p l = true ↔ p <+: l := by
  rw [isPrefix, beq_iff_eq, List.prefix_iff_eq_take]
  exact eq_comm

theorem name_line {n : Bs} (h : Spec.IsName n) (t : Bs) (ht : ∀ c ∈ t, c ≠ 13 ∧ c ≠ 10) : Line (t ++ n) [] := by
  obtain ⟨i, c, e⟩ : ∃ i c, n = i ++ [c] := ⟨_, _, (List.dropLast_append_getLast h.1).symm⟩
  have hc := h.2 c (by rw [e]; simp)
  refine ⟨⟨t ++ i, c, by rw [e, List.append_assoc], ?_⟩, ?_, by simp⟩
  · simp only [isWs, Bool.or_eq_false_iff, Bool.and_eq_false_imp, decide_eq_true_eq, decide_eq_false_iff_not]
    omega
  · intro d hd
    rcases List.mem_append.1 hd with h1 | h1
    · exact ht d h1
    · have := h.2 d h1
      omega

theorem name_strip {n : Bs} (h : Spec.IsName n) : strip n = n := by
  have hw : ∀ c ∈ n, isWsStr c = false := by
    intro c hc
    have := h.2 c hc
    simp only [isWsStr, Bool.or_eq_false_iff, Bool.and_eq_false_imp, decide_eq_true_eq, decide_eq_false_iff_not]
    omega
  have key : ∀ l : Bs, (∀ c ∈ l, isWsStr c = false) → l.dropWhile isWsStr = l := by
    intro l hl
    cases l with
    | nil => rfl
    | cons c cs => rw [List.dropWhile_cons_of_neg (by simp [hl c (by simp)])]
  rw [strip, key n hw, key n.reverse (by simpa using hw), List.reverse_reverse]

theorem no_blank_prefix {n : Bs} (h : Spec.IsName n) (p : Bs) (hp : 32 ∈ p) : isPrefix p n = false := by
  rw [Bool.eq_false_iff]
  intro hc
  have := h.2 32 (((isPrefix_iff p n).1 hc).subset hp)
  omega

theorem want_nextGroup (ns : List Bs) : dev.want (nextGroup ns).1 = .line := by cases ns <;> rfl

theorem want_nextChannel (k ns : List Bs) : dev.want (nextChannel k ns).1 = .line := by cases ns <;> rfl

theorem want_finished (c : Cmd) (acc : List Bs) : dev.want (finished c acc).1 = .line := by
  cases c
  · exact want_nextGroup _
  · rfl
  · exact want_nextChannel _ _

theorem text_of_not_emit {l : Bs} (h : isPrefix (tx "emit ") l = false) (p : Ph) :
    dev.onLine p l = ((lineStep p l).1, .text l :: (lineStep p l).2) := by
  show onLine p l = _
  rw [onLine, h]; rfl

theorem ideal_listing (c : Cmd) (ns : List Bs) (rest : Bs) (hn : ∀ n ∈ ns, Spec.Listed n) : ∀ (b : Bool) (acc : List Bs),
    ideal dev (.cmd c b acc) (ns.flatMap (fun n => Spec.line n) ++ (Spec.line (tx "OK") ++ rest)) =
      pre (ns.map (fun n => Ev.text n) ++ .text (tx "OK") :: (finished c (acc ++ ns)).2)
        (ideal dev (finished c (acc ++ ns)).1 rest) := by
  induction ns with
  | nil =>
    intro b acc
    have hstep : dev.onLine (.cmd c b acc) (tx "OK") = ((finished c acc).1, .text (tx "OK") :: (finished c acc).2) := by
      rw [text_of_not_emit (by decide +kernel)]
      have : lineStep (.cmd c b acc) (tx "OK") = finished c acc := by
        rw [lineStep, if_neg (by
          have h1 : isPrefix (tx "emit ") (tx "OK") = false := by decide +kernel
          have h2 : isPrefix (tx "schema ") (tx "OK") = false := by decide +kernel
          rw [h1, h2]; simp), if_neg (by decide +kernel), if_pos (by decide +kernel)]
      rw [this]
    have hl : Line (tx "OK") [] := ⟨⟨[79], 75, by decide +kernel, by decide⟩, by decide +kernel, by simp⟩
    have := ideal_line dev (s := .cmd c b acc) rest hl rfl (by rw [hstep]; exact want_finished c acc)
    rw [hstep, List.append_nil] at this
    simpa using this
  | cons n ns ih =>
    intro b acc
    have h := hn n (by simp)
    have hstep : dev.onLine (.cmd c b acc) n = (.cmd c true (acc ++ [n]), [.text n]) := by
      rw [text_of_not_emit (no_blank_prefix h.1 _ (by decide +kernel))]
      have : lineStep (.cmd c b acc) n = (.cmd c true (acc ++ [n]), []) := by
        rw [lineStep, if_neg (by
          rw [no_blank_prefix h.1 _ (by decide +kernel), no_blank_prefix h.1 _ (by decide +kernel)]; simp),
          if_neg (by rw [isPrefix_iff]; exact h.2.2), if_neg (by rw [isPrefix_iff]; exact h.2.1)]
      rw [this]
    have hl : Line n [] := name_line h.1 [] (by simp)
    have := ideal_line dev (s := .cmd c b acc)
      (ns.flatMap (fun n => Spec.line n) ++ (Spec.line (tx "OK") ++ rest)) hl rfl (by rw [hstep]; rfl)
    rw [hstep, List.append_nil] at this
    rw [List.flatMap_cons, List.append_assoc, this]
    simp only
    rw [ih (fun x hx => hn x (by simp [hx])) true (acc ++ [n]), pre_pre, List.append_assoc]
    rfl

theorem finished_confList (ns : List Bs) (hn : ∀ n ∈ ns, Spec.Listed n) : finished .confList ns = nextGroup ns := by
  have h1 : ns.map strip = ns := by
    conv => rhs; rw [← List.map_id ns]
    exact List.map_congr_left fun n h => name_strip (hn n h).1
  have h2 : (ns.filter fun x => !x.isEmpty) = ns := by
    rw [List.filter_eq_self]
    intro n h
    simpa using (hn n h).1.1
  simp only [finished]
  rw [h1, h2]

theorem finished_telList (ns : List Bs) (hn : ∀ n ∈ ns, Spec.Listed n) : finished .telList ns = nextChannel [] ns := by
  have h2 : (ns.filter fun x => !(strip x).isEmpty) = ns := by
    rw [List.filter_eq_self]
    intro n h
    rw [name_strip (hn n h).1]
    simpa using (hn n h).1.1
  simp only [finished]
  rw [h2]

/-- what is seen of a group. -/
def groupSeen (g : Spec.Group) : List Ev :=
  [.send (tx "conf schema " ++ g.name), .text (tx "cschema " ++ g.name),
    .send (tx "conf data " ++ g.name), .text (tx "cdata " ++ g.name), .config g.name g.schema g.data]

def groupBytes (g : Spec.Group) : Bs :=
  Spec.blocked (tx "cschema " ++ g.name) g.schema ++ Spec.blocked (tx "cdata " ++ g.name) g.data

theorem not_prefix_append (p t n : Bs) (h : isPrefix p (t.take p.length) = false) (hl : p.length ≤ t.length) :
    isPrefix p (t ++ n) = false := by
  rw [isPrefix] at h ⊢
  rw [List.take_take, Nat.min_self] at h
  rw [List.take_append_of_le_length hl]
  exact h

theorem ideal_groups (gs : List Spec.Group) (rest : Bs)
    (hg : ∀ g ∈ gs, Spec.IsName g.name ∧ g.schema.length ≤ 2 ^ 24 ∧ g.data.length ≤ 2 ^ 24) :
    pre (nextGroup (gs.map (·.name))).2 (ideal dev (nextGroup (gs.map (·.name))).1 (gs.flatMap groupBytes ++ rest)) =
      pre (gs.flatMap groupSeen ++ [.send (tx "tel list")]) (ideal dev (.cmd .telList false []) rest) := by
  induction gs with
  | nil => rfl
  | cons g gs ih =>
    have h := hg g (by simp)
    have ih := ih (fun x hx => hg x (by simp [hx]))
    simp only [List.map_cons, nextGroup, List.flatMap_cons, groupBytes]
    have s1 : dev.onLine (.schema g.name (gs.map (·.name))) (tx "cschema " ++ g.name) =
        (.schemaBlock g.name (gs.map (·.name)), [.text (tx "cschema " ++ g.name)]) := by
      rw [text_of_not_emit (not_prefix_append _ _ _ (by decide +kernel) (by decide +kernel)), lineStep,
        if_neg (by rw [not_prefix_append _ _ _ (by decide +kernel) (by decide +kernel)]; simp), if_pos (Or.inr rfl)]
    have s2 : dev.onLine (.data g.name (some g.schema) (gs.map (·.name))) (tx "cdata " ++ g.name) =
        (.dataBlock g.name (some g.schema) (gs.map (·.name)), [.text (tx "cdata " ++ g.name)]) := by
      rw [text_of_not_emit (not_prefix_append _ _ _ (by decide +kernel) (by decide +kernel)), lineStep, if_pos rfl]
    have b1 : dev.onBlock (.schemaBlock g.name (gs.map (·.name))) (some g.schema) =
      (.data g.name (some g.schema) (gs.map (·.name)), [.send (tx "conf data " ++ g.name)]) := rfl
    have b2 : dev.onBlock (.dataBlock g.name (some g.schema) (gs.map (·.name))) (some g.data) =
      ((nextGroup (gs.map (·.name))).1, .config g.name g.schema g.data :: (nextGroup (gs.map (·.name))).2) := rfl
    have i1 := ideal_blocked dev (s := .schema g.name (gs.map (·.name))) (b := g.schema)
      (Spec.blocked (tx "cdata " ++ g.name) g.data ++ (gs.flatMap groupBytes ++ rest))
      (name_line h.1 (tx "cschema ") (by decide +kernel)) rfl (by rw [s1]; rfl) h.2.1
    have i2 := ideal_blocked dev (s := .data g.name (some g.schema) (gs.map (·.name))) (b := g.data)
      (gs.flatMap groupBytes ++ rest)
      (name_line h.1 (tx "cdata ") (by decide +kernel)) rfl (by rw [s2]; rfl) h.2.2
    rw [s1] at i1
    simp only [b1] at i1
    rw [s2] at i2
    simp only [b2] at i2
    have e : ∀ t : List Ev, ∀ x : Ph × Bs × List Ev, pre (t ++ (nextGroup (gs.map (·.name))).2) x =
        pre t (pre (nextGroup (gs.map (·.name))).2 x) := fun t x => (pre_pre t _ x).symm
    rw [List.append_assoc, List.append_assoc, i1, i2, pre_pre, pre_pre]
    have e2 : [Ev.send (tx "conf schema " ++ g.name)] ++ ([Ev.text (tx "cschema " ++ g.name)] ++
          [Ev.send (tx "conf data " ++ g.name)]) ++ ([Ev.text (tx "cdata " ++ g.name)] ++
          Ev.config g.name g.schema g.data :: (nextGroup (gs.map (·.name))).2) =
        groupSeen g ++ (nextGroup (gs.map (·.name))).2 := by simp [groupSeen]
    rw [e2, e, ih, pre_pre, List.append_assoc]

def channelSeen (c : Spec.Channel) : List Ev :=
  [.send (tx "tel schema " ++ c.name), .text (tx "schema " ++ c.name),
    .channel c.name c.schema, .text (tx "<schema name=" ++ c.name ++ tx ">")]

theorem ideal_channels (cs : List Spec.Channel) (rest : Bs)
    (hc : ∀ c ∈ cs, Spec.IsName c.name ∧ c.schema.length ≤ 2 ^ 24) : ∀ k : List Bs,
    pre (nextChannel k (cs.map (·.name))).2 (ideal dev (nextChannel k (cs.map (·.name))).1
        (cs.flatMap (fun c => Spec.blocked (tx "schema " ++ c.name) c.schema) ++ rest)) =
      pre (cs.flatMap channelSeen) (ideal dev (.run (k ++ cs.map (·.name))) rest) := by
  induction cs with
  | nil => intro k; simp [nextChannel]
  | cons c cs ih =>
    intro k
    have h := hc c (by simp)
    have ih := ih (fun x hx => hc x (by simp [hx])) (k ++ [c.name])
    simp only [List.map_cons, nextChannel, List.flatMap_cons]
    have s1 : dev.onLine (.tel c.name (cs.map (·.name)) k) (tx "schema " ++ c.name) =
        (.telBlock c.name (cs.map (·.name)) k, [.text (tx "schema " ++ c.name)]) := by
      rw [text_of_not_emit (not_prefix_append _ _ _ (by decide +kernel) (by decide +kernel)), lineStep,
        if_neg (by rw [not_prefix_append _ _ _ (by decide +kernel) (by decide +kernel)]; simp), if_pos (Or.inl rfl)]
    have b1 : dev.onBlock (.telBlock c.name (cs.map (·.name)) k) (some c.schema) =
      ((nextChannel (k ++ [c.name]) (cs.map (·.name))).1, .channel c.name c.schema ::
        .text (tx "<schema name=" ++ c.name ++ tx ">") :: (nextChannel (k ++ [c.name]) (cs.map (·.name))).2) := rfl
    have i1 := ideal_blocked dev (s := .tel c.name (cs.map (·.name)) k) (b := c.schema)
      (cs.flatMap (fun c => Spec.blocked (tx "schema " ++ c.name) c.schema) ++ rest)
      (name_line h.1 (tx "schema ") (by decide +kernel)) rfl (by rw [s1]; rfl) h.2
    rw [s1] at i1
    simp only [b1] at i1
    have e : ∀ t : List Ev, ∀ x : Ph × Bs × List Ev, pre (t ++ (nextChannel (k ++ [c.name]) (cs.map (·.name))).2) x =
        pre t (pre (nextChannel (k ++ [c.name]) (cs.map (·.name))).2 x) := fun t x => (pre_pre t _ x).symm
    rw [List.append_assoc, i1, pre_pre]
    have e2 : [Ev.send (tx "tel schema " ++ c.name)] ++ ([Ev.text (tx "schema " ++ c.name)] ++
          Ev.channel c.name c.schema :: Ev.text (tx "<schema name=" ++ c.name ++ tx ">") ::
            (nextChannel (k ++ [c.name]) (cs.map (·.name))).2) =
        channelSeen c ++ (nextChannel (k ++ [c.name]) (cs.map (·.name))).2 := by simp [channelSeen]
    rw [e2, e, ih, pre_pre, List.append_assoc]
    rfl

theorem second_emit {n : Bs} (h : Spec.IsName n) : second (tx "emit " ++ n) = n := by
  have e : tx "emit " = [101, 109, 105, 116, 32] := by decide +kernel
  rw [second, e]
  have : List.takeWhile (· ≠ 32) n = n := by
    rw [List.takeWhile_eq_self_iff]
    intro c hc
    have := h.2 c hc
    simp; omega
  simpa using this

theorem ideal_items (k : List Bs) (is : List Spec.Item) (hi : ∀ i ∈ is, i.Ok) :
    ideal dev (.run k) (is.flatMap Spec.Item.bytes) = (.run k, [], is.flatMap (Spec.Item.seen k)) := by
  induction is with
  | nil => exact ideal_wait dev (by rfl)
  | cons i is ih =>
    have h := hi i (by simp)
    have ih := ih (fun x hx => hi x (by simp [hx]))
    rw [List.flatMap_cons, List.flatMap_cons]
    cases i with
    | text l pad =>
      obtain ⟨⟨j, c, e, hc⟩, hl, hp, hpad⟩ := h
      have hline : Line l pad := by
        refine ⟨⟨j, c, e, ?_⟩, fun d hd => (hl d hd).2, hpad⟩
        simp only [isWs, Bool.or_eq_false_iff, Bool.and_eq_false_imp, decide_eq_true_eq, decide_eq_false_iff_not]
        omega
      have hemit : isPrefix (tx "emit ") l = false := by
        rw [Bool.eq_false_iff]; intro h; exact hp ((isPrefix_iff _ _).1 h)
      have hstep : dev.onLine (.run k) l = (.run k, [.text l]) := by
        rw [text_of_not_emit hemit, lineStep, if_neg (by
          rw [List.any_eq_true]
          rintro ⟨d, hd, hd'⟩
          have := (hl d hd).1
          simp at hd'
          omega), hemit]
        rfl
      have := ideal_line dev (s := .run k) (is.flatMap Spec.Item.bytes) hline rfl (by rw [hstep]; rfl)
      rw [hstep] at this
      simp only [Spec.Item.bytes]
      rw [this, ih]
      rfl
    | blank pad =>
      simp only [Spec.Item.bytes]
      rw [ideal_blankline dev _ h rfl, ih]
      rfl
    | record n d =>
      have hstep : dev.onLine (.run k) (tx "emit " ++ n) = (.runBlock n k, []) := by
        have hp : isPrefix (tx "emit ") (tx "emit " ++ n) = true := (isPrefix_iff _ _).2 ⟨n, rfl⟩
        show onLine (.run k) (tx "emit " ++ n) = _
        rw [onLine, hp, lineStep, if_neg, hp, second_emit h.1]
        · rfl
        · rw [List.any_eq_true]
          rintro ⟨c, hc, hc'⟩
          rw [List.mem_append] at hc
          have h3 : ∀ c ∈ tx "emit ", c ≤ 127 := by decide +kernel
          simp only [decide_eq_true_eq] at hc'
          rcases hc with hc | hc
          · have := h3 c hc
            omega
          · have := h.1.2 c hc
            omega
      have := ideal_blocked dev (s := .run k) (b := d) (is.flatMap Spec.Item.bytes)
        (name_line h.1 (tx "emit ") (by decide +kernel)) rfl (by rw [hstep]; rfl) h.2
      rw [hstep] at this
      have hb : dev.onBlock (.runBlock n k) (some d) = (.run k, if d ≠ [] ∧ n ∈ k then [.record n d] else []) := rfl
      simp only [hb] at this
      simp only [Spec.Item.bytes]
      rw [this, ih]
      rfl

/-- a controller that answers as it should. -/
structure Conforming (gs : List Spec.Group) (cs : List Spec.Channel) (is : List Spec.Item) : Prop where
  groups : ∀ g ∈ gs, Spec.Listed g.name ∧ g.schema.length ≤ 2 ^ 24 ∧ g.data.length ≤ 2 ^ 24
  channels : ∀ c ∈ cs, Spec.Listed c.name ∧ c.schema.length ≤ 2 ^ 24
  items : ∀ i ∈ is, i.Ok

theorem ideal_stream {gs : List Spec.Group} {cs : List Spec.Channel} {is : List Spec.Item} (h : Conforming gs cs is) :
    pre begun.out (ideal dev begun.at_ (begun.buf ++ Spec.stream gs cs is)) =
      (.run (cs.map (·.name)), [], Spec.seen gs cs is) := by
  have e : begun.buf ++ Spec.stream gs cs is =
      (gs.map (·.name)).flatMap (fun n => Spec.line n) ++ (Spec.line (tx "OK") ++ (gs.flatMap groupBytes ++
      ((cs.map (·.name)).flatMap (fun n => Spec.line n) ++ (Spec.line (tx "OK") ++
      (cs.flatMap (fun c => Spec.blocked (tx "schema " ++ c.name) c.schema) ++ is.flatMap Spec.Item.bytes))))) := by
    simp only [Spec.stream, begun, List.nil_append, List.append_assoc, List.flatMap_map]
    rfl
  have hg : ∀ n ∈ gs.map (·.name), Spec.Listed n := by
    intro n hn
    obtain ⟨g, hg, rfl⟩ := List.mem_map.1 hn
    exact (h.groups g hg).1
  have hc : ∀ n ∈ cs.map (·.name), Spec.Listed n := by
    intro n hn
    obtain ⟨c, hc, rfl⟩ := List.mem_map.1 hn
    exact (h.channels c hc).1
  have hb : begun.at_ = .cmd .confList false [] := rfl
  have hbo : begun.out = [.send (tx "conf list")] := rfl
  have sp : ∀ (a b : List Ev) (x : Ph × Bs × List Ev), pre (a ++ b) x = pre a (pre b x) :=
    fun a b x => (pre_pre a b x).symm
  have cons : ∀ (a : Ev) (b : List Ev), a :: b = [a] ++ b := fun _ _ => rfl
  rw [e, hb, hbo, ideal_listing .confList _ _ hg, List.nil_append, finished_confList _ hg,
    cons (.text (tx "OK")), sp _ ([Ev.text (tx "OK")] ++ _), sp [Ev.text (tx "OK")],
    ideal_groups gs _ (fun g hx => ⟨(h.groups g hx).1.1, (h.groups g hx).2⟩),
    ideal_listing .telList _ _ hc, List.nil_append, finished_telList _ hc,
    cons (.text (tx "OK")) (nextChannel [] _).2, sp _ ([Ev.text (tx "OK")] ++ (nextChannel [] _).2),
    sp [Ev.text (tx "OK")] (nextChannel [] _).2,
    ideal_channels cs _ (fun c hx => ⟨(h.channels c hx).1.1, (h.channels c hx).2⟩), List.nil_append,
    ideal_items _ _ h.items]
  simp only [pre, Spec.seen, List.map_map, List.append_assoc]
  rfl

/-! ## the theorems -/

/-- a reply without data. -/
def emptyReply : Bs := [0x41, 1, 0]

/-- A message is taken exactly when it is a reply of channel 1 with at most 61 bytes of data that are all
there, and then exactly the data is appended. -/
theorem C105_accept (d c : Bs) : accept d = some c ↔ ∃ pad, d = [0x41, 1, c.length] ++ c ++ pad ∧ c.length ≤ 61 := by
  constructor
  · intro h
    match d, h with
    | a :: b :: n :: rest, h =>
      rw [accept] at h
      split at h
      · simp at h
      · split at h
        · simp at h
        · split at h
          · simp at h
          · split at h
            · simp at h
            · rename_i h1 h2 h3 h4
              simp only [ne_eq, not_not, gt_iff_lt, not_lt] at h1 h2 h3 h4
              simp only [Option.some.injEq] at h
              have hl : c.length = n := by rw [← h, List.length_take]; omega
              refine ⟨rest.drop n, ?_, by omega⟩
              rw [h1, h2, hl, ← h]
              simp
  · rintro ⟨pad, rfl, h⟩
    simp only [List.cons_append, List.nil_append, accept]
    rw [if_neg (by simp), if_neg (by simp), if_neg (by omega), if_neg (by simp)]
    simp

/-- Whatever task consumes the stream, it does the same however the bytes are cut into messages, once
enough messages without data have followed, unless it resynchronizes. -/
theorem C105_cut (m : Machine σ ε) (r : Run σ ε) (cs cs' : List Bs) (k : ℕ) (hf : cs.flatten = cs'.flatten)
    (hs : Steady m r (cs ++ List.replicate k [])) (hs' : Steady m r (cs' ++ List.replicate k []))
    (hk : 2 * (r.buf.length + cs.flatten.length) + 2 ≤ k) :
    wakes m r (cs ++ List.replicate k []) = wakes m r (cs' ++ List.replicate k []) := by
  have h1 := settled m r cs k hs hk
  have h2 := settled m r cs' k hs' (by rw [← hf]; exact hk)
  rw [← hf] at h2
  cases ha : wakes m r (cs ++ List.replicate k [])
  cases hb : wakes m r (cs' ++ List.replicate k [])
  rw [ha] at h1
  rw [hb] at h2
  simp only at h1 h2
  rw [h1.1, h1.2.1, h1.2.2, h2.1, h2.2.1, h2.2.2]

/-- With a controller that answers as it should, tview sends its commands in their order, builds the whole
tree of the configuration and the list of the channels, and shows every text and every record of a known
channel, in order and unchanged, however the stream is cut into messages and whatever other messages come
in between.  At every moment it has done the beginning of that. -/
theorem C105_stream {gs : List Spec.Group} {cs : List Spec.Channel} {is : List Spec.Item} (h : Conforming gs cs is)
    (ms : List Bs) :
    ((ms.filterMap accept).flatten <+: Spec.stream gs cs is →
      (messages dev begun ms).out <+: Spec.seen gs cs is) ∧
    ((ms.filterMap accept).flatten = Spec.stream gs cs is →
      ∀ k, 2 * (Spec.stream gs cs is).length + 2 ≤ k →
        (messages dev begun (ms ++ List.replicate k emptyReply)).out = Spec.seen gs cs is ∧
        (messages dev begun (ms ++ List.replicate k emptyReply)).buf = []) := by
  have hi := ideal_stream h
  simp only [pre, Prod.mk.injEq] at hi
  have h0 : Follows dev begun [] begun := by simp [Follows]
  have hst : ∀ (chunks : List Bs) (x : Bs), chunks.flatten ++ x = Spec.stream gs cs is → Steady dev begun chunks := by
    intro chunks x hx
    refine steady_of dev begun x chunks [] begun h0 ?_
    rw [List.nil_append, hx, hi.1]
    show Want.line ≠ Want.resync
    decide
  constructor
  · rintro ⟨x, hx⟩
    have hs := hst _ x hx
    have hf := follows_wakes dev begun _ [] begun h0 hs
    unfold Follows at hf
    rw [List.nil_append] at hf
    have ha := ideal_append dev x begun.at_ (begun.buf ++ (ms.filterMap accept).flatten)
    rw [List.append_assoc, hx] at ha
    simp only [pre, Prod.mk.injEq] at hf
    have ha := congrArg (fun t => t.2.2) ha
    simp only [pre] at ha
    rw [← hi.2.2, ha, ← List.append_assoc, hf.2.2, List.append_assoc]
    exact ⟨_, rfl⟩
  · intro hx k hk
    have he : accept emptyReply = some [] := by decide
    have hm : (ms ++ List.replicate k emptyReply).filterMap accept =
        ms.filterMap accept ++ List.replicate k [] := by
      rw [List.filterMap_append, List.filterMap_replicate_of_some he]
    have hs := hst (ms.filterMap accept ++ List.replicate k []) [] (by simp [hx])
    have hd := settled dev begun _ k hs (by rw [hx]; simp [begun]; omega)
    rw [hx] at hd
    rw [messages, hm]
    exact ⟨by rw [hd.2.2]; exact hi.2.2, by rw [hd.2.1]; exact hi.2.1⟩

/-- Everything written is sent, in order, in frames of at most 61 bytes of data for channel 1; nothing else is
sent. -/
theorem C105_writes (ops : List WOp) :
    (∃ pieces : List Bs, (ops.foldl wstep ([], [])).2 = pieces.map (fun p => [0x40, 1, p.length] ++ p) ∧
      (∀ p ∈ pieces, p ≠ [] ∧ p.length ≤ 61) ∧
      pieces.flatten ++ (ops.foldl wstep ([], [])).1 =
        ops.flatMap (fun o => match o with | .write d => d | .emit => [])) ∧
    ∀ k, (ops.foldl wstep ([], [])).1.length ≤ 61 * k →
      ((ops ++ List.replicate k WOp.emit).foldl wstep ([], [])).1 = [] := by
  constructor
  · induction ops using List.reverseRecOn with
    | nil => exact ⟨[], rfl, by simp, rfl⟩
    | append_singleton ops o ih =>
      obtain ⟨ps, h1, h2, h3⟩ := ih
      rw [List.foldl_append, List.flatMap_append, ← h3]
      generalize ops.foldl wstep ([], []) = s at *
      simp only [List.foldl_cons, List.foldl_nil, List.flatMap_cons, List.flatMap_nil, List.append_nil]
      cases o with
      | write d => exact ⟨ps, h1, h2, by simp [wstep]⟩
      | emit =>
        simp only [wstep]
        by_cases hl : s.1.length = 0
        · rw [if_pos hl]
          exact ⟨ps, h1, h2, by simp⟩
        · rw [if_neg hl]
          refine ⟨ps ++ [s.1.take 61], by rw [List.map_append, h1]; rfl, ?_, by simp⟩
          intro p hp
          rcases List.mem_append.1 hp with hp | hp
          · exact h2 p hp
          · rw [List.mem_singleton] at hp
            subst hp
            refine ⟨?_, by simp⟩
            intro hn
            have := congrArg List.length hn
            rw [List.length_take, List.length_nil] at this
            omega
  · intro k
    rw [List.foldl_append]
    generalize ops.foldl wstep ([], []) = s
    induction k generalizing s with
    | zero => intro h; exact List.eq_nil_of_length_eq_zero (by simpa using h)
    | succ k ih =>
      intro h
      rw [List.replicate_succ, List.foldl_cons]
      apply ih
      simp only [wstep]
      split
      · omega
      · simp only [List.length_drop]; omega

/-- the messages that bring `d`, 48 bytes at a time at most. -/
def say (d : Bs) : Bs := [0x41, 1, d.length] ++ d

/-- Broken: a line is not taken as soon as it has arrived.  Two lines arrive in one message; the second is
taken only when a further message comes. -/
theorem C105_prompt_refuted :
    let r : Run Ph Ev := { at_ := .run [], buf := [], out := [] }
    (messages dev r [say (Spec.line (tx "one") ++ Spec.line (tx "two"))]).out = [.text (tx "one")] ∧
    (messages dev r [say (Spec.line (tx "one") ++ Spec.line (tx "two")), emptyReply]).out =
      [.text (tx "one"), .text (tx "two")] := by
  decide +kernel

/-- Broken: a refused `conf data` is never noticed: whatever lines follow, unless the controller says
`cdata` after all, tview goes on waiting. -/
theorem C105_refused_refuted (n : Bs) (s : Option Bs) (todo : List Bs) (l : Bs) (hl : l ≠ tx "cdata " ++ n) :
    (dev.onLine (.data n s todo) l).1 = .data n s todo ∧
    (messages dev { at_ := .data (tx "servo") s todo, buf := [], out := [] }
      [say (Spec.line (tx "ERR unknown name")), emptyReply, emptyReply]).at_ = .data (tx "servo") s todo := by
  constructor
  · show (lineStep (.data n s todo) l).1 = _
    rw [lineStep, if_neg hl]
  · rfl

/-- Broken: the `OK` of `tel stop`, when it comes late, is taken for the answer to `conf list`: the tree of the
configuration stays empty, and the groups of the configuration are taken for the channels of the telemetry. -/
theorem C105_stale_refuted :
    (messages dev begun [say (Spec.line (tx "OK")), say (Spec.line (tx "servo")), say (Spec.line (tx "OK")), emptyReply]).out =
      [.send (tx "conf list"), .text (tx "OK"), .send (tx "tel list"), .text (tx "servo"), .text (tx "OK"),
        .send (tx "tel schema servo")] := by
  decide +kernel

/-- Broken: a record in flight when a command is sent is not skipped: its bytes are read as lines, here as
the end of the answer. -/
theorem C105_inflight_refuted :
    (messages dev begun [say (Spec.blocked (tx "emit a") (tx "\rOK\r")), emptyReply, emptyReply, emptyReply]).out =
      [.send (tx "conf list"), .text [4, 0, 0, 0], .text (tx "OK"), .send (tx "conf schema " ++ [4, 0, 0, 0])] := by
  decide +kernel

/-- After a line that is not ASCII tview drops everything until a message brings nothing, and goes on with an
empty buffer.  A damaged `emit` line then still asks for a block, which is refused as soon as five bytes of
text are there. -/
theorem C105_recover (l buf : Bs) (k : List Bs) (out : List Ev) (junk : List Bs) (hj : ∀ c ∈ junk, c ≠ [])
    (hl : ∃ c ∈ l, 127 < c) :
    (dev.onLine (.run k) l).1 = .runSync l k ∧
    (¬ tx "emit " <+: l → wakes dev { at_ := .runSync l k, buf := buf, out := out } (junk ++ [[]]) =
      { at_ := .run k, buf := [], out := out }) ∧
    (tx "emit " <+: l → wakes dev { at_ := .runSync l k, buf := buf, out := out } (junk ++ [[]]) =
      { at_ := .runBlock (second l) k, buf := [], out := out }) ∧
    ∀ n a b c d e rest, 2 ≤ e →
      drive dev (.runBlock n k) (a :: b :: c :: d :: e :: rest) = drive dev (.run k) (a :: b :: c :: d :: e :: rest) := by
  have hres : dev.want (.runSync l k) = .resync := rfl
  have hwk : ∀ junk : List Bs, (∀ c ∈ junk, c ≠ []) → ∀ buf, ∃ buf',
      wakes dev { at_ := .runSync l k, buf := buf, out := out } junk = { at_ := .runSync l k, buf := buf', out := out } := by
    intro junk
    induction junk with
    | nil => intro _ buf; exact ⟨buf, rfl⟩
    | cons c cs ih =>
      intro hj buf
      have hc := hj c (by simp)
      have e : wake dev { at_ := .runSync l k, buf := buf, out := out } c =
          { at_ := .runSync l k, buf := buf ++ c, out := out } := by
        rw [wake, if_pos hres, if_neg hc]
      obtain ⟨b', h⟩ := ih (fun d hd => hj d (by simp [hd])) (buf ++ c)
      refine ⟨b', ?_⟩
      rw [← h]
      show wakes dev (wake dev _ c) cs = _
      rw [e]
  obtain ⟨buf', hw⟩ := hwk junk hj buf
  refine ⟨?_, ?_, ?_, ?_⟩
  · show (lineStep (.run k) l).1 = _
    rw [lineStep, if_pos]
    rw [List.any_eq_true]
    obtain ⟨c, hc, h⟩ := hl
    exact ⟨c, hc, by simpa using h⟩
  · intro he
    have hr : dev.onResync (.runSync l k) = (.run k, []) := by
      show onResync (.runSync l k) = _
      rw [onResync, if_neg (by rw [isPrefix_iff]; exact he)]
    rw [wakes_append, hw]
    rw [wakes, List.foldl_cons, List.foldl_nil, wake, if_pos hres, if_pos rfl]
    simp only [hr]
    rw [drive_wait dev (by rfl)]
    simp
  · intro he
    have hr : dev.onResync (.runSync l k) = (.runBlock (second l) k, []) := by
      show onResync (.runSync l k) = _
      rw [onResync, if_pos (by rw [isPrefix_iff]; exact he)]
    rw [wakes_append, hw]
    rw [wakes, List.foldl_cons, List.foldl_nil, wake, if_pos hres, if_pos rfl]
    simp only [hr]
    rw [drive_wait dev (by rfl)]
    simp
  · intro n a b c d e rest he
    have hb : block (a :: b :: c :: d :: e :: rest) = .big := by
      rw [block, sizeOf]
      simp only
      rw [if_pos (by omega)]
    have : act dev (.runBlock n k) (a :: b :: c :: d :: e :: rest) =
        .next (.run k) (a :: b :: c :: d :: e :: rest) [] := by
      rw [act]
      show (match block (a :: b :: c :: d :: e :: rest) with
        | .wait => Act.wait
        | .big => .next (dev.onBlock (.runBlock n k) none).1 _ (dev.onBlock (.runBlock n k) none).2
        | .got b rest => .next (dev.onBlock (.runBlock n k) (some b)).1 rest (dev.onBlock (.runBlock n k) (some b)).2) = _
      rw [hb]
      rfl
    rw [drive_next dev this, pre_nil]

/-- Broken: when the message with the size of a record is lost, the size is taken from what follows, and
records that arrive whole are swallowed. -/
theorem C105_lost_refuted :
    let r : Run Ph Ev := { at_ := .run [tx "a"], buf := [], out := [] }
    (messages dev r [say (tx "emit a\r\n"), say (Spec.le32 4), say (Spec.le32 200),
      say (Spec.blocked (tx "emit a") [1, 2, 3, 4]), emptyReply]).out =
        [.record (tx "a") (Spec.le32 200), .record (tx "a") [1, 2, 3, 4]] ∧
    (messages dev r [say (tx "emit a\r\n"), say (Spec.le32 200),
      say (Spec.blocked (tx "emit a") [1, 2, 3, 4]), emptyReply]).out = [] := by
  decide +kernel

/-- a controller with one group and two channels. -/
example : Conforming [⟨tx "servo", [1, 2], [3]⟩] [⟨tx "servo_stats", [4]⟩, ⟨tx "git", []⟩]
    [.text (tx "moteus") (tx " "), .blank [], .record (tx "git") [13, 10, 65], .record (tx "x") [1]] := by
  have n : ∀ l : Bs, (l ≠ [] ∧ ∀ c ∈ l, 33 ≤ c ∧ c ≤ 126) → Spec.IsName l := fun _ h => h
  refine ⟨?_, ?_, ?_⟩
  · simp only [List.mem_singleton, forall_eq]
    exact ⟨⟨n _ (by decide +kernel), by decide +kernel, by decide +kernel⟩, by simp, by simp⟩
  · simp only [List.mem_cons, List.not_mem_nil, or_false, forall_eq_or_imp, forall_eq]
    exact ⟨⟨⟨n _ (by decide +kernel), by decide +kernel, by decide +kernel⟩, by simp⟩,
      ⟨n _ (by decide +kernel), by decide +kernel, by decide +kernel⟩, by simp⟩
  · simp only [List.mem_cons, List.not_mem_nil, or_false, forall_eq_or_imp, forall_eq]
    refine ⟨⟨⟨tx "moteu", 115, by decide +kernel, by decide⟩, by decide +kernel, by decide +kernel, ?_⟩, ?_,
      ⟨n _ (by decide +kernel), by simp⟩, n _ (by decide +kernel), by simp⟩
    · show ∀ c ∈ tx " ", c = 32 ∨ c = 9
      decide +kernel
    · show ∀ c ∈ ([] : Bs), c = 32 ∨ c = 9
      simp

/-- two cuts of one stream that tview reads without resynchronizing. -/
example : (messages dev { at_ := .run [], buf := [], out := [] } [say (tx "ab\r\nc"), say (tx "d\r\n"), emptyReply]).out =
    (messages dev { at_ := .run [], buf := [], out := [] } [say (tx "ab\r"), say (tx "\ncd\r\n"), emptyReply]).out := by
  decide +kernel

end Verif.Tool.Tview
