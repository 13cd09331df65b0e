import Verif.Base.Bytes
import Verif.Float.Ieee

/-!
# Model of lib/python/moteus/multiplex.py

Python exceptions are values of `Err`.  Byte buffers are lists of bytes.
-/

namespace Verif.Multiplex

open Verif Verif.Float

/-- The exceptions that the modelled Python code can raise. -/
inductive Err
  | structError      -- `struct.error`, integer out of range for the format
  | overflowError    -- `OverflowError`, float too large for the format
  | indexError       -- `IndexError`
  | runtimeError     -- `RuntimeError`
  | assertionError   -- `AssertionError`
  | typeError        -- `TypeError`
  | valueError       -- `ValueError`
deriving DecidableEq, Repr

/-- multiplex.py:22-25, the four value resolutions INT8, INT16, INT32, F32.
A resolution setting, which may also be IGNORE (multiplex.py:26), is
`Option Res` with `none` for IGNORE. -/
inductive Res
  | int8 | int16 | int32 | f32
deriving DecidableEq, Repr

/-- The number Python uses for the resolution (multiplex.py:22-25). -/
def Res.id : Res → Nat
  | .int8 => 0 | .int16 => 1 | .int32 => 2 | .f32 => 3

/-- Two bit resolution field of a subframe (multiplex.py:162, 280). -/
def Res.ofId (n : Nat) : Res :=
  match n with
  | 0 => .int8 | 1 => .int16 | 2 => .int32 | _ => .f32

/-- multiplex.py:101-102 `resolution_size` -/
def Res.size : Res → Nat
  | .int8 => 1 | .int16 => 2 | .int32 => 4 | .f32 => 4

/-- multiplex.py:40 -/
def NOP : UInt8 := 0x50

/-! ## Variable length integers -/

/-- multiplex.py:61-72, the loop of `read_varuint`; `k` iterations are left,
`i` is the loop counter. -/
def readVaruintLoop (offset : Nat) (buf : Bytes) :
    (k i result shift : Nat) → Option Nat × Nat
  | 0, _, _, _ => (none, offset + 5)
  | k + 1, i, result, shift =>
    match buf[offset + i]? with
    | none => (none, offset + i)
    | some thisByte =>
      let result := result ||| ((thisByte.toNat &&& 0x7f) <<< shift)
      if thisByte.toNat &&& 0x80 = 0 then (some result, offset + i + 1)
      else readVaruintLoop offset buf k (i + 1) result (shift + 7)

/-- multiplex.py:57-72 `read_varuint` -/
def readVaruint (offset : Nat) (buf : Bytes) : Option Nat × Nat :=
  readVaruintLoop offset buf 5 0 0 0

/-- multiplex.py:340-349 `WriteFrame.write_varuint`, the bytes written.
(For negative Python integers the loop never ends; they are outside of the
model.) -/
def writeVaruint (value : Nat) : Bytes :=
  let rest := value >>> 7
  let thisByte := (value &&& 0x7f) ||| (if rest ≠ 0 then 0x80 else 0)
  UInt8.ofNat thisByte :: (if rest = 0 then [] else writeVaruint rest)
termination_by value
decreasing_by
  rename_i h
  have h : ¬ value >>> 7 = 0 := h
  show value >>> 7 < value
  rw [Nat.shiftRight_eq_div_pow] at *
  omega

/-! ## Scaling -/

/-- multiplex.py:50-55 `TYPES_MAX` for the integer resolutions. -/
def Res.max : Res → Int
  | .int8 => 127 | .int16 => 32767 | .int32 => 2147483647 | .f32 => 0

/-- The value used on the wire for NaN, multiplex.py:77-82, 217-222. -/
def Res.nanValue : Res → Int
  | .int8 => -128 | .int16 => -32768 | .int32 => -2147483648 | .f32 => 0

/-- Python `int(x)` for a finite float: truncation toward zero. -/
def truncQ (q : ℚ) : Int := if 0 ≤ q then ⌊q⌋ else ⌈q⌉

/-- Python float division `a / b` for a finite `a` and a positive finite
`b`: correctly rounded, overflowing to infinity. -/
def divF (a b : ℚ) : Fl := b64.round (a / b)

/-- multiplex.py:75-98 `saturate` for the integer resolutions; `value` is a
Python float and `scale` the (exact) value of a positive Python float. -/
def saturateInt (value : Fl) (r : Res) (scale : ℚ) : Int :=
  match value with
  | .nan | .inf _ => r.nanValue
  | .fin v =>
    match divF v scale with
    | .nan => r.nanValue   -- not reachable, division of finite by non-zero
    | .inf true => -r.max
    | .inf false => r.max
    | .fin scaled =>
      if scaled < -(r.max : ℚ) then -r.max
      else if (r.max : ℚ) < scaled then r.max
      else truncQ scaled

/-- multiplex.py:75-98 `saturate` for F32 with scale 1.0: both comparisons
are with NaN and thus false; non-finite values are returned as they are. -/
def saturateF32 (value : Fl) : Fl :=
  match value with
  | .nan => .nan
  | .inf n => .inf n
  | .fin v => divF v 1

/-- multiplex.py:211-223 `RegisterParser.nanify` followed by the scale
multiplication of `read_mapped` (multiplex.py:225-231) for integers. -/
def unscaleInt (raw : Int) (r : Res) (scale : ℚ) : Fl :=
  if raw = r.nanValue then .nan else b64.round (raw * scale)

/-! ## struct.pack / unpack -/

/-- `struct.Struct('<b'|'<h'|'<i').pack(value)`, multiplex.py:43-47. -/
def packInt (r : Res) (value : Int) : Except Err Bytes :=
  if -(2 ^ (8 * r.size - 1) : Int) ≤ value ∧ value < (2 ^ (8 * r.size - 1) : Int)
  then .ok (leBytes r.size (ofSigned r.size value))
  else .error .structError

/-- `struct.unpack` of the integer formats. -/
def unpackInt (r : Res) (b : Bytes) : Int := toSigned r.size (leNat b)

/-! ## RegisterParser -/

/-- multiplex.py:105-121 `RegisterParser`.  The pair (`data`, `_offset`) is
represented by the unread part `rest` of the data; `_offset >= size` is
`rest = []`.  The offset can never exceed the size (see
`readVaruint_offset_le`). -/
structure RegisterParser where
  rest : Bytes
  remaining : Nat
  register : Nat
  resolution : Res
deriving DecidableEq, Repr

/-- multiplex.py:109-121 -/
def RegisterParser.init (data : Bytes) : RegisterParser := ⟨data, 0, 0, .int8⟩

/-- multiplex.py:179-191, the common tail of a reply block: read the start
register and announce the first value. -/
def RegisterParser.block (rest : Bytes) (count : Nat) (oldRegister : Nat) (res : Res) :
    Option (Nat × Res) × RegisterParser :=
  match readVaruint 0 rest with
  | (none, k) => (none, ⟨rest.drop k, 0, oldRegister, res⟩)
  | (some reg, k) =>
    let rest := rest.drop k
    if rest.length < res.size then (none, ⟨rest, count - 1, reg, res⟩)
    else (some (reg, res), ⟨rest, count - 1, reg + 1, res⟩)

/-- multiplex.py:148-198, the `while` loop of `next`. `none` stands for the
returned tuple `(False, 0, INT8)`. -/
def RegisterParser.scan (register : Nat) (res : Res) :
    Bytes → Option (Nat × Res) × RegisterParser
  | [] => (none, ⟨[], 0, register, res⟩)
  | cmd :: rest =>
    if cmd = NOP then RegisterParser.scan register res rest
    else match rest with
    | [] => (none, ⟨[], 0, register, res⟩)
    | b :: rest' =>
      if 0x20 ≤ cmd.toNat ∧ cmd.toNat < 0x30 then
        let res := Res.ofId ((cmd.toNat >>> 2) &&& 0x03)
        let count := cmd.toNat &&& 0x03
        if count = 0 then
          let count := b.toNat
          match rest' with
          | [] => (none, ⟨[], 0, register, res⟩)
          | c :: rest'' =>
            if count = 0 then RegisterParser.scan register res (c :: rest'')
            else RegisterParser.block (c :: rest'') count register res
        else RegisterParser.block (b :: rest') count register res
      else (none, ⟨[], 0, register, res⟩)

/-- multiplex.py:123-198 `RegisterParser.next` -/
def RegisterParser.next (p : RegisterParser) : Option (Nat × Res) × RegisterParser :=
  if p.rest = [] then (none, p)
  else if p.remaining ≠ 0 then
    let p' := { p with remaining := p.remaining - 1, register := p.register + 1 }
    if p.rest.length < p.resolution.size then (none, p')
    else (some (p.register, p.resolution), p')
  else RegisterParser.scan p.register p.resolution p.rest

/-- multiplex.py:200-209 `RegisterParser.read`, returning the raw bytes of
the value (`struct.unpack` is applied separately). -/
def RegisterParser.read (p : RegisterParser) (r : Res) : Except Err (Bytes × RegisterParser) :=
  if p.rest.length < r.size then .error .runtimeError
  else .ok (p.rest.take r.size, { p with rest := p.rest.drop r.size })

/-- The loop of moteus.py:553-563 `parse_reply` without the interpretation
of the values: call `next` and, while it is valid, `read`.  `fuel` bounds
the number of iterations; `none` when it is exhausted. -/
def RegisterParser.loop : Nat → RegisterParser → Option (Except Err (List (Nat × Res × Bytes)))
  | 0, _ => none
  | fuel + 1, p =>
    match p.next with
    | (none, _) => some (.ok [])
    | (some (reg, res), p) =>
      match p.read res with
      | .error e => some (.error e)
      | .ok (b, p) =>
        match RegisterParser.loop fuel p with
        | none => none
        | some (.error e) => some (.error e)
        | some (.ok l) => some (.ok ((reg, res, b) :: l))

/-! ## QueryParser -/

/-- multiplex.py:241-251 `QueryParser`, represented as `RegisterParser`. -/
structure QueryParser where
  rest : Bytes
  remaining : Nat
  register : Nat
  resolution : Res
deriving DecidableEq, Repr

/-- multiplex.py:245-251 -/
def QueryParser.init (data : Bytes) : QueryParser := ⟨data, 0, 0, .int8⟩

/-- Outcome of `QueryParser.__next__`. -/
inductive QNext
  | item (register : Nat) (res : Res)
  | pyNone                 -- falls off the end of the function
  | stop                   -- StopIteration
  | err (e : Err)
deriving DecidableEq, Repr

/-- multiplex.py:272-306, the `while` loop.  When the loop ends without
`return` the method returns Python `None`. Bytes that are not a read
subframe are skipped one at a time. -/
def QueryParser.scan (register : Nat) (res : Res) : Bytes → QNext × QueryParser
  | [] => (.pyNone, ⟨[], 0, register, res⟩)
  | cmd :: rest =>
    if cmd = NOP then QueryParser.scan register res rest
    else if 0x10 ≤ cmd.toNat ∧ cmd.toNat < 0x20 then
      let res := Res.ofId ((cmd.toNat >>> 2) &&& 0x03)
      let count := cmd.toNat &&& 0x03
      if count = 0 then
        match rest with
        | [] => (.err .runtimeError, ⟨[], 0, register, res⟩)
        | b :: rest' =>
          if b.toNat = 0 then QueryParser.scan register res rest'
          else block b.toNat res rest'
      else block count res rest
    else QueryParser.scan register res rest
where
  /-- multiplex.py:297-306 -/
  block (count : Nat) (res : Res) (rest : Bytes) : QNext × QueryParser :=
    match readVaruint 0 rest with
    | (none, k) => (.err .runtimeError, ⟨rest.drop k, 0, register, res⟩)
    | (some reg, k) => (.item reg res, ⟨rest.drop k, count - 1, reg + 1, res⟩)

/-- multiplex.py:261-306 `QueryParser.__next__` -/
def QueryParser.next (p : QueryParser) : QNext × QueryParser :=
  if p.remaining ≠ 0 then
    (.item p.register p.resolution,
      { p with remaining := p.remaining - 1, register := p.register + 1 })
  else if p.rest = [] then (.stop, p)
  else QueryParser.scan p.register p.resolution p.rest

/-- multiplex.py:253-256 `QueryParser.parse`: the list built by the list
comprehension, where an element may be Python `None`. `fuel` bounds the
number of iterations. -/
def QueryParser.loop : Nat → QueryParser → Option (Except Err (List (Option (Nat × Res))))
  | 0, _ => none
  | fuel + 1, p =>
    match p.next with
    | (.stop, _) => some (.ok [])
    | (.err e, _) => some (.error e)
    | (.pyNone, p) => (QueryParser.loop fuel p).map (Except.map (none :: ·))
    | (.item reg res, p) => (QueryParser.loop fuel p).map (Except.map (some (reg, res) :: ·))

/-! ## WriteFrame and WriteCombiner -/

/-- multiplex.py:324-326 `write_int8`: `struct.pack('<b', value)`. -/
def writeInt8 (value : Nat) : Except Err Bytes := packInt .int8 value

/-- multiplex.py:351-353 `write_mapped` for an integer resolution. -/
def writeMappedInt (value : Fl) (scale : ℚ) (r : Res) : Except Err Bytes :=
  packInt r (saturateInt value r scale)

/-- multiplex.py:356-369 `WriteCombiner` together with the buffer of its
writer.  `current = none` is the initial `_current_resolution = -1`. -/
structure WriteCombiner where
  buf : Bytes
  base : Nat
  startRegister : Nat
  resolutions : List (Option Res)
  replySize : Nat
  offset : Nat
  current : Option (Option Res)
deriving DecidableEq, Repr

/-- multiplex.py:362-369 -/
def WriteCombiner.init (buf : Bytes) (base start : Nat) (resolutions : List (Option Res)) :
    WriteCombiner := ⟨buf, base, start, resolutions, 0, 0, none⟩

/-- multiplex.py:392-398: number of further entries equal to `r`. -/
def countRun (r : Res) : List (Option Res) → Nat
  | [] => 0
  | x :: xs => if x = some r then countRun r xs + 1 else 0

/-- multiplex.py:400 -/
def Res.commandBits : Res → Nat
  | .int8 => 0x00 | .int16 => 0x04 | .int32 => 0x08 | .f32 => 0x0c

/-- multiplex.py:400-412: the framing bytes of a block. -/
def blockHeader (base : Nat) (r : Res) (count register : Nat) : Except Err Bytes := do
  let writeCommand := r.commandBits ||| base
  let head ←
    if count ≤ 3 then writeInt8 (writeCommand + count)
    else do
      let a ← writeInt8 writeCommand
      let b ← writeInt8 count
      pure (a ++ b)
  pure (head ++ writeVaruint register)

/-- multiplex.py:374-419 `WriteCombiner.maybe_write` -/
def WriteCombiner.maybeWrite (c : WriteCombiner) : Except Err (Bool × WriteCombiner) :=
  match c.resolutions[c.offset]? with
  | none => .error .indexError
  | some thisRes =>
    if c.current = some thisRes then
      .ok (thisRes.isSome, { c with offset := c.offset + 1 })
    else
      match thisRes with
      | none => .ok (false, { c with offset := c.offset + 1, current := some none })
      | some r => do
        let count := 1 + countRun r (c.resolutions.drop (c.offset + 1))
        let header ← blockHeader c.base r count (c.startRegister + c.offset)
        .ok (true, { c with
          buf := c.buf ++ header
          offset := c.offset + 1
          current := some (some r)
          replySize := c.replySize + header.length + count * r.size })

/-- The calling pattern of every command in moteus.py, e.g. 979-1002:
`if combiner.maybe_write(): writer.write_...(value)` once for each register.
`ws` lists the bytes (or the exception) that each write call produces. -/
def WriteCombiner.run : WriteCombiner → List (Except Err Bytes) → Except Err WriteCombiner
  | c, [] => .ok c
  | c, w :: ws => do
    let (b, c) ← c.maybeWrite
    if b then do
      let bytes ← w
      WriteCombiner.run { c with buf := c.buf ++ bytes } ws
    else WriteCombiner.run c ws

/-- The calling pattern of queries, e.g. moteus.py:699-700: `maybe_write` is
called once for each register and nothing else is written. -/
def WriteCombiner.runQuery (c : WriteCombiner) : Except Err WriteCombiner :=
  c.run (List.replicate c.resolutions.length (.ok []))

end Verif.Multiplex
