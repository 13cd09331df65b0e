import Verif.Commands.ReplyProps

/-!
# What decode_can_frame.py shows (C96)

utils/decode_can_frame.py prints the contents of a CAN frame given in hex.
The model is the list of the pieces that it prints, each with the bytes
printed in front of it, and the exception that ends it, if any.  Not modelled:
the layout of the text, the names of registers (only whether a register has a
name) and `bytes.fromhex`.
-/

namespace Verif.Tool.CanDecode

open Verif Verif.Float Verif.Multiplex Verif.Commands

/-! ## Model -/

/-- The numbers of `moteus.Register`, lib/python/moteus/moteus.py:158-289
(looked up by `moteus.Register(reg)`, decode_can_frame.py:100). -/
def registers : List Nat :=
  [0x000, 0x001, 0x002, 0x003, 0x004, 0x005, 0x006, 0x007, 0x00a, 0x00b, 0x00c, 0x00d, 0x00e, 0x00f,
   0x010, 0x011, 0x012, 0x014, 0x015, 0x016, 0x018, 0x019, 0x01a, 0x01b, 0x01c, 0x01d, 0x01e,
   0x020, 0x021, 0x022, 0x023, 0x024, 0x025, 0x026, 0x027, 0x028, 0x029, 0x02a, 0x02b,
   0x030, 0x031, 0x032, 0x033, 0x034, 0x038, 0x039, 0x03a, 0x03b, 0x03c, 0x03d,
   0x040, 0x041, 0x042, 0x043, 0x044, 0x045, 0x046, 0x047,
   0x050, 0x051, 0x052, 0x053, 0x054, 0x055, 0x058, 0x05c, 0x05d, 0x05e, 0x05f,
   0x060, 0x061, 0x062, 0x063, 0x064, 0x068, 0x069, 0x06a, 0x06b, 0x06c, 0x070, 0x071,
   0x076, 0x077, 0x078, 0x079, 0x07a, 0x07b, 0x07c, 0x07d, 0x07e, 0x07f,
   0x102, 0x120, 0x121, 0x122, 0x130, 0x131, 0x132, 0x133, 0x140, 0x141,
   0x150, 0x151, 0x152, 0x153, 0x154, 0x155, 0x156, 0x157]

/-- lib/python/moteus/moteus.py:292-307 `Mode`, values and names. -/
def modes : List (Int × String) :=
  [(0, "STOPPED"), (1, "FAULT"), (5, "PWM"), (6, "VOLTAGE"), (7, "VOLTAGE_FOC"), (8, "VOLTAGE_DQ"),
   (9, "CURRENT"), (10, "POSITION"), (11, "TIMEOUT"), (12, "ZERO_VELOCITY"), (13, "STAY_WITHIN"),
   (14, "MEASURE_IND"), (15, "BRAKE")]

/-- What is printed in parentheses after a value. -/
inductive Note
  | none
  | mode (name : String)
  | nan
  | scaled (x : Fl)
deriving DecidableEq

/-- A value as printed: the number and the note. -/
structure Shown where
  number : Val
  note : Note
deriving DecidableEq

/-- decode_can_frame.py:127-132 `ScaleType`; the three scales are Python
floats. -/
structure ScaleType where
  registers : List Nat
  int8 : ℚ
  int16 : ℚ
  int32 : ℚ

/-- A Python literal. -/
def lit (q : ℚ) : ℚ := b64.roundQ q

/-- decode_can_frame.py:134-201 `SCALE_TYPES` -/
def scaleTypes : List ScaleType :=
  [ ⟨[0x001, 0x006, 0x020, 0x026, 0x040, 0x050, 0x052, 0x054],
      lit (1/100), lit (1/10000), lit (1/100000)⟩,
    ⟨[0x002, 0x021, 0x028, 0x051, 0x053, 0x055], lit (1/10), lit (25/100000), lit (1/100000)⟩,
    ⟨[0x003, 0x022, 0x025, 0x033, 0x034, 0x042, 0x045], lit (5/10), lit (1/100), lit (1/1000)⟩,
    ⟨[0x004, 0x005, 0x01c, 0x01d], lit 1, lit (1/10), lit (1/1000)⟩,
    ⟨[0x00d, 0x014, 0x015, 0x016, 0x019, 0x01a, 0x01b, 0x02a], lit (5/10), lit (1/10), lit (1/1000)⟩,
    ⟨[0x00e], lit 1, lit (1/10), lit (1/1000)⟩,
    ⟨[0x010, 0x011, 0x012, 0x023, 0x024, 0x043, 0x044, 0x076, 0x077, 0x078, 0x079, 0x07a,
      0x07b, 0x07c, 0x07d, 0x07e, 0x07f], lit (1/127), lit (1/32767), lit (1/2147483647)⟩,
    ⟨[0x029], lit (5/100), lit (1/1000), lit (1/100000)⟩,
    ⟨[0x027, 0x046], lit (1/100), lit (1/1000), lit (1/1000000)⟩,
    ⟨[0x007], lit 10, lit (5/100), lit (1/10000)⟩ ]

/-- decode_can_frame.py:105-112 `IsNan`, for an integer value. -/
def isNan (r : Res) (value : Int) : Bool :=
  match r with
  | .int8 => value == -(2 ^ 7)
  | .int16 => value == -(2 ^ 15)
  | .int32 => value == -(2 ^ 31)
  | .f32 => false

/-- decode_can_frame.py:115-125 `format_scaled`; the product of a Python
integer and a float. -/
def formatScaled (r : Res) (value : Val) (st : ScaleType) : Note :=
  match value with
  | .float _ => .none
  | .int n =>
    if isNan r n then .nan
    else match r with
      | .int8 => .scaled (b64.round (n * st.int8))
      | .int16 => .scaled (b64.round (n * st.int16))
      | .int32 => .scaled (b64.round (n * st.int32))
      | .f32 => .none

/-- `moteus.Mode(value).name` with the exceptions of an unknown number
caught, decode_can_frame.py:206-212.  A float finds the integer it is equal
to. -/
def modeName (value : Val) : Note :=
  match modes.find? (fun e => match value with
      | .int n => e.1 == n
      | .float (.fin q) => decide ((e.1 : ℚ) = q)
      | .float _ => false) with
  | some e => .mode e.2
  | none => .none

/-- decode_can_frame.py:205-219 `format_value` -/
def formatValue (reg : Nat) (r : Res) (value : Val) : Note :=
  if reg = 0 then modeName value
  else match scaleTypes.find? (fun st => st.registers.contains reg) with
    | some st => formatScaled r value st
    | none => .none

/-- What a printed piece says. -/
inductive What
  | readHead (r : Res)
  | writeHead (r : Res)
  | replyHead (r : Res)
  | count (n : Nat)
  | start (reg : Nat)
  | value (reg : Nat) (v : Shown)
  | writeError
  | readError
  | errorRegister (reg : Nat)
  | errorNumber (n : Nat)
  | toServer
  | toClient
  | poll
  | channel (n : Nat)
  | bytes (n : Nat)
  | payload
  | atMost (n : Nat)
  | nop
  | nothing
deriving DecidableEq

/-- A printed piece: the bytes shown in hex, and what is said of them. -/
structure Piece where
  raw : Bytes
  what : What
deriving DecidableEq

/-- The pieces printed by a part of the program, with the exception that
ended it or the unread bytes. -/
abbrev Out := List Piece × Except Err Bytes

/-- decode_can_frame.py:46-48 `_read_byte`: `result[0]` of an empty slice. -/
def readByte : Bytes → Except Err (UInt8 × Bytes)
  | [] => .error .indexError
  | b :: bs => .ok (b, bs)

/-- decode_can_frame.py:71-84 `read_varuint`, the loop; `k` rounds left. -/
def readVaruint : (k : Nat) → (number : Nat) → (shown : Bytes) → (shift : Nat) → Bytes →
    Except Err (Bytes × Nat × Bytes)
  | 0, _, _, _, _ => .error .runtimeError
  | k + 1, number, shown, shift, data =>
    match readByte data with
    | .error e => .error e
    | .ok (b, data) =>
      let shown := shown ++ [b]
      let number := number ||| ((b.toNat &&& 0x7f) <<< shift)
      if b.toNat &&& 0x80 = 0 then .ok (shown, number, data)
      else readVaruint k number shown (shift + 7) data

/-- decode_can_frame.py:71-84 `read_varuint` -/
def varuint (data : Bytes) : Except Err (Bytes × Nat × Bytes) := readVaruint 5 0 [] 0 data

/-- decode_can_frame.py:50-57, 86-95 `read_type`: `unpack` of a slice that is
too short raises `struct.error`. -/
def readType (r : Res) (data : Bytes) : Except Err (Bytes × Val × Bytes) :=
  if (data.take r.size).length = r.size then
    .ok (data.take r.size, unpackVal r (data.take r.size), data.drop r.size)
  else .error .structError

/-- decode_can_frame.py:98-103 `format_reg`: an unknown number raises
`ValueError`, which is not the exception that is caught. -/
def formatReg (reg : Nat) : Except Err Unit :=
  if registers.contains reg then .ok () else .error .valueError

/-- decode_can_frame.py:262-265, the loop over the values. -/
def values (r : Res) : (n reg : Nat) → Bytes → Out
  | 0, _, data => ([], .ok data)
  | n + 1, reg, data =>
    match readType r data with
    | .error e => ([], .error e)
    | .ok (raw, v, data) =>
      match formatReg reg with
      | .error e => ([], .error e)
      | .ok () =>
        let (ps, x) := values r n (reg + 1) data
        (⟨raw, .value reg ⟨v, formatValue reg r v⟩⟩ :: ps, x)

/-- decode_can_frame.py:240-247, 251-259: count and start register. -/
def countAndStart (cmd : UInt8) (data : Bytes) (k : Nat → Nat → Bytes → Out) : Out :=
  if cmd.toNat &&& 3 > 0 then
    match varuint data with
    | .error e => ([⟨[], .count (cmd.toNat &&& 3)⟩], .error e)
    | .ok (raw, reg, data) =>
      match formatReg reg with
      | .error e => ([⟨[], .count (cmd.toNat &&& 3)⟩], .error e)
      | .ok () =>
        let (ps, x) := k (cmd.toNat &&& 3) reg data
        (⟨[], .count (cmd.toNat &&& 3)⟩ :: ⟨raw, .start reg⟩ :: ps, x)
  else
    match varuint data with
    | .error e => ([], .error e)
    | .ok (rawN, n, data) =>
      match varuint data with
      | .error e => ([⟨rawN, .count n⟩], .error e)
      | .ok (raw, reg, data) =>
        match formatReg reg with
        | .error e => ([⟨rawN, .count n⟩], .error e)
        | .ok () =>
          let (ps, x) := k n reg data
          (⟨rawN, .count n⟩ :: ⟨raw, .start reg⟩ :: ps, x)

/-- The resolution in the bits of a command, decode_can_frame.py:235. -/
def resOf (cmd : UInt8) : Res := Res.ofId ((cmd.toNat &&& 0xc) >>> 2)

/-- One round of the loop, decode_can_frame.py:231-289; `cmd` is read as a
signed byte, which has the same low eight bits. -/
def round (cmd : UInt8) (data : Bytes) : Out :=
  let upper := cmd.toNat &&& 0xf0
  if upper = 0x10 then
    let (ps, x) := countAndStart cmd data (fun _ _ data => ([], .ok data))
    (⟨[cmd], .readHead (resOf cmd)⟩ :: ps, x)
  else if upper = 0x00 ∨ upper = 0x20 then
    let (ps, x) := countAndStart cmd data (fun n reg data => values (resOf cmd) n reg data)
    (⟨[cmd], if upper = 0 then .writeHead (resOf cmd) else .replyHead (resOf cmd)⟩ :: ps, x)
  else if cmd.toNat = 0x31 ∨ cmd.toNat = 0x30 then
    let head : Piece := ⟨[cmd], if cmd.toNat = 0x30 then .writeError else .readError⟩
    match varuint data with
    | .error e => ([head], .error e)
    | .ok (raw, reg, data) =>
      match formatReg reg with
      | .error e => ([head], .error e)
      | .ok () =>
        match varuint data with
        | .error e => ([head, ⟨raw, .errorRegister reg⟩], .error e)
        | .ok (raw', n, data) =>
          ([head, ⟨raw, .errorRegister reg⟩, ⟨raw', .errorNumber n⟩], .ok data)
  else if cmd.toNat = 0x40 ∨ cmd.toNat = 0x41 then
    let head : Piece := ⟨[cmd], if cmd.toNat = 0x40 then .toServer else .toClient⟩
    match varuint data with
    | .error e => ([head], .error e)
    | .ok (raw, ch, data) =>
      match varuint data with
      | .error e => ([head, ⟨raw, .channel ch⟩], .error e)
      | .ok (raw', n, data) =>
        ([head, ⟨raw, .channel ch⟩, ⟨raw', .bytes n⟩, ⟨data.take n, .payload⟩], .ok (data.drop n))
  else if cmd.toNat = 0x42 then
    let head : Piece := ⟨[cmd], .poll⟩
    match varuint data with
    | .error e => ([head], .error e)
    | .ok (raw, ch, data) =>
      match varuint data with
      | .error e => ([head, ⟨raw, .channel ch⟩], .error e)
      | .ok (raw', n, data) => ([head, ⟨raw, .channel ch⟩, ⟨raw', .atMost n⟩], .ok data)
  else if cmd.toNat = 0x50 then ([⟨[cmd], .nop⟩], .ok data)
  else ([⟨[cmd], .nothing⟩], .ok data)

/-- decode_can_frame.py:230-289, the loop; `none` if the rounds do not
suffice. -/
def loop : (fuel : Nat) → Bytes → Option (List Piece × Option Err)
  | _, [] => some ([], none)
  | 0, _ :: _ => none
  | fuel + 1, cmd :: data =>
    match round cmd data with
    | (ps, .error e) => some (ps, some e)
    | (ps, .ok rest) =>
      match loop fuel rest with
      | none => none
      | some (qs, e) => some (ps ++ qs, e)

/-- decode_can_frame.py:222-289 `main`: everything printed, and the exception
if there was one. -/
def main (frame : Bytes) : Option (List Piece × Option Err) := loop frame.length frame

/-! ## Specification -/

namespace Spec

open Verif.Multiplex.Spec Verif.Commands.Spec

/-- What a frame consists of: the subframes of docs/reference.md:474-505, and
those of the diagnostic stream (lib/python/moteus/multiplex.py:37-39). -/
inductive Item
  | sub (s : Sub)
  | nop
  | toServer (channel : Nat) (data : Bytes)
  | toClient (channel : Nat) (data : Bytes)
  | poll (channel limit : Nat)
deriving DecidableEq

/-- One subframe of type `t` with the bytes that follow it. -/
def item (t : Nat) (bs : Bytes) : Option (Item × Bytes) :=
  if t = 0x40 ∨ t = 0x41 ∨ t = 0x42 then
    match Multiplex.Spec.varuint 5 bs with
    | none => none
    | some (ch, bs) =>
      match Multiplex.Spec.varuint 5 bs with
      | none => none
      | some (n, bs) =>
        if t = 0x42 then some (.poll ch n, bs)
        else if bs.length < n then none
        else some (if t = 0x40 then .toServer ch (bs.take n) else .toClient ch (bs.take n), bs.drop n)
  else match subframe t bs with
    | none => none
    | some (none, bs) => some (.nop, bs)
    | some (some s, bs) => some (.sub s, bs)

/-- `Reads frame items`: the frame consists of these items. -/
inductive Reads : Bytes → List Item → Prop
  | nil : Reads [] []
  | cons {t : UInt8} {bs rest : Bytes} {i : Item} {is : List Item} :
      item t.toNat bs = some (i, rest) → Reads rest is → Reads (t :: bs) (i :: is)

/-- docs/reference.md:577 ff.: the mapping of each register; registers that
are missing have none.  (0x02c, the fixed current, is a current;
0x130 and 0x131 are positions.) -/
def units : List (Nat × Kind) :=
  [ (0x001, .position), (0x002, .velocity), (0x003, .torque), (0x004, .current), (0x005, .current),
    (0x006, .position), (0x007, .power), (0x00a, .temperature), (0x00d, .voltage), (0x00e, .temperature),
    (0x010, .pwm), (0x011, .pwm), (0x012, .pwm), (0x014, .voltage), (0x015, .voltage), (0x016, .voltage),
    (0x018, .pwm), (0x019, .voltage), (0x01a, .voltage), (0x01b, .voltage), (0x01c, .current),
    (0x01d, .current), (0x01e, .velocity),
    (0x020, .position), (0x021, .velocity), (0x022, .torque), (0x023, .pwm), (0x024, .pwm),
    (0x025, .torque), (0x026, .position), (0x027, .time), (0x028, .velocity), (0x029, .accel),
    (0x02a, .voltage), (0x02b, .pwm), (0x02c, .current),
    (0x030, .torque), (0x031, .torque), (0x032, .torque), (0x033, .torque), (0x034, .torque),
    (0x038, .position), (0x039, .velocity), (0x03a, .torque), (0x03b, .position), (0x03c, .velocity),
    (0x03d, .torque),
    (0x040, .position), (0x041, .position), (0x042, .torque), (0x043, .pwm), (0x044, .pwm),
    (0x045, .torque), (0x046, .time), (0x047, .pwm),
    (0x050, .position), (0x051, .velocity), (0x052, .position), (0x053, .velocity), (0x054, .position),
    (0x055, .velocity),
    (0x060, .pwm), (0x061, .pwm), (0x062, .pwm), (0x063, .pwm), (0x064, .pwm),
    (0x068, .pwm), (0x069, .pwm), (0x06a, .pwm), (0x06b, .pwm), (0x06c, .pwm),
    (0x076, .pwm), (0x077, .pwm), (0x078, .pwm), (0x079, .pwm), (0x07a, .pwm), (0x07b, .pwm),
    (0x07c, .pwm), (0x07d, .pwm), (0x07e, .pwm), (0x07f, .pwm),
    (0x130, .position), (0x131, .position) ]

def unit (reg : Nat) : Option Kind := (units.find? (fun e => e.1 == reg)).map Prod.snd

/-- docs/reference.md:584-597: the modes that are more than a step of the
preparation. -/
def modeOf : Int → Option String
  | 0 => some "STOPPED" | 1 => some "FAULT" | 5 => some "PWM" | 6 => some "VOLTAGE"
  | 7 => some "VOLTAGE_FOC" | 8 => some "VOLTAGE_DQ" | 9 => some "CURRENT" | 10 => some "POSITION"
  | 11 => some "TIMEOUT" | 12 => some "ZERO_VELOCITY" | 13 => some "STAY_WITHIN"
  | 14 => some "MEASURE_IND" | 15 => some "BRAKE" | _ => none

/-- `n` is what should be noted beside a number found in register `reg` at
resolution `r`: the mode, or the value in its unit for integers, or nothing. -/
def NoteOk (reg : Nat) (r : Res) (v : Val) (n : Note) : Prop :=
  if reg = 0 then
    match v with
    | .int m => n = (match modeOf m with | some s => .mode s | none => .none)
    | .float x =>
      (∀ m : Int, x = .fin m → n = (match modeOf m with | some s => .mode s | none => .none)) ∧
      ((∀ m : Int, x ≠ .fin m) → n = .none)
  else match unit reg, v with
    | some k, .int m =>
      if m = -top r - 1 then n = .nan else n = .scaled (.fin (b64.roundQ (m * step k r)))
    | _, _ => n = .none

/-- One line for each value, with its register, number and note. -/
def SaysValues (r : Res) : Nat → List Bytes → List What → Prop
  | _, [], ws => ws = []
  | reg, b :: bs, ws => ∃ n ws', ws = .value reg ⟨number r b, n⟩ :: ws' ∧
      NoteOk reg r (number r b) n ∧ SaysValues r (reg + 1) bs ws'

/-- `ws` says what the item is. -/
inductive Says : Item → List What → Prop
  | nop : Says .nop [.nop]
  | write {r start vs ws} : SaysValues r start vs ws →
      Says (.sub (.write r start vs)) (.writeHead r :: .count vs.length :: .start start :: ws)
  | reply {r start vs ws} : SaysValues r start vs ws →
      Says (.sub (.reply r start vs)) (.replyHead r :: .count vs.length :: .start start :: ws)
  | read {r start n} : Says (.sub (.read r start n)) [.readHead r, .count n, .start start]
  | writeError {reg n} : Says (.sub (.writeError reg n)) [.writeError, .errorRegister reg, .errorNumber n]
  | readError {reg n} : Says (.sub (.readError reg n)) [.readError, .errorRegister reg, .errorNumber n]
  | toServer {ch d} : Says (.toServer ch d) [.toServer, .channel ch, .bytes d.length, .payload]
  | toClient {ch d} : Says (.toClient ch d) [.toClient, .channel ch, .bytes d.length, .payload]
  | poll {ch n} : Says (.poll ch n) [.poll, .channel ch, .atMost n]

/-- The registers that are in `moteus.Register`. -/
def Named (reg : Nat) : Prop := reg ∈ CanDecode.registers

/-- Registers with a unit that are not shown in it. -/
def unscaled : List Nat :=
  [0x00a, 0x018, 0x01e, 0x02b, 0x02c, 0x030, 0x031, 0x032, 0x038, 0x039, 0x03a, 0x03b, 0x03c, 0x03d,
   0x041, 0x047, 0x060, 0x061, 0x062, 0x063, 0x064, 0x068, 0x069, 0x06a, 0x06b, 0x06c, 0x130, 0x131]

/-- The values from register `reg` on are in named registers, and integers
not in one that is shown without its unit. -/
def CoveredValues (r : Res) (reg n : Nat) : Prop :=
  ∀ i < n, Named (reg + i) ∧ (r ≠ .f32 → reg + i ∉ unscaled)

/-- Items that consist of such registers. -/
def Covered : Item → Prop
  | .sub (.write r start vs) => Named start ∧ CoveredValues r start vs.length
  | .sub (.reply r start vs) => Named start ∧ CoveredValues r start vs.length
  | .sub (.read _ start _) => Named start
  | .sub (.writeError reg _) => Named reg
  | .sub (.readError reg _) => Named reg
  | _ => True

end Spec

/-! ## All bytes are shown -/

/-- The bytes printed, in order. -/
def shownBytes (ps : List Piece) : Bytes := ps.flatMap Piece.raw

/-- The pieces show the beginning of the data up to what is left. -/
def Shows (data : Bytes) (o : Out) : Prop :=
  match o.2 with
  | .ok rest => shownBytes o.1 ++ rest = data
  | .error _ => shownBytes o.1 <+: data

theorem readVaruint_bytes (k number : Nat) (shown : Bytes) (shift : Nat) (data : Bytes) :
    ∀ raw v rest, readVaruint k number shown shift data = .ok (raw, v, rest) →
      raw ++ rest = shown ++ data := by
  induction k generalizing number shown shift data with
  | zero => intro raw v rest h; simp [readVaruint] at h
  | succ k ih =>
    intro raw v rest h
    cases data with
    | nil => simp [readVaruint, readByte] at h
    | cons b data =>
      simp only [readVaruint, readByte] at h
      split at h
      · simp only [Except.ok.injEq, Prod.mk.injEq] at h
        obtain ⟨rfl, -, rfl⟩ := h
        simp
      · rw [ih _ _ _ _ _ _ _ h]; simp

theorem varuint_bytes {data raw rest : Bytes} {v : Nat} (h : varuint data = .ok (raw, v, rest)) :
    raw ++ rest = data := by
  simpa using readVaruint_bytes 5 0 [] 0 data raw v rest h

theorem values_shows (r : Res) (n reg : Nat) (data : Bytes) : Shows data (values r n reg data) := by
  induction n generalizing reg data with
  | zero => simp [values, Shows, shownBytes]
  | succ n ih =>
    unfold values
    cases h : readType r data with
    | error e => simp [Shows, shownBytes]
    | ok x =>
      obtain ⟨raw, v, rest⟩ := x
      have hd : raw ++ rest = data := by
        unfold readType at h
        split at h
        · simp only [Except.ok.injEq, Prod.mk.injEq] at h
          obtain ⟨rfl, -, rfl⟩ := h
          simp
        · simp at h
      cases h2 : formatReg reg with
      | error e => simp [Shows, shownBytes]
      | ok u =>
        have := ih (reg + 1) rest
        subst hd
        unfold Shows shownBytes at *
        dsimp only
        cases h3 : (values r n (reg + 1) rest).2 with
        | ok x => rw [h3] at this; dsimp only at this; simp [this]
        | error e =>
          rw [h3] at this; dsimp only at this
          simp only [List.flatMap_cons]
          exact (List.prefix_append_right_inj _).mpr this

theorem countAndStart_shows (cmd : UInt8) (data : Bytes) (k : Nat → Nat → Bytes → Out)
    (hk : ∀ n reg d, Shows d (k n reg d)) : Shows data (countAndStart cmd data k) := by
  unfold countAndStart
  split
  · cases h : varuint data with
    | error e => simp [Shows, shownBytes]
    | ok x =>
      obtain ⟨raw, reg, rest⟩ := x
      have hd := varuint_bytes h
      dsimp only
      cases h2 : formatReg reg with
      | error e => simp [Shows, shownBytes]
      | ok u =>
        have := hk (cmd.toNat &&& 3) reg rest
        subst hd
        unfold Shows shownBytes at *
        dsimp only
        cases h3 : (k (cmd.toNat &&& 3) reg rest).2 with
        | ok x => rw [h3] at this; dsimp only at this; simp [this]
        | error e =>
          rw [h3] at this; dsimp only at this
          simp only [List.flatMap_cons, List.nil_append]
          exact (List.prefix_append_right_inj _).mpr this
  · cases h : varuint data with
    | error e => simp [Shows, shownBytes]
    | ok x =>
      obtain ⟨rawN, n, rest⟩ := x
      have hd := varuint_bytes h
      subst hd
      dsimp only
      cases h1 : varuint rest with
      | error e => simp [Shows, shownBytes]
      | ok x =>
        obtain ⟨raw, reg, rest'⟩ := x
        have hd := varuint_bytes h1
        subst hd
        dsimp only
        cases h2 : formatReg reg with
        | error e => simp [Shows, shownBytes]
        | ok u =>
          have := hk n reg rest'
          unfold Shows shownBytes at *
          dsimp only
          cases h3 : (k n reg rest').2 with
          | ok x => rw [h3] at this; dsimp only at this; simp [this]
          | error e =>
            rw [h3] at this; dsimp only at this
            simp only [List.flatMap_cons]
            exact (List.prefix_append_right_inj _).mpr ((List.prefix_append_right_inj _).mpr this)

theorem cons_shows (p : Piece) (c : UInt8) (data : Bytes) (o : Out) (hp : p.raw = [c])
    (h : Shows data o) : Shows (c :: data) (p :: o.1, o.2) := by
  unfold Shows shownBytes at *
  dsimp only at *
  cases h3 : o.2 with
  | ok x => rw [h3] at h; simpa [hp] using h
  | error e =>
    rw [h3] at h
    simp only [List.flatMap_cons, hp]
    exact (List.prefix_append_right_inj [c]).mpr h

theorem round_shows (cmd : UInt8) (data : Bytes) : Shows (cmd :: data) (round cmd data) := by
  unfold round
  dsimp only
  split
  · exact cons_shows _ cmd data (countAndStart cmd data _) rfl
      (countAndStart_shows cmd data _ (fun _ _ d => by simp [Shows, shownBytes]))
  · split
    · exact cons_shows _ cmd data (countAndStart cmd data _) rfl
        (countAndStart_shows cmd data _ (fun n reg d => values_shows _ n reg d))
    · split
      · cases h : varuint data with
        | error e => simp [Shows, shownBytes]
        | ok x =>
          obtain ⟨raw, reg, rest⟩ := x
          have hd := varuint_bytes h
          subst hd
          dsimp only
          cases h2 : formatReg reg with
          | error e => simp [Shows, shownBytes]
          | ok u =>
            dsimp only
            cases h1 : varuint rest with
            | error e => simp [Shows, shownBytes]
            | ok x =>
              obtain ⟨raw', n, rest'⟩ := x
              have hd := varuint_bytes h1
              subst hd
              simp [Shows, shownBytes]
      · split
        · cases h : varuint data with
          | error e => simp [Shows, shownBytes]
          | ok x =>
            obtain ⟨raw, ch, rest⟩ := x
            have hd := varuint_bytes h
            subst hd
            dsimp only
            cases h1 : varuint rest with
            | error e => simp [Shows, shownBytes]
            | ok x =>
              obtain ⟨raw', n, rest'⟩ := x
              have hd := varuint_bytes h1
              subst hd
              simp [Shows, shownBytes]
        · split
          · cases h : varuint data with
            | error e => simp [Shows, shownBytes]
            | ok x =>
              obtain ⟨raw, ch, rest⟩ := x
              have hd := varuint_bytes h
              subst hd
              dsimp only
              cases h1 : varuint rest with
              | error e => simp [Shows, shownBytes]
              | ok x =>
                obtain ⟨raw', n, rest'⟩ := x
                have hd := varuint_bytes h1
                subst hd
                simp [Shows, shownBytes]
          · split <;> simp [Shows, shownBytes]

/-- Every round consumes its command byte. -/
theorem round_head (cmd : UInt8) (data : Bytes) :
    ∃ w ps, (round cmd data).1 = ⟨[cmd], w⟩ :: ps := by
  unfold round
  dsimp only
  repeat' split
  all_goals exact ⟨_, _, rfl⟩

theorem round_shorter {cmd : UInt8} {data rest : Bytes} {ps : List Piece}
    (h : round cmd data = (ps, .ok rest)) : rest.length ≤ data.length := by
  have h1 := round_shows cmd data
  obtain ⟨w, qs, h2⟩ := round_head cmd data
  rw [h] at h1 h2
  dsimp only at h2
  subst h2
  have := congrArg List.length h1
  simp [shownBytes] at this
  omega

theorem loop_total (fuel : Nat) (data : Bytes) (h : data.length ≤ fuel) :
    ∃ ps e, loop fuel data = some (ps, e) ∧ shownBytes ps <+: data ∧
      (e = none → shownBytes ps = data) := by
  induction fuel generalizing data with
  | zero =>
    have : data = [] := List.length_eq_zero_iff.mp (by omega)
    subst this
    exact ⟨[], none, rfl, by simp [shownBytes], by simp [shownBytes]⟩
  | succ fuel ih =>
    cases data with
    | nil => exact ⟨[], none, rfl, by simp [shownBytes], by simp [shownBytes]⟩
    | cons cmd data =>
      have hs := round_shows cmd data
      unfold loop
      cases hr : round cmd data with
      | mk ps x =>
        cases x with
        | error e =>
          rw [hr] at hs
          exact ⟨ps, some e, rfl, hs, by simp⟩
        | ok rest =>
          have hl := round_shorter hr
          rw [hr] at hs
          have hs : shownBytes ps ++ rest = cmd :: data := hs
          simp at h
          obtain ⟨qs, e, h1, h2, h3⟩ := ih rest (by omega)
          simp only [h1]
          refine ⟨ps ++ qs, e, rfl, ?_, ?_⟩
          · rw [← hs]; simp only [shownBytes, List.flatMap_append]
            exact (List.prefix_append_right_inj _).mpr h2
          · intro he; rw [← hs, ← h3 he]; simp [shownBytes]

/-- C96: for every input the program ends; the bytes that it shows are those
of the frame, in order, and all of them if it ends without an exception. -/
theorem C96_bytes (frame : Bytes) :
    ∃ ps e, main frame = some (ps, e) ∧ shownBytes ps <+: frame ∧ (e = none → shownBytes ps = frame) :=
  loop_total frame.length frame (Nat.le_refl _)

/-! ## Numbers, units and modes -/

theorem readVaruint_spec (k i number : Nat) (shown data : Bytes) (hn : number < 2 ^ (7 * i)) :
    (∀ v rest, Multiplex.Spec.varuint k data = some (v, rest) →
      ∃ used, readVaruint k number shown (7 * i) data =
        .ok (shown ++ used, number + v * 2 ^ (7 * i), rest)) ∧
    (Multiplex.Spec.varuint k data = none → ∃ e, readVaruint k number shown (7 * i) data = .error e) := by
  induction k generalizing i number shown data with
  | zero => exact ⟨by intro v rest h; simp [Multiplex.Spec.varuint] at h, fun _ => ⟨_, rfl⟩⟩
  | succ k ih =>
    cases data with
    | nil => exact ⟨by intro v rest h; simp [Multiplex.Spec.varuint] at h, fun _ => ⟨_, rfl⟩⟩
    | cons b data =>
      have hb := b.toNat_lt
      simp only [readVaruint, readByte, and_7f, or_shift _ _ _ hn, and_80_eq_zero _ hb,
        Multiplex.Spec.varuint]
      have hpow : 2 ^ (7 * (i + 1)) = 128 * 2 ^ (7 * i) := by
        rw [Nat.mul_add, Nat.pow_add]; simp [Nat.mul_comm]
      by_cases hs : b.toNat < 128
      · simp only [hs, if_true, Nat.mod_eq_of_lt hs]
        refine ⟨?_, by simp⟩
        intro v rest h
        simp only [Option.some.injEq, Prod.mk.injEq] at h
        obtain ⟨rfl, rfl⟩ := h
        exact ⟨[b], rfl⟩
      · simp only [hs, if_false]
        have hm : b.toNat % 128 = b.toNat - 128 := by omega
        have hlt : number + b.toNat % 128 * 2 ^ (7 * i) < 2 ^ (7 * (i + 1)) := by
          rw [hpow]
          have h3 : b.toNat % 128 * 2 ^ (7 * i) ≤ 127 * 2 ^ (7 * i) :=
            Nat.mul_le_mul_right _ (by omega)
          omega
        obtain ⟨i1, i2⟩ := ih (i + 1) (number + b.toNat % 128 * 2 ^ (7 * i)) (shown ++ [b]) data hlt
        rw [show 7 * i + 7 = 7 * (i + 1) by omega]
        cases hv : Multiplex.Spec.varuint k data with
        | none =>
          refine ⟨by simp, fun _ => i2 hv⟩
        | some x =>
          obtain ⟨v', rest'⟩ := x
          refine ⟨?_, by simp⟩
          intro v rest h
          simp only [Option.some.injEq, Prod.mk.injEq] at h
          obtain ⟨rfl, rfl⟩ := h
          obtain ⟨used, hu⟩ := i1 v' rest' hv
          refine ⟨b :: used, ?_⟩
          rw [hu]
          simp only [List.append_assoc, List.singleton_append, Except.ok.injEq, Prod.mk.injEq, true_and,
            and_true, hpow, hm, Nat.add_mul]
          rw [show v' * (128 * 2 ^ (7 * i)) = 128 * v' * 2 ^ (7 * i) by
            rw [← Nat.mul_assoc, Nat.mul_comm v' 128]]
          omega

theorem varuint_some {data rest : Bytes} {v : Nat}
    (h : Multiplex.Spec.varuint 5 data = some (v, rest)) : ∃ used, varuint data = .ok (used, v, rest) := by
  obtain ⟨used, hu⟩ := (readVaruint_spec 5 0 0 [] data (by simp)).1 v rest h
  exact ⟨used, by simpa [varuint] using hu⟩

theorem varuint_none {data : Bytes} (h : Multiplex.Spec.varuint 5 data = none) :
    ∃ e, varuint data = .error e := by
  simpa [varuint] using (readVaruint_spec 5 0 0 [] data (by simp)).2 h

theorem varuint_spec {data raw rest : Bytes} {v : Nat} (h : varuint data = .ok (raw, v, rest)) :
    Multiplex.Spec.varuint 5 data = some (v, rest) := by
  cases hs : Multiplex.Spec.varuint 5 data with
  | none => obtain ⟨e, he⟩ := varuint_none hs; rw [he] at h; cases h
  | some x =>
    obtain ⟨v', rest'⟩ := x
    obtain ⟨used, hu⟩ := varuint_some hs
    rw [hu] at h
    simp only [Except.ok.injEq, Prod.mk.injEq] at h
    rw [h.2.1, h.2.2]

/-- Which entry of the table a unit is. -/
def entry : Kind → Nat
  | .position => 0 | .velocity => 1 | .torque => 2 | .current => 3 | .voltage => 4
  | .temperature => 5 | .pwm => 6 | .accel => 7 | .time => 8 | .power => 9

def scaleOf (st : ScaleType) : Res → ℚ
  | .int8 => st.int8 | .int16 => st.int16 | .int32 => st.int32 | .f32 => 1

theorem entry_scale (k : Kind) (r : Res) (hr : r ≠ .f32) :
    ∃ st, scaleTypes[entry k]? = some st ∧ scaleOf st r = Commands.Spec.step k r := by
  cases k <;> cases r <;> first | exact absurd rfl hr | exact ⟨_, rfl, by decide +kernel⟩

theorem table (reg : Nat) (h0 : reg ≠ 0) (h : reg ∉ Spec.unscaled) :
    scaleTypes.find? (fun st => st.registers.contains reg) =
      (Spec.unit reg).bind (fun k => scaleTypes[entry k]?) := by
  by_cases hb : reg < 0x200
  · have key : ∀ n < 0x200, n ≠ 0 → n ∉ Spec.unscaled →
        (scaleTypes.findIdx? (fun st => st.registers.contains n)) = (Spec.unit n).map entry := by
      decide +kernel
    have := key reg hb h0 h
    rw [List.find?_eq_bind_findIdx?_getElem?, this]
    cases Spec.unit reg <;> rfl
  · have h1 : Spec.unit reg = none := by
      unfold Spec.unit
      have : Spec.units.find? (fun e => e.1 == reg) = none := by
        rw [List.find?_eq_none]
        intro e he
        have : ∀ e ∈ Spec.units, e.1 < 0x200 := by decide
        have := this e he
        simp only [beq_iff_eq]
        omega
      rw [this]; rfl
    rw [h1]
    simp only [Option.bind_none, List.find?_eq_none]
    intro st hst
    have : ∀ st ∈ scaleTypes, ∀ n ∈ st.registers, n < 0x200 := by decide
    have := this st hst reg
    simp only [List.contains_iff_mem]
    intro hm
    have := this hm
    omega

theorem modes_spec (m : Int) :
    (match modes.find? (fun e => e.1 == m) with | some e => Note.mode e.2 | none => .none) =
      (match Spec.modeOf m with | some s => Note.mode s | none => .none) := by
  by_cases h : 0 ≤ m ∧ m < 16
  · have key : ∀ n : Fin 16, (match modes.find? (fun e => e.1 == (n.val : Int)) with
        | some e => Note.mode e.2 | none => .none) =
        (match Spec.modeOf n.val with | some s => Note.mode s | none => .none) := by decide
    have := key ⟨m.toNat, by omega⟩
    rwa [show ((⟨m.toNat, by omega⟩ : Fin 16).val : Int) = m by simp; omega] at this
  · have h1 : modes.find? (fun e => e.1 == m) = none := by
      rw [List.find?_eq_none]
      intro e he
      have : ∀ e ∈ modes, 0 ≤ e.1 ∧ e.1 < 16 := by decide
      have := this e he
      simp only [beq_iff_eq]
      omega
    have h2 : Spec.modeOf m = none := by
      unfold Spec.modeOf
      split <;> first | rfl | omega
    rw [h1, h2]

theorem modeName_float (m : Int) : modeName (.float (.fin m)) = modeName (.int m) := by
  unfold modeName
  have : (fun e : Int × String => decide ((e.1 : ℚ) = (m : ℚ))) = (fun e => e.1 == m) := by
    funext e
    rw [Bool.eq_iff_iff]
    simp
  simp only [this]

theorem modeName_other (x : Fl) (h : ∀ m : Int, x ≠ .fin m) : modeName (.float x) = .none := by
  unfold modeName
  have : modes.find? (fun e => match Val.float x with
      | .int n => e.1 == n
      | .float (.fin q) => decide ((e.1 : ℚ) = q)
      | .float _ => false) = none := by
    rw [List.find?_eq_none]
    intro e he
    cases x with
    | nan => simp
    | inf n => simp
    | fin q =>
      simp only [decide_eq_true_eq]
      intro hq
      exact h e.1 (by rw [hq])
  rw [this]

theorem isNan_iff (r : Res) (hr : r ≠ .f32) (n : Int) : isNan r n = true ↔ n = -Commands.Spec.top r - 1 := by
  cases r <;> simp [isNan, Commands.Spec.top] at hr ⊢

/-- The note beside a value is the documented one. -/
theorem note_ok (reg : Nat) (r : Res) (b : Bytes) (hb : b.length = r.size)
    (h : r ≠ .f32 → reg ∉ Spec.unscaled) :
    Spec.NoteOk reg r (Commands.Spec.number r b) (formatValue reg r (unpackVal r b)) := by
  have hv : unpackVal r b = Commands.Spec.number r b := by cases r <;> rfl
  rw [hv]
  unfold Spec.NoteOk formatValue
  by_cases h0 : reg = 0
  · rw [if_pos h0, if_pos h0]
    cases hx : Commands.Spec.number r b with
    | int m =>
      dsimp only
      rw [← modes_spec m]; rfl
    | float x =>
      refine ⟨?_, fun hm => modeName_other x hm⟩
      rintro m rfl
      rw [modeName_float, ← modes_spec m]; rfl
  · rw [if_neg h0, if_neg h0]
    by_cases hr : r = .f32
    · subst hr
      have : Commands.Spec.number .f32 b = .float (unpack32 (leNat b)) := rfl
      rw [this]
      cases Spec.unit reg <;> dsimp only <;> split <;> rfl
    · rw [table reg h0 (h hr)]
      obtain ⟨m, hm⟩ : ∃ m : Int, Commands.Spec.number r b = .int m := by
        cases r <;> first | exact absurd rfl hr | exact ⟨_, rfl⟩
      have hle : |m| ≤ 2 ^ 31 := by
        have e : m = toSigned r.size (leNat b) := by
          cases r <;> first | exact absurd rfl hr | (simp only [Commands.Spec.number, Val.int.injEq] at hm; exact hm.symm)
        have h1 := toSigned_range (n := r.size) (x := leNat b) r.size_pos (by rw [← hb]; exact leNat_lt b)
        rw [e, abs_le]
        cases r <;> simp only [Res.size] at h1 ⊢ <;> norm_num at h1 ⊢ <;> omega
      rw [hm]
      cases hu : Spec.unit reg with
      | none => rfl
      | some k =>
        obtain ⟨st, hst, hsc⟩ := entry_scale k r hr
        simp only [Option.bind_some, hst]
        by_cases hn : m = -Commands.Spec.top r - 1
        · rw [if_pos hn]
          unfold formatScaled
          simp [(isNan_iff r hr m).mpr hn]
        · rw [if_neg hn]
          have hni : isNan r m = false := by
            rw [Bool.eq_false_iff, ne_eq, isNan_iff r hr m]; exact hn
          have := (unscale_mapped k r hr m hle).2 hn
          have hnv : r.nanValue = -Commands.Spec.top r - 1 := by
            cases r <;> first | exact absurd rfl hr | rfl
          unfold unscaleInt at this
          rw [if_neg (by rw [hnv]; exact hn), scale_eq_step] at this
          unfold formatScaled
          simp only [hni, Bool.false_eq_true, if_false]
          cases r <;> first | exact absurd rfl hr | (
            have hsc' := hsc
            simp only [scaleOf] at hsc'
            dsimp only
            rw [hsc', this])

/-! ## The subframes -/

theorem formatReg_named {reg : Nat} (h : Spec.Named reg) : formatReg reg = .ok () := by
  unfold formatReg
  rw [if_pos (List.contains_iff_mem.mpr h)]

theorem named_of_formatReg {reg : Nat} {u : Unit} (h : formatReg reg = .ok u) : Spec.Named reg := by
  unfold formatReg at h
  split at h
  · next hc => exact List.contains_iff_mem.mp hc
  · cases h

theorem readType_ok {r : Res} {data : Bytes} (h : r.size ≤ data.length) :
    readType r data = .ok (data.take r.size, unpackVal r (data.take r.size), data.drop r.size) := by
  unfold readType
  rw [if_pos (by simp; omega)]

theorem values_ok (r : Res) (n reg : Nat) (data rest : Bytes) (vs : List Bytes)
    (h : Multiplex.Spec.takeValues r.size n data = some (vs, rest))
    (hc : Spec.CoveredValues r reg n) :
    ∃ ps, values r n reg data = (ps, .ok rest) ∧ Spec.SaysValues r reg vs (ps.map Piece.what) := by
  induction n generalizing reg data vs with
  | zero =>
    simp only [Multiplex.Spec.takeValues, Option.some.injEq, Prod.mk.injEq] at h
    obtain ⟨rfl, rfl⟩ := h
    exact ⟨[], rfl, rfl⟩
  | succ n ih =>
    simp only [Multiplex.Spec.takeValues] at h
    by_cases hl : data.length < r.size
    · rw [if_pos hl] at h; cases h
    · rw [if_neg hl] at h
      cases ht : Multiplex.Spec.takeValues r.size n (data.drop r.size) with
      | none => rw [ht] at h; cases h
      | some x =>
        obtain ⟨vs', rest'⟩ := x
        rw [ht] at h
        simp only [Option.some.injEq, Prod.mk.injEq] at h
        obtain ⟨rfl, rfl⟩ := h
        obtain ⟨ps, hp1, hp2⟩ := ih (reg + 1) _ vs' ht (fun i hi => by
          have := hc (i + 1) (by omega)
          rwa [show reg + (i + 1) = reg + 1 + i by omega] at this)
        have h0 := hc 0 (by omega)
        refine ⟨_, by
          unfold values
          rw [readType_ok (by omega)]
          dsimp only
          rw [formatReg_named (by simpa using h0.1)]
          dsimp only
          rw [hp1], ?_⟩
        have hlen : (data.take r.size).length = r.size := by simp; omega
        have hv : unpackVal r (data.take r.size) = Commands.Spec.number r (data.take r.size) := by
          cases r <;> rfl
        refine ⟨_, _, ?_, note_ok reg r _ hlen (by simpa using h0.2), hp2⟩
        simp only [List.map_cons, hv]

theorem takeValues_length {size n : Nat} {data rest : Bytes} {vs : List Bytes}
    (h : Multiplex.Spec.takeValues size n data = some (vs, rest)) : vs.length = n := by
  induction n generalizing data vs with
  | zero =>
    simp only [Multiplex.Spec.takeValues, Option.some.injEq, Prod.mk.injEq] at h
    obtain ⟨rfl, rfl⟩ := h
    rfl
  | succ n ih =>
    simp only [Multiplex.Spec.takeValues] at h
    split at h
    · cases h
    · cases ht : Multiplex.Spec.takeValues size n (data.drop size) with
      | none => rw [ht] at h; cases h
      | some x =>
        obtain ⟨vs', rest'⟩ := x
        rw [ht] at h
        simp only [Option.some.injEq, Prod.mk.injEq] at h
        obtain ⟨rfl, rfl⟩ := h
        simp [ih ht]

theorem countAndStart_ok {cmd : UInt8} {data rest : Bytes} {n reg : Nat} (k : Nat → Nat → Bytes → Out)
    (h : Multiplex.Spec.countAndStart cmd.toNat data = some (n, reg, rest)) (hn : Spec.Named reg) :
    ∃ a b, countAndStart cmd data k =
      (⟨a, .count n⟩ :: ⟨b, .start reg⟩ :: (k n reg rest).1, (k n reg rest).2) := by
  have h3 : cmd.toNat &&& 3 = cmd.toNat % 4 := by
    have := Nat.and_two_pow_sub_one_eq_mod cmd.toNat 2; simpa using this
  unfold Multiplex.Spec.countAndStart at h
  unfold countAndStart
  rw [h3]
  by_cases h0 : cmd.toNat % 4 = 0
  · rw [if_pos h0] at h
    rw [if_neg (by omega)]
    cases hv : Multiplex.Spec.varuint 5 data with
    | none => rw [hv] at h; cases h
    | some x =>
      obtain ⟨c, d⟩ := x
      rw [hv] at h
      dsimp only at h
      obtain ⟨u, hu⟩ := varuint_some hv
      cases hv2 : Multiplex.Spec.varuint 5 d with
      | none => rw [hv2] at h; cases h
      | some y =>
        obtain ⟨s, d'⟩ := y
        rw [hv2] at h
        simp only [Option.some.injEq, Prod.mk.injEq] at h
        obtain ⟨rfl, rfl, rfl⟩ := h
        obtain ⟨u2, hu2⟩ := varuint_some hv2
        rw [hu]; dsimp only; rw [hu2]; dsimp only; rw [formatReg_named hn]
        exact ⟨_, _, rfl⟩
  · rw [if_neg h0] at h
    rw [if_pos (by omega)]
    dsimp only at h
    cases hv2 : Multiplex.Spec.varuint 5 data with
    | none => rw [hv2] at h; cases h
    | some y =>
      obtain ⟨s, d'⟩ := y
      rw [hv2] at h
      simp only [Option.some.injEq, Prod.mk.injEq] at h
      obtain ⟨rfl, rfl, rfl⟩ := h
      obtain ⟨u2, hu2⟩ := varuint_some hv2
      rw [hu2]; dsimp only; rw [formatReg_named hn]
      exact ⟨_, _, rfl⟩

theorem upper_eq (cmd : UInt8) : cmd.toNat &&& 0xf0 = cmd.toNat / 16 * 16 := by
  have : ∀ x : Fin 256, x.val &&& 0xf0 = x.val / 16 * 16 := by decide +kernel
  exact this ⟨cmd.toNat, cmd.toNat_lt⟩

theorem resOf_eq (cmd : UInt8) : resOf cmd = Multiplex.Spec.resOfType cmd.toNat := by
  have : ∀ x : Fin 256, Res.ofId ((x.val &&& 0xc) >>> 2) = Multiplex.Spec.resOfType x.val := by
    decide +kernel
  exact this ⟨cmd.toNat, cmd.toNat_lt⟩

/-- A documented subframe is shown as what it is. -/
theorem round_ok {cmd : UInt8} {data rest : Bytes} {i : Spec.Item}
    (h : Spec.item cmd.toNat data = some (i, rest)) (hc : Spec.Covered i) :
    ∃ ps, round cmd data = (ps, .ok rest) ∧ Spec.Says i (ps.map Piece.what) := by
  have hlt := cmd.toNat_lt
  unfold Spec.item at h
  unfold round
  simp only [upper_eq]
  by_cases hs : cmd.toNat = 0x40 ∨ cmd.toNat = 0x41 ∨ cmd.toNat = 0x42
  · rw [if_pos hs] at h
    rw [if_neg (by omega), if_neg (by omega), if_neg (by omega)]
    cases hv : Multiplex.Spec.varuint 5 data with
    | none => rw [hv] at h; cases h
    | some x =>
      obtain ⟨ch, d⟩ := x
      rw [hv] at h
      dsimp only at h
      obtain ⟨u, hu⟩ := varuint_some hv
      cases hv2 : Multiplex.Spec.varuint 5 d with
      | none => rw [hv2] at h; cases h
      | some y =>
        obtain ⟨n, d'⟩ := y
        rw [hv2] at h
        dsimp only at h
        obtain ⟨u2, hu2⟩ := varuint_some hv2
        by_cases h42 : cmd.toNat = 0x42
        · rw [if_pos h42] at h
          simp only [Option.some.injEq, Prod.mk.injEq] at h
          obtain ⟨rfl, rfl⟩ := h
          rw [if_neg (by omega), if_pos h42]
          simp only [hu, hu2]
          exact ⟨_, rfl, .poll⟩
        · rw [if_neg h42] at h
          rw [if_pos (by omega)]
          simp only [hu, hu2]
          by_cases hl : d'.length < n
          · rw [if_pos hl] at h; cases h
          · rw [if_neg hl] at h
            have hlen : n = (d'.take n).length := by simp; omega
            by_cases h40 : cmd.toNat = 0x40
            · rw [if_pos h40] at h
              simp only [Option.some.injEq, Prod.mk.injEq] at h
              obtain ⟨rfl, rfl⟩ := h
              refine ⟨_, rfl, ?_⟩
              simp only [h40, if_true, List.map_cons, List.map_nil]
              have := Spec.Says.toServer (ch := ch) (d := d'.take n)
              rwa [← hlen] at this
            · rw [if_neg h40] at h
              simp only [Option.some.injEq, Prod.mk.injEq] at h
              obtain ⟨rfl, rfl⟩ := h
              refine ⟨_, rfl, ?_⟩
              simp only [h40, if_false, List.map_cons, List.map_nil]
              have := Spec.Says.toClient (ch := ch) (d := d'.take n)
              rwa [← hlen] at this
  · rw [if_neg hs] at h
    cases hsub : Multiplex.Spec.subframe cmd.toNat data with
    | none => rw [hsub] at h; cases h
    | some x =>
      obtain ⟨o, bs⟩ := x
      rw [hsub] at h
      unfold Multiplex.Spec.subframe at hsub
      by_cases h1 : cmd.toNat < 0x10
      · rw [if_pos h1] at hsub
        rw [if_neg (by omega), if_pos (by omega)]
        cases hcs : Multiplex.Spec.countAndStart cmd.toNat data with
        | none => rw [hcs] at hsub; cases hsub
        | some y =>
          obtain ⟨n, reg, d⟩ := y
          rw [hcs] at hsub
          dsimp only at hsub
          cases htv : Multiplex.Spec.takeValues (Multiplex.Spec.resOfType cmd.toNat).size n d with
          | none => rw [htv] at hsub; cases hsub
          | some z =>
            obtain ⟨vs, d'⟩ := z
            rw [htv] at hsub
            simp only [Option.some.injEq, Prod.mk.injEq] at hsub
            obtain ⟨rfl, rfl⟩ := hsub
            simp only [Option.some.injEq, Prod.mk.injEq] at h
            obtain ⟨rfl, rfl⟩ := h
            obtain ⟨hn, hcv⟩ := hc
            rw [takeValues_length htv] at hcv
            obtain ⟨ps, hp1, hp2⟩ := values_ok _ n reg d d' vs htv hcv
            obtain ⟨a, b, hab⟩ := countAndStart_ok
              (fun n reg data => values (resOf cmd) n reg data) hcs hn
            rw [hab]
            simp only [resOf_eq, hp1]
            refine ⟨_, rfl, ?_⟩
            rw [if_pos (by omega)]
            have := Spec.Says.write (start := reg) hp2
            rw [takeValues_length htv] at this
            exact this
      · rw [if_neg h1] at hsub
        by_cases h2 : cmd.toNat < 0x20
        · rw [if_pos h2] at hsub
          rw [if_pos (by omega)]
          cases hcs : Multiplex.Spec.countAndStart cmd.toNat data with
          | none => rw [hcs] at hsub; cases hsub
          | some y =>
            obtain ⟨n, reg, d⟩ := y
            rw [hcs] at hsub
            simp only [Option.some.injEq, Prod.mk.injEq] at hsub
            obtain ⟨rfl, rfl⟩ := hsub
            simp only [Option.some.injEq, Prod.mk.injEq] at h
            obtain ⟨rfl, rfl⟩ := h
            obtain ⟨a, b, hab⟩ := countAndStart_ok (fun _ _ data => ([], .ok data)) hcs hc
            rw [hab]
            refine ⟨_, rfl, ?_⟩
            simp only [List.map_cons, List.map_nil, resOf_eq]
            exact .read
        · rw [if_neg h2] at hsub
          by_cases h3 : cmd.toNat < 0x30
          · rw [if_pos h3] at hsub
            rw [if_neg (by omega), if_pos (by omega)]
            cases hcs : Multiplex.Spec.countAndStart cmd.toNat data with
            | none => rw [hcs] at hsub; cases hsub
            | some y =>
              obtain ⟨n, reg, d⟩ := y
              rw [hcs] at hsub
              dsimp only at hsub
              cases htv : Multiplex.Spec.takeValues (Multiplex.Spec.resOfType cmd.toNat).size n d with
              | none => rw [htv] at hsub; cases hsub
              | some z =>
                obtain ⟨vs, d'⟩ := z
                rw [htv] at hsub
                simp only [Option.some.injEq, Prod.mk.injEq] at hsub
                obtain ⟨rfl, rfl⟩ := hsub
                simp only [Option.some.injEq, Prod.mk.injEq] at h
                obtain ⟨rfl, rfl⟩ := h
                obtain ⟨hn, hcv⟩ := hc
                rw [takeValues_length htv] at hcv
                obtain ⟨ps, hp1, hp2⟩ := values_ok _ n reg d d' vs htv hcv
                obtain ⟨a, b, hab⟩ := countAndStart_ok
                  (fun n reg data => values (resOf cmd) n reg data) hcs hn
                rw [hab]
                simp only [resOf_eq, hp1]
                refine ⟨_, rfl, ?_⟩
                rw [if_neg (by omega)]
                have := Spec.Says.reply (start := reg) hp2
                rw [takeValues_length htv] at this
                exact this
          · rw [if_neg h3] at hsub
            by_cases h4 : cmd.toNat = 0x30 ∨ cmd.toNat = 0x31
            · rw [if_pos h4] at hsub
              rw [if_neg (by omega), if_neg (by omega), if_pos (by omega)]
              cases hv : Multiplex.Spec.varuint 5 data with
              | none => rw [hv] at hsub; cases hsub
              | some y =>
                obtain ⟨reg, d⟩ := y
                rw [hv] at hsub
                dsimp only at hsub
                obtain ⟨u, hu⟩ := varuint_some hv
                cases hv2 : Multiplex.Spec.varuint 5 d with
                | none => rw [hv2] at hsub; cases hsub
                | some z =>
                  obtain ⟨n, d'⟩ := z
                  rw [hv2] at hsub
                  obtain ⟨u2, hu2⟩ := varuint_some hv2
                  simp only [Option.some.injEq, Prod.mk.injEq] at hsub
                  obtain ⟨rfl, rfl⟩ := hsub
                  simp only [Option.some.injEq, Prod.mk.injEq] at h
                  obtain ⟨rfl, rfl⟩ := h
                  by_cases h30 : cmd.toNat = 0x30
                  · simp only [h30, if_true] at hc ⊢
                    simp only [hu, formatReg_named hc, hu2]
                    exact ⟨_, rfl, .writeError⟩
                  · simp only [h30, if_false] at hc ⊢
                    simp only [hu, formatReg_named hc, hu2]
                    exact ⟨_, rfl, .readError⟩
            · rw [if_neg h4] at hsub
              by_cases h5 : cmd.toNat = 0x50
              · rw [if_pos h5] at hsub
                simp only [Option.some.injEq, Prod.mk.injEq] at hsub
                obtain ⟨rfl, rfl⟩ := hsub
                simp only [Option.some.injEq, Prod.mk.injEq] at h
                obtain ⟨rfl, rfl⟩ := h
                rw [if_neg (by omega), if_neg (by omega), if_neg (by omega), if_neg (by omega),
                  if_neg (by omega), if_pos h5]
                exact ⟨_, rfl, .nop⟩
              · rw [if_neg h5] at hsub; cases hsub

namespace Spec

/-- `ws` says what the items are, in order. -/
def SaysAll : List Item → List What → Prop
  | [], ws => ws = []
  | i :: is, ws => ∃ a b, ws = a ++ b ∧ Says i a ∧ SaysAll is b

end Spec

theorem loop_ok {fuel : Nat} {data : Bytes} {is : List Spec.Item} (hl : data.length ≤ fuel)
    (h : Spec.Reads data is) (hc : ∀ i ∈ is, Spec.Covered i) :
    ∃ ps, loop fuel data = some (ps, none) ∧ Spec.SaysAll is (ps.map Piece.what) := by
  induction h generalizing fuel with
  | nil => exact ⟨[], by cases fuel <;> rfl, rfl⟩
  | cons hi _ ih =>
    obtain ⟨ps, h1, h2⟩ := round_ok hi (hc _ (by simp))
    have hs := round_shorter h1
    simp at hl
    obtain ⟨f, rfl⟩ : ∃ f, fuel = f + 1 := ⟨fuel - 1, by omega⟩
    obtain ⟨qs, h3, h4⟩ := ih (fuel := f) (by omega) (fun i hi => hc i (by simp [hi]))
    refine ⟨ps ++ qs, by simp only [loop, h1, h3], _, _, by rw [List.map_append], h2, h4⟩

/-- C96: a frame that consists of documented subframes, with registers that
have a name in `moteus.Register`, is shown without exception as what it is:
each subframe with its type, resolution, count and start register, each value
with its register and number, and its value in the documented unit or the
name of the mode.  Missing: registers without name, and integers in the
registers of `Spec.unscaled` (see `C96_unknown_refuted` and
`C96_unit_refuted`). -/
theorem C96_shown_partial {frame : Bytes} {is : List Spec.Item} (h : Spec.Reads frame is)
    (hc : ∀ i ∈ is, Spec.Covered i) :
    ∃ ps, main frame = some (ps, none) ∧ shownBytes ps = frame ∧
      Spec.SaysAll is (ps.map Piece.what) := by
  obtain ⟨ps, h1, h2⟩ := loop_ok (Nat.le_refl _) h hc
  obtain ⟨qs, e, h3, -, h5⟩ := C96_bytes frame
  have h1' : main frame = some (ps, none) := h1
  rw [h1'] at h3
  simp only [Option.some.injEq, Prod.mk.injEq] at h3
  obtain ⟨rfl, rfl⟩ := h3
  exact ⟨ps, h1', h5 rfl, h2⟩

/-! ## Nothing but documented frames is shown without complaint -/

theorem values_sound (r : Res) (n reg : Nat) (data rest : Bytes) (ps : List Piece)
    (h : values r n reg data = (ps, .ok rest)) :
    ∃ vs, Multiplex.Spec.takeValues r.size n data = some (vs, rest) := by
  induction n generalizing reg data ps with
  | zero =>
    simp only [values, Prod.mk.injEq, Except.ok.injEq] at h
    exact ⟨[], by simp [Multiplex.Spec.takeValues, h.2]⟩
  | succ n ih =>
    unfold values at h
    by_cases hl : data.length < r.size
    · have : readType r data = .error .structError := by
        unfold readType; rw [if_neg (by simp; omega)]
      rw [this] at h
      simp at h
    · rw [readType_ok (by omega)] at h
      dsimp only at h
      cases hf : formatReg reg with
      | error e => rw [hf] at h; simp at h
      | ok u =>
        rw [hf] at h
        dsimp only at h
        simp only [Prod.mk.injEq] at h
        obtain ⟨vs, hv⟩ := ih (reg + 1) (data.drop r.size) (values r n (reg + 1) (data.drop r.size)).1
          (by rw [← h.2])
        refine ⟨data.take r.size :: vs, ?_⟩
        simp only [Multiplex.Spec.takeValues]
        rw [if_neg hl, hv]

theorem countAndStart_sound {cmd : UInt8} {data rest : Bytes} {k : Nat → Nat → Bytes → Out}
    {ps : List Piece} (h : countAndStart cmd data k = (ps, .ok rest)) :
    ∃ n reg d, Multiplex.Spec.countAndStart cmd.toNat data = some (n, reg, d) ∧
      (k n reg d).2 = .ok rest := by
  have h3 : cmd.toNat &&& 3 = cmd.toNat % 4 := by
    have := Nat.and_two_pow_sub_one_eq_mod cmd.toNat 2; simpa using this
  unfold countAndStart at h
  unfold Multiplex.Spec.countAndStart
  rw [h3] at h
  by_cases h0 : cmd.toNat % 4 = 0
  · rw [if_pos h0]
    rw [if_neg (by omega)] at h
    cases hv : varuint data with
    | error e => rw [hv] at h; simp at h
    | ok x =>
      obtain ⟨a, n, d⟩ := x
      rw [hv] at h
      dsimp only at h
      cases hv2 : varuint d with
      | error e => rw [hv2] at h; simp at h
      | ok y =>
        obtain ⟨b, reg, d'⟩ := y
        rw [hv2] at h
        dsimp only at h
        cases hf : formatReg reg with
        | error e => rw [hf] at h; simp at h
        | ok u =>
          rw [hf] at h
          simp only [Prod.mk.injEq] at h
          exact ⟨n, reg, d', by simp [varuint_spec hv, varuint_spec hv2], h.2⟩
  · rw [if_neg h0]
    rw [if_pos (by omega)] at h
    cases hv2 : varuint data with
    | error e => rw [hv2] at h; simp at h
    | ok y =>
      obtain ⟨b, reg, d'⟩ := y
      rw [hv2] at h
      dsimp only at h
      cases hf : formatReg reg with
      | error e => rw [hf] at h; simp at h
      | ok u =>
        rw [hf] at h
        simp only [Prod.mk.injEq] at h
        exact ⟨_, reg, d', by simp [varuint_spec hv2], h.2⟩

/-- The output admits that something is wrong: a byte of which nothing is
said, or a stream with fewer bytes than announced. -/
def Odd (ps : List Piece) : Prop :=
  (∃ p ∈ ps, p.what = .nothing) ∨
  ∃ pre a n raw post, ps = pre ++ ⟨a, .bytes n⟩ :: ⟨raw, .payload⟩ :: post ∧ raw.length < n

theorem round_sound {cmd : UInt8} {data rest : Bytes} {ps : List Piece}
    (h : round cmd data = (ps, .ok rest)) :
    (∃ i, Spec.item cmd.toNat data = some (i, rest)) ∨ Odd ps := by
  have hlt := cmd.toNat_lt
  unfold round at h
  simp only [upper_eq] at h
  unfold Spec.item
  by_cases h1 : cmd.toNat / 16 * 16 = 0x10
  · rw [if_pos h1] at h
    left
    rw [if_neg (by omega)]
    simp only [Prod.mk.injEq] at h
    obtain ⟨n, reg, d, e1, e2⟩ := countAndStart_sound
      (k := fun _ _ data => ([], .ok data)) (ps := _) (Prod.ext rfl h.2)
    simp only [Except.ok.injEq] at e2
    subst e2
    unfold Multiplex.Spec.subframe
    rw [if_neg (by omega), if_pos (by omega), e1]
    exact ⟨_, rfl⟩
  · rw [if_neg h1] at h
    by_cases h2 : cmd.toNat / 16 * 16 = 0 ∨ cmd.toNat / 16 * 16 = 0x20
    · rw [if_pos h2] at h
      left
      rw [if_neg (by omega)]
      simp only [Prod.mk.injEq] at h
      obtain ⟨n, reg, d, e1, e2⟩ := countAndStart_sound
        (k := fun n reg data => values (resOf cmd) n reg data) (ps := _) (Prod.ext rfl h.2)
      obtain ⟨vs, hv⟩ := values_sound _ n reg d rest _ (Prod.ext rfl e2)
      rw [resOf_eq] at hv
      unfold Multiplex.Spec.subframe
      by_cases h0 : cmd.toNat < 0x10
      · rw [if_pos h0, e1]; simp only [hv]; exact ⟨_, rfl⟩
      · rw [if_neg h0, if_neg (by omega), if_pos (by omega), e1]; simp only [hv]; exact ⟨_, rfl⟩
    · rw [if_neg h2] at h
      by_cases h3 : cmd.toNat = 0x31 ∨ cmd.toNat = 0x30
      · rw [if_pos h3] at h
        left
        rw [if_neg (by omega)]
        unfold Multiplex.Spec.subframe
        rw [if_neg (by omega), if_neg (by omega), if_neg (by omega), if_pos (by omega)]
        cases hv : varuint data with
        | error e => rw [hv] at h; simp at h
        | ok x =>
          obtain ⟨a, reg, d⟩ := x
          rw [hv] at h
          dsimp only at h
          cases hf : formatReg reg with
          | error e => rw [hf] at h; simp at h
          | ok u =>
            rw [hf] at h
            dsimp only at h
            cases hv2 : varuint d with
            | error e => rw [hv2] at h; simp at h
            | ok y =>
              obtain ⟨b, n, d'⟩ := y
              rw [hv2] at h
              simp only [Prod.mk.injEq, Except.ok.injEq] at h
              obtain ⟨-, rfl⟩ := h
              rw [varuint_spec hv]; simp only [varuint_spec hv2]
              exact ⟨_, rfl⟩
      · rw [if_neg h3] at h
        by_cases h4 : cmd.toNat = 0x40 ∨ cmd.toNat = 0x41
        · rw [if_pos h4] at h
          rw [if_pos (by omega)]
          cases hv : varuint data with
          | error e => rw [hv] at h; simp at h
          | ok x =>
            obtain ⟨a, ch, d⟩ := x
            rw [hv] at h
            dsimp only at h
            cases hv2 : varuint d with
            | error e => rw [hv2] at h; simp at h
            | ok y =>
              obtain ⟨b, n, d'⟩ := y
              rw [hv2] at h
              simp only [Prod.mk.injEq, Except.ok.injEq] at h
              obtain ⟨hps, rfl⟩ := h
              by_cases hl : d'.length < n
              · right; right
                refine ⟨[⟨[cmd], _⟩, ⟨a, .channel ch⟩], b, n, d'.take n, [], hps.symm, ?_⟩
                simp; omega
              · left
                rw [varuint_spec hv]; simp only [varuint_spec hv2]
                rw [if_neg (by omega), if_neg hl]
                exact ⟨_, rfl⟩
        · rw [if_neg h4] at h
          by_cases h5 : cmd.toNat = 0x42
          · rw [if_pos h5] at h
            rw [if_pos (by omega)]
            cases hv : varuint data with
            | error e => rw [hv] at h; simp at h
            | ok x =>
              obtain ⟨a, ch, d⟩ := x
              rw [hv] at h
              dsimp only at h
              cases hv2 : varuint d with
              | error e => rw [hv2] at h; simp at h
              | ok y =>
                obtain ⟨b, n, d'⟩ := y
                rw [hv2] at h
                simp only [Prod.mk.injEq, Except.ok.injEq] at h
                obtain ⟨hps, rfl⟩ := h
                left
                rw [varuint_spec hv]; simp only [varuint_spec hv2]
                rw [if_pos h5]
                exact ⟨_, rfl⟩
          · rw [if_neg h5] at h
            by_cases h6 : cmd.toNat = 0x50
            · rw [if_pos h6] at h
              simp only [Prod.mk.injEq, Except.ok.injEq] at h
              obtain ⟨-, rfl⟩ := h
              left
              rw [if_neg (by omega)]
              unfold Multiplex.Spec.subframe
              rw [if_neg (by omega), if_neg (by omega), if_neg (by omega), if_neg (by omega), if_pos h6]
              exact ⟨_, rfl⟩
            · rw [if_neg h6] at h
              simp only [Prod.mk.injEq, Except.ok.injEq] at h
              right; left
              exact ⟨_, by rw [← h.1]; exact List.mem_singleton.mpr rfl, rfl⟩

theorem odd_left {ps qs : List Piece} (h : Odd ps) : Odd (ps ++ qs) := by
  rcases h with ⟨p, h1, h2⟩ | ⟨pre, a, n, raw, post, h1, h2⟩
  · exact .inl ⟨p, by simp [h1], h2⟩
  · exact .inr ⟨pre, a, n, raw, post ++ qs, by simp [h1], h2⟩

theorem odd_right {ps qs : List Piece} (h : Odd qs) : Odd (ps ++ qs) := by
  rcases h with ⟨p, h1, h2⟩ | ⟨pre, a, n, raw, post, h1, h2⟩
  · exact .inl ⟨p, by simp [h1], h2⟩
  · exact .inr ⟨ps ++ pre, a, n, raw, post, by simp [h1], h2⟩

theorem loop_sound (fuel : Nat) (data : Bytes) (ps : List Piece)
    (h : loop fuel data = some (ps, none)) : (∃ is, Spec.Reads data is) ∨ Odd ps := by
  induction fuel generalizing data ps with
  | zero =>
    cases data with
    | nil => exact .inl ⟨[], .nil⟩
    | cons => simp [loop] at h
  | succ fuel ih =>
    cases data with
    | nil => exact .inl ⟨[], .nil⟩
    | cons cmd data =>
      unfold loop at h
      cases hr : round cmd data with
      | mk qs x =>
        rw [hr] at h
        cases x with
        | error e => simp at h
        | ok rest =>
          dsimp only at h
          cases hl : loop fuel rest with
          | none => rw [hl] at h; cases h
          | some y =>
            obtain ⟨rs, e⟩ := y
            rw [hl] at h
            simp only [Option.some.injEq, Prod.mk.injEq] at h
            obtain ⟨rfl, rfl⟩ := h
            rcases round_sound hr with ⟨i, hi⟩ | ho
            · rcases ih rest rs hl with ⟨is, h2⟩ | ho
              · exact .inl ⟨i :: is, .cons hi h2⟩
              · exact .inr (odd_right ho)
            · exact .inr (odd_left ho)

/-- C96: a frame that is not made of documented subframes does not pass
unnoticed.  If the program ends without an exception then the frame is made
of documented subframes, or the output has a byte of which nothing is said,
or a stream that is shorter than the number printed before it. -/
theorem C96_sound (frame : Bytes) (ps : List Piece) (h : main frame = some (ps, none)) (ho : ¬ Odd ps) :
    ∃ is, Spec.Reads frame is :=
  (loop_sound _ _ _ h).resolve_right ho

/-! ## Failures -/

/-- C96 fails for registers that the Python library has no name for: a write
of the documented register 0x02c (the fixed current override) is a documented
frame, but the program ends with a `ValueError` before it shows the register
or its value. -/
theorem C96_unknown_refuted :
    let frame : Bytes := [0x0d, 0x2c, 0x00, 0x00, 0x80, 0x3f]
    Spec.Reads frame [.sub (.write .f32 0x2c [[0x00, 0x00, 0x80, 0x3f]])] ∧
    main frame = some ([⟨[0x0d], .writeHead .f32⟩, ⟨[], .count 1⟩], some .valueError) := by
  refine ⟨.cons (rest := []) ?_ .nil, ?_⟩ <;> decide +kernel

/-- C96 fails for the upper bound of the stay within mode, among others: an
integer there is shown without its unit, while the lower bound is shown in
revolutions. -/
theorem C96_unit_refuted :
    main [0x06, 0x40, 0x10, 0x27, 0x10, 0x27] = some (
      [⟨[0x06], .writeHead .int16⟩, ⟨[], .count 2⟩, ⟨[0x40], .start 0x40⟩,
       ⟨[0x10, 0x27], .value 0x40 ⟨.int 10000, .scaled (.fin 1)⟩⟩,
       ⟨[0x10, 0x27], .value 0x41 ⟨.int 10000, .none⟩⟩], none) ∧
    Spec.unit 0x40 = some .position ∧ Spec.unit 0x41 = some .position := by
  refine ⟨?_, ?_, ?_⟩ <;> decide +kernel

/-- C96: these are all the registers that are shown without their unit, at
every integer resolution, and none of them is shown with one. -/
theorem C96_unscaled_refuted (reg : Nat) (h : reg ∈ Spec.unscaled) (r : Res) (v : Val) :
    Spec.unit reg ≠ none ∧ formatValue reg r v = .none := by
  have h1 : ∀ n ∈ Spec.unscaled, n ≠ 0 ∧ Spec.unit n ≠ none ∧
      (scaleTypes.find? (fun st => st.registers.contains n)).isNone := by decide +kernel
  obtain ⟨h0, h2, h3⟩ := h1 reg h
  refine ⟨h2, ?_⟩
  unfold formatValue
  rw [if_neg h0, Option.isNone_iff_eq_none.mp h3]

/-- C96 fails for a stream that was cut: the program ends without exception,
although the frame is not well formed; only the number of bytes tells. -/
theorem C96_cut_refuted :
    main [0x40, 0x01, 0x05, 0x61] = some (
      [⟨[0x40], .toServer⟩, ⟨[0x01], .channel 1⟩, ⟨[0x05], .bytes 5⟩, ⟨[0x61], .payload⟩], none) ∧
    ¬ ∃ is, Spec.Reads [0x40, 0x01, 0x05, 0x61] is := by
  refine ⟨by decide +kernel, ?_⟩
  rintro ⟨is, h⟩
  cases h with
  | cons hi _ =>
    rename_i i is' rest _
    have : Spec.item (0x40 : UInt8).toNat [0x01, 0x05, 0x61] = none := by decide +kernel
    rw [this] at hi
    cases hi

/-! ## The example of the documentation -/

/-- docs/reference.md:1331-1356, the command frame. -/
def docFrame : Bytes :=
  [0x01, 0x00, 0x0a, 0x07, 0x20, 0x60, 0x00, 0x20, 0x01, 0x50, 0xff, 0x14, 0x04, 0x00, 0x13, 0x0d]

def docItems : List Spec.Item :=
  [.sub (.write .int8 0 [[0x0a]]),
   .sub (.write .int16 0x20 [[0x60, 0x00], [0x20, 0x01], [0x50, 0xff]]),
   .sub (.read .int16 0 4), .sub (.read .int8 0xd 3)]

/-- `C96_shown_partial` applies to the example of the documentation. -/
example : Spec.Reads docFrame docItems ∧ ∀ i ∈ docItems, Spec.Covered i := by
  refine ⟨?_, ?_⟩
  · refine .cons (rest := [0x07, 0x20, 0x60, 0x00, 0x20, 0x01, 0x50, 0xff, 0x14, 0x04, 0x00, 0x13, 0x0d])
      (by decide +kernel) (.cons (rest := [0x14, 0x04, 0x00, 0x13, 0x0d]) (by decide +kernel)
        (.cons (rest := [0x13, 0x0d]) (by decide +kernel) (.cons (rest := []) (by decide +kernel) .nil)))
  · have h1 : ∀ i < 1, (0 + i) ∈ registers ∧ (Res.int8 ≠ .f32 → 0 + i ∉ Spec.unscaled) := by decide
    have h2 : ∀ i < 3, (0x20 + i) ∈ registers ∧ (Res.int16 ≠ .f32 → 0x20 + i ∉ Spec.unscaled) := by decide
    intro i hi
    simp only [docItems, List.mem_cons, List.not_mem_nil, or_false] at hi
    rcases hi with rfl | rfl | rfl | rfl
    · exact ⟨(h1 0 (by decide)).1, h1⟩
    · exact ⟨(h2 0 (by decide)).1, h2⟩
    · exact (h1 0 (by decide)).1
    · show 0xd ∈ registers
      decide

/-- What it shows for the writes: mode POSITION, and the unit of each value. -/
example : (main (docFrame.take 11)).map (fun o => o.1.map Piece.what) = some
    [.writeHead .int8, .count 1, .start 0, .value 0 ⟨.int 10, .mode "POSITION"⟩,
     .writeHead .int16, .count 3, .start 0x20,
     .value 0x20 ⟨.int 96, .scaled (b64.round (96 * b64.roundQ (1 / 10000)))⟩,
     .value 0x21 ⟨.int 288, .scaled (b64.round (288 * b64.roundQ (1 / 4000)))⟩,
     .value 0x22 ⟨.int (-176), .scaled (b64.round (-176 * b64.roundQ (1 / 100)))⟩] := by
  decide +kernel

/-- `C96_sound` applies to it. -/
example : ∃ ps, main [0x01, 0x00, 0x0a, 0x50] = some (ps, none) ∧ ¬ Odd ps := by
  refine ⟨[⟨[0x01], .writeHead .int8⟩, ⟨[], .count 1⟩, ⟨[0x00], .start 0⟩,
    ⟨[0x0a], .value 0 ⟨.int 10, .mode "POSITION"⟩⟩, ⟨[0x50], .nop⟩], by decide +kernel, ?_⟩
  rintro (⟨p, h1, h2⟩ | ⟨pre, a, n, raw, post, h1, h2⟩)
  · simp only [List.mem_cons, List.not_mem_nil, or_false] at h1
    rcases h1 with rfl | rfl | rfl | rfl | rfl <;> cases h2
  · have : (⟨a, .bytes n⟩ : Piece) ∈ pre ++ ⟨a, .bytes n⟩ :: ⟨raw, .payload⟩ :: post := by simp
    rw [← h1] at this
    simp at this

end Verif.Tool.CanDecode
