import Verif.Base.Bytes

/-!
# CAN framing, text form of frames

Models lib/python/moteus/fdcanusb.py, pythoncan.py, command.py, the transports
of lib/cpp/mjbots/moteus/moteus_transport.h, fw/fdcan_micro_server.h,
fw/fdcan.cc and the framing helpers of fw/can_bootloader.cc.

Characters are bytes (Latin-1), lines are byte strings.
-/

namespace Verif.Can

open Verif

/-! ## Hex text -/

/-- A hex digit of `'{:X}'` / `'{:x}'`, and of `digits[]` in
fw/can_bootloader.cc:43. -/
def hexDigit (upper : Bool) (d : Nat) : UInt8 :=
  if d < 10 then UInt8.ofNat (48 + d)
  else if upper then UInt8.ofNat (55 + d) else UInt8.ofNat (87 + d)

/-- `'{:02X}'.format(x)` of one byte; fw/can_bootloader.cc:42-47 `uint8_hex`. -/
def hexByte (upper : Bool) (b : UInt8) : Bytes :=
  [hexDigit upper (b.toNat / 16), hexDigit upper (b.toNat % 16)]

/-- lib/python/moteus/fdcanusb.py:27-28 `_hexify` -/
def hexify (data : Bytes) : Bytes := data.flatMap (hexByte true)

/-- Digits of `'{:x}'.format(n)`; at least one digit. -/
def hexDigits (n : Nat) : Bytes :=
  if n < 16 then [hexDigit false n] else hexDigits (n / 16) ++ [hexDigit false (n % 16)]
termination_by n
decreasing_by omega

/-- `'{:04x}'.format(n)` -/
def hex04 (n : Nat) : Bytes :=
  List.replicate (4 - (hexDigits n).length) 48 ++ hexDigits n

/-- Value of a digit character in base 16 (CPython `_PyLong_DigitValue`);
lib/cpp/mjbots/moteus/moteus_transport.h:723-728 `ParseHexNybble` -/
def nybble (c : UInt8) : Option Nat :=
  if 48 ≤ c.toNat ∧ c.toNat ≤ 57 then some (c.toNat - 48)
  else if 97 ≤ c.toNat ∧ c.toNat ≤ 102 then some (c.toNat - 87)
  else if 65 ≤ c.toNat ∧ c.toNat ≤ 70 then some (c.toNat - 55)
  else none

/-- C `isspace` in the default locale. -/
def isSpace (c : UInt8) : Bool := c == 32 || (9 ≤ c && c ≤ 13)

/-- The digits of `int(text, 16)`: digits with single underscores between
them; `prev` says whether the character before was a digit. -/
def pyDigits (prev : Bool) (acc : Nat) : Bytes → Option Nat
  | [] => if prev then some acc else none
  | c :: cs =>
    if c = 95 then (if prev then pyDigits false acc cs else none)
    else match nybble c with
      | some d => pyDigits true (acc * 16 + d) cs
      | none => none

/-- Sign of `int(text, 16)`. -/
def pySign : Bytes → Bool × Bytes
  | 45 :: s => (true, s)
  | 43 :: s => (false, s)
  | s => (false, s)

/-- Optional `0x` prefix, after which one underscore is allowed. -/
def pyPrefix : Bytes → Bytes
  | 48 :: x :: s =>
    if x = 120 ∨ x = 88 then (match s with | 95 :: s => s | s => s) else 48 :: x :: s
  | s => s

/-- `int(text, 16)` of Python on bytes, `none` is `ValueError`: surrounding
white space, a sign, a `0x` prefix and underscores between digits are
accepted (CPython `PyLong_FromString`). -/
def pyIntHex (text : Bytes) : Option Int :=
  let s := ((text.dropWhile isSpace).reverse.dropWhile isSpace).reverse
  let r := pySign s
  match pyDigits false 0 (pyPrefix r.2) with
  | none => none
  | some n => some (if r.1 then -(n : Int) else n)

/-- lib/python/moteus/fdcanusb.py:31-35 `_dehexify`; `bytes([v])` raises
outside of 0..255. -/
def dehexify : Bytes → Option Bytes
  | [] => some []
  | [a] => match pyIntHex [a] with
    | some v => if 0 ≤ v ∧ v < 256 then some [UInt8.ofNat v.toNat] else none
    | none => none
  | a :: b :: rest =>
    match pyIntHex [a, b] with
    | some v => if 0 ≤ v ∧ v < 256 then
        (dehexify rest).map (UInt8.ofNat v.toNat :: ·) else none
    | none => none

/-- fw/can_bootloader.cc:58-70 `hex_to_i`: 32 bit shift register, characters
that are no digits count as 0. -/
def hexToI (text : Bytes) : Nat :=
  text.foldl (fun acc c => (acc * 16 + (nybble c).getD 0) % 2 ^ 32) 0

/-- fw/can_bootloader.cc:49-53 `uint32_hex` -/
def uint32Hex (v : Nat) : Bytes :=
  hexByte true (UInt8.ofNat (v / 2 ^ 24)) ++ hexByte true (UInt8.ofNat (v / 2 ^ 16)) ++
  hexByte true (UInt8.ofNat (v / 2 ^ 8)) ++ hexByte true (UInt8.ofNat v)

/-- lib/cpp/mjbots/moteus/moteus_transport.h:730-736 `ParseHexByte`, stored
into a `uint8_t` (-1 becomes 255). -/
def parseHexByte (a b : UInt8) : UInt8 :=
  match nybble a with
  | none => 255
  | some h => match nybble b with
    | none => 255
    | some l => UInt8.ofNat (h * 16 + l)

/-- The loop of `ParseCanData` over at most 128 characters.  An odd last
character is combined with the terminating NUL of the string (and the byte is
not counted). -/
def parseHexBytes : Bytes → Bytes
  | [] => []
  | [_] => []
  | a :: b :: rest => parseHexByte a b :: parseHexBytes rest

/-- lib/cpp/mjbots/moteus/moteus_transport.h:738-744 `ParseCanData` -/
def parseCanData (text : Bytes) : Bytes := parseHexBytes (text.take 128)

/-! ## Data length -/

/-- lib/python/moteus/fdcanusb.py:210-227, pythoncan.py:120-137,
lib/cpp/mjbots/moteus/moteus_transport.h:711-721 -/
def roundUpDlc (size : Nat) : Nat :=
  if size ≤ 8 then size
  else if size ≤ 12 then 12
  else if size ≤ 16 then 16
  else if size ≤ 20 then 20
  else if size ≤ 24 then 24
  else if size ≤ 32 then 32
  else if size ≤ 48 then 48
  else if size ≤ 64 then 64
  else size

/-- fw/fdcan_micro_server.h:120-138 -/
def fwRoundUpDlc (value : Nat) : Nat :=
  if value = 0 then 0
  else if value = 1 then 1
  else if value = 2 then 2
  else if value = 3 then 3
  else if value = 4 then 4
  else if value = 5 then 5
  else if value = 6 then 6
  else if value = 7 then 7
  else if value = 8 then 8
  else if value ≤ 12 then 12
  else if value ≤ 16 then 16
  else if value ≤ 20 then 20
  else if value ≤ 24 then 24
  else if value ≤ 32 then 32
  else if value ≤ 48 then 48
  else if value ≤ 64 then 64
  else 0

/-- fw/fdcan.cc:24-42 `RoundUpDlc`; the constants `FDCAN_DLC_BYTES_*` are the
CAN-FD length codes 0..15. -/
def fwDlcCode (size : Nat) : Nat :=
  if size ≤ 8 then size
  else if size ≤ 12 then 9
  else if size ≤ 16 then 10
  else if size ≤ 20 then 11
  else if size ≤ 24 then 12
  else if size ≤ 32 then 13
  else if size ≤ 48 then 14
  else if size ≤ 64 then 15
  else 0

/-- fw/can_bootloader.cc:293-296 `kDlcToSize` -/
def kDlcToSize : List Nat := [0, 1, 2, 3, 4, 5, 6, 7, 8, 12, 16, 20, 24, 32, 48, 64]

/-- fw/fdcan.cc:375-394 `ParseDlc`; `none` is `mbed_die`. -/
def fwParseDlc (code : Nat) : Option Nat := kDlcToSize[code]?

/-- fw/can_bootloader.cc:298-303 `RoundUpDlc`; `none`: the loop runs off the
table. -/
def bootRoundUpDlc (size : Nat) : Option Nat :=
  kDlcToSize.findIdx? (fun s => decide (size ≤ s))

/-! ## Frames -/

/-- What is put on the bus. -/
structure BusFrame where
  id : Nat
  extended : Bool
  data : Bytes
deriving DecidableEq, Repr

/-- lib/python/moteus/command.py:16-33 -/
structure Command where
  destination : Nat := 1
  source : Nat := 0
  replyRequired : Bool := false
  data : Bytes := []
  canPrefix : Nat := 0
  raw : Bool := false
  arbitrationId : Nat := 0
deriving DecidableEq, Repr

/-- lib/python/moteus/fdcanusb.py:175-181 -/
def busId (c : Command) : Nat :=
  if c.raw then c.arbitrationId
  else c.destination ||| (if c.replyRequired then 0x8000 else 0) ||| (c.canPrefix <<< 16)

/-- lib/python/moteus/fdcanusb.py:182-184, pythoncan.py:104-106: the padded
payload. -/
def padded (data : Bytes) : Bytes :=
  data ++ List.replicate (roundUpDlc data.length - data.length) 0x50

/-- lib/python/moteus/fdcanusb.py:171-191: the text written to the serial
port.  `'50' * n` is the empty string for n <= 0. -/
def fdcanusbLine (disableBrs : Bool) (c : Command) : Bytes :=
  "can send ".toUTF8.toList ++ hex04 (busId c) ++ [32] ++
    (hexify c.data ++ (List.replicate (roundUpDlc c.data.length - c.data.length) [53, 48]).flatten) ++
    (if disableBrs then [32, 98] else []) ++ [10]

/-- lib/python/moteus/pythoncan.py:99-114; `raw` is ignored. -/
def pythonCanFrame (c : Command) : BusFrame :=
  let id := c.destination ||| (if c.replyRequired then 0x8000 else 0) ||| (c.canPrefix <<< 16)
  { id := id, extended := decide (0x7ff ≤ id), data := padded c.data }

/-- lib/cpp/mjbots/moteus/moteus.h:1063-1077 `DefaultFrame`: the identifier.
`frameSource` is the field of the freshly constructed frame, which is 0
(moteus_protocol.h:53-80); the `source` option of the controller is not used. -/
def cppId (destination frameSource : Nat) (reply : Bool) (canPrefix : Nat) : Nat :=
  destination ||| (frameSource <<< 8) ||| (if reply then 0x8000 else 0) ||| (canPrefix <<< 16)

/-- lib/cpp/mjbots/moteus/moteus_transport.h:609-612, 857-860: the fields of a
received frame: (destination, source, prefix). -/
def cppDecode (id : Nat) : Nat × Nat × Nat :=
  (id &&& 0x7f, (id >>> 8) &&& 0x7f, id >>> 16)

/-- fw/fdcan_micro_server.h:102-103: (destination, source) of a received
frame. -/
def fwDecode (id : Nat) : Nat × Nat := (id &&& 0xff, (id >>> 8) &&& 0xff)

/-- fw/moteus.cc:288-299 with fw/fdcan.cc:98-296: the receive filter for
`prefix`: standard frames are accepted, extended ones when the masked identifier
matches.  When this filter is set is modelled in Verif/Fw/CanServer.lean (C110). -/
def fwAccepts (pre : Nat) (f : BusFrame) : Bool :=
  if f.extended then (f.id &&& 0x1fff0000) == ((pre <<< 16) &&& 0x1fff0000) else true

/-- fw/fdcan_micro_server.h:44-73 and fw/fdcan.cc:310-328: the frame sent for a
payload.  The 64 byte buffer and the length code 0 for more than 64 bytes are
reflected by taking only as many bytes as the length code says. -/
def fwFrame (source destination pre : Nat) (data : Bytes) : BusFrame :=
  let dlc := fwRoundUpDlc data.length
  let id := ((source &&& 0xff) <<< 8) ||| (destination &&& 0xff) ||| (pre <<< 16)
  let body := if dlc = data.length then data
    else (data ++ List.replicate (dlc - data.length) 0x50).take dlc
  { id := id, extended := decide (2048 ≤ id), data := body }

/-- fw/can_bootloader.cc:485-581 `WriteResponse` / `WriteCanFrame`: frame for a
payload (at most 64 bytes). -/
def bootFrame (id source : Nat) (data : Bytes) : Option BusFrame :=
  match bootRoundUpDlc data.length with
  | none => none
  | some dlc =>
    let size := kDlcToSize.getD dlc 0
    let ident := (id <<< 8) ||| source
    some { id := ident, extended := decide (2048 ≤ ident),
           data := data ++ List.replicate (size - data.length) 0 }

/-! ## Receiving text -/

/-- `line.split(b" ")` -/
def splitSpace : Bytes → List Bytes
  | [] => [[]]
  | c :: cs =>
    if c = 32 then [] :: splitSpace cs
    else match splitSpace cs with
      | [] => [[c]]
      | t :: ts => (c :: t) :: ts

/-- lib/python/moteus/fdcanusb.py:160-163, 204-208: identifier and data of a
`rcv` line; `none` if an exception is raised. -/
def parseRcv (line : Bytes) : Option (Int × Bytes) :=
  match splitSpace line with
  | _ :: id :: data :: _ =>
    match dehexify data with
    | none => none
    | some d => match pyIntHex id with
      | none => none
      | some i => some (i, d)
  | _ => none

end Verif.Can
