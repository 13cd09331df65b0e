import Verif.Can.Model
import Verif.Stream.Model

/-!
# Firmware upload

Models the upload part of lib/python/moteus/moteus_tool.py (`FlashContext`,
`_verify_blocks`, `Stream.write_flash`, the flash steps of `do_flash`) and
fw/can_bootloader.cc (`FlashWriter` and `BootloaderServer`).
-/

namespace Verif.Flash

open Verif

/-- Text of a literal. -/
def ascii (s : String) : Bytes := s.toList.map fun c => UInt8.ofNat c.toNat

/-! ## The host: blocks -/

/-- A section of the image: physical address and contents (an element of
`ElfData.sections`). -/
abbrev Section := Int × Bytes

/-- moteus_tool.py:663-666 `FlashDataBlock` -/
structure Block where
  address : Int := -1
  data : Bytes := []
deriving DecidableEq, Repr

/-- moteus_tool.py:674-690 `FlashContext.get_next_block` -/
def getNextBlock (current : Int) : List Section → Block
  | [] => {}
  | (address, data) :: rest =>
    if address > current then ⟨address, data.take 32⟩
    else
      let endOfThisBlock := address + data.length
      if endOfThisBlock > current then
        let begin := (current - address).toNat
        let stop := (min (endOfThisBlock - current) 32).toNat
        ⟨current, (data.drop begin).take stop⟩
      else getNextBlock current rest

/-- moteus_tool.py:692-695 `FlashContext.advance_block`: the new address and
whether the upload is finished. -/
def advanceBlock (elf : List Section) (current : Int) : Int × Bool :=
  let thisBlock := getNextBlock current elf
  let next := thisBlock.address + thisBlock.data.length
  (next, decide ((getNextBlock next elf).address < 0))

/-- The loops of `write_flash`, moteus_tool.py:930-938, 950-960: the blocks in
the order in which they are processed; `none` if the loop is not finished
after `n` turns. -/
def blocks (elf : List Section) : Nat → Int → Option (List Block)
  | 0, _ => none
  | n + 1, current =>
    let b := getNextBlock current elf
    let r := advanceBlock elf current
    if r.2 then some [b]
    else match blocks elf n r.1 with
      | none => none
      | some bs => some (b :: bs)

/-! ## The flash hardware -/

abbrev Mem := Nat → UInt8

/-- The flash controller of the microcontroller (with the timer).  `σ` is
everything else that influences its behaviour.  Operations return the error
flags (0 for success). -/
structure Hw (σ : Type) where
  /-- erase of a 2048 byte sector (bank, sector) -/
  erase : σ → Mem → Nat → Nat → Nat × Mem × σ
  /-- programming of a 64 bit word -/
  program : σ → Mem → Nat → BitVec 64 → Nat × Mem × σ
  /-- time that a write command takes -/
  elapsed : σ → Nat

/-- Byte `i` of a little endian word. -/
def byteAt (w : BitVec 64) (i : Nat) : UInt8 := UInt8.ofBitVec (w.extractLsb' (8 * i) 8)

/-- What was done to the flash, with the state of the lock at that time (not
part of the code, recorded to state C23). -/
inductive Action
  | erase (bank sector : Nat)
  | program (address : Nat)
deriving DecidableEq, Repr

/-- fw/can_bootloader.cc:284-290, the members of `FlashWriter`, with the memory
and the hardware. -/
structure Writer (σ : Type) where
  locked : Bool := true
  shadowStart : Nat := 0
  shadow : BitVec 64 := 0
  shadowBits : BitVec 64 := 0
  sectorsErased : Nat → Bool := fun _ => false
  mem : Mem
  hw : σ
  log : List (Bool × Action) := []

section
variable {σ : Type} (hw : Hw σ)

/-- fw/can_bootloader.cc:123-150 `Unlock` (cache control and key registers are
not modelled). -/
def Writer.unlock (w : Writer σ) : Writer σ :=
  { w with sectorsErased := fun _ => false, locked := false }

/-- fw/can_bootloader.cc:247-266, with `Wait` -/
def Writer.eraseSector (w : Writer σ) (bank sector : Nat) : Nat × Writer σ :=
  let r := hw.erase w.hw w.mem bank sector
  (r.1, { w with mem := r.2.1, hw := r.2.2, log := w.log ++ [(w.locked, .erase bank sector)] })

/-- fw/can_bootloader.cc:226-231 -/
def bankOf (address : Nat) : Nat := if address < 0x08040000 then 1 else 2

/-- fw/can_bootloader.cc:227-235; the subtraction does not wrap for addresses
in flash. -/
def sectorOf (address : Nat) : Nat :=
  (address - (if bankOf address = 1 then 0x08000000 else 0x08040000)) / 2048

/-- fw/can_bootloader.cc:237 -/
def sectorIndex (address : Nat) : Nat := (bankOf address - 1) * 128 + sectorOf address

/-- fw/can_bootloader.cc:224-245 `MaybeEraseSector` -/
def Writer.maybeEraseSector (w : Writer σ) (address : Nat) : Nat × Writer σ :=
  if w.sectorsErased (sectorIndex address) then (0, w)
  else
    let r := w.eraseSector hw (bankOf address) (sectorOf address)
    if r.1 ≠ 0 then r
    else (0, { r.2 with sectorsErased := fun i =>
      if i = sectorIndex address then true else r.2.sectorsErased i })

/-- fw/can_bootloader.cc:191-222 `FlushWord`; the comparison of the two 32 bit
halves is made byte by byte. -/
def Writer.flushWord (w : Writer σ) : Nat × Writer σ :=
  let r := w.maybeEraseSector hw w.shadowStart
  if r.1 ≠ 0 then r
  else
    let w := r.2
    let p : Nat × Writer σ :=
      if (List.range 8).all fun i => w.mem (w.shadowStart + i) == byteAt w.shadow i then (0, w)
      else
        let q := hw.program w.hw w.mem w.shadowStart w.shadow
        (q.1, { w with mem := q.2.1, hw := q.2.2,
                       log := w.log ++ [(w.locked, .program w.shadowStart)] })
    (p.1, { p.2 with shadowStart := 0, shadow := ~~~ 0, shadowBits := 0 })

/-- fw/can_bootloader.cc:152-163 `Lock` -/
def Writer.lock (w : Writer σ) : Nat × Writer σ :=
  if w.locked then (0, w)
  else if w.shadowBits ≠ 0 then
    let r := w.flushWord hw
    if r.1 ≠ 0 then r else (0, { r.2 with locked := true })
  else (0, { w with locked := true })

/-- The part of `ProgramByte` after the flush of another word,
fw/can_bootloader.cc:174-187. -/
def Writer.putByte (w : Writer σ) (intaddr : Nat) (value : UInt8) : Nat × Writer σ :=
  let offset := intaddr % 8
  let mask : BitVec 64 := 0xff#64 <<< (offset * 8)
  let w := { w with
    shadowStart := intaddr / 8 * 8
    shadow := (w.shadow &&& ~~~ mask) ||| (value.toBitVec.setWidth 64 <<< (offset * 8))
    shadowBits := w.shadowBits ||| mask }
  if w.shadowBits = ~~~ 0 then w.flushWord hw else (0, w)

/-- fw/can_bootloader.cc:165-188 `ProgramByte` -/
def Writer.programByte (w : Writer σ) (intaddr : Nat) (value : UInt8) : Nat × Writer σ :=
  if intaddr / 8 * 8 ≠ w.shadowStart ∧ w.shadowStart ≠ 0 then
    let r := w.flushWord hw
    if r.1 ≠ 0 then r else r.2.putByte hw intaddr value
  else w.putByte hw intaddr value

/-! ## The server -/

/-- fw/can_bootloader.cc:698-726 `WriteByte`: `none` for `true`, the message
for `false`.  (On the last path the error code is printed to a buffer that is
too small, see `C53_error_buffer_refuted`.) -/
def writeByte (w : Writer σ) (address : Nat) (byte : UInt8) : Option Bytes × Writer σ :=
  if w.locked then (some (ascii "ERR flash is locked\r\n"), w)
  else if address < 0x08000000 ∨ address ≥ 0x08080000 then
    (some (ascii "ERR address not in flash\r\n"), w)
  else if address ≥ 0x0800c000 ∧ address < 0x08010000 then
    (some (ascii "ERR address not writable\r\n"), w)
  else
    let r := w.programByte hw address byte
    if r.1 ≠ 0 then
      (some (ascii "ERR program error " ++ Can.uint32Hex r.1 ++ ascii "\r\n"), r.2)
    else (none, r.2)

/-- The loop of `WriteFlash`, fw/can_bootloader.cc:683-689; addresses are 32
bit. -/
def writeBytes (w : Writer σ) (address : Nat) : Bytes → Option Bytes × Writer σ
  | [] => (none, w)
  | b :: bs =>
    match writeByte hw w (address % 2 ^ 32) b with
    | (some m, w) => (some m, w)
    | (none, w) => writeBytes w (address + 1) bs

/-- The bytes of the data argument, fw/can_bootloader.cc:684-685. -/
def hexPairs : Bytes → Bytes
  | a :: b :: rest => UInt8.ofNat (Can.hexToI [a, b]) :: hexPairs rest
  | _ => []

/-- fw/can_bootloader.cc:673-696 `WriteFlash` -/
def writeFlash (w : Writer σ) (address data : Bytes) : Bytes × Writer σ :=
  if data.length % 2 ≠ 0 then (ascii "odd data size\r\n", w)
  else match writeBytes hw w (Can.hexToI address) (hexPairs data) with
    | (some m, w) => (m, w)
    | (none, w) => (ascii "OK " ++ Can.uint32Hex (hw.elapsed w.hw) ++ ascii "\r\n", w)

/-- fw/can_bootloader.cc:650-671 `ReadFlash` -/
def readFlash (w : Writer σ) (address size : Bytes) : Bytes :=
  let start := Can.hexToI address
  let n := Can.hexToI size
  if n > 32 then ascii "size too big\r\n"
  else Can.uint32Hex start ++ ascii " " ++
    ((List.range n).flatMap fun i => Can.hexByte true (w.mem ((start + i) % 2 ^ 32))) ++
    ascii "\r\n"

/-- fw/can_bootloader.cc:583-634 `RunCommand`, given the results of the
tokenizer (`next()` gives an empty view at the end) and what remains after the
first token: the response, the writer and whether the program still runs
(`reset` and `fault` end it). -/
def dispatch (w : Writer σ) (tokens : List Bytes) (remaining : Bytes) : Bytes × Writer σ × Bool :=
  let tok (i : Nat) : Bytes := (tokens[i]?).getD []
  if tok 0 = [] then ([], w, true)
  else if tok 0 = ascii "echo" then (remaining, w, true)
  else if tok 0 = ascii "unlock" then (ascii "OK\r\n", w.unlock, true)
  else if tok 0 = ascii "lock" then
    let r := w.lock hw
    if r.1 ≠ 0 then (ascii "ERR error locking\r\n", r.2, true) else (ascii "OK\r\n", r.2, true)
  else if tok 0 = ascii "w" then
    if tok 1 = [] ∨ tok 2 = [] then (ascii "ERR malformed write\r\n", w, true)
    else
      let r := writeFlash hw w (tok 1) (tok 2)
      (r.1, r.2, true)
  else if tok 0 = ascii "r" then
    if tok 1 = [] ∨ tok 2 = [] then (ascii "ERR malformed read\r\n", w, true)
    else (readFlash w (tok 1) (tok 2), w, true)
  else if tok 0 = ascii "reset" then
    let r := w.lock hw
    if r.1 ≠ 0 then (ascii "ERR error locking\r\n", r.2, true) else ([], r.2, false)
  else if tok 0 = ascii "fault" then ([], w, false)
  else (ascii "ERR unknown command\r\n", w, true)

def isDelimiter (c : UInt8) : Bool := c == 32 || c == 13 || c == 10

/-- mjlib::base::Tokenizer with the delimiters of fw/can_bootloader.cc:588
(mjlib is not part of the repository; every delimiter ends a token). -/
def tokenize : Bytes → Bytes → List Bytes
  | acc, [] => [acc]
  | acc, c :: cs => if isDelimiter c then acc :: tokenize [] cs else tokenize (acc ++ [c]) cs

/-- `tokenizer.remaining()` after the first token. -/
def remainingText (l : Bytes) : Bytes := (l.dropWhile fun c => !isDelimiter c).drop 1

/-- fw/can_bootloader.cc:733-744, the buffers of `BootloaderServer`.  The
capacity of the response buffer is not modelled. -/
structure Server (σ : Type) where
  command : Bytes := []
  response : Bytes := []
  writer : Writer σ
  running : Bool := true

/-- fw/can_bootloader.cc:583-640 `RunCommand`: the tokens are taken from the
whole buffer, the first line is removed. -/
def Server.runCommand (s : Server σ) : Server σ :=
  let r := dispatch hw s.writer (tokenize [] s.command) (remainingText s.command)
  { command := s.command.drop (s.command.findIdx Stream.isNewline + 1)
    response := s.response ++ r.1
    writer := r.2.1
    running := r.2.2 }

/-- One round of `ReadCommand` (fw/can_bootloader.cc:348-356) for a frame
addressed to this device that carries `data` on channel 1 (empty for a poll):
lines 457-475 of `ReadFrame`, then `RunCommand` if there is a line end. -/
def Server.frame (s : Server σ) (data : Bytes) : Server σ :=
  if ¬ s.running then s
  else
    let s := if s.command.length + data.length > 256 then { s with command := [] }
      else { s with command := s.command ++ data }
    if s.command.any Stream.isNewline then s.runCommand hw else s

/-! ## The upload -/

/-- The bootloader and the bytes that the host has not consumed yet. -/
structure Link (σ : Type) where
  server : Server σ
  rx : Bytes := []

/-- The chunks of `drain`, moteus.py:1454-1460, in order. -/
def chunks (text : Bytes) : List Bytes :=
  if text.length = 0 then [] else text.take 61 :: chunks (text.drop 61)
termination_by text.length
decreasing_by simp; omega

/-- moteus.py:1545-1549 `write_message`, received by the bootloader. -/
def Link.send (l : Link σ) (line : Bytes) : Link σ :=
  let s := (chunks (line ++ [10])).foldl (Server.frame hw) l.server
  { server := { s with response := [] }, rx := l.rx ++ s.response }

/-- moteus.py:1535-1543 `command`; the response reaches the host completely
(see C19 for the division into frames).  `none`: waits forever. -/
def Link.command (l : Link σ) (line : Bytes) : Option (Stream.Out × Link σ) :=
  let l := l.send hw line
  match Stream.readUntilOk id (⟨l.rx, []⟩ : Stream.St Bytes) with
  | none => none
  | some (o, st) => some (o, { l with rx := st.flat id })

/-- `command(..., allow_any_response=True)` -/
def Link.query (l : Link σ) (line : Bytes) : Option (Bytes × Link σ) :=
  let l := l.send hw line
  match Stream.readline id (⟨l.rx, []⟩ : Stream.St Bytes) with
  | none => none
  | some (o, st) => some (o, { l with rx := st.flat id })

/-- `f"{n:x}"` -/
def pyHex (n : Int) : Bytes :=
  if n < 0 then 45 :: Can.hexDigits n.natAbs else Can.hexDigits n.natAbs

/-- `data.hex()` -/
def dataHex (data : Bytes) : Bytes := data.flatMap (Can.hexByte false)

/-- moteus_tool.py:932 -/
def writeLine (b : Block) : Bytes := ascii "w " ++ pyHex b.address ++ ascii " " ++ dataHex b.data

/-- moteus_tool.py:953 -/
def readLine (b : Block) : Bytes :=
  ascii "r " ++ pyHex b.address ++ ascii " " ++ pyHex b.data.length

/-- `str.strip` on Latin-1 text. -/
def strSpace (c : UInt8) : Bool :=
  c == 32 || (9 ≤ c && c ≤ 13) || (28 ≤ c && c ≤ 31) || c == 0x85 || c == 0xa0

def strStrip (s : Bytes) : Bytes :=
  ((s.dropWhile strSpace).reverse.dropWhile strSpace).reverse

/-- `str.lower` of ASCII letters (no other Latin-1 letter becomes a hex digit).
-/
def lower (s : Bytes) : Bytes := s.map fun c => if 65 ≤ c ∧ c ≤ 90 then c + 32 else c

/-- moteus_tool.py:698-709 `_verify_blocks`: no exception is raised. -/
def verifyBlock (expected : Block) (message : Bytes) : Bool :=
  match Can.splitSpace message with
  | [a, d] =>
    match Can.pyIntHex a with
    | none => false
    | some address => decide (address = expected.address) &&
        decide (dataHex expected.data = lower (strStrip d))
  | _ => false

/-- How an upload ends: normally or with an exception. -/
inductive Result
  | ok
  | raised
deriving DecidableEq, Repr

/-- The write loop, moteus_tool.py:930-938. -/
def sendBlocks (l : Link σ) : List Block → Option (Result × Link σ)
  | [] => some (.ok, l)
  | b :: bs =>
    match l.command hw (writeLine b) with
    | none => none
    | some (.bytes _, l) => sendBlocks l bs
    | some (_, l) => some (.raised, l)

/-- The verify loop, moteus_tool.py:950-960. -/
def verifyBlocks (l : Link σ) : List Block → Option (Result × Link σ)
  | [] => some (.ok, l)
  | b :: bs =>
    match l.query hw (readLine b) with
    | none => none
    | some (m, l) => if verifyBlock b m then verifyBlocks l bs else some (.raised, l)

/-- moteus_tool.py:943-948; `next_block` is the last block. -/
def flushLine (bs : List Block) : Bytes :=
  let last := bs.getLast?.getD {}
  let finalAddress := last.address + last.data.length
  let remaining := 8 - (finalAddress % 8).toNat
  ascii "w " ++ pyHex finalAddress ++ ascii " " ++ (List.replicate remaining (ascii "ff")).flatten

/-- moteus_tool.py:927-960 `write_flash`; `bs` are the blocks of both loops
(`remaining_to_flush` is never 0). -/
def uploadBlocks (l : Link σ) (bs : List Block) : Option (Result × Link σ) :=
  match sendBlocks hw l bs with
  | none => none
  | some (.raised, l) => some (.raised, l)
  | some (.ok, l) =>
    match l.command hw (flushLine bs) with
    | none => none
    | some (.bytes _, l) => verifyBlocks hw l bs
    | some (_, l) => some (.raised, l)

/-- moteus_tool.py:909-911: unlock, `write_flash`, lock.  `n` bounds the
number of blocks. -/
def upload (n : Nat) (elf : List Section) (l : Link σ) : Option (Result × Link σ) :=
  match blocks elf n (-1) with
  | none => none
  | some bs =>
    match l.command hw (ascii "unlock") with
    | none => none
    | some (.bytes _, l) =>
      match uploadBlocks hw l bs with
      | none => none
      | some (.raised, l) => some (.raised, l)
      | some (.ok, l) =>
        match l.command hw (ascii "lock") with
        | none => none
        | some (.bytes _, l) => some (.ok, l)
        | some (_, l) => some (.raised, l)
    | some (_, l) => some (.raised, l)

end

/-! ## ELF sections -/

/-- moteus_tool.py:566-569 `ElfMapping` -/
structure Mapping where
  virtualAddress : Nat
  physicalAddress : Nat
  size : Nat
deriving DecidableEq, Repr

/-- moteus_tool.py:584-589 `ElfMappings.logical_to_physical`; `none` is
`RuntimeError`. -/
def logicalToPhysical (address size : Nat) : List Mapping → Option Int
  | [] => none
  | m :: ms =>
    if address ≥ m.virtualAddress ∧ address + size ≤ m.virtualAddress + m.size then
      some ((address : Int) - m.virtualAddress + m.physicalAddress)
    else logicalToPhysical address size ms

/-- `sections[physical_address] = data` -/
def setKey (k : Int) (v : Bytes) : List Section → List Section
  | [] => [(k, v)]
  | (k', v') :: rest => if k' = k then (k, v) :: rest else (k', v') :: setKey k v rest

/-- A section of the file: name, `sh_addr`, `sh_size` and contents. -/
structure FileSection where
  name : Bytes
  address : Nat
  size : Nat
  data : Bytes
deriving DecidableEq, Repr

/-- moteus_tool.py:606-618: sections that are wanted; a name is used once per
occurrence in the file as `sections_to_find` shrinks. -/
def collect (ms : List Mapping) : List Bytes → List FileSection → List Section → Option (List Section)
  | _, [], acc => some acc
  | names, s :: rest, acc =>
    if s.name ∈ names then
      match logicalToPhysical s.address s.size ms with
      | none => none
      | some p => collect ms (names.filter (· ≠ s.name)) rest (setKey p s.data acc)
    else collect ms names rest acc

/-- Insertion sort by key, `sorted(sections.keys())` (keys are distinct). -/
def insertKey (x : Section) : List Section → List Section
  | [] => [x]
  | y :: ys => if x.1 ≤ y.1 then x :: y :: ys else y :: insertKey x ys

def sortKeys (l : List Section) : List Section := l.foldr insertKey []

/-- moteus_tool.py:597-624 `_read_elf`, the sections. -/
def readElf (ms : List Mapping) (names : List Bytes) (secs : List FileSection) :
    Option (List Section) :=
  (collect ms names secs []).map sortKeys

end Verif.Flash
