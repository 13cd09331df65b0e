import Verif.Multiplex.Model

/-!
# Specification of the register protocol

Written from docs/reference.md:425-505 and from the wording of the
properties only; no function of the model that encodes or decodes frames is
used here.  (`Res`, `Res.size` and `Bytes` are shared vocabulary.)
-/

namespace Verif.Multiplex.Spec

open Verif Verif.Multiplex

/-! ## Numbers -/

/-- docs/reference.md:425-429: a varuint is a sequence of at most five bytes,
least significant first, seven bits in each, the top bit set on every byte
but the last.  Returns the value and the bytes that follow. -/
def varuint : (limit : Nat) → Bytes → Option (Nat × Bytes)
  | 0, _ => none
  | _ + 1, [] => none
  | k + 1, b :: bs =>
    if b.toNat < 128 then some (b.toNat, bs)
    else match varuint k bs with
      | none => none
      | some (v, rest) => some (b.toNat - 128 + 128 * v, rest)

/-! ## Subframes -/

/-- The documented subframes.  `values` lists the raw bytes of each value. -/
inductive Sub
  | write (res : Res) (start : Nat) (values : List Bytes)
  | read (res : Res) (start count : Nat)
  | reply (res : Res) (start : Nat) (values : List Bytes)
  | writeError (register error : Nat)
  | readError (register error : Nat)
deriving DecidableEq, Repr

/-- Split off `n` values of `size` bytes. -/
def takeValues (size : Nat) : Nat → Bytes → Option (List Bytes × Bytes)
  | 0, bs => some ([], bs)
  | n + 1, bs =>
    if bs.length < size then none
    else match takeValues size n (bs.drop size) with
      | none => none
      | some (vs, rest) => some (bs.take size :: vs, rest)

/-- The resolution named by the subframe types x0, x4, x8, xc. -/
def resOfType (t : Nat) : Res :=
  match t / 4 % 4 with
  | 0 => .int8 | 1 => .int16 | 2 => .int32 | _ => .f32

/-- Number of registers and start register of a register subframe of type
`t` whose remaining bytes are `bs`. -/
def countAndStart (t : Nat) (bs : Bytes) : Option (Nat × Nat × Bytes) :=
  match (if t % 4 = 0 then varuint 5 bs else some (t % 4, bs)) with
  | none => none
  | some (count, bs) =>
    match varuint 5 bs with
    | none => none
    | some (start, bs) => some (count, start, bs)

/-- One subframe, docs/reference.md:474-505; `none` in the first component is
the NOP. -/
def subframe (t : Nat) (bs : Bytes) : Option (Option Sub × Bytes) :=
  if t < 0x10 then
    match countAndStart t bs with
    | none => none
    | some (count, start, bs) =>
      match takeValues (resOfType t).size count bs with
      | none => none
      | some (vs, bs) => some (some (.write (resOfType t) start vs), bs)
  else if t < 0x20 then
    match countAndStart t bs with
    | none => none
    | some (count, start, bs) => some (some (.read (resOfType t) start count), bs)
  else if t < 0x30 then
    match countAndStart t bs with
    | none => none
    | some (count, start, bs) =>
      match takeValues (resOfType t).size count bs with
      | none => none
      | some (vs, bs) => some (some (.reply (resOfType t) start vs), bs)
  else if t = 0x30 ∨ t = 0x31 then
    match varuint 5 bs with
    | none => none
    | some (reg, bs) =>
      match varuint 5 bs with
      | none => none
      | some (e, bs) =>
        some (some (if t = 0x30 then .writeError reg e else .readError reg e), bs)
  else if t = 0x50 then some (none, bs)
  else none

/-- A whole frame; `none` if it is not well formed.  `fuel` bounds the number
of subframes (each has at least one byte). -/
def decodeFuel : Nat → Bytes → Option (List Sub)
  | _, [] => some []
  | 0, _ :: _ => none
  | fuel + 1, t :: bs =>
    match subframe t.toNat bs with
    | none => none
    | some (s, bs) =>
      match decodeFuel fuel bs with
      | none => none
      | some l => some (match s with | none => l | some s => s :: l)

/-- The documented meaning of a frame. -/
def decode (frame : Bytes) : Option (List Sub) := decodeFuel frame.length frame

/-! ## Individual register accesses -/

/-- A single register access. -/
inductive Access
  | write (register : Nat) (res : Res) (value : Bytes)
  | read (register : Nat) (res : Res)
  | reply (register : Nat) (res : Res) (value : Bytes)
  | error
deriving DecidableEq, Repr

/-- Consecutive registers from `start`. -/
def number (f : Nat → Bytes → Access) : Nat → List Bytes → List Access
  | _, [] => []
  | start, v :: vs => f start v :: number f (start + 1) vs

/-- The accesses a subframe stands for. -/
def Sub.accesses : Sub → List Access
  | .write res start vs => number (fun r v => .write r res v) start vs
  | .reply res start vs => number (fun r v => .reply r res v) start vs
  | .read res start count => (List.range count).map fun i => .read (start + i) res
  | .writeError _ _ => [.error]
  | .readError _ _ => [.error]

/-- The accesses a frame stands for. -/
def accesses (frame : Bytes) : Option (List Access) :=
  (decode frame).map (List.flatMap Sub.accesses)

/-! ## What the caller asked for -/

/-- The registers requested by a list of resolutions: entry number `i` is
register `start + i`, `none` entries are not wanted. -/
def wanted (start : Nat) : List (Option Res) → List (Nat × Res)
  | [] => []
  | none :: rs => wanted (start + 1) rs
  | some r :: rs => (start, r) :: wanted (start + 1) rs

/-- As `wanted`, with the value bytes supplied for each entry. -/
def wantedValues (start : Nat) : List (Option Res × Bytes) → List (Nat × Res × Bytes)
  | [] => []
  | (none, _) :: rs => wantedValues (start + 1) rs
  | (some r, v) :: rs => (start, r, v) :: wantedValues (start + 1) rs

/-- Every supplied value has the size of its resolution. -/
def SizesOk (items : List (Option Res × Bytes)) : Prop :=
  ∀ r v, (some r, v) ∈ items → v.length = r.size

/-- 128 consecutive registers are wanted at one resolution. -/
def LongRun (rs : List (Option Res)) : Prop :=
  ∃ r : Res, List.replicate 128 (some r) <:+: rs

/-! ## Positions of values in a frame -/

/-- `Layout frame items`: the value bytes of `items` are found in the frame,
one after the other and without overlap. -/
inductive Layout : Bytes → List (Nat × Res × Bytes) → Prop
  | nil (frame) : Layout frame []
  | cons (gap value rest : Bytes) (reg : Nat) (res : Res) (items) :
      value.length = res.size → Layout rest items →
      Layout (gap ++ value ++ rest) ((reg, res, value) :: items)

/-! ## The controller's answer -/

/-- docs/reference.md:487-495: the controller answers each read subframe with
a reply subframe of the same resolution, count and start register.
`regs` gives the bytes of each register. The count uses the short form when
it fits. -/
def encVaruint (fuel : Nat) (v : Nat) : Bytes :=
  match fuel with
  | 0 => []
  | fuel + 1 => if v < 128 then [UInt8.ofNat v]
      else UInt8.ofNat (v % 128 + 128) :: encVaruint fuel (v / 128)

def replyType : Res → Nat
  | .int8 => 0x20 | .int16 => 0x24 | .int32 => 0x28 | .f32 => 0x2c

def answerSub (regs : Nat → Res → Bytes) : Sub → Bytes
  | .read res start count =>
    (if 0 < count ∧ count ≤ 3 then [UInt8.ofNat (replyType res + count)]
     else UInt8.ofNat (replyType res) :: encVaruint 5 count)
    ++ encVaruint 5 start
    ++ (List.range count).flatMap fun i => regs (start + i) res
  | _ => []

/-- The answer to a frame. -/
def answer (regs : Nat → Res → Bytes) (frame : Bytes) : Option Bytes :=
  (decode frame).map (List.flatMap (answerSub regs))

end Verif.Multiplex.Spec
