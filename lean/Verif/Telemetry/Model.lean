import Verif.Float.Ieee
import Verif.Base.Bytes

/-!
# Telemetry schemas and values

Model of lib/python/moteus/reader.py.  A stream is the list of the bytes that
remain (`io.BytesIO`, which is what the client passes); exceptions are values.

Simplified: Python's recursion limit and memory are not modelled; strings are
their UTF-8 bytes, `Env.utf8` says which byte strings `decode('utf8')`
accepts; `Env.fieldName` says which strings `namedtuple` accepts as the name of
one field (identifiers that are no keyword and do not start with an
underscore); an enumeration must have integer values and `Env.enumNames` says
which sets of names the `enum` module accepts; the name of an enumeration class
is not modelled.
-/

namespace Verif.Telemetry

open Verif Verif.Float

inductive Err
  | eof             -- EOFError
  | parse           -- ParseError
  | struct          -- struct.error, too few bytes
  | unicode         -- UnicodeDecodeError
  | value           -- ValueError of namedtuple or enum
  | notImplemented  -- RuntimeError("not implemented")
  | unknownType     -- RuntimeError("Unknown type")
  | notCallable     -- TypeError, `None` is called
  | index           -- IndexError
  | enumValue       -- a value of an enumeration is not an integer (see above)
  | fuel            -- never returned by `fromBinary` (C29_total)
deriving DecidableEq, Repr

/-- What Python's libraries accept. -/
structure Env where
  utf8 : Bytes → Bool
  fieldName : Bytes → Bool
  enumNames : List Bytes → Bool

/-- Python values. -/
inductive Val
  | none
  | bool (b : Bool)
  | int (i : Int)
  | f32 (bits : Nat)      -- the number with this IEEE single representation
  | f64 (bits : Nat)      -- the number with this IEEE double representation
  | seconds (q : ℚ)
  | bytes (b : Bytes)
  | str (b : Bytes)
  | list (l : List Val)
  | tuple (l : List (Bytes × Val))
  | dict (l : List (Bytes × Val))
  | enum (value : Int) (name : Bytes)

mutual

/-- The type objects, reader.py:132-421. -/
inductive Ty
  | final | null | bool
  | int (size : Nat)
  | uint (size : Nat)
  | varint | varuint | f32 | f64 | bytes | string
  | object (flags : Nat) (fields : Fields)
  | enum (base : Ty) (items : List (Bytes × Int))
  | array (t : Ty)
  | fixedArray (n : Nat) (t : Ty)
  | map (t : Ty)
  | union (ts : Tys)
  | timestamp | duration

/-- A list of `Field`, reader.py:260-269. -/
inductive Fields
  | nil
  | cons (flags : Nat) (name : Bytes) (aliases : List Bytes) (t : Ty) (default : Option Val)
      (rest : Fields)

inductive Tys
  | nil
  | cons (t : Ty) (rest : Tys)

end

/-! ## Reading from a stream -/

/-- A reader: consumes bytes, or raises. -/
abbrev P (α : Type) := Bytes → Except Err (α × Bytes)

def P.pure {α : Type} (a : α) : P α := fun bs => .ok (a, bs)

def P.fail {α : Type} (e : Err) : P α := fun _ => .error e

def P.bind {α β : Type} (p : P α) (f : α → P β) : P β := fun bs =>
  match p bs with
  | .error e => .error e
  | .ok (a, rest) => f a rest

/-- `[p() for _ in range(n)]` -/
def P.times {α : Type} (p : P α) : Nat → P (List α)
  | 0 => .pure []
  | n + 1 => p.bind fun a => (p.times n).bind fun as => .pure (a :: as)

/-- reader.py:75-95 `read_varuint`: the loop. -/
def varuintLoop (result fk : Nat) : P Nat
  | [] => .error .eof
  | b :: bs =>
    let result := result + fk * (b.toNat % 128)
    if b.toNat < 0x80 then .ok (result, bs)
    else if result ≥ 2 ^ 64 then .error .parse
    else varuintLoop result (fk * 128) bs

/-- reader.py:75-95 `read_varuint` -/
def readVaruint : P Nat := varuintLoop 0 1

/-- `self._base.read(size)`: fewer bytes at the end. -/
def readUpTo (n : Nat) : P Bytes := fun bs => .ok (bs.take n, bs.drop n)

/-- reader.py:101-103 `read_bytes` -/
def readBytes : P Bytes := readVaruint.bind readUpTo

/-- reader.py:97-99 `read_string` -/
def readString (E : Env) : P Bytes :=
  readBytes.bind fun b => if E.utf8 b then .pure b else .fail .unicode

/-- The little endian value of bytes. -/
def leValue : Bytes → Nat
  | [] => 0
  | b :: bs => b.toNat + 256 * leValue bs

/-- reader.py:105-106 `_read_format` for an unsigned number (also the bits of
a float); `struct.unpack` wants exactly `size` bytes. -/
def readUnsigned (size : Nat) : P Nat :=
  (readUpTo size).bind fun b => if b.length = size then .pure (leValue b) else .fail .struct

/-- Two's complement. -/
def signed (size n : Nat) : Int := if n < 2 ^ (8 * size - 1) then n else (n : Int) - 2 ^ (8 * size)

/-- reader.py:105-106 `_read_format` for a signed number. -/
def readSigned (size : Nat) : P Int := (readUnsigned size).bind fun n => .pure (signed size n)

/-- reader.py:399-401, 409-411: `us / 1000000.0`, both the conversion and the
division round. -/
def seconds (us : Int) : ℚ := b64.roundQ (b64.roundQ us / 1000000)

/-- `d[k] = v` of a dictionary that keeps the order of insertion. -/
def dictSet {α : Type} (d : List (Bytes × α)) (k : Bytes) (v : α) : List (Bytes × α) :=
  match d with
  | [] => [(k, v)]
  | (k', v') :: rest => if k' = k then (k, v) :: rest else (k', v') :: dictSet rest k v

/-- `dict(...)` of pairs. -/
def dictOf {α : Type} (l : List (Bytes × α)) : List (Bytes × α) :=
  l.foldl (fun d e => dictSet d e.1 e.2) []

/-- `str(i)` -/
def decimalNat (n : Nat) : Bytes :=
  if n < 10 then [UInt8.ofNat (48 + n)] else decimalNat (n / 10) ++ [UInt8.ofNat (48 + n % 10)]
termination_by n
decreasing_by omega

def decimalInt (i : Int) : Bytes := if i < 0 then 45 :: decimalNat i.natAbs else decimalNat i.natAbs

/-- reader.py:320-332: the member of an enumeration with a value; a new member
named after the value if there is none.  Of two names for one value the first
is the member, the other an alias. -/
def enumMember (items : List (Bytes × Int)) (i : Int) : Val :=
  match items.find? fun e => decide (e.2 = i) with
  | some e => .enum i e.1
  | none => .enum i (decimalInt i)

/-- The integer of an enumeration. -/
def valInt : Val → P Int
  | .int i => .pure i
  | _ => .fail .enumValue

/-- reader.py:19-53 -/
def reservedKeywords : List Bytes :=
  ["False", "None", "True", "and", "as", "assert", "break", "class", "continue", "def", "del",
   "elif", "else", "except", "finally", "for", "from", "global", "if", "import", "in", "is",
   "lambda", "nonlocal", "not", "or", "pass", "raise", "return", "try", "while", "with",
   "yield"].map fun s => s.toUTF8.toList

/-- reader.py:56-59 `_escape_python3_identifier` -/
def escape (name : Bytes) : Bytes :=
  if name ∈ reservedKeywords then [112, 121, 95] ++ name else name

mutual

/-- The `read` methods, reader.py:132-411. -/
def read (E : Env) : Ty → P Val
  | .final => .fail .parse
  | .null => .pure .none
  | .bool => (readUnsigned 1).bind fun n => .pure (.bool (decide (n ≠ 0)))
  | .int size => (readSigned size).bind fun i => .pure (.int i)
  | .uint size => (readUnsigned size).bind fun n => .pure (.int n)
  | .varint => .fail .notImplemented
  | .varuint => readVaruint.bind fun n => .pure (.int n)
  | .f32 => (readUnsigned 4).bind fun n => .pure (.f32 n)
  | .f64 => (readUnsigned 8).bind fun n => .pure (.f64 n)
  | .bytes => readBytes.bind fun b => .pure (.bytes b)
  | .string => (readString E).bind fun b => .pure (.str b)
  | .object _ fields => (readFields E fields).bind fun l => .pure (.tuple l)
  | .enum base items =>
    (read E base).bind fun v => (valInt v).bind fun i => .pure (enumMember items i)
  | .array t => readVaruint.bind fun n => ((read E t).times n).bind fun l => .pure (.list l)
  | .fixedArray n t => ((read E t).times n).bind fun l => .pure (.list l)
  | .map t => readVaruint.bind fun n =>
      (P.times ((readString E).bind fun k => (read E t).bind fun v => .pure (k, v)) n).bind fun l =>
        .pure (.dict (dictOf l))
  | .union ts => readVaruint.bind fun i => readNth E ts i
  | .timestamp => (readSigned 8).bind fun i => .pure (.seconds (seconds i))
  | .duration => (readSigned 8).bind fun i => .pure (.seconds (seconds i))

/-- reader.py:298-299 -/
def readFields (E : Env) : Fields → P (List (Bytes × Val))
  | .nil => .pure []
  | .cons _ name _ t _ rest =>
    (read E t).bind fun v => (readFields E rest).bind fun l => .pure ((escape name, v) :: l)

/-- reader.py:389-391: `self.items[index].read(...)` -/
def readNth (E : Env) : Tys → Nat → P Val
  | .nil, _ => .fail .index
  | .cons t _, 0 => read E t
  | .cons _ rest, i + 1 => readNth E rest i

end

/-! ## Reading a schema -/

def Fields.names : Fields → List Bytes
  | .nil => []
  | .cons _ name _ _ _ rest => escape name :: rest.names

/-- reader.py:292-296: `namedtuple` raises `ValueError` for bad or repeated
names. -/
def makeObject (E : Env) (flags : Nat) (fields : Fields) : P Ty :=
  if (∀ n ∈ fields.names, E.fieldName n = true) ∧ fields.names.Nodup then
    .pure (.object flags fields)
  else .fail .value

/-- reader.py:334-338: an enumeration without members gets one. -/
def makeEnum (E : Env) (base : Ty) (items : List (Bytes × Int)) : P Ty :=
  let items := if items.length = 0 then [([95], -1)] else items
  if E.enumNames (items.map Prod.fst) then .pure (.enum base items) else .fail .value

/-- reader.py:166-168, 190-192 -/
def sizeOk (size : Nat) : Bool := size == 1 || size == 2 || size == 4 || size == 8

/-- reader.py:283-284: the default value of a field. -/
def readDefault (E : Env) (t : Ty) : P (Option Val) :=
  (readUnsigned 1).bind fun n =>
    if n ≠ 0 then (read E t).bind fun v => .pure (some v) else .pure none

/-- reader.py:305-308: one item of an enumeration. -/
def readItem (E : Env) (t : Ty) : P (Bytes × Int) :=
  (read E t).bind fun v => (readString E).bind fun k => (valInt v).bind fun i => .pure (k, i)

def isFinal : Ty → Bool
  | .final => true
  | _ => false

mutual

/-- reader.py:457-474 `Type.from_binary` and the `from_binary` of the types.
`fuel` bounds the depth of calls. -/
def parseType (E : Env) : Nat → P Ty
  | 0 => .fail .fuel
  | fuel + 1 => readVaruint.bind fun index =>
    match index with
    | 0 => .pure .final
    | 1 => .pure .null
    | 2 => .pure .bool
    | 3 => (readUnsigned 1).bind fun n => if sizeOk n then .pure (.int n) else .fail .parse
    | 4 => (readUnsigned 1).bind fun n => if sizeOk n then .pure (.uint n) else .fail .parse
    | 5 => .pure .varint
    | 6 => .pure .varuint
    | 7 => .pure .f32
    | 8 => .pure .f64
    | 9 => .pure .bytes
    | 10 => .pure .string
    | 16 => readVaruint.bind fun _ => (parseFields E fuel).bind fun r => makeObject E r.1 r.2
    | 17 => (parseType E fuel).bind fun t => readVaruint.bind fun n =>
        ((readItem E t).times n).bind fun l => makeEnum E t (dictOf l)
    | 18 => (parseType E fuel).bind fun t => .pure (.array t)
    | 19 => readVaruint.bind fun n => (parseType E fuel).bind fun t => .pure (.fixedArray n t)
    | 20 => (parseType E fuel).bind fun t => .pure (.map t)
    | 21 => (parseUnion E fuel).bind fun ts => .pure (.union ts)
    | 22 => .pure .timestamp
    | 23 => .pure .duration
    | n => if n < 16 then .fail .notCallable else .fail .unknownType

/-- reader.py:277-288: the fields of an object and the flags read last. -/
def parseFields (E : Env) : Nat → P (Nat × Fields)
  | 0 => .fail .fuel
  | fuel + 1 => readVaruint.bind fun flags => (readString E).bind fun name =>
      readVaruint.bind fun naliases => ((readString E).times naliases).bind fun aliases =>
        (parseType E fuel).bind fun t => (readDefault E t).bind fun d =>
          if isFinal t then .pure (flags, .nil)
          else (parseFields E fuel).bind fun r => .pure (r.1, .cons flags name aliases t d r.2)

/-- reader.py:376-384 -/
def parseUnion (E : Env) : Nat → P Tys
  | 0 => .fail .fuel
  | fuel + 1 => (parseType E fuel).bind fun t =>
      if isFinal t then .pure .nil
      else (parseUnion E fuel).bind fun r => .pure (.cons t r)

end

/-- reader.py:457-474 `Type.from_binary` -/
def fromBinary (E : Env) : P Ty := fun bs => parseType E (2 * bs.length + 1) bs

end Verif.Telemetry
