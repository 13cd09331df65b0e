import Verif.Multiplex.Props
import Verif.Commands.ReplyProps
import Verif.Fw.RegReplies

/-!
# How the C++ library reads a reply

Model of `MultiplexParser` in `lib/cpp/mjbots/moteus/moteus_multiplex.h` (284-580) and of `Query::Parse` and
`Query::ParseGeneric` in `moteus_protocol.h` (455-724), on a host (not ARDUINO).

A frame is the list of its bytes.  The pair (`data_`, `offset_`) is represented by what is left of the frame;
`offset_` never exceeds `size_`.  Not modelled: the left shift of the fifth byte of a number, which overflows
`int` (all compilers give the bits that `uint16_t` drops anyway).

Property C104.
-/

namespace Verif.Cxx.Replies

open Verif Verif.Float Verif.Multiplex Verif.Multiplex.Spec Verif.Commands Verif.Commands.Spec

/-! ## Model: the parser -/

/-- Conversion to `int8_t`. -/
def i8 (n : ℤ) : ℤ := (n + 128) % 256 - 128

/-- The members of `MultiplexParser`, `moteus_multiplex.h` 571-579: what is left of the data, `remaining_`,
`current_register_`, `current_resolution_`. -/
structure Parser where
  rest : Bytes
  remaining : ℤ
  register : ℕ
  res : Res
deriving DecidableEq

/-- `moteus_multiplex.h` 287-292; the resolution starts as `kIgnore`, but it is not used before it is set. -/
def Parser.init (data : Bytes) : Parser := ⟨data, 0, 0, .int8⟩

/-- `ReadVaruint`, `moteus_multiplex.h` 294-310, with at most `n` further bytes. -/
def varuintC : ℕ → ℕ → ℕ → Bytes → ℕ × Bytes
  | 0, _, acc, l => (acc, l)
  | _ + 1, _, acc, [] => (acc, [])
  | n + 1, shift, acc, b :: l =>
    let acc := (acc ||| ((b.toNat &&& 0x7f) <<< shift)) % 65536
    if b.toNat &&& 0x80 = 0 then (acc, l) else varuintC n (shift + 7) acc l

/-- `moteus_multiplex.h` 376-384: the register and the first value of a block of `count` (an `int8_t`)
values. -/
def block (rest : Bytes) (count : ℤ) (r : Res) : Option (ℕ × Res) × Parser :=
  let v := varuintC 5 0 0 rest
  if v.2.length < r.size then (none, ⟨v.2, i8 (count - 1), v.1, r⟩)
  else (some (v.1, r), ⟨v.2, i8 (count - 1), (v.1 + 1) % 65536, r⟩)

/-- The loop of `next`, `moteus_multiplex.h` 343-394; `none` is `done`. -/
def scan (register : ℕ) (r : Res) : Bytes → Option (ℕ × Res) × Parser
  | [] => (none, ⟨[], 0, register, r⟩)
  | cmd :: rest =>
    if cmd = NOP then scan register r rest
    else match rest with
    | [] => (none, ⟨[], 0, register, r⟩)
    | b :: rest' =>
      if 0x20 ≤ cmd.toNat ∧ cmd.toNat < 0x30 then
        let r := Res.ofId ((cmd.toNat >>> 2) &&& 0x03)
        let count : ℤ := (cmd.toNat &&& 0x03 : ℕ)
        if count = 0 then
          let count := i8 b.toNat
          match rest' with
          | [] => (none, ⟨[], 0, register, r⟩)
          | c :: rest'' =>
            if count = 0 then scan register r (c :: rest'') else block (c :: rest'') count r
        else block (b :: rest') count r
      else (none, ⟨[], 0, register, r⟩)

/-- `next`, `moteus_multiplex.h` 325-395. -/
def Parser.next (p : Parser) : Option (ℕ × Res) × Parser :=
  if p.rest = [] then (none, p)
  else if p.remaining ≠ 0 then
    let p' := { p with remaining := i8 (p.remaining - 1), register := (p.register + 1) % 65536 }
    if p.rest.length < p.res.size then (none, p')
    else (some (p.register, p.res), p')
  else scan p.register p.res p.rest

/-- `Read`, `moteus_multiplex.h` 397-407: the bytes of a value; `none` is `abort()`. -/
def Parser.read (p : Parser) (r : Res) : Option (Bytes × Parser) :=
  if p.rest.length < r.size then none
  else some (p.rest.take r.size, { p with rest := p.rest.drop r.size })

/-- The loop of `Query::Parse`, `moteus_protocol.h` 473-477, without the meaning of the values: every branch
reads one value of the announced type.  The outer `none`: more than `fuel` values, the inner: `abort()`. -/
def Parser.loop : ℕ → Parser → Option (Option (List (ℕ × Res × Bytes)))
  | 0, _ => none
  | fuel + 1, p =>
    match p.next with
    | (none, _) => some (some [])
    | (some (reg, r), p) =>
      match p.read r with
      | none => some none
      | some (b, p) =>
        match Parser.loop fuel p with
        | none => none
        | some none => some none
        | some (some l) => some (some ((reg, r, b) :: l))

/-- The registers of a frame. -/
def values (data : Bytes) : Option (Option (List (ℕ × Res × Bytes))) :=
  Parser.loop (data.length + 1) (Parser.init data)

/-! ## Model: the values -/

/-- The mappings of `ReadConcrete`, `moteus_multiplex.h` 438-449. -/
inductive Concrete
  | int | mapped (k : Kind) | theta
deriving DecidableEq

/-- `M_PI` -/
def mPi : ℚ := 884279719003555 / 281474976710656

/-- `kMappingValues`, `moteus_multiplex.h` 451-470. -/
def Concrete.nominal : Concrete → Res → ℚ
  | .int, _ => 1
  | .mapped .position, .int8 => 0.01 | .mapped .position, .int16 => 0.0001 | .mapped .position, _ => 0.00001
  | .mapped .velocity, .int8 => 0.1 | .mapped .velocity, .int16 => 0.00025 | .mapped .velocity, _ => 0.00001
  | .mapped .torque, .int8 => 0.5 | .mapped .torque, .int16 => 0.01 | .mapped .torque, _ => 0.001
  | .mapped .pwm, .int8 => 1 / 127 | .mapped .pwm, .int16 => 1 / 32767 | .mapped .pwm, _ => 1 / 2147483647
  | .mapped .voltage, .int8 => 0.5 | .mapped .voltage, .int16 => 0.1 | .mapped .voltage, _ => 0.001
  | .mapped .temperature, .int8 => 1 | .mapped .temperature, .int16 => 0.1 | .mapped .temperature, _ => 0.001
  | .mapped .time, .int8 => 0.01 | .mapped .time, .int16 => 0.001 | .mapped .time, _ => 0.000001
  | .mapped .current, .int8 => 1 | .mapped .current, .int16 => 0.1 | .mapped .current, _ => 0.001
  | .mapped .power, .int8 => 10 | .mapped .power, .int16 => 0.05 | .mapped .power, _ => 0.0001
  | .mapped .accel, .int8 => 0.05 | .mapped .accel, .int16 => 0.001 | .mapped .accel, _ => 0.00001
  | .theta, .int8 => b64.roundQ (1 / 127) * mPi
  | .theta, .int16 => b64.roundQ (1 / 32767) * mPi
  | .theta, _ => b64.roundQ (1 / 2147483647) * mPi

/-- The scale as a `double`. -/
def Concrete.scale (c : Concrete) (r : Res) : ℚ := b64.roundQ (c.nominal r)

/-- `numeric_limits<T>::min()` -/
def smallest : Res → ℤ
  | .int8 => -128 | .int16 => -32768 | .int32 => -2147483648 | .f32 => 0

/-- `ReadConcrete` (`moteus_multiplex.h` 451-500) with `Nanify` (409-415). -/
def readConcrete (c : Concrete) (r : Res) (b : Bytes) : Fl :=
  match r with
  | .f32 => unpack32 (leNat b)
  | r => if toSigned r.size (leNat b) = smallest r then .nan
    else b64.round (toSigned r.size (leNat b) * c.scale r)

/-- `static_cast<int>(double)`; `none`: undefined behaviour. -/
def toInt : Fl → Option ℤ
  | .fin q => if -2147483648 ≤ truncQ q ∧ truncQ q ≤ 2147483647 then some (truncQ q) else none
  | _ => none

/-- `ReadInt`, `moteus_multiplex.h` 502-504. -/
def readInt (r : Res) (b : Bytes) : Option ℤ := toInt (readConcrete .int r b)

/-- `kRegisterDefinitions`, `moteus_protocol.h` 582-695: first register, how many, the mapping. -/
def definitions : List (ℕ × ℕ × Concrete) :=
  [ (0x000, 1, .int), (0x001, 1, .mapped .position), (0x002, 1, .mapped .velocity),
    (0x003, 1, .mapped .torque), (0x004, 2, .mapped .current), (0x006, 1, .mapped .position),
    (0x007, 1, .mapped .power), (0x00a, 1, .mapped .temperature), (0x00b, 2, .int),
    (0x00d, 1, .mapped .voltage), (0x00e, 1, .mapped .temperature), (0x00f, 1, .int),
    (0x010, 3, .mapped .pwm), (0x014, 3, .mapped .voltage), (0x018, 1, .theta),
    (0x019, 3, .mapped .voltage), (0x01c, 2, .mapped .current),
    (0x020, 1, .mapped .position), (0x021, 1, .mapped .velocity), (0x022, 1, .mapped .torque),
    (0x023, 2, .mapped .pwm), (0x025, 1, .mapped .torque), (0x026, 1, .mapped .position),
    (0x027, 1, .mapped .time), (0x028, 1, .mapped .velocity), (0x029, 1, .mapped .accel),
    (0x02a, 1, .mapped .voltage), (0x030, 5, .mapped .torque),
    (0x038, 1, .mapped .position), (0x039, 1, .mapped .velocity), (0x03a, 1, .mapped .torque),
    (0x03b, 1, .mapped .position), (0x03c, 1, .mapped .velocity), (0x03d, 1, .mapped .torque),
    (0x040, 2, .mapped .position), (0x042, 1, .mapped .torque), (0x043, 2, .mapped .pwm),
    (0x045, 1, .mapped .torque), (0x046, 1, .mapped .time), (0x047, 1, .mapped .pwm),
    (0x050, 1, .mapped .position), (0x051, 1, .mapped .velocity), (0x052, 1, .mapped .position),
    (0x053, 1, .mapped .velocity), (0x054, 1, .mapped .position), (0x055, 1, .mapped .velocity),
    (0x058, 1, .int), (0x05c, 4, .int), (0x060, 5, .mapped .pwm), (0x068, 5, .mapped .pwm),
    (0x070, 2, .int), (0x076, 10, .mapped .pwm), (0x102, 1, .int), (0x120, 3, .int), (0x130, 3, .int),
    (0x140, 2, .int) ]

/-- `ParseGeneric`, `moteus_protocol.h` 571-724; `none`: undefined behaviour. -/
def parseGeneric (reg : ℕ) (r : Res) (b : Bytes) : Option Fl :=
  match definitions.find? (fun d => decide (d.1 ≤ reg ∧ reg < d.1 + d.2.1)) with
  | some d => some (readConcrete d.2.2 r b)
  | none => (readInt r b).map fun n : ℤ => Fl.fin (n : ℚ)

/-- `Query::Result`, `moteus_protocol.h` 285-312, the named members by the number of their register: the
`double`s, the integers (`none`: the result of undefined behaviour), the extra registers in use.  `bad`: the
conversion of a dropped value was undefined. -/
structure Result where
  dbl : ℕ → Fl
  int : ℕ → Option ℤ
  extra : List (ℕ × Option Fl)
  bad : Bool

/-- `moteus_protocol.h` 286-311 -/
def Result.init : Result := ⟨fun _ => .nan, fun _ => some 0, [], false⟩

def Result.setD (s : Result) (reg : ℕ) (x : Fl) : Result :=
  { s with dbl := fun i => if i = reg then x else s.dbl i }

def Result.setI (s : Result) (reg : ℕ) (x : Option ℤ) : Result :=
  { s with int := fun i => if i = reg then x else s.int i }

/-- The switch of `Query::Parse`, `moteus_protocol.h` 479-566; `kMaxExtra` is 16. -/
def Result.step (s : Result) (x : ℕ × Res × Bytes) : Result :=
  let r := x.2.1
  let b := x.2.2
  match x.1 with
  | 0x000 => s.setI 0x000 (readInt r b)
  | 0x001 => s.setD 0x001 (readConcrete (.mapped .position) r b)
  | 0x002 => s.setD 0x002 (readConcrete (.mapped .velocity) r b)
  | 0x003 => s.setD 0x003 (readConcrete (.mapped .torque) r b)
  | 0x004 => s.setD 0x004 (readConcrete (.mapped .current) r b)
  | 0x005 => s.setD 0x005 (readConcrete (.mapped .current) r b)
  | 0x006 => s.setD 0x006 (readConcrete (.mapped .position) r b)
  | 0x007 => s.setD 0x007 (readConcrete (.mapped .power) r b)
  | 0x00a => s.setD 0x00a (readConcrete (.mapped .temperature) r b)
  | 0x00b => s.setI 0x00b ((readInt r b).map fun n => if n ≠ 0 then 1 else 0)
  | 0x00c => s.setI 0x00c (readInt r b)
  | 0x00d => s.setD 0x00d (readConcrete (.mapped .voltage) r b)
  | 0x00e => s.setD 0x00e (readConcrete (.mapped .temperature) r b)
  | 0x00f => s.setI 0x00f ((readInt r b).map i8)
  | 0x05e => s.setI 0x05e ((readInt r b).map i8)
  | 0x05f => s.setI 0x05f ((readInt r b).map i8)
  | reg =>
    if s.extra.length < 16 then { s with extra := s.extra ++ [(reg, parseGeneric reg r b)] }
    else if readInt r b = none then { s with bad := true } else s

/-- `Query::Parse`, `moteus_protocol.h` 468-569. -/
def query (l : List (ℕ × Res × Bytes)) : Result := l.foldl Result.step Result.init

/-! ## The parser: it stays inside of the frame -/

theorem varuintC_suffix (n s a : ℕ) (l : Bytes) : (varuintC n s a l).2 <:+ l := by
  induction n generalizing s a l with
  | zero => exact List.suffix_refl _
  | succ n ih =>
    cases l with
    | nil => exact List.suffix_refl _
    | cons b l =>
      rw [varuintC]
      split
      · exact List.suffix_cons _ _
      · exact (ih _ _ _).trans (List.suffix_cons _ _)

theorem block_valid {rest : Bytes} {count : ℤ} {r r' : Res} {reg : ℕ} {p : Parser}
    (h : block rest count r = (some (reg, r'), p)) : p.rest <:+ rest ∧ r'.size ≤ p.rest.length := by
  unfold block at h
  simp only at h
  split at h
  · simp at h
  · next hl =>
    simp only [Prod.mk.injEq, Option.some.injEq] at h
    obtain ⟨⟨rfl, rfl⟩, rfl⟩ := h
    exact ⟨varuintC_suffix _ _ _ _, by simpa using hl⟩

theorem scan_valid {reg0 : ℕ} {res0 : Res} {data : Bytes} {reg : ℕ} {r : Res} {p : Parser}
    (h : scan reg0 res0 data = (some (reg, r), p)) : p.rest <:+ data ∧ r.size ≤ p.rest.length := by
  induction hn : data.length using Nat.strongRecOn generalizing data reg0 res0 with
  | ind n ih =>
    cases data with
    | nil => simp [scan] at h
    | cons cmd rest =>
      unfold scan at h
      split at h
      · obtain ⟨h1, h2⟩ := ih rest.length (by simp at hn; omega) h rfl
        exact ⟨h1.trans (List.suffix_cons _ _), h2⟩
      · cases rest with
        | nil => simp at h
        | cons b rest' =>
          simp only at h
          split at h
          · split at h
            · cases rest' with
              | nil => simp at h
              | cons c rest'' =>
                simp only at h
                split at h
                · obtain ⟨h1, h2⟩ := ih (c :: rest'').length (by simp at hn ⊢; omega) h rfl
                  exact ⟨h1.trans ((List.suffix_cons _ _).trans (List.suffix_cons _ _)), h2⟩
                · obtain ⟨h1, h2⟩ := block_valid h
                  exact ⟨h1.trans ((List.suffix_cons _ _).trans (List.suffix_cons _ _)), h2⟩
            · obtain ⟨h1, h2⟩ := block_valid h
              exact ⟨h1.trans (List.suffix_cons _ _), h2⟩
          · simp at h

theorem next_valid {p p' : Parser} {reg : ℕ} {r : Res} (h : p.next = (some (reg, r), p')) :
    p'.rest <:+ p.rest ∧ r.size ≤ p'.rest.length := by
  unfold Parser.next at h
  split at h
  · simp at h
  · split at h
    · simp only at h
      split at h
      · simp at h
      · next hl =>
        simp only [Prod.mk.injEq, Option.some.injEq] at h
        obtain ⟨⟨rfl, rfl⟩, rfl⟩ := h
        exact ⟨List.suffix_refl _, by simpa using hl⟩
    · exact scan_valid h

theorem loop_total {fuel : ℕ} {p : Parser} (hf : p.rest.length < fuel) :
    ∃ l, Parser.loop fuel p = some (some l) ∧ Layout p.rest l := by
  induction fuel generalizing p with
  | zero => omega
  | succ fuel ih =>
    unfold Parser.loop
    cases hn : p.next with
    | mk o p' =>
      cases o with
      | none => exact ⟨[], rfl, .nil _⟩
      | some x =>
        obtain ⟨reg, r⟩ := x
        obtain ⟨h1, h2⟩ := next_valid hn
        have hpos := r.size_pos
        have hle := h1.length_le
        simp only [Parser.read]
        rw [if_neg (by omega)]
        obtain ⟨l, h3, h4⟩ := ih (p := { p' with rest := p'.rest.drop r.size }) (by simp; omega)
        simp only [h3]
        refine ⟨_, rfl, ?_⟩
        obtain ⟨g, hg⟩ := h1
        rw [← hg]
        apply layout_gap
        have := Layout.cons [] (p'.rest.take r.size) (p'.rest.drop r.size) reg r l (by simp; omega) h4
        simpa using this

/-- C104: whatever the bytes of a frame, `Query::Parse` ends, never calls `abort()`, and every value that it
uses comes from its own place in the frame, in order. -/
theorem C104_total (data : Bytes) : ∃ l, values data = some (some l) ∧ Layout data l :=
  loop_total (p := Parser.init data) (by simp [Parser.init])

example : values [0x22, 0x01, 7, 9, 0x50, 0x24, 0x00, 0x05, 0x10, 1, 2] =
    some (some [(1, .int8, [7]), (2, .int8, [9])]) := by decide

/-! ## The parser: the same registers as in Python -/

theorem varuintC_spec (n s a : ℕ) (bs rest : Bytes) (v : ℕ) (ha : a < 65536) (ha2 : a < 2 ^ s)
    (h : varuint n bs = some (v, rest)) : varuintC n s a bs = ((a + v * 2 ^ s) % 65536, rest) := by
  induction n generalizing s a bs v with
  | zero => simp [varuint] at h
  | succ n ih =>
    cases bs with
    | nil => simp [varuint] at h
    | cons b bs =>
      have hb := b.toNat_lt
      simp only [varuint] at h
      rw [varuintC]
      simp only [and_7f]
      rw [or_shift _ _ _ ha2]
      by_cases hlt : b.toNat < 128
      · rw [if_pos hlt] at h
        simp only [Option.some.injEq, Prod.mk.injEq] at h
        obtain ⟨rfl, rfl⟩ := h
        rw [if_pos ((and_80_eq_zero _ hb).mpr hlt), Nat.mod_eq_of_lt hlt]
      · rw [if_neg hlt] at h
        rw [if_neg (fun hc => hlt ((and_80_eq_zero _ hb).mp hc))]
        cases hv : varuint n bs with
        | none => rw [hv] at h; simp at h
        | some w =>
          obtain ⟨w, rest'⟩ := w
          rw [hv] at h
          simp only [Option.some.injEq, Prod.mk.injEq] at h
          obtain ⟨rfl, rfl⟩ := h
          have h7 : (2 : ℕ) ^ (s + 7) = 128 * 2 ^ s := by rw [pow_add]; ring
          rw [ih (s + 7) _ bs w (Nat.mod_lt _ (by decide)) ?_ hv]
          · rw [h7]
            congr 1
            have e : b.toNat % 128 = b.toNat - 128 := by omega
            rw [e]
            rw [Nat.add_mod, Nat.mod_mod, ← Nat.add_mod]
            congr 1
            ring
          · refine lt_of_le_of_lt (Nat.mod_le _ _) ?_
            rw [h7]
            have : b.toNat % 128 < 128 := Nat.mod_lt _ (by decide)
            nlinarith [Nat.pos_of_ne_zero (show (2 : ℕ) ^ s ≠ 0 by positivity)]

theorem i8_zero {n : ℕ} (h : n < 256) : i8 n = 0 ↔ n = 0 := by unfold i8; omega

theorem i8_sub (n m : ℤ) : i8 (i8 n - m) = i8 (n - m) := by unfold i8; omega

theorem i8_pred {n : ℕ} (h : 0 < n) : i8 ((n : ℤ) - 1) = i8 ((n - 1 : ℕ) : ℤ) := by
  congr 1; omega

/-- The two parsers in the same situation. -/
structure Sim (p : RegisterParser) (q : Parser) : Prop where
  rest : q.rest = p.rest
  remaining : q.remaining = i8 p.remaining
  small : p.remaining < 256
  register : q.register = p.register % 65536
  res : q.res = p.resolution

theorem sim_init (data : Bytes) : Sim (RegisterParser.init data) (Parser.init data) :=
  ⟨rfl, by simp [Parser.init, RegisterParser.init, i8], by simp [RegisterParser.init],
    by simp [Parser.init, RegisterParser.init], rfl⟩

theorem block_sim {rest : Bytes} {n old : ℕ} {c : ℤ} {r r' : Res} {reg : ℕ} {p : RegisterParser}
    (hc : i8 (c - 1) = i8 ((n - 1 : ℕ) : ℤ)) (hn : n < 256)
    (h : RegisterParser.block rest n old r = (some (reg, r'), p)) :
    ∃ q, block rest c r = (some (reg % 65536, r'), q) ∧ Sim p q := by
  unfold RegisterParser.block at h
  cases hv : readVaruint 0 rest with
  | mk v k =>
    rw [hv] at h
    cases v with
    | none => simp at h
    | some v =>
      obtain ⟨hs, -, -⟩ := readVaruint_zero_some hv
      have hw := varuintC_spec 5 0 0 rest _ v (by decide) (by decide) hs
      simp only [Nat.zero_add, pow_zero, Nat.mul_one] at hw
      simp only at h
      split at h
      · simp at h
      · next hl =>
        simp only [Prod.mk.injEq, Option.some.injEq] at h
        obtain ⟨⟨rfl, rfl⟩, rfl⟩ := h
        unfold block
        simp only [hw]
        rw [if_neg hl]
        exact ⟨_, rfl, rfl, hc, by simp only; omega, by simp only; omega, rfl⟩

theorem scan_sim {reg0 reg0' : ℕ} {res0 : Res} {data : Bytes} {reg : ℕ} {r : Res} {p : RegisterParser}
    (h : RegisterParser.scan reg0 res0 data = (some (reg, r), p)) :
    ∃ q, scan reg0' res0 data = (some (reg % 65536, r), q) ∧ Sim p q := by
  induction hn : data.length using Nat.strongRecOn generalizing data reg0 reg0' res0 with
  | ind n ih =>
    cases data with
    | nil => simp [RegisterParser.scan] at h
    | cons cmd rest =>
      unfold RegisterParser.scan at h
      unfold scan
      by_cases hnop : cmd = NOP
      · rw [if_pos hnop] at h ⊢
        exact ih rest.length (by simp at hn; omega) h rfl
      · rw [if_neg hnop] at h ⊢
        cases rest with
        | nil => simp at h
        | cons b rest' =>
          simp only at h ⊢
          by_cases hcmd : 0x20 ≤ cmd.toNat ∧ cmd.toNat < 0x30
          · rw [if_pos hcmd] at h ⊢
            by_cases hc : cmd.toNat &&& 0x03 = 0
            · rw [if_pos hc] at h
              rw [if_pos (by rw [hc]; rfl)]
              cases rest' with
              | nil => simp at h
              | cons c rest'' =>
                simp only at h ⊢
                have hb := b.toNat_lt
                by_cases hz : b.toNat = 0
                · rw [if_pos hz] at h
                  rw [if_pos ((i8_zero hb).mpr hz)]
                  exact ih (c :: rest'').length (by simp at hn ⊢; omega) h rfl
                · rw [if_neg hz] at h
                  rw [if_neg (fun hh => hz ((i8_zero hb).mp hh))]
                  refine block_sim ?_ hb h
                  rw [i8_sub, i8_pred (by omega)]
            · rw [if_neg hc] at h
              rw [if_neg (by exact_mod_cast hc)]
              have h3 : cmd.toNat &&& 0x03 ≤ 3 := Nat.and_le_right
              exact block_sim (i8_pred (by omega)) (by omega) h
          · rw [if_neg hcmd] at h
            simp at h

theorem next_sim {p p' : RegisterParser} {q : Parser} {reg : ℕ} {r : Res} (hs : Sim p q)
    (h : p.next = (some (reg, r), p')) :
    ∃ q', q.next = (some (reg % 65536, r), q') ∧ Sim p' q' := by
  obtain ⟨h1, h2, h3, h4, h5⟩ := hs
  unfold RegisterParser.next at h
  unfold Parser.next
  rw [h1]
  by_cases he : p.rest = []
  · rw [if_pos he] at h; simp at h
  · rw [if_neg he] at h ⊢
    by_cases hr : p.remaining = 0
    · rw [if_neg (by simpa using hr)] at h
      rw [if_neg (by rw [h2, not_not]; exact (i8_zero h3).mpr hr)]
      rw [h5]
      exact scan_sim h
    · rw [if_pos hr] at h
      rw [if_pos (by rw [h2]; exact fun hh => hr ((i8_zero h3).mp hh))]
      simp only at h ⊢
      rw [h5]
      split at h
      · simp at h
      · next hl =>
        simp only [Prod.mk.injEq, Option.some.injEq] at h
        obtain ⟨⟨rfl, rfl⟩, rfl⟩ := h
        rw [if_neg hl, h4]
        refine ⟨_, rfl, by simp only, ?_, by simp only; omega, by simp only; omega, by simp only⟩
        simp only
        rw [h2, i8_sub, i8_pred (by omega)]

/-- The number of a register as the C++ library keeps it. -/
def short (x : ℕ × Res × Bytes) : ℕ × Res × Bytes := (x.1 % 65536, x.2)

theorem loop_prefix {fuel : ℕ} {p : RegisterParser} {q : Parser} (hs : Sim p q)
    (hf : p.rest.length < fuel) {l : List (ℕ × Res × Bytes)}
    (h : RegisterParser.loop fuel p = some (.ok l)) :
    ∃ l', Parser.loop fuel q = some (some (l.map short ++ l')) := by
  induction fuel generalizing p q l with
  | zero => omega
  | succ fuel ih =>
    unfold RegisterParser.loop at h
    cases hn : p.next with
    | mk o p' =>
      rw [hn] at h
      cases o with
      | none =>
        simp only [Option.some.injEq, Except.ok.injEq] at h
        subst h
        obtain ⟨l', h1, -⟩ := loop_total (fuel := fuel + 1) (p := q) (by rw [hs.rest]; exact hf)
        exact ⟨l', by simpa using h1⟩
      | some x =>
        obtain ⟨reg, r⟩ := x
        obtain ⟨h1, h2⟩ := Multiplex.next_valid hn
        obtain ⟨q', h3, h4⟩ := next_sim hs hn
        have hpos := r.size_pos
        have hle := h1.length_le
        simp only [RegisterParser.read] at h
        rw [if_neg (by omega)] at h
        simp only at h
        unfold Parser.loop
        rw [h3]
        simp only [Parser.read]
        rw [h4.rest, if_neg (by omega)]
        simp only
        cases hl : RegisterParser.loop fuel { p' with rest := p'.rest.drop r.size } with
        | none => rw [hl] at h; simp at h
        | some y =>
          cases y with
          | error e => rw [hl] at h; simp at h
          | ok l0 =>
            rw [hl] at h
            simp only [Option.some.injEq, Except.ok.injEq] at h
            subst h
            obtain ⟨l', h5⟩ := ih (p := { p' with rest := p'.rest.drop r.size })
              (q := { q' with rest := p'.rest.drop r.size })
              ⟨rfl, h4.remaining, h4.small, h4.register, h4.res⟩ (by simp; omega) hl
            rw [h5]
            exact ⟨l', rfl⟩

/-- C104: the registers that the Python library finds in a frame, any bytes, are the first that the C++
library finds, with their types and bytes; numbers of registers are reduced to 16 bits. -/
theorem C104_prefix (data : Bytes) (l : List (ℕ × Res × Bytes)) (h : parse data = some (.ok l)) :
    ∃ l', values data = some (some (l.map short ++ l')) :=
  loop_prefix (sim_init data) (by simp [RegisterParser.init]) h

example : parse [0x24, 0x02, 0x81, 0x80, 0x04, 1, 2, 3, 4] =
      some (.ok [(65537, .int16, [1, 2]), (65538, .int16, [3, 4])]) := by rfl

/-- C104, contradiction: register 65537 (`0x81 0x80 0x04`) is taken for register 1, so that it sets the
position; in Python it is register 65537. -/
theorem C104_register_refuted :
    parse [0x25, 0x81, 0x80, 0x04, 0x10, 0x27] = some (.ok [(65537, .int16, [0x10, 0x27])]) ∧
      values [0x25, 0x81, 0x80, 0x04, 0x10, 0x27] = some (some [(1, .int16, [0x10, 0x27])]) ∧
      (query [(1, .int16, [0x10, 0x27])]).dbl 1 = .fin 1 :=
  ⟨by rfl, by decide, by decide +kernel⟩

/-! ## What a controller sends -/

/-- The Python parser goes from one situation to another and reports the values. -/
inductive Steps : RegisterParser → List (ℕ × Res × Bytes) → RegisterParser → Prop
  | refl (p) : Steps p [] p
  | pad (data : Bytes) (reg : ℕ) (r : Res) (l) (q) :
    Steps ⟨data, 0, reg, r⟩ l q → Steps ⟨NOP :: data, 0, reg, r⟩ l q
  | value (p : RegisterParser) (reg rem reg' : ℕ) (r : Res) (w data : Bytes) (l) (q) :
    p.next = (some (reg, r), ⟨w ++ data, rem, reg', r⟩) → w.length = r.size →
    Steps ⟨data, rem, reg', r⟩ l q → Steps p ((reg, r, w) :: l) q

theorem Steps.trans {p q s : RegisterParser} {l m : List (ℕ × Res × Bytes)} (h : Steps p l q)
    (h2 : Steps q m s) : Steps p (l ++ m) s := by
  induction h with
  | refl => exact h2
  | pad data reg r l q _ ih => exact .pad _ _ _ _ _ (ih h2)
  | value p reg rem reg' r w data l q h1 h3 _ ih => exact .value _ _ _ _ _ _ _ _ _ h1 h3 (ih h2)

theorem steps_pads (n : ℕ) (data : Bytes) (reg : ℕ) (r : Res) :
    Steps ⟨List.replicate n NOP ++ data, 0, reg, r⟩ [] ⟨data, 0, reg, r⟩ := by
  induction n with
  | zero => exact .refl _
  | succ n ih => exact .pad _ _ _ _ _ ih

theorem steps_enc (items : List (Option Res × Bytes)) (reg : ℕ) (prev : Option (Option Res))
    (tail : Bytes) (p : RegisterParser)
    (hp : p.rest = enc 0x20 reg prev items ++ tail)
    (hal : Aligned prev (items.map Prod.fst) reg p)
    (hsz : SizesOk items) (hruns : RunsOk prev (items.map Prod.fst))
    (hreg : reg + items.length ≤ 2 ^ 35) :
    ∃ g r, Steps p (wantedValues reg items) ⟨tail, 0, g, r⟩ := by
  induction items generalizing reg prev p with
  | nil =>
    have h0 : p.remaining = 0 := by
      unfold Aligned at hal
      split at hal
      · simp [countRun] at hal; exact hal.1
      · exact hal
    obtain ⟨rest, remaining, register, resolution⟩ := p
    simp only at h0 hp
    subst h0
    simp [enc] at hp
    subst hp
    exact ⟨_, _, .refl _⟩
  | cons it items ih =>
    obtain ⟨x, w⟩ := it
    have hsz' : SizesOk items := fun r v h => hsz r v (List.mem_cons_of_mem _ h)
    simp only [List.length_cons] at hreg
    cases x with
    | none =>
      simp only [wantedValues]
      refine ih (reg + 1) (some none) p hp ?_ hsz' hruns (by omega)
      unfold Aligned at hal ⊢
      simp only [List.map_cons] at hal
      split at hal
      · simp [countRun] at hal; exact hal.1
      · exact hal
    | some r =>
      have hwlen : w.length = r.size := hsz r w (by simp)
      have hrs := r.size_pos
      simp only [wantedValues]
      simp only [List.map_cons] at hal hruns
      have hnext : p.next = (some (reg, r),
          ⟨w ++ (enc 0x20 (reg + 1) (some (some r)) items ++ tail),
            countRun r (items.map Prod.fst), reg + 1, r⟩) := by
        by_cases hprev : prev = some (some r)
        · subst hprev
          simp only [enc, if_true, List.nil_append] at hp
          simp only [Aligned, countRun, if_true] at hal
          obtain ⟨hrem, hal⟩ := hal
          obtain ⟨hres, hregister⟩ := hal (by omega)
          obtain ⟨rest, remaining, register, resolution⟩ := p
          simp only at hrem hres hregister hp
          subst hrem hres hregister
          unfold RegisterParser.next
          rw [if_neg (by simp [hp]; intro h; simp [h] at hwlen; omega)]
          rw [if_pos (by simp)]
          simp only [hp]
          rw [if_neg (by simp; omega)]
          simp
        · simp only [enc, hprev, if_false, List.append_assoc] at hp
          have hrem : p.remaining = 0 := by
            unfold Aligned at hal
            split at hal
            · next r' =>
              have : r ≠ r' := by rintro rfl; exact hprev rfl
              simp [countRun, this] at hal; exact hal.1
            · exact hal
          have hcount : countRun r (items.map Prod.fst) < 127 := by
            rcases hruns.1 with h | h
            · exact absurd h hprev
            · exact h
          unfold RegisterParser.next
          rw [if_neg (by
            rw [hp]; intro h
            have := congrArg List.length h
            simp at this; obtain ⟨_, h2, _⟩ := this
            subst h2; simp at hwlen; omega)]
          rw [if_neg (by simp [hrem]), hp]
          rw [scan_header _ _ r _ (by omega) (by omega) (by omega) (by simp; omega)]
          simp
      obtain ⟨g, r', hst⟩ := ih (reg + 1) (some (some r))
        ⟨enc 0x20 (reg + 1) (some (some r)) items ++ tail, countRun r (items.map Prod.fst), reg + 1, r⟩
        rfl ⟨rfl, fun _ => ⟨rfl, rfl⟩⟩ hsz' hruns.2 (by omega)
      exact ⟨g, r', .value _ _ _ _ _ _ _ _ _ hnext hwlen hst⟩

theorem loop_nop (fuel : ℕ) (data : Bytes) (reg : ℕ) (r : Res) :
    Parser.loop fuel ⟨NOP :: data, 0, reg, r⟩ = Parser.loop fuel ⟨data, 0, reg, r⟩ := by
  cases fuel with
  | zero => rfl
  | succ fuel =>
    have h1 : (Parser.mk (NOP :: data) 0 reg r).next = scan reg r data := by
      unfold Parser.next
      rw [if_neg (by simp), if_neg (by simp)]
      show scan reg r (NOP :: data) = _
      conv => lhs; unfold scan
      rw [if_pos rfl]
    have h2 : (Parser.mk data 0 reg r).next = scan reg r data := by
      unfold Parser.next
      by_cases hd : data = []
      · subst hd; rw [if_pos rfl, scan]
      · rw [if_neg hd, if_neg (by simp)]
    unfold Parser.loop
    rw [h1, h2]

theorem loop_steps {p p' : RegisterParser} {l : List (ℕ × Res × Bytes)} (h : Steps p l p') :
    ∀ q, Sim p q → ∃ q', Sim p' q' ∧ ∀ fuel l', Parser.loop fuel q' = some (some l') →
      Parser.loop (fuel + l.length) q = some (some (l.map short ++ l')) := by
  induction h with
  | refl p => exact fun q hs => ⟨q, hs, fun fuel l' h => h⟩
  | pad data reg r l p' _ ih =>
    intro q hs
    obtain ⟨rest, rem, g, r'⟩ := q
    obtain ⟨h1, h2, h3, h4, h5⟩ := hs
    simp only at h1 h2 h4 h5
    have h2 : rem = 0 := by rw [h2]; decide
    subst h1 h2
    obtain ⟨q', hq, hl⟩ := ih ⟨data, 0, g, r'⟩ ⟨rfl, by simp [i8], by simp, h4, h5⟩
    refine ⟨q', hq, fun fuel l' hh => ?_⟩
    rw [loop_nop]
    exact hl fuel l' hh
  | value p reg rem reg' r w data l p' hn hw _ ih =>
    intro q hs
    obtain ⟨q1, h1, h2⟩ := next_sim hs hn
    obtain ⟨q', hq, hl⟩ := ih { q1 with rest := data } ⟨rfl, h2.remaining, h2.small, h2.register, h2.res⟩
    refine ⟨q', hq, fun fuel l' hh => ?_⟩
    rw [List.length_cons, ← Nat.add_assoc, Parser.loop, h1]
    have hr : q1.rest = w ++ data := h2.rest
    simp only [Parser.read]
    rw [hr, if_neg (by simp; omega), ← hw]
    simp only [List.take_left', List.drop_left']
    rw [hl fuel l' hh]
    rfl

theorem loop_more {fuel fuel' : ℕ} {q : Parser} {l : List (ℕ × Res × Bytes)} (hle : fuel ≤ fuel')
    (h : Parser.loop fuel q = some (some l)) : Parser.loop fuel' q = some (some l) := by
  induction fuel generalizing fuel' q l with
  | zero => simp [Parser.loop] at h
  | succ fuel ih =>
    obtain ⟨f', rfl⟩ : ∃ f', fuel' = f' + 1 := ⟨fuel' - 1, by omega⟩
    unfold Parser.loop at h ⊢
    cases hn : q.next with
    | mk o q' =>
      rw [hn] at h
      cases o with
      | none => exact h
      | some x =>
        simp only at h ⊢
        cases hr : q'.read x.2 with
        | none => rw [hr] at h; exact h
        | some y =>
          rw [hr] at h
          simp only at h ⊢
          cases hl : Parser.loop fuel y.2 with
          | none => rw [hl] at h; simp at h
          | some z =>
            cases z with
            | none => rw [hl] at h; simp at h
            | some z =>
              rw [hl] at h
              rw [ih (by omega) hl]
              exact h

/-- C104: what a controller sends: blocks of registers written with `WriteCombiner` or alike, each preceded
by any padding, and padding at the end.  The C++ library finds exactly these registers. -/
theorem C104_frames (segs : List Segment) (hok : ∀ s ∈ segs, s.Ok)
    (hreg : ∀ s ∈ segs, s.start + s.items.length ≤ 65536) (n : ℕ) :
    ∃ frame, frameOf 0x20 segs [] = .ok frame ∧
      values (frame ++ List.replicate n NOP) =
        some (some (segs.flatMap fun s => wantedValues s.start s.items)) := by
  have gen : ∀ (segs : List Segment) (_ : ∀ s ∈ segs, s.Ok) (buf : Bytes),
      ∃ body, frameOf 0x20 segs buf = .ok (buf ++ body) ∧ ∀ tail g r, ∃ g' r',
        Steps ⟨body ++ tail, 0, g, r⟩ (segs.flatMap fun s => wantedValues s.start s.items)
          ⟨tail, 0, g', r'⟩ := by
    intro segs
    induction segs with
    | nil => intro _ buf; exact ⟨[], by simp [frameOf], fun tail g r => ⟨g, r, .refl _⟩⟩
    | cons s segs ih =>
      intro hok buf
      obtain ⟨h1, h2, h3⟩ := hok s (by simp)
      obtain ⟨c, hc1, hc2, _⟩ := emit_ok (Or.inr (Or.inr rfl)) (buf ++ List.replicate s.padding NOP)
        s.start s.items h2
      obtain ⟨body, hb1, hb2⟩ := ih (fun s' h => hok s' (List.mem_cons_of_mem _ h)) c.buf
      refine ⟨List.replicate s.padding NOP ++ (enc 0x20 s.start none s.items ++ body), ?_, ?_⟩
      · rw [frameOf, hc1]; simp only; rw [hb1, hc2]; simp
      · intro tail g r
        obtain ⟨g1, r1, hs1⟩ := steps_enc s.items s.start none (body ++ tail)
          ⟨enc 0x20 s.start none s.items ++ (body ++ tail), 0, g, r⟩ rfl rfl h1
          ((runsOk_iff _ _ (by simp)).mpr h2) h3
        obtain ⟨g2, r2, hs2⟩ := hb2 tail g1 r1
        refine ⟨g2, r2, ?_⟩
        have := (steps_pads s.padding (enc 0x20 s.start none s.items ++ (body ++ tail)) g r).trans
          (hs1.trans hs2)
        simpa [List.flatMap_cons] using this
  obtain ⟨body, h1, h2⟩ := gen segs hok []
  refine ⟨body, by simpa using h1, ?_⟩
  obtain ⟨g, r, hs⟩ := h2 (List.replicate n NOP) 0 .int8
  have hs2 := hs.trans (by simpa using steps_pads n [] g r)
  rw [List.append_nil] at hs2
  obtain ⟨q', hq, hl⟩ := loop_steps hs2 _ (sim_init _)
  have hend : Parser.loop 1 q' = some (some []) := by
    unfold Parser.loop Parser.next
    rw [if_pos hq.rest]
  have hres := hl 1 [] hend
  obtain ⟨l, ht, -⟩ := C104_total (body ++ List.replicate n NOP)
  have e1 := loop_more (le_max_left _ ((body ++ List.replicate n NOP).length + 1)) hres
  have e2 : Parser.loop (max (1 + (segs.flatMap fun s => wantedValues s.start s.items).length)
      ((body ++ List.replicate n NOP).length + 1)) (Parser.init (body ++ List.replicate n NOP)) =
      some (some l) := loop_more (le_max_right _ _) ht
  rw [ht]
  have e3 := e1.symm.trans e2
  simp only [List.append_nil, Option.some.injEq] at e3
  rw [← e3]
  congr 2
  have hw : ∀ (items : List (Option Res × Bytes)) (start : ℕ), start + items.length ≤ 65536 →
      ∀ x ∈ wantedValues start items, x.1 < 65536 := by
    intro items
    induction items with
    | nil => intro start _ x hx; simp [wantedValues] at hx
    | cons it items ih =>
      obtain ⟨o, w⟩ := it
      intro start h x hx
      simp only [List.length_cons] at h
      cases o with
      | none => exact ih (start + 1) (by omega) x (by simpa [wantedValues] using hx)
      | some r =>
        simp only [wantedValues, List.mem_cons] at hx
        rcases hx with rfl | hx
        · simp only; omega
        · exact ih (start + 1) (by omega) x hx
  have : ∀ x ∈ segs.flatMap fun s => wantedValues s.start s.items, short x = x := by
    intro x hx
    obtain ⟨s, hs, hx⟩ := List.mem_flatMap.mp hx
    have := hw s.items s.start (hreg s hs) x hx
    unfold short
    rw [Nat.mod_eq_of_lt this]
  rw [List.map_congr_left this]; exact List.map_id' _

example : (⟨2, 1, [(some .int16, [1, 2]), (some .int16, [3, 4]), (none, []), (some .f32, [0, 0, 0, 0])]⟩ :
    Segment).Ok := by
  refine ⟨?_, ?_, by decide⟩
  · intro r v h
    simp at h
    rcases h with ⟨rfl, rfl⟩ | ⟨rfl, rfl⟩ | ⟨rfl, rfl⟩ <;> rfl
  · rintro ⟨r, h⟩
    have := h.length_le
    simp at this

/-! ## The values -/

/-- The named members: the `double`s. -/
def doubles : List ℕ := [1, 2, 3, 4, 5, 6, 7, 0xa, 0xd, 0xe]

/-- The named members: the integers. -/
def integers : List ℕ := [0, 0xb, 0xc, 0xf, 0x5e, 0x5f]

/-- The registers without a member. -/
def others (l : List (ℕ × Res × Bytes)) : List (ℕ × Res × Bytes) :=
  l.filter fun x => decide (x.1 ∉ doubles ∧ x.1 ∉ integers)

theorem nominal_eq (k : Kind) (r : Res) (hr : r ≠ .f32) : (Concrete.mapped k).nominal r = k.nominal r := by
  cases k <;> cases r <;> first | exact absurd rfl hr | (simp only [Concrete.nominal, Kind.nominal] <;> norm_num)

theorem readMapped_eq (k : Kind) (r : Res) (b : Bytes) :
    readMapped k r b = .float (readConcrete (.mapped k) r b) := by
  have hs : ∀ r : Res, r ≠ .f32 → (Concrete.mapped k).scale r = k.scale r := by
    intro r hr
    unfold Concrete.scale Kind.scale
    rw [nominal_eq k r hr]
  cases r with
  | f32 => rfl
  | int8 => simp only [readMapped, readConcrete, unscaleInt, hs .int8 (by simp)]; rfl
  | int16 => simp only [readMapped, readConcrete, unscaleInt, hs .int16 (by simp)]; rfl
  | int32 => simp only [readMapped, readConcrete, unscaleInt, hs .int32 (by simp)]; rfl

theorem mapped_means {reg : ℕ} {k : Kind} (hk : kindOf reg = .mapped k) (r : Res) (b : Bytes)
    (hb : b.length = r.size) : Means reg r b (.float (readConcrete (.mapped k) r b)) := by
  rcases parseRegister_cases reg r b hb with ⟨-, v, h1, h2⟩ | ⟨⟨h1, -⟩, -⟩
  · unfold parseRegister at h1
    rw [regKind_table, hk] at h1
    simp only [Except.ok.injEq] at h1
    rw [readMapped_eq] at h1
    rw [h1]; exact h2
  · rw [hk] at h1; simp at h1

theorem round_int (n : ℤ) (h : |n| ≤ 2 ^ 31) : b64.round (n * (Concrete.int).scale .int8) = .fin n := by
  have e : (Concrete.int).scale .int8 = 1 := by decide +kernel
  rw [e, _root_.mul_one]
  have h1 := roundQ_exact (f := b64) (by decide) (n := n) (e := 0) (by decide)
    (h.trans (by decide))
  have e0 : pow2 0 = 1 := by decide +kernel
  rw [e0, _root_.mul_one] at h1
  unfold Fmt.round
  rw [h1, if_pos]
  have h2 : (2 : ℚ) ^ 31 < pow2 b64.emax := by decide +kernel
  have h3 : |(n : ℚ)| ≤ 2 ^ 31 := by exact_mod_cast h
  linarith

theorem readConcrete_int {r : Res} {b : Bytes} (hr : r ≠ .f32) (hb : b.length = r.size) {n : ℤ}
    (hn : toSigned r.size (leNat b) = n) (hm : n ≠ -top r - 1) : readConcrete .int r b = .fin n := by
  have h1 := toSigned_range (n := r.size) (x := leNat b) r.size_pos (by rw [← hb]; exact leNat_lt b)
  rw [hn] at h1
  have h2 : |n| ≤ 2 ^ 31 := by
    rw [abs_le]
    cases r <;> simp only [Res.size] at h1 ⊢ <;> norm_num at h1 ⊢ <;> omega
  have h3 := round_int n h2
  cases r with
  | f32 => exact absurd rfl hr
  | int8 =>
    simp only [readConcrete, hn]
    rw [if_neg (by simpa [smallest, top] using hm)]; exact h3
  | int16 =>
    simp only [readConcrete, hn]
    rw [if_neg (by simpa [smallest, top] using hm)]; exact h3
  | int32 =>
    simp only [readConcrete, hn]
    rw [if_neg (by simpa [smallest, top] using hm)]; exact h3

/-- The number `n` arrives in a register of type `r` and fits into an `int`; the smallest integer of a type
means NaN. -/
def Plain (r : Res) (n : ℤ) : Prop := |n| ≤ 2147483647 ∧ (r ≠ .f32 → n ≠ -top r - 1)

theorem toInt_fin (q : ℚ) : toInt (.fin q) =
    if -2147483648 ≤ truncQ q ∧ truncQ q ≤ 2147483647 then some (truncQ q) else none := rfl

theorem readInt_means {reg : ℕ} (hk : kindOf reg = .integer) {r : Res} {b : Bytes}
    (hb : b.length = r.size) {n : ℤ} (hm : Means reg r b (.int n)) (hp : Plain r n) :
    readInt r b = some n := by
  obtain ⟨h1, h2⟩ := hp
  have h1 := abs_le.1 h1
  unfold Means at hm
  rw [hk] at hm
  by_cases hr : r = .f32
  · subst hr
    rcases parseRegister_cases reg .f32 b hb with ⟨-, v, h3, h4⟩ | ⟨⟨-, x, h3, h4⟩, -⟩
    · have hnum : Commands.Spec.number .f32 b = .float (unpack32 (leNat b)) := rfl
      rw [hnum] at hm
      unfold readInt readConcrete
      cases hu : unpack32 (leNat b) with
      | nan => rw [hu] at hm; exact absurd hm id
      | inf s => rw [hu] at hm; exact absurd hm id
      | fin q =>
        rw [hu] at hm
        obtain ⟨m, hv, a1, a2, a3, a4⟩ := hm
        simp only [Val.int.injEq] at hv
        subst hv
        obtain ⟨c1, c2, c3, c4⟩ := pyInt_trunc q
        have hq : truncQ q = n := by
          rcases le_total 0 q with h | h
          · have b1 := a3 h
            have b2 := c3 h
            rw [abs_of_nonneg h] at a1 c1
            have d1 : (0 : ℚ) ≤ n := by exact_mod_cast b1
            have d2 : (0 : ℚ) ≤ truncQ q := by exact_mod_cast b2
            rw [abs_of_nonneg d1] at a1
            rw [abs_of_nonneg d2] at c1
            have e1 := (abs_lt.1 a2).2
            have e2 := (abs_lt.1 c2).2
            have f1 : ((truncQ q : ℤ) : ℚ) < n + 1 := by linarith
            have f2 : ((n : ℤ) : ℚ) < truncQ q + 1 := by linarith
            have f1 : truncQ q < n + 1 := by exact_mod_cast f1
            have f2 : n < truncQ q + 1 := by exact_mod_cast f2
            omega
          · have b1 := a4 h
            have b2 := c4 h
            rw [abs_of_nonpos h] at a1 c1
            have d1 : (n : ℚ) ≤ 0 := by exact_mod_cast b1
            have d2 : (truncQ q : ℚ) ≤ 0 := by exact_mod_cast b2
            rw [abs_of_nonpos d1] at a1
            rw [abs_of_nonpos d2] at c1
            have e1 := (abs_lt.1 a2).1
            have e2 := (abs_lt.1 c2).1
            have f1 : ((truncQ q : ℤ) : ℚ) < n + 1 := by linarith
            have f2 : ((n : ℤ) : ℚ) < truncQ q + 1 := by linarith
            have f1 : truncQ q < n + 1 := by exact_mod_cast f1
            have f2 : n < truncQ q + 1 := by exact_mod_cast f2
            omega
        show toInt (.fin q) = some n
        rw [toInt_fin, hq, if_pos (by omega)]
    · rw [h3] at hm
      cases x with
      | nan => exact absurd hm id
      | inf s => exact absurd hm id
      | fin q => exact absurd rfl (h4 q)
  · have hnum : Commands.Spec.number r b = .int (toSigned r.size (leNat b)) := by
      cases r <;> first | exact absurd rfl hr | rfl
    rw [hnum] at hm
    simp only [Val.int.injEq] at hm
    unfold readInt
    rw [readConcrete_int hr hb hm.symm (h2 hr)]
    rw [toInt_fin, truncQ_int, if_pos (by omega)]

/-- The conversion to the type of the member. -/
def stored (reg : ℕ) (n : ℤ) : ℤ :=
  if reg = 0xb then (if n ≠ 0 then 1 else 0) else if reg = 0xf ∨ reg = 0x5e ∨ reg = 0x5f then i8 n else n

theorem default_dbl (s : Result) (reg : ℕ) (r : Res) (b : Bytes) :
    (if s.extra.length < 16 then { s with extra := s.extra ++ [(reg, parseGeneric reg r b)] }
      else if readInt r b = none then { s with bad := true } else s : Result).dbl = s.dbl := by
  split_ifs <;> rfl

theorem default_int (s : Result) (reg : ℕ) (r : Res) (b : Bytes) :
    (if s.extra.length < 16 then { s with extra := s.extra ++ [(reg, parseGeneric reg r b)] }
      else if readInt r b = none then { s with bad := true } else s : Result).int = s.int := by
  split_ifs <;> rfl

theorem step_dbl (s : Result) (x : ℕ × Res × Bytes) (reg : ℕ) (k : Kind) (hd : reg ∈ doubles)
    (hk : kindOf reg = .mapped k) :
    (s.step x).dbl reg = if x.1 = reg then readConcrete (.mapped k) x.2.1 x.2.2 else s.dbl reg := by
  obtain ⟨g, r, b⟩ := x
  have hk' : ∀ reg ∈ doubles, kindOf reg = .mapped (match reg with
      | 1 => .position | 2 => .velocity | 3 => .torque | 4 => .current | 5 => .current | 6 => .position
      | 7 => .power | 0xa => .temperature | 0xd => .voltage | _ => .temperature) := by decide
  rw [hk' reg hd] at hk
  simp only [RegKind.mapped.injEq] at hk
  simp only [doubles, List.mem_cons, List.not_mem_nil, or_false] at hd
  unfold Result.step
  rcases hd with rfl | rfl | rfl | rfl | rfl | rfl | rfl | rfl | rfl | rfl <;> simp only at hk <;> subst hk <;>
    dsimp only <;> split <;>
    first
      | (simp [Result.setD]; done)
      | simp [Result.setI]
      | (rw [default_dbl, if_neg (by assumption)])

theorem step_int (s : Result) (x : ℕ × Res × Bytes) (reg : ℕ) (hd : reg ∈ integers) :
    (s.step x).int reg = if x.1 = reg then (readInt x.2.1 x.2.2).map (stored reg) else s.int reg := by
  obtain ⟨g, r, b⟩ := x
  simp only [integers, List.mem_cons, List.not_mem_nil, or_false] at hd
  unfold Result.step
  rcases hd with rfl | rfl | rfl | rfl | rfl | rfl <;>
    dsimp only <;> split <;>
    first
      | (simp [Result.setD]; done)
      | (simp [Result.setI]; done)
      | (simp only [Result.setI, if_true]; cases readInt r b <;> rfl)
      | (rw [default_int, if_neg (by assumption)])

theorem step_extra (s : Result) (x : ℕ × Res × Bytes) :
    (s.step x).extra = if x.1 ∉ doubles ∧ x.1 ∉ integers ∧ s.extra.length < 16 then
      s.extra ++ [(x.1, parseGeneric x.1 x.2.1 x.2.2)] else s.extra := by
  obtain ⟨g, r, b⟩ := x
  unfold Result.step
  dsimp only
  split <;> first
    | (rw [if_neg (by simp [doubles, integers])]; rfl)
    | (have hnot : g ∉ doubles ∧ g ∉ integers := by
         simp only [doubles, integers, List.mem_cons, List.not_mem_nil, or_false, not_or]
         refine ⟨⟨?_, ?_, ?_, ?_, ?_, ?_, ?_, ?_, ?_, ?_⟩, ?_, ?_, ?_, ?_, ?_, ?_⟩ <;> assumption
       split
       · next h => rw [if_pos ⟨hnot.1, hnot.2, h⟩]
       · next h =>
         rw [if_neg (c := g ∉ doubles ∧ g ∉ integers ∧ s.extra.length < 16) (fun hh => h hh.2.2)]
         split <;> rfl)

theorem fold_dbl (l : List (ℕ × Res × Bytes)) (s : Result) (reg : ℕ) (k : Kind) (hd : reg ∈ doubles)
    (hk : kindOf reg = .mapped k) :
    (l.foldl Result.step s).dbl reg = match lastOf l reg with
      | none => s.dbl reg | some x => readConcrete (.mapped k) x.1 x.2 := by
  induction l generalizing s with
  | nil => rfl
  | cons x l ih =>
    obtain ⟨g, r, b⟩ := x
    rw [List.foldl_cons, ih, lastOf, step_dbl s _ reg k hd hk]
    cases lastOf l reg with
    | some y => rfl
    | none => dsimp only; split <;> rfl

theorem fold_int (l : List (ℕ × Res × Bytes)) (s : Result) (reg : ℕ) (hd : reg ∈ integers) :
    (l.foldl Result.step s).int reg = match lastOf l reg with
      | none => s.int reg | some x => (readInt x.1 x.2).map (stored reg) := by
  induction l generalizing s with
  | nil => rfl
  | cons x l ih =>
    obtain ⟨g, r, b⟩ := x
    rw [List.foldl_cons, ih, lastOf, step_int s _ reg hd]
    cases lastOf l reg with
    | some y => rfl
    | none => dsimp only; split <;> rfl

theorem fold_extra (l : List (ℕ × Res × Bytes)) (s : Result) (hs : s.extra.length ≤ 16) :
    (l.foldl Result.step s).extra = s.extra ++ ((others l).take (16 - s.extra.length)).map
      (fun x : ℕ × Res × Bytes => (x.1, parseGeneric x.1 x.2.1 x.2.2)) := by
  induction l generalizing s with
  | nil => simp [others]
  | cons x l ih =>
    rw [List.foldl_cons]
    have he := step_extra s x
    by_cases hx : x.1 ∉ doubles ∧ x.1 ∉ integers
    · have ho : others (x :: l) = x :: others l := by
        unfold others
        rw [List.filter_cons_of_pos (by simpa using hx)]
      by_cases hlen : s.extra.length < 16
      · rw [if_pos ⟨hx.1, hx.2, hlen⟩] at he
        rw [ih _ (by rw [he]; simp; omega), he, ho]
        obtain ⟨m, hm⟩ : ∃ m, 16 - s.extra.length = m + 1 := ⟨16 - s.extra.length - 1, by omega⟩
        rw [hm, List.take_succ_cons, List.map_cons]
        have : 16 - (s.extra ++ [(x.1, parseGeneric x.1 x.2.1 x.2.2)]).length = m := by simp; omega
        rw [this]
        simp
      · rw [if_neg (fun h => hlen h.2.2)] at he
        rw [ih _ (by rw [he]; exact hs), he]
        have : 16 - s.extra.length = 0 := by omega
        rw [this]
        simp
    · rw [if_neg (fun h => hx ⟨h.1, h.2.1⟩)] at he
      have ho : others (x :: l) = others l := by
        unfold others
        rw [List.filter_cons_of_neg (by simpa using hx)]
      rw [ih _ (by rw [he]; exact hs), he, ho]

/-- The mapping that `ParseGeneric` finds. -/
theorem generic_mapped {reg : ℕ} {k : Kind} (hk : kindOf reg = .mapped k) (r : Res) (b : Bytes) :
    parseGeneric reg r b = some (readConcrete (.mapped k) r b) := by
  have hlt : reg < 0x80 := by
    by_contra hc
    rw [← regKind_table] at hk
    unfold regKind at hk
    repeat rw [if_neg (by omega)] at hk
    simp at hk
  have hall : ∀ reg < 0x80, ∀ k, kindOf reg = .mapped k →
      (definitions.find? (fun d => decide (d.1 ≤ reg ∧ reg < d.1 + d.2.1))).map (fun d => d.2.2) =
        some (.mapped k) := by
    intro reg h k hk
    have : ∀ reg < 0x80, (match kindOf reg with
      | .mapped k => decide ((definitions.find? (fun d => decide (d.1 ≤ reg ∧ reg < d.1 + d.2.1))).map
          (fun d => d.2.2) = some (.mapped k))
      | _ => true) = true := by decide +kernel
    have := this reg h
    rw [hk] at this
    exact of_decide_eq_true this
  have := hall reg hlt k hk
  unfold parseGeneric
  cases hf : definitions.find? (fun d => decide (d.1 ≤ reg ∧ reg < d.1 + d.2.1)) with
  | none => rw [hf] at this; simp at this
  | some d =>
    rw [hf] at this
    simp only [Option.map_some, Option.some.injEq] at this
    simp only [this]

/-- C104: the result of `Query::Parse`, for any frame.  Each `double` is the documented meaning of the last
value of its register, NaN without one.  Each integer is the last value of its register, 0 without one, if
the value is not the smallest one of its type and fits into the member.  The other registers are the
`extra`s: the first 16, in their order; those with a documented unit in this unit. -/
theorem C104_fields (data : Bytes) (l : List (ℕ × Res × Bytes)) (h : values data = some (some l)) :
    (∀ reg ∈ doubles, match lastOf l reg with
      | none => (query l).dbl reg = .nan
      | some (r, b) => Means reg r b (.float ((query l).dbl reg))) ∧
    (∀ reg ∈ integers, match lastOf l reg with
      | none => (query l).int reg = some 0
      | some (r, b) => ∀ n, Means reg r b (.int n) → Plain r n →
          (reg ∈ [0xf, 0x5e, 0x5f] → -128 ≤ n ∧ n ≤ 127) →
          (query l).int reg = some (if reg = 0xb then (if n = 0 then 0 else 1) else n)) ∧
    (query l).extra.length = min 16 (others l).length ∧
    ∀ (i : ℕ) (x : ℕ × Res × Bytes), i < 16 → (others l)[i]? = some x →
      ∃ v, (query l).extra[i]? = some (x.1, v) ∧
        ∀ k, kindOf x.1 = .mapped k → ∃ y, v = some y ∧ Means x.1 x.2.1 x.2.2 (.float y) := by
  have hsz : ∀ x ∈ l, x.2.2.length = x.2.1.size := by
    obtain ⟨l', h1, h2⟩ := C104_total data
    rw [h] at h1
    simp only [Option.some.injEq] at h1
    subst h1
    exact layout_sizes h2
  have hlast : ∀ (l : List (ℕ × Res × Bytes)), (∀ x ∈ l, x.2.2.length = x.2.1.size) → ∀ reg y,
      lastOf l reg = some y → y.2.length = y.1.size := by
    intro l
    induction l with
    | nil => intro _ reg y hy; simp [lastOf] at hy
    | cons x l ih =>
      obtain ⟨g, r, b⟩ := x
      intro hs reg y hy
      rw [lastOf] at hy
      cases hl : lastOf l reg with
      | some z =>
        rw [hl] at hy
        simp only [Option.some.injEq] at hy
        subst hy
        exact ih (fun x hx => hs x (List.mem_cons_of_mem _ hx)) reg z hl
      | none =>
        rw [hl] at hy
        simp only at hy
        split at hy
        · simp only [Option.some.injEq] at hy
          subst hy
          exact hs (g, r, b) List.mem_cons_self
        · simp at hy
  have hext := fold_extra l Result.init (by simp [Result.init])
  simp only [Result.init, List.nil_append, List.length_nil, Nat.sub_zero] at hext
  refine ⟨?_, ?_, ?_, ?_⟩
  · intro reg hd
    have hk : ∀ reg ∈ doubles, ∃ k, kindOf reg = .mapped k := by
      intro reg hd
      simp only [doubles, List.mem_cons, List.not_mem_nil, or_false] at hd
      rcases hd with rfl | rfl | rfl | rfl | rfl | rfl | rfl | rfl | rfl | rfl <;> exact ⟨_, rfl⟩
    obtain ⟨k, hk⟩ := hk reg hd
    have hf := fold_dbl l Result.init reg k hd hk
    cases hl : lastOf l reg with
    | none => rw [hl] at hf; exact hf
    | some y =>
      rw [hl] at hf
      have : (query l).dbl reg = readConcrete (.mapped k) y.1 y.2 := hf
      show Means reg y.1 y.2 _
      rw [this]
      exact mapped_means hk _ _ (hlast l hsz reg y hl)
  · intro reg hd
    have hk : ∀ reg ∈ integers, kindOf reg = .integer := by decide
    have hk := hk reg hd
    have hf := fold_int l Result.init reg hd
    cases hl : lastOf l reg with
    | none => rw [hl] at hf; exact hf
    | some y =>
      rw [hl] at hf
      show ∀ n, Means reg y.1 y.2 (.int n) → Plain y.1 n → _ → _
      intro n hm hp h8
      have : (query l).int reg = (readInt y.1 y.2).map (stored reg) := hf
      rw [this, readInt_means hk (hlast l hsz reg y hl) hm hp, Option.map_some]
      unfold stored
      by_cases hb : reg = 0xb
      · rw [if_pos hb, if_pos hb]
        by_cases hn : n = 0
        · rw [if_neg (by simpa using hn), if_pos hn]
        · rw [if_pos hn, if_neg hn]
      · rw [if_neg hb, if_neg hb]
        by_cases h3 : reg = 0xf ∨ reg = 0x5e ∨ reg = 0x5f
        · rw [if_pos h3]
          have := h8 (by simpa using h3)
          congr 1
          unfold i8; omega
        · rw [if_neg h3]
  · show (l.foldl Result.step Result.init).extra.length = _
    simp only [Result.init]
    rw [hext]; simp
  · intro i x hi hx
    refine ⟨parseGeneric x.1 x.2.1 x.2.2, ?_, ?_⟩
    · show (l.foldl Result.step Result.init).extra[i]? = _
      simp only [Result.init]
      rw [hext, List.getElem?_map, List.getElem?_take_of_lt hi, hx]
      rfl
    · intro k hk
      refine ⟨_, generic_mapped hk _ _, mapped_means hk _ _ ?_⟩
      refine hsz x ?_
      have := List.mem_of_getElem? hx
      exact (List.mem_filter.1 this).1

/-- Temperature 25.0 degrees, mode 10 and the encoder position as extra register. -/
example : values [0x21, 0x00, 10, 0x25, 0x0e, 250, 0, 0x25, 0x50, 0x10, 0x27] =
      some (some [(0, .int8, [10]), (0xe, .int16, [250, 0]), (0x50, .int16, [0x10, 0x27])]) ∧
    (query [(0, .int8, [10]), (0xe, .int16, [250, 0]), (0x50, .int16, [0x10, 0x27])]).int 0 = some 10 ∧
    (query [(0, .int8, [10]), (0xe, .int16, [250, 0]), (0x50, .int16, [0x10, 0x27])]).dbl 0xe =
      .fin 25 ∧
    (query [(0, .int8, [10]), (0xe, .int16, [250, 0]), (0x50, .int16, [0x10, 0x27])]).extra =
      [(0x50, some (.fin 1))] := by
  decide +kernel

/-! ## Against the firmware -/

open Verif.Fw Verif.Fw.Registers in
theorem num_source {uuid : Bytes} {bd : Board} {c : CommandData} {reg : ℕ} {k : Kind} {x : Fl}
    (h : source uuid bd c reg = .num k x) (hreg : reg ∉ [0x018, 0x01e, 0x02b, 0x02c]) (r : Res) (b : Bytes) :
    parseGeneric reg r b = some (readConcrete (.mapped k) r b) := by
  unfold source at h
  split at h <;> first
    | (exfalso; simp at hreg; done)
    | (simp at h; done)
    | (simp only [Src.num.injEq] at h; obtain ⟨rfl, -⟩ := h; rfl)

open Verif.Fw Verif.Fw.Registers in
/-- C104: for every register that the firmware answers with a scaled number `x`, apart from the four of
`C104_unit_refuted`, the C++ library returns this number in the same unit, up to one LSB, whatever the type. -/
theorem C104_units_partial (uuid : Bytes) (bd : Board) (c : CommandData) (reg : ℕ) (k : Kind) (x : Fl)
    (h : source uuid bd c reg = .num k x) (hreg : reg ∉ [0x018, 0x01e, 0x02b, 0x02c]) (r : Res)
    (hx : IsSingle x) (hv : NotBelow k r x) :
    ∃ y, parseGeneric reg r (scaleMapping k x r).bytes = some y ∧ Arrives k r x y := by
  obtain ⟨y, h1, h2⟩ := C47_reply_unit k r x hx hv
  rw [readMapped_eq] at h1
  simp only [Val.float.injEq] at h1
  refine ⟨y, ?_, h2⟩
  rw [num_source h hreg, h1]

example : Verif.Fw.Registers.IsSingle (.fin (1 / 2)) ∧ Verif.Fw.Registers.NotBelow .position .int16 (.fin (1 / 2)) :=
  ⟨⟨by decide +kernel, by decide +kernel⟩, by intro h; simp at h⟩

open Verif.Fw Verif.Fw.Registers in
/-- The bytes of an integer register. -/
theorem int_number (r : Res) (n : ℤ) (hn : Fits r n) :
    Commands.Spec.number r (intMapping n r).bytes = if r = .f32 then .float (.fin n) else .int n := by
  cases r with
  | int8 =>
    show Val.int (unpackInt .int8 (Value.i8 (wrap 8 n)).bytes) = _
    simp only [Fits] at hn
    rw [wrap_fits (by norm_num; omega) (by norm_num; omega)]
    have := unpackInt_bytes .int8 (by decide) n (by simp only [top]; omega) (by simp only [top]; omega)
    rw [show (Value.i8 n).bytes = (intValue .int8 n).bytes from rfl, this]
    rfl
  | int16 =>
    show Val.int (unpackInt .int16 (Value.i16 (wrap 16 n)).bytes) = _
    simp only [Fits] at hn
    rw [wrap_fits (by norm_num; omega) (by norm_num; omega)]
    have := unpackInt_bytes .int16 (by decide) n (by simp only [top]; omega) (by simp only [top]; omega)
    rw [show (Value.i16 n).bytes = (intValue .int16 n).bytes from rfl, this]
    rfl
  | int32 =>
    show Val.int (unpackInt .int32 (Value.i32 (wrap 32 n)).bytes) = _
    simp only [Fits] at hn
    rw [wrap_fits (by norm_num; omega) (by norm_num; omega)]
    have := unpackInt_bytes .int32 (by decide) n (by simp only [top]; omega) (by simp only [top]; omega)
    rw [show (Value.i32 n).bytes = (intValue .int32 n).bytes from rfl, this]
    rfl
  | f32 =>
    have hrep := Ar.single_law2.rep_int (n := n) hn
    have hl : Ar.single.lit n = .fin n := hrep.rnd
    show Val.float (unpack32 (leNat (Value.f (Ar.single.lit n)).bytes)) = _
    rw [hl, unpack_single]
    · rfl
    · exact ⟨hrep.1, by simpa [Ar.single] using hrep.2⟩

open Verif.Fw Verif.Fw.Registers in
theorem int_concrete (r : Res) (n : ℤ) (hn : Fits r n) (hm : r ≠ .f32 → n ≠ -top r - 1) :
    readConcrete .int r (intMapping n r).bytes = .fin n := by
  have h := int_number r n hn
  by_cases hr : r = .f32
  · subst hr
    rw [if_pos rfl] at h
    have h : Val.float (unpack32 (leNat (intMapping n .f32).bytes)) = .float (.fin n) := h
    simp only [Val.float.injEq] at h
    exact h
  · rw [if_neg hr] at h
    refine readConcrete_int hr ?_ ?_ (hm hr)
    · cases r with
      | f32 => exact absurd rfl hr
      | int8 => exact leBytes_length _ _
      | int16 => exact leBytes_length _ _
      | int32 => exact leBytes_length _ _
    · have h2 : Commands.Spec.number r (intMapping n r).bytes =
          .int (toSigned r.size (leNat (intMapping n r).bytes)) := by
        cases r <;> first | exact absurd rfl hr | rfl
      rw [h2] at h
      simpa using h

open Verif.Fw Verif.Fw.Registers in
/-- C104: for every register that the firmware answers with an integer, the C++ library returns this
integer, if it fits into the type and is not the smallest number of the type. -/
theorem C104_ints_partial (uuid : Bytes) (bd : Board) (c : CommandData) (reg : ℕ) (n : ℤ) (r : Res)
    (h : source uuid bd c reg = .int n ∨ source uuid bd c reg = .int32 n) (hn : Fits r n)
    (hm : r ≠ .f32 → n ≠ -top r - 1) :
    parseGeneric reg r (intMapping n r).bytes = some (.fin n) := by
  have hc := int_concrete r n hn hm
  have hi : readInt r (intMapping n r).bytes = some n := by
    unfold readInt
    rw [hc, toInt_fin, truncQ_int, if_pos]
    cases r <;> simp only [Fits] at hn
    · omega
    · omega
    · omega
    · have := abs_le.1 hn; norm_num at this; omega
  have key : (definitions.find? (fun d => decide (d.1 ≤ reg ∧ reg < d.1 + d.2.1))).map (fun d => d.2.2) =
      some .int ∨
      (definitions.find? (fun d => decide (d.1 ≤ reg ∧ reg < d.1 + d.2.1))).map (fun d => d.2.2) = none := by
    unfold source at h
    split at h <;> first
      | (simp at h; done)
      | (left; rfl)
      | (right; rfl)
  unfold parseGeneric
  cases hf : definitions.find? (fun d => decide (d.1 ≤ reg ∧ reg < d.1 + d.2.1)) with
  | none => simp only [hi, Option.map_some]
  | some d =>
    rw [hf] at key
    simp only [Option.map_some, Option.some.injEq, reduceCtorEq, or_false] at key
    simp only [key, hc]

example : Verif.Fw.Registers.Fits .int8 11 ∧ (11 : ℤ) ≠ -top .int8 - 1 := by
  constructor
  · constructor <;> decide
  · decide

open Verif.Fw Verif.Fw.Registers in
/-- C104, contradiction: four registers arrive in another unit than the firmware sends.
`kCommandFixedCurrentOverride` (0x02c) and `kCommandIlimitScale` (0x02b), like 0x01e, are not in the table and
read as bare integers: an I limit scale of 1/2 becomes 0 as a float and 16383 as `int16`, a current of 1.5 A
becomes 15.  The angle 0x018 is a fraction of half a turn as float and in radians otherwise: half of it is
0.5 or more than 1.5. -/
theorem C104_unit_refuted :
    (∀ uuid bd c, source uuid bd c 0x02b = .num .pwm (c.val .ilimitScale) ∧
      source uuid bd c 0x02c = .num .current (c.val .fixedCurrent) ∧
      source uuid bd c 0x01e = .num .velocity (Ar.single.div (c.val .thetaRate) kPi) ∧
      source uuid bd c 0x018 = .num .pwm (Ar.single.div (c.val .theta) kPi)) ∧
    parseGeneric 0x02b .f32 (scaleMapping .pwm (.fin (1 / 2)) .f32).bytes = some (.fin 0) ∧
    parseGeneric 0x02b .int16 (scaleMapping .pwm (.fin (1 / 2)) .int16).bytes = some (.fin 16383) ∧
    parseGeneric 0x02c .int16 (scaleMapping .current (.fin (3 / 2)) .int16).bytes = some (.fin 15) ∧
    parseGeneric 0x01e .int16 (scaleMapping .velocity (.fin 1) .int16).bytes = some (.fin 3999) ∧
    parseGeneric 0x018 .f32 (scaleMapping .pwm (.fin (1 / 2)) .f32).bytes = some (.fin (1 / 2)) ∧
    ∃ q, parseGeneric 0x018 .int16 (scaleMapping .pwm (.fin (1 / 2)) .int16).bytes = some (.fin q) ∧
      3 / 2 < q := by
  refine ⟨fun _ _ _ => ⟨rfl, rfl, rfl, rfl⟩, by decide +kernel, by decide +kernel, by decide +kernel,
    by decide +kernel, by decide +kernel,
    b64.roundQ (16383 * (Concrete.theta).scale .int16), by decide +kernel, by decide +kernel⟩

open Verif.Fw Verif.Fw.Registers in
/-- C104, contradiction: an integer register with the smallest number of its type is not returned.  The
millisecond counter is NaN after 128 ms as `int8`, a word 0x80000000 of the serial number is NaN, and a word
0x80000000 of the UUID is the conversion of NaN to `int`, which is undefined. -/
theorem C104_marker_refuted :
    parseGeneric 0x070 .int8 (counterValue 128 .int8).bytes = some .nan ∧
    parseGeneric 0x120 .int32 [0, 0, 0, 0x80] = some .nan ∧
    parseGeneric 0x150 .int32 [0, 0, 0, 0x80] = none := by decide +kernel

/-- C104, contradiction: a frame with 17 registers without a member: Python returns 17, the C++ library
drops the last. -/
theorem C104_extra_refuted :
    ∃ data l, parse data = some (.ok l) ∧ values data = some (some l) ∧ (others l).length = 17 ∧
      (query l).extra.length = 16 ∧ data.length = 20 := by
  refine ⟨[0x20, 17, 0x60, 1, 2, 3, 4, 5, 6, 7, 8, 9, 10, 11, 12, 13, 14, 15, 16, 17],
    (List.range 17).map (fun i => (0x60 + i, Res.int8, [UInt8.ofNat (i + 1)])),
    by rfl, by decide +kernel, by decide +kernel, by decide +kernel, rfl⟩

end Verif.Cxx.Replies
