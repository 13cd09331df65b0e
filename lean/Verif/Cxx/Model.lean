import Verif.Commands.Model
import Verif.Float.Arith

/-!
# Model of the C++ client library

lib/cpp/mjbots/moteus/moteus_multiplex.h, moteus_protocol.h and the frame
builders of moteus.h.  C++ `double` and `float` are `Fl`; a resolution is
`Option Res` with `none` for `kIgnore`; the bytes written to a frame so far
are a list.  The Arduino variant (`#ifdef ARDUINO`) is not modelled.
-/

namespace Verif.Cxx

open Verif Verif.Float Verif.Multiplex Verif.Commands

/-- How a call can fail: the process is ended by `abort()`, or memory outside
of an array is accessed. -/
inductive Halt
  | abort
  | overrun
deriving DecidableEq, Repr

/-! ## moteus_multiplex.h -/

/-- moteus_multiplex.h:83-102 `numeric_limits<T>::max()`. -/
def limMax : Res → Int
  | .int8 => 127 | .int16 => 32767 | .int32 => 2147483647 | .f32 => 0

/-- moteus_multiplex.h:83-102 `numeric_limits<T>::min()`. -/
def limMin : Res → Int
  | .int8 => -128 | .int16 => -32768 | .int32 => -2147483648 | .f32 => 0

/-- moteus_multiplex.h:122-138 `Saturate<T>`; `scale` is the exact value of a
positive double.  The quotient may overflow to an infinity, which the two
comparisons then catch; it cannot be NaN. -/
def saturate (t : Res) (value : Fl) (scale : ℚ) : Int :=
  match value with
  | .nan => limMin t
  | .inf _ => limMin t
  | .fin v =>
    let scaled := b64.round (v / scale)
    if Fl.blt scaled (.fin (-(limMax t : ℚ))) then -limMax t
    else if Fl.blt (.fin (limMax t : ℚ)) scaled then limMax t
    else match scaled with
      | .fin q => truncQ q
      | _ => 0

/-- moteus_multiplex.h:150-165 `WriteCanData::Write<T>` of a value with the
given representation, and 178-184 `Write(const char*, uint16_t)`. -/
def write (f b : Bytes) : Except Halt Bytes :=
  if 64 < b.length + f.length then .error .abort else .ok (f ++ b)

/-- `Write<int8_t>` and its siblings: `static_cast` keeps the low bytes. -/
def writeInt (f : Bytes) (t : Res) (v : Int) : Except Halt Bytes :=
  write f (leBytes t.size (ofSigned t.size v))

/-- `static_cast<float>` of a double and its representation.  A value that
does not fit becomes an infinity (the conversion of IEEE 754; the C++ standard
leaves it undefined). -/
def floatBits (x : Fl) : Nat :=
  match pack32 x, x with
  | some b, _ => b
  | none, .fin q => if q < 0 then 0xff800000 else 0x7f800000
  | none, _ => 0x7fc00000

/-- `Write<float>` -/
def writeFloat (f : Bytes) (x : Fl) : Except Halt Bytes := write f (leBytes 4 (floatBits x))

/-- moteus_multiplex.h:167-176 `WriteVaruint`; `value` is a `uint32_t`. -/
def writeVaruint (f : Bytes) (value : Nat) : Except Halt Bytes := do
  let f ← writeInt f .int8 ((value % 128 + if value / 128 ≠ 0 then 128 else 0 : Nat))
  if _h : value / 128 = 0 then .ok f else writeVaruint f (value / 128)
termination_by value
decreasing_by omega

/-- moteus_multiplex.h:186-210 `WriteInt`; `value` is an `int32_t`. -/
def writeClampedInt (f : Bytes) (value : Int) (res : Option Res) : Except Halt Bytes :=
  match res with
  | some .int8 => writeInt f .int8 (max (-127) (min 127 value))
  | some .int16 => writeInt f .int16 (max (-32767) (min 32767 value))
  | some .int32 => writeInt f .int32 value
  | some .f32 => writeFloat f (b32.round value)
  | none => .error .abort

/-- A double literal. -/
def dbl (q : ℚ) : ℚ := b64.roundQ q

/-- moteus_multiplex.h:212-237 `WriteMapped` -/
def writeMapped (f : Bytes) (value : Fl) (int8_scale int16_scale int32_scale : ℚ)
    (res : Option Res) : Except Halt Bytes :=
  match res with
  | some .int8 => writeInt f .int8 (saturate .int8 value int8_scale)
  | some .int16 => writeInt f .int16 (saturate .int16 value int16_scale)
  | some .int32 => writeInt f .int32 (saturate .int32 value int32_scale)
  | some .f32 => writeFloat f value
  | none => .error .abort

/-- moteus_multiplex.h:239-241 -/
def writePosition (value : Fl) (res : Option Res) (f : Bytes) : Except Halt Bytes :=
  writeMapped f value (dbl (1/100)) (dbl (1/10000)) (dbl (1/100000)) res

/-- moteus_multiplex.h:243-245 -/
def writeVelocity (value : Fl) (res : Option Res) (f : Bytes) : Except Halt Bytes :=
  writeMapped f value (dbl (1/10)) (dbl (25/100000)) (dbl (1/100000)) res

/-- moteus_multiplex.h:247-249 -/
def writeAccel (value : Fl) (res : Option Res) (f : Bytes) : Except Halt Bytes :=
  writeMapped f value (dbl (5/100)) (dbl (1/1000)) (dbl (1/100000)) res

/-- moteus_multiplex.h:251-253 -/
def writeTorque (value : Fl) (res : Option Res) (f : Bytes) : Except Halt Bytes :=
  writeMapped f value (dbl (5/10)) (dbl (1/100)) (dbl (1/1000)) res

/-- moteus_multiplex.h:255-261 -/
def writePwm (value : Fl) (res : Option Res) (f : Bytes) : Except Halt Bytes :=
  writeMapped f value (dbl (1/127)) (dbl (1/32767)) (dbl (1/2147483647)) res

/-- moteus_multiplex.h:263-265 -/
def writeVoltage (value : Fl) (res : Option Res) (f : Bytes) : Except Halt Bytes :=
  writeMapped f value (dbl (5/10)) (dbl (1/10)) (dbl (1/1000)) res

/-- moteus_multiplex.h:271-273 -/
def writeTime (value : Fl) (res : Option Res) (f : Bytes) : Except Halt Bytes :=
  writeMapped f value (dbl (1/100)) (dbl (1/1000)) (dbl (1/1000000)) res

/-- moteus_multiplex.h:275-277 -/
def writeCurrent (value : Fl) (res : Option Res) (f : Bytes) : Except Halt Bytes :=
  writeMapped f value (dbl 1) (dbl (1/10)) (dbl (1/1000)) res

/-- moteus_multiplex.h:583-671 `WriteCombiner`; the frame it writes to is
passed separately.  `reply_size_` is a `uint8_t`. -/
structure Combiner where
  base : Nat
  start : Nat
  resolutions : List (Option Res)
  current : Option Res
  offset : Nat
  replySize : Nat
deriving DecidableEq

/-- moteus_multiplex.h:585-594 -/
def Combiner.init (base start : Nat) (resolutions : List (Option Res)) : Combiner :=
  ⟨base, start, resolutions, none, 0, 0⟩

/-- moteus_multiplex.h:623-628: the loop over the following entries. -/
def runLength (r : Option Res) : List (Option Res) → Nat
  | [] => 0
  | x :: xs => if x = r then runLength r xs + 1 else 0

/-- moteus_multiplex.h:630-641 -/
def commandOffset : Res → Nat
  | .int8 => 0x00 | .int16 => 0x04 | .int32 => 0x08 | .f32 => 0x0c

/-- moteus_multiplex.h:560-569 `ResolutionSize` -/
def resolutionSize : Res → Nat
  | .int8 => 1 | .int16 => 2 | .int32 => 4 | .f32 => 4

/-- moteus_multiplex.h:643-653: the framing of a block; `count` is cut to an
`int8_t`. -/
def writeFraming (f : Bytes) (command : Nat) (count register : Nat) : Except Halt Bytes := do
  if count ≤ 3 then
    let f ← writeInt f .int8 (command + count : Nat)
    writeVaruint f register
  else
    let f ← writeInt f .int8 command
    let f ← writeInt f .int8 count
    writeVaruint f register

/-- moteus_multiplex.h:604-659 `MaybeWrite` -/
def Combiner.maybeWrite (c : Combiner) (f : Bytes) : Except Halt (Bool × Combiner × Bytes) := do
  match c.resolutions[c.offset]? with
  | none => .error .overrun
  | some thisRes =>
    if c.current = thisRes then
      .ok (c.current.isSome, { c with offset := c.offset + 1 }, f)
    else
      match thisRes with
      | none => .ok (false, { c with offset := c.offset + 1, current := none }, f)
      | some r =>
        let count := 1 + runLength (some r) (c.resolutions.drop (c.offset + 1))
        let f' ← writeFraming f (c.base + commandOffset r) count (c.start + c.offset)
        .ok (true, { c with
          offset := c.offset + 1
          current := some r
          replySize := ((c.replySize + (f'.length - f.length)) % 256
            + count * resolutionSize r) % 256 }, f')

/-- The calling pattern of the `Make` functions,
`if (combiner.MaybeWrite()) { frame->Write...(value); }` for each register,
ended by the destructor (moteus_multiplex.h:596-600).  The result is the frame
and `reply_size()`. -/
def Combiner.run (c : Combiner) (f : Bytes) :
    List (Bytes → Except Halt Bytes) → Except Halt (Bytes × Nat)
  | [] => if c.offset ≠ c.resolutions.length then .error .abort else .ok (f, c.replySize)
  | w :: ws => do
    let (b, c, f) ← c.maybeWrite f
    if b then
      let f ← w f
      Combiner.run c f ws
    else Combiner.run c f ws

/-! ## moteus_protocol.h -/

/-- moteus_protocol.h:319-343 `Query::Format`; `extra` holds the entries in
front of the first one that has no register number. -/
structure QueryFormat where
  mode : Option Res
  position : Option Res
  velocity : Option Res
  torque : Option Res
  q_current : Option Res
  d_current : Option Res
  abs_position : Option Res
  power : Option Res
  motor_temperature : Option Res
  trajectory_complete : Option Res
  home_state : Option Res
  voltage : Option Res
  temperature : Option Res
  fault : Option Res
  aux1_gpio : Option Res
  aux2_gpio : Option Res
  extra : List (Nat × Option Res)

/-- The default member initializers, moteus_protocol.h:320-337. -/
def QueryFormat.default : QueryFormat where
  mode := some .int8
  position := some .f32
  velocity := some .f32
  torque := some .f32
  q_current := none
  d_current := none
  abs_position := none
  power := none
  motor_temperature := none
  trajectory_complete := none
  home_state := none
  voltage := some .int8
  temperature := some .int8
  fault := some .int8
  aux1_gpio := none
  aux2_gpio := none
  extra := []

/-- A combiner used for reading, e.g. moteus_protocol.h:359-366. -/
def readBlock (f : Bytes) (start : Nat) (rs : List (Option Res)) : Except Halt (Bytes × Nat) :=
  (Combiner.init 0x10 start rs).run f (List.replicate rs.length Except.ok)

/-- moteus_protocol.h:432-442 (and 783-793): the resolutions of the registers
from `reg` on, `n` of them, taken from the entries that are left.  Reading
`format.extra[index]` behind the last entry finds no register number. -/
def spread : (n reg : Nat) → List (Nat × Option Res) → List (Option Res)
  | 0, _, _ => []
  | n + 1, reg, [] => none :: spread n (reg + 1) []
  | n + 1, reg, e :: es =>
    if e.1 = reg then e.2 :: spread n (reg + 1) es
    else none :: spread n (reg + 1) (e :: es)

/-- moteus_protocol.h:403-450 for the extra registers of a query and 755-802
`GenericQuery::Make`.  The number of registers is a `uint16_t`. -/
def makeItems (f : Bytes) (items : List (Nat × Option Res)) : Except Halt (Bytes × Nat) :=
  match items.head?, items.getLast? with
  | some first, some last =>
    let required := (((last.1 : Int) - first.1 + 1) % 65536).toNat
    if 512 < required then .error .abort
    else readBlock f first.1 (spread required first.1 items)
  | _, _ => .ok (f, 0)

/-- moteus_protocol.h:345-453 `Query::Make`; the sum is a `uint8_t`. -/
def makeQuery (f : Bytes) (q : QueryFormat) : Except Halt (Bytes × Nat) := do
  let (f, s1) ← readBlock f 0x000 [q.mode, q.position, q.velocity, q.torque, q.q_current, q.d_current,
      q.abs_position, q.power]
  let (f, s2) ← readBlock f 0x00a [q.motor_temperature, q.trajectory_complete, q.home_state, q.voltage,
      q.temperature, q.fault]
  let (f, s3) ← readBlock f 0x05e [q.aux1_gpio, q.aux2_gpio]
  let (f, s4) ← makeItems f q.extra
  .ok (f, (s1 + s2 + s3 + s4) % 256)

/-- The three writes that select a mode, e.g. moteus_protocol.h:870-872. -/
def makeMode (f : Bytes) (mode : Nat) : Except Halt Bytes := do
  let f ← writeInt f .int8 (0x00 + 0x01)
  let f ← writeInt f .int8 0x000
  writeInt f .int8 mode

/-- A mode followed by a block of registers. -/
def makeModeBlock (f : Bytes) (mode start : Nat) (rs : List (Option Res))
    (ws : List (Bytes → Except Halt Bytes)) : Except Halt Bytes := do
  let f ← makeMode f mode
  ((Combiner.init 0x00 start rs).run f ws).map Prod.fst

/-- moteus_protocol.h:837-850 `PositionMode::Command` -/
structure PositionCommand where
  position : Fl := .fin 0
  velocity : Fl := .fin 0
  feedforward_torque : Fl := .fin 0
  kp_scale : Fl := .fin 1
  kd_scale : Fl := .fin 1
  maximum_torque : Fl := .nan
  stop_position : Fl := .nan
  watchdog_timeout : Fl := .nan
  velocity_limit : Fl := .nan
  accel_limit : Fl := .nan
  fixed_voltage_override : Fl := .nan
  ilimit_scale : Fl := .fin 1

/-- moteus_protocol.h:852-865 `PositionMode::Format` -/
structure PositionFormat where
  position : Option Res := some .f32
  velocity : Option Res := some .f32
  feedforward_torque : Option Res := none
  kp_scale : Option Res := none
  kd_scale : Option Res := none
  maximum_torque : Option Res := none
  stop_position : Option Res := none
  watchdog_timeout : Option Res := none
  velocity_limit : Option Res := none
  accel_limit : Option Res := none
  fixed_voltage_override : Option Res := none
  ilimit_scale : Option Res := none

/-- moteus_protocol.h:867-934 `PositionMode::Make` -/
def makePosition (f : Bytes) (c : PositionCommand) (x : PositionFormat) : Except Halt Bytes :=
  makeModeBlock f 10 0x020
    [ x.position, x.velocity, x.feedforward_torque, x.kp_scale, x.kd_scale, x.maximum_torque,
      x.stop_position, x.watchdog_timeout, x.velocity_limit, x.accel_limit,
      x.fixed_voltage_override, x.ilimit_scale ]
    [ writePosition c.position x.position,
      writeVelocity c.velocity x.velocity,
      writeTorque c.feedforward_torque x.feedforward_torque,
      writePwm c.kp_scale x.kp_scale,
      writePwm c.kd_scale x.kd_scale,
      writeTorque c.maximum_torque x.maximum_torque,
      writePosition c.stop_position x.stop_position,
      writeTime c.watchdog_timeout x.watchdog_timeout,
      writeVelocity c.velocity_limit x.velocity_limit,
      writeAccel c.accel_limit x.accel_limit,
      writeVoltage c.fixed_voltage_override x.fixed_voltage_override,
      writePwm c.ilimit_scale x.ilimit_scale ]

/-- moteus_protocol.h:939-943 `VFOCMode::Command` -/
structure VFOCCommand where
  theta_rad : Fl := .fin 0
  voltage : Fl := .fin 0
  theta_rad_rate : Fl := .fin 0

/-- moteus_protocol.h:945-949 `VFOCMode::Format` -/
structure VFOCFormat where
  theta_rad : Option Res := some .f32
  voltage : Option Res := some .f32
  theta_rad_rate : Option Res := some .f32

/-- Division by `M_PI`, a double. -/
def divMPi : Fl → Fl
  | .nan => .nan
  | .inf n => .inf n
  | .fin q => b64.round (q / (884279719003555 / 281474976710656))

/-- moteus_protocol.h:951-996 `VFOCMode::Make` -/
def makeVfoc (f : Bytes) (c : VFOCCommand) (x : VFOCFormat) : Except Halt Bytes :=
  makeModeBlock f 7 0x018
    [ x.theta_rad, x.voltage, none, none, none, none, x.theta_rad_rate ]
    [ writePwm (divMPi c.theta_rad) x.theta_rad,
      writeVoltage c.voltage x.voltage,
      fun _ => .error .abort, fun _ => .error .abort, fun _ => .error .abort,
      fun _ => .error .abort,
      writeVelocity (divMPi c.theta_rad_rate) x.theta_rad_rate ]

/-- moteus_protocol.h:1001-1004 `CurrentMode::Command` -/
structure CurrentCommand where
  d_A : Fl := .fin 0
  q_A : Fl := .fin 0

/-- moteus_protocol.h:1006-1009 `CurrentMode::Format` -/
structure CurrentFormat where
  d_A : Option Res := some .f32
  q_A : Option Res := some .f32

/-- moteus_protocol.h:1011-1037 `CurrentMode::Make`: as in the Python library
the resolutions are listed d first and the values q first. -/
def makeCurrent (f : Bytes) (c : CurrentCommand) (x : CurrentFormat) : Except Halt Bytes :=
  makeModeBlock f 9 0x01c [x.d_A, x.q_A] [writeCurrent c.q_A x.q_A, writeCurrent c.d_A x.d_A]

/-- moteus_protocol.h:1041-1050 `StayWithinMode::Command` -/
structure WithinCommand where
  lower_bound : Fl := .nan
  upper_bound : Fl := .nan
  feedforward_torque : Fl := .fin 0
  kp_scale : Fl := .fin 1
  kd_scale : Fl := .fin 1
  maximum_torque : Fl := .fin 0
  watchdog_timeout : Fl := .nan
  ilimit_scale : Fl := .fin 1

/-- moteus_protocol.h:1052-1061 `StayWithinMode::Format` -/
structure WithinFormat where
  lower_bound : Option Res := some .f32
  upper_bound : Option Res := some .f32
  feedforward_torque : Option Res := none
  kp_scale : Option Res := none
  kd_scale : Option Res := none
  maximum_torque : Option Res := none
  watchdog_timeout : Option Res := none
  ilimit_scale : Option Res := none

/-- moteus_protocol.h:1063-1113 `StayWithinMode::Make` -/
def makeStayWithin (f : Bytes) (c : WithinCommand) (x : WithinFormat) : Except Halt Bytes :=
  makeModeBlock f 13 0x040
    [ x.lower_bound, x.upper_bound, x.feedforward_torque, x.kp_scale, x.kd_scale,
      x.maximum_torque, x.watchdog_timeout, x.ilimit_scale ]
    [ writePosition c.lower_bound x.lower_bound,
      writePosition c.upper_bound x.upper_bound,
      writeTorque c.feedforward_torque x.feedforward_torque,
      writePwm c.kp_scale x.kp_scale,
      writePwm c.kd_scale x.kd_scale,
      writeTorque c.maximum_torque x.maximum_torque,
      writeTime c.watchdog_timeout x.watchdog_timeout,
      writePwm c.ilimit_scale x.ilimit_scale ]

/-- moteus_protocol.h:1144-1177 `GpioWrite::Make`; the values are `int8_t`. -/
def makeGpioWrite (f : Bytes) (aux1 aux2 : Int) (x1 x2 : Option Res) : Except Halt Bytes :=
  ((Combiner.init 0x00 0x05c [x1, x2]).run f
    [fun f => writeClampedInt f aux1 x1, fun f => writeClampedInt f aux2 x2]).map Prod.fst

/-- moteus_protocol.h:1179-1209 `GpioRead::Make` -/
def makeGpioRead (f : Bytes) (x1 x2 : Option Res) : Except Halt (Bytes × Nat) :=
  readBlock f 0x05e [x1, x2]

/-- moteus_protocol.h:1211-1239 `OutputNearest::Make`, `OutputExact::Make`
with `register` one of 0x130, 0x131. -/
def makeOutput (f : Bytes) (register : Nat) (position : Fl) : Except Halt Bytes := do
  let f ← writeInt f .int8 (0x0c + 0x01)
  let f ← writeVaruint f register
  writeFloat f position

/-- moteus_protocol.h:1241-1263 `RequireReindex::Make`,
`RecapturePositionVelocity::Make` with `register` one of 0x132, 0x133. -/
def makeTrigger (f : Bytes) (register : Nat) : Except Halt Bytes := do
  let f ← writeInt f .int8 (0x00 + 0x01)
  let f ← writeVaruint f register
  writeInt f .int8 1

/-- moteus_protocol.h:1265-1281 `DiagnosticWrite::Make`; `channel` and the
size are `int8_t`. -/
def makeDiagnosticWrite (f : Bytes) (channel : Int) (data : Bytes) : Except Halt Bytes := do
  let f ← writeInt f .int8 0x40
  let f ← writeInt f .int8 channel
  let f ← writeInt f .int8 data.length
  write f data

/-- moteus_protocol.h:1283-1297 `DiagnosticRead::Make`: frame and reply
size. -/
def makeDiagnosticRead (f : Bytes) (channel maxLength : Int) : Except Halt (Bytes × Nat) := do
  let f ← writeInt f .int8 0x42
  let f ← writeInt f .int8 channel
  let f ← writeInt f .int8 maxLength
  .ok (f, ofSigned 1 (maxLength + 3))

/-- moteus_protocol.h:1332-1345 `ClockTrim::Make`; `trim` is an `int32_t`. -/
def makeClockTrim (f : Bytes) (trim : Int) : Except Halt Bytes := do
  let f ← writeInt f .int8 (0x08 + 0x01)
  let f ← writeVaruint f 0x071
  writeInt f .int32 trim

/-- `static_cast<float>` of a double as a value. -/
def toFloat (x : Fl) : Fl := unpack32 (floatBits x)

/-- moteus_protocol.h:1347-1429 `AuxPwmWrite::Make`: the ten values are
`float`s; one that is not finite is left out. -/
def makeAuxPwm (f : Bytes) (values : List Fl) (formats : List (Option Res)) : Except Halt Bytes :=
  ((Combiner.init 0x00 0x076 ((values.zip formats).map fun x => if x.1.isFinite then x.2 else none)).run f
    ((values.zip formats).map fun x => writePwm x.1 x.2)).map Prod.fst

/-! ## moteus.h -/

/-- moteus.h:57-93 `Controller::Options`, the fields that concern frames. -/
structure Options where
  id : Nat
  query_format : QueryFormat
  default_query : Bool

/-- moteus.h:1104-1107: the options and the query that the constructor
(95-100) prepares. -/
structure Controller where
  options : Options
  queryFrame : Bytes
  queryReplySize : Nat

/-- moteus.h:95-100 the constructor. -/
def Controller.make (o : Options) : Except Halt Controller :=
  (makeQuery [] o.query_format).map fun q => ⟨o, q.1, q.2⟩

/-- moteus_protocol.h:48-88 `CanFdFrame`, the fields that are filled in. -/
structure Frame where
  destination : Nat
  replyRequired : Bool
  expectedReplySize : Nat
  data : Bytes
deriving DecidableEq

/-- moteus.h:1079-1102 `MakeFrame`.  `cmd` is the `Make` function of the
command with its values.  Note that the `memcpy` of the prepared query is not
bounded by the 64 bytes of the frame. -/
def Controller.makeFrame (c : Controller) (cmd : Bytes → Except Halt (Bytes × Nat))
    (override : Option QueryFormat) : Except Halt Frame := do
  let required := override.isSome || c.options.default_query
  let (f, n) ← cmd []
  match override with
  | some q =>
    let (f, n) ← makeQuery f q
    .ok ⟨c.options.id, required, n, f⟩
  | none =>
    if c.options.default_query then
      if 64 < f.length + c.queryFrame.length then .error .overrun
      else .ok ⟨c.options.id, required, c.queryReplySize, f ++ c.queryFrame⟩
    else .ok ⟨c.options.id, required, n, f⟩

/-- A command whose `Make` returns 0. -/
def plain (m : Bytes → Except Halt Bytes) (f : Bytes) : Except Halt (Bytes × Nat) :=
  (m f).map fun f => (f, 0)

/-- moteus.h:138-145 `MakeQuery` -/
def Controller.makeQuery (c : Controller) (override : Option QueryFormat) : Except Halt Frame :=
  c.makeFrame (plain .ok) (some (override.getD c.options.query_format))

/-- moteus.h:164-166 `MakeStop` -/
def Controller.makeStop (c : Controller) (override : Option QueryFormat) : Except Halt Frame :=
  c.makeFrame (plain fun f => makeMode f 0) override

/-- moteus.h:181-183 `MakeBrake` -/
def Controller.makeBrake (c : Controller) (override : Option QueryFormat) : Except Halt Frame :=
  c.makeFrame (plain fun f => makeMode f 15) override

/-- moteus.h:198-206 `MakePosition`, with the format that is in effect. -/
def Controller.makePosition (c : Controller) (cmd : PositionCommand) (format : PositionFormat)
    (override : Option QueryFormat) : Except Halt Frame :=
  c.makeFrame (plain fun f => Cxx.makePosition f cmd format) override

/-- moteus.h:257-264 `MakeVFOC` -/
def Controller.makeVfoc (c : Controller) (cmd : VFOCCommand) (format : VFOCFormat)
    (override : Option QueryFormat) : Except Halt Frame :=
  c.makeFrame (plain fun f => Cxx.makeVfoc f cmd format) override

/-- moteus.h:284-291 `MakeCurrent` -/
def Controller.makeCurrent (c : Controller) (cmd : CurrentCommand) (format : CurrentFormat)
    (override : Option QueryFormat) : Except Halt Frame :=
  c.makeFrame (plain fun f => Cxx.makeCurrent f cmd format) override

/-- moteus.h:313-321 `MakeStayWithin` -/
def Controller.makeStayWithin (c : Controller) (cmd : WithinCommand) (format : WithinFormat)
    (override : Option QueryFormat) : Except Halt Frame :=
  c.makeFrame (plain fun f => Cxx.makeStayWithin f cmd format) override

/-- moteus.h:343-350 `MakeOutputNearest` -/
def Controller.makeOutputNearest (c : Controller) (position : Fl) (override : Option QueryFormat) :
    Except Halt Frame :=
  c.makeFrame (plain fun f => makeOutput f 0x130 position) override

/-- moteus.h:372-379 `MakeOutputExact` -/
def Controller.makeOutputExact (c : Controller) (position : Fl) (override : Option QueryFormat) :
    Except Halt Frame :=
  c.makeFrame (plain fun f => makeOutput f 0x131 position) override

/-- moteus.h:401-408 `MakeRequireReindex` -/
def Controller.makeRequireReindex (c : Controller) (override : Option QueryFormat) :
    Except Halt Frame :=
  c.makeFrame (plain fun f => makeTrigger f 0x132) override

/-- moteus.h:430-438 `MakeRecapturePositionVelocity` -/
def Controller.makeRecapture (c : Controller) (override : Option QueryFormat) : Except Halt Frame :=
  c.makeFrame (plain fun f => makeTrigger f 0x133) override

/-- moteus.h:462-469 `MakeClockTrim` -/
def Controller.makeClockTrim (c : Controller) (trim : Int) (override : Option QueryFormat) :
    Except Halt Frame :=
  c.makeFrame (plain fun f => Cxx.makeClockTrim f trim) override

/-- moteus.h:624-631 `MakeWriteGpio` -/
def Controller.makeWriteGpio (c : Controller) (aux1 aux2 : Int) (x1 x2 : Option Res)
    (override : Option QueryFormat) : Except Halt Frame :=
  c.makeFrame (plain fun f => makeGpioWrite f aux1 aux2 x1 x2) override

/-- moteus.h:652-659 `MakeGpioRead` -/
def Controller.makeGpioRead (c : Controller) (x1 x2 : Option Res) (override : Option QueryFormat) :
    Except Halt Frame :=
  c.makeFrame (fun f => Cxx.makeGpioRead f x1 x2) override

/-- moteus.h:679-686 `MakeAuxPwmWrite` -/
def Controller.makeAuxPwm (c : Controller) (values : List Fl) (formats : List (Option Res))
    (override : Option QueryFormat) : Except Halt Frame :=
  c.makeFrame (plain fun f => Cxx.makeAuxPwm f values formats) override

/-- moteus.h:707-713 `MakeSchemaVersionQuery` -/
def Controller.makeSchemaVersionQuery (c : Controller) : Except Halt Frame :=
  c.makeFrame (fun f => makeItems f [(0x102, some .int32)]) none

end Verif.Cxx
