import Verif.Commands.Model
import Verif.Multiplex.Spec
import Verif.Float.Near

/-!
# Model of the register file of the controller, fw/moteus_controller.cc

`Write`, `Read`, `StartFrame`, `CompleteFrame` and `Poll` of
`MoteusController::Impl`.  The class that takes a CAN frame apart
(`mjlib::multiplex::MicroServer`) is not in the repository; it is assumed to
call `StartFrame`, then `Write` and `Read` for every register of the frame in
order, then `CompleteFrame`, and to send the collected reply unless
`CompleteFrame` returned `kDiscard`.

The servo, the auxiliary ports and the clock are seen through two things: the
log of the calls made to them (`Effect`), and what they report after a given
log (`Board`).

Simplifications: a conversion of a float to an integer that C++ leaves
undefined behaves like the VCVT instruction of the processor (saturating, NaN
gives 0); the members of the command that no register writes
(`meas_ind_period`, the two internal raw positions, `synthetic_theta`) are
left out; `float` arithmetic as in Float/Arith.
-/

namespace Verif.Fw.Registers

open Verif Verif.Float Verif.Multiplex Verif.Multiplex.Spec Verif.Commands

/-! ## Values -/

/-- `multiplex::MicroServer::Value`, a variant of the four register types. -/
inductive Value
  | i8 (n : Int) | i16 (n : Int) | i32 (n : Int) | f (x : Fl)
deriving DecidableEq

/-- The value of a register in a frame (little endian, docs/reference.md:413-430). -/
def Value.ofBytes : Res → Bytes → Value
  | .int8, b => .i8 (toSigned 1 (leNat b))
  | .int16, b => .i16 (toSigned 2 (leNat b))
  | .int32, b => .i32 (toSigned 4 (leNat b))
  | .f32, b => .f (unpack32 (leNat b))

/-- Conversion of an integer to a narrower signed type. -/
def wrap (bits : Nat) (n : Int) : Int := Int.bmod n (2 ^ bits)

/-- Conversion of a float to `int32_t` as done by the processor. -/
def castI32 : Fl → Int
  | .nan => 0
  | .inf true => -2147483648
  | .inf false => 2147483647
  | .fin q => Max.max (-2147483648) (Min.min 2147483647 (truncQ q))

/-- moteus_controller.cc:129-133 `ReadIntMapping` -/
def readInt : Value → Int
  | .i8 n => wrap 8 n
  | .i16 n => wrap 8 n
  | .i32 n => wrap 8 n
  | .f x => wrap 8 (castI32 x)

/-- moteus_controller.cc:135-139 `ReadInt32Mapping` -/
def readInt32 : Value → Int
  | .i8 n => n
  | .i16 n => n
  | .i32 n => n
  | .f x => castI32 x

/-- The scales given to `ScaleMapping`, moteus_controller.cc:86-127
(`ScaleCurrent` calls `ScaleTemperature`). -/
def fscale : Kind → Res → Fl
  | .position, .int8 => Ar.single.lit (1/100)
  | .position, .int16 => Ar.single.lit (1/10000)
  | .position, .int32 => Ar.single.lit (1/100000)
  | .velocity, .int8 => Ar.single.lit (1/10)
  | .velocity, .int16 => Ar.single.lit (25/100000)
  | .velocity, .int32 => Ar.single.lit (1/100000)
  | .accel, .int8 => Ar.single.lit (5/100)
  | .accel, .int16 => Ar.single.lit (1/1000)
  | .accel, .int32 => Ar.single.lit (1/100000)
  | .temperature, .int8 => Ar.single.lit 1
  | .temperature, .int16 => Ar.single.lit (1/10)
  | .temperature, .int32 => Ar.single.lit (1/1000)
  | .pwm, .int8 => Ar.single.div (Ar.single.lit 1) (Ar.single.lit 127)
  | .pwm, .int16 => Ar.single.div (Ar.single.lit 1) (Ar.single.lit 32767)
  | .pwm, .int32 => Ar.single.div (Ar.single.lit 1) (Ar.single.lit 2147483647)
  | .current, .int8 => Ar.single.lit 1
  | .current, .int16 => Ar.single.lit (1/10)
  | .current, .int32 => Ar.single.lit (1/1000)
  | .voltage, .int8 => Ar.single.lit (5/10)
  | .voltage, .int16 => Ar.single.lit (1/10)
  | .voltage, .int32 => Ar.single.lit (1/1000)
  | .torque, .int8 => Ar.single.lit (5/10)
  | .torque, .int16 => Ar.single.lit (1/100)
  | .torque, .int32 => Ar.single.lit (1/1000)
  | .time, .int8 => Ar.single.lit (1/100)
  | .time, .int16 => Ar.single.lit (1/1000)
  | .time, .int32 => Ar.single.lit (1/1000000)
  | .power, .int8 => Ar.single.lit 10
  | .power, .int16 => Ar.single.lit (5/100)
  | .power, .int32 => Ar.single.lit (1/10000)
  | _, .f32 => .fin 1

/-- The scales given to `ReadScaleMapping`, moteus_controller.cc:179-210.
There is no function that reads a temperature or a power. -/
def rscale : Kind → Res → Fl
  | .position, .int8 => Ar.single.lit (1/100)
  | .position, .int16 => Ar.single.lit (1/10000)
  | .position, .int32 => Ar.single.lit (1/100000)
  | .velocity, .int8 => Ar.single.lit (1/10)
  | .velocity, .int16 => Ar.single.lit (25/100000)
  | .velocity, .int32 => Ar.single.lit (1/100000)
  | .accel, .int8 => Ar.single.lit (5/100)
  | .accel, .int16 => Ar.single.lit (1/1000)
  | .accel, .int32 => Ar.single.lit (1/100000)
  | .pwm, .int8 => Ar.single.div (Ar.single.lit 1) (Ar.single.lit 127)
  | .pwm, .int16 => Ar.single.div (Ar.single.lit 1) (Ar.single.lit 32767)
  | .pwm, .int32 => Ar.single.div (Ar.single.lit 1) (Ar.single.lit 2147483647)
  | .current, .int8 => Ar.single.lit 1
  | .current, .int16 => Ar.single.lit (1/10)
  | .current, .int32 => Ar.single.lit (1/1000)
  | .voltage, .int8 => Ar.single.lit (5/10)
  | .voltage, .int16 => Ar.single.lit (1/10)
  | .voltage, .int32 => Ar.single.lit (1/1000)
  | .torque, .int8 => Ar.single.lit (5/10)
  | .torque, .int16 => Ar.single.lit (1/100)
  | .torque, .int32 => Ar.single.lit (1/1000)
  | .time, .int8 => Ar.single.lit (1/100)
  | .time, .int16 => Ar.single.lit (1/1000)
  | .time, .int32 => Ar.single.lit (1/1000000)
  | _, .f32 => .fin 1
  | _, _ => .nan

/-- moteus_controller.cc:141-177 `ValueScaler` and `ReadScaleMapping` -/
def readScale (k : Kind) : Value → Fl
  | .i8 n => if n = -128 then .nan else Ar.single.mul (Ar.single.lit n) (rscale k .int8)
  | .i16 n => if n = -32768 then .nan else Ar.single.mul (Ar.single.lit n) (rscale k .int16)
  | .i32 n => if n = -2147483648 then .nan else Ar.single.mul (Ar.single.lit n) (rscale k .int32)
  | .f x => x

/-- moteus_controller.cc:58-71 `ScaleSaturate<T>`; `max` is the largest value
of the type. -/
def scaleSaturate (max : Int) (value scale : Fl) : Int :=
  if !value.isFinite then -max - 1
  else
    let scaled := Ar.single.div value scale
    let floatMax := Ar.single.lit max
    castI32 (Fl.limit scaled floatMax.neg floatMax)

/-- moteus_controller.cc:73-84 `ScaleMapping` and the functions at 86-127 -/
def scaleMapping (k : Kind) (value : Fl) : Res → Value
  | .int8 => .i8 (scaleSaturate 127 value (fscale k .int8))
  | .int16 => .i16 (scaleSaturate 32767 value (fscale k .int16))
  | .int32 => .i32 (scaleSaturate 2147483647 value (fscale k .int32))
  | .f32 => .f value

/-- moteus_controller.cc:46-56 `IntMapping` -/
def intMapping (n : Int) : Res → Value
  | .int8 => .i8 (wrap 8 n)
  | .int16 => .i16 (wrap 16 n)
  | .int32 => .i32 (wrap 32 n)
  | .f32 => .f (Ar.single.lit n)

/-! ## The command -/

/-- The `float` members of `BldcServoCommandData`, bldc_servo_structs.h:282-335. -/
inductive Field
  | pwmA | pwmB | pwmC | phaseA | phaseB | phaseC | theta | voltage | thetaRate | dV | qV
  | iD | iQ | position | velocity | maxTorque | stopPosition | feedforward
  | kpScale | kdScale | ilimitScale | velocityLimit | accelLimit | fixedVoltage | fixedCurrent
  | timeout | boundsMin | boundsMax
deriving DecidableEq, Repr

/-- bldc_servo_structs.h:282-342 `BldcServoCommandData` -/
structure CommandData where
  mode : Int
  ignoreBounds : Bool
  val : Field → Fl

/-- The member initializers, bldc_servo_structs.h:283-335 (`Vec3` is
zero initialized). -/
def CommandData.init : CommandData where
  mode := 0
  ignoreBounds := false
  val
    | .maxTorque => Ar.single.lit 100
    | .stopPosition => .nan
    | .kpScale => .fin 1
    | .kdScale => .fin 1
    | .ilimitScale => .fin 1
    | .velocityLimit => .nan
    | .accelLimit => .nan
    | .fixedVoltage => .nan
    | .fixedCurrent => .nan
    | _ => .fin 0

/-- Assignment to a member. -/
def CommandData.set (c : CommandData) (f : Field) (x : Fl) : CommandData :=
  { c with val := fun g => if g = f then x else c.val g }

/-- math.h:25 `kPi` -/
def kPi : Fl := Ar.single.lit (3141592653589793/1000000000000000)

/-- What a write register addresses; the cases of the switch in `Write`. -/
inductive Target
  | mode
  | param (f : Field) (k : Kind)
  | paramPi (f : Field) (k : Kind)
  | ignoreBounds
  | gpio (port : Nat)
  | trim
  | auxPwm (port pin : Nat)
  | nearest | exact | reindex | recapture
  | mask (i : Nat)
  | readOnly
  | unknown
deriving DecidableEq

/-- The registers that `Write` refuses with error 2, moteus_controller.cc:768-827. -/
def readOnlyRegisters : List Nat :=
  [0x001, 0x002, 0x003, 0x004, 0x005, 0x006, 0x007, 0x00a, 0x00b, 0x00c, 0x00d, 0x00e, 0x00f,
   0x030, 0x031, 0x032, 0x033, 0x034, 0x038, 0x039, 0x03a, 0x03b, 0x03c, 0x03d,
   0x050, 0x051, 0x052, 0x053, 0x054, 0x055, 0x058, 0x05e, 0x05f,
   0x060, 0x061, 0x062, 0x063, 0x064, 0x068, 0x069, 0x06a, 0x06b, 0x06c, 0x070,
   0x100, 0x101, 0x102, 0x110, 0x120, 0x121, 0x122, 0x140, 0x141,
   0x150, 0x151, 0x152, 0x153]

/-- The registers that `Write` accepts, moteus_controller.cc:560-766, with the
register numbers of moteus_controller.cc:222-359. -/
def writable : List (Nat × Target) :=
  [ (0x000, .mode),
    (0x010, .param .pwmA .pwm), (0x011, .param .pwmB .pwm), (0x012, .param .pwmC .pwm),
    (0x014, .param .phaseA .voltage), (0x015, .param .phaseB .voltage),
    (0x016, .param .phaseC .voltage),
    (0x018, .paramPi .theta .pwm), (0x019, .param .voltage .voltage),
    (0x01a, .param .dV .voltage), (0x01b, .param .qV .voltage),
    (0x01c, .param .iQ .current), (0x01d, .param .iD .current),
    (0x01e, .paramPi .thetaRate .velocity),
    (0x020, .param .position .position), (0x021, .param .velocity .velocity),
    (0x022, .param .feedforward .torque), (0x023, .param .kpScale .pwm),
    (0x024, .param .kdScale .pwm), (0x025, .param .maxTorque .torque),
    (0x026, .param .stopPosition .position), (0x027, .param .timeout .time),
    (0x028, .param .velocityLimit .velocity), (0x029, .param .accelLimit .accel),
    (0x02a, .param .fixedVoltage .voltage), (0x02b, .param .ilimitScale .pwm),
    (0x02c, .param .fixedCurrent .current), (0x02d, .ignoreBounds),
    (0x040, .param .boundsMin .position), (0x041, .param .boundsMax .position),
    (0x042, .param .feedforward .torque), (0x043, .param .kpScale .pwm),
    (0x044, .param .kdScale .pwm), (0x045, .param .maxTorque .torque),
    (0x046, .param .timeout .time), (0x047, .param .ilimitScale .pwm), (0x048, .ignoreBounds),
    (0x05c, .gpio 1), (0x05d, .gpio 2), (0x071, .trim),
    (0x076, .auxPwm 1 0), (0x077, .auxPwm 1 1), (0x078, .auxPwm 1 2), (0x079, .auxPwm 1 3),
    (0x07a, .auxPwm 1 4), (0x07b, .auxPwm 2 0), (0x07c, .auxPwm 2 1), (0x07d, .auxPwm 2 2),
    (0x07e, .auxPwm 2 3), (0x07f, .auxPwm 2 4),
    (0x130, .nearest), (0x131, .exact), (0x132, .reindex), (0x133, .recapture),
    (0x154, .mask 0), (0x155, .mask 1), (0x156, .mask 2), (0x157, .mask 3) ]

/-- The switch of `Write`, moteus_controller.cc:559-828. -/
def target (reg : Nat) : Target :=
  match writable.lookup reg with
  | some t => t
  | none => if reg ∈ readOnlyRegisters then .readOnly else .unknown

/-- The calls that the register file makes to the rest of the firmware. -/
inductive Effect
  | command (c : CommandData)          -- `bldc_.Command`
  | digitalOut (port : Nat) (n : Int)  -- `aux_port_.WriteDigitalOut`
  | setTrim (n : Int)                  -- `clock_manager_->SetTrim`
  | pwmOut (port pin : Nat) (x : Fl)   -- `aux_port_.WritePwmOut`
  | setNearest (x : Fl)                -- `bldc_.SetOutputPositionNearest`
  | setExact (x : Fl)                  -- `bldc_.SetOutputPosition`
  | requireReindex                     -- `bldc_.RequireReindex`
  | recapture                          -- `bldc_.RecapturePositionVelocity`

/-- moteus_controller.cc:1200-1202, with the calls made so far. -/
structure St where
  commandValid : Bool
  discardAll : Bool
  command : CommandData
  log : List Effect

/-- The initial state. -/
def St.init : St := ⟨false, false, .init, []⟩

def St.call (s : St) (e : Effect) : St := { s with log := s.log ++ [e] }

/-- `uuid_->uuid()` read as four `int32_t`, moteus_controller.cc:755-761 -/
def uuidWord (uuid : Bytes) (i : Nat) : Int := toSigned 4 (leNat ((uuid.drop (4 * i)).take 4))

/-- moteus_controller.cc:554-832 `Write`; the second component is the error
code. -/
def write (uuid : Bytes) (s : St) (reg : Nat) (v : Value) : St × Nat :=
  if s.discardAll then (s, 0)
  else
    match target reg with
    | .mode =>
      let newMode := readInt v
      if newMode > 16 then (s, 3)
      else ({ s with commandValid := true, command := { CommandData.init with mode := newMode } }, 0)
    | .param f k => ({ s with command := s.command.set f (readScale k v) }, 0)
    | .paramPi f k =>
      ({ s with command := s.command.set f (Ar.single.mul (readScale k v) kPi) }, 0)
    | .ignoreBounds =>
      ({ s with command := { s.command with ignoreBounds := readInt v != 0 } }, 0)
    | .gpio port => (s.call (.digitalOut port (readInt v)), 0)
    | .trim => (s.call (.setTrim (readInt v)), 0)
    | .auxPwm port pin => (s.call (.pwmOut port pin (readScale .pwm v)), 0)
    | .nearest => (s.call (.setNearest (readScale .position v)), 0)
    | .exact => (s.call (.setExact (readScale .position v)), 0)
    | .reindex => (s.call .requireReindex, 0)
    | .recapture => (s.call .recapture, 0)
    | .mask i =>
      if uuidWord uuid i ≠ readInt32 v then ({ s with discardAll := true }, 0) else (s, 0)
    | .readOnly => (s, 2)
    | .unknown => (s, 1)

/-! ## Reading -/

/-- What the rest of the firmware reports; the members read by `Read`. -/
structure Board where
  mode : Int
  position : Fl
  velocity : Fl
  torque : Fl
  qA : Fl
  dA : Fl
  power : Fl
  motorTemp : Fl
  fetTemp : Fl
  busV : Fl
  trajectoryDone : Bool
  homed : Int
  fault : Int
  pidP : Fl
  pidIntegral : Fl
  pidD : Fl
  pidError : Fl
  pidErrorRate : Fl
  controlTorque : Fl
  controlPosition : Fl
  controlVelocity : Option Fl
  torqueError : Fl
  filtered : Nat → Fl
  encVelocity : Nat → Fl
  cpr : Nat → Fl
  activeTheta : Nat → Bool
  activeVelocity : Nat → Bool
  pins : Nat → List Bool
  analog : Nat → Nat → Fl
  auxPwm : Nat → Nat → Fl
  milliseconds : Nat
  trim : Int
  modelNumber : Int
  firmwareVersion : Int
  serial : Nat → Int
  fsr1 : Int
  fsr2 : Int

/-- moteus_controller.cc:212-220 `PinsToBits`, an `int8_t`. -/
def pinsToBits (l : List Bool) : Int :=
  wrap 8 (l.zipIdx.foldl (fun acc p => acc + if p.1 then 2 ^ p.2 else 0) 0)

/-- A bit at a position. -/
def bit (b : Bool) (i : Nat) : Int := if b then 2 ^ i else 0

/-- moteus_controller.cc:1050-1061; the last line of the expression follows a
semicolon and has no effect. -/
def validity (b : Board) : Int :=
  bit (b.activeTheta 0) 0 + bit (b.activeVelocity 0) 1 + bit (b.activeTheta 1) 2 +
    bit (b.activeVelocity 1) 3 + bit (b.activeTheta 2) 4

/-- What a readable register holds. -/
inductive Src
  | num (k : Kind) (x : Fl)     -- through `ScaleMapping`
  | int (n : Int)               -- through `IntMapping`
  | counter (n : Nat)           -- 0x070
  | int32 (n : Int)             -- type 2 only
  | nothing

/-- The switch of `Read`, moteus_controller.cc:854-1183. -/
def source (uuid : Bytes) (b : Board) (c : CommandData) (reg : Nat) : Src :=
  match reg with
  | 0x000 => .int b.mode
  | 0x001 => .num .position b.position
  | 0x002 => .num .velocity b.velocity
  | 0x00a => .num .temperature b.motorTemp
  | 0x00e => .num .temperature b.fetTemp
  | 0x004 => .num .current b.qA
  | 0x005 => .num .current b.dA
  | 0x006 => .num .position (Ar.single.div (b.filtered 1) (b.cpr 1))
  | 0x007 => .num .power b.power
  | 0x00b => .int (if b.trajectoryDone then 1 else 0)
  | 0x00c => .int b.homed
  | 0x00d => .num .voltage b.busV
  | 0x003 => .num .torque b.torque
  | 0x00f => .int b.fault
  | 0x010 => .num .pwm (c.val .pwmA)
  | 0x011 => .num .pwm (c.val .pwmB)
  | 0x012 => .num .pwm (c.val .pwmC)
  | 0x014 => .num .voltage (c.val .phaseA)
  | 0x015 => .num .voltage (c.val .phaseB)
  | 0x016 => .num .voltage (c.val .phaseC)
  | 0x018 => .num .pwm (Ar.single.div (c.val .theta) kPi)
  | 0x019 => .num .voltage (c.val .voltage)
  | 0x01a => .num .voltage (c.val .dV)
  | 0x01b => .num .voltage (c.val .qV)
  | 0x01c => .num .current (c.val .iQ)
  | 0x01d => .num .current (c.val .iD)
  | 0x01e => .num .velocity (Ar.single.div (c.val .thetaRate) kPi)
  | 0x020 => .num .position (c.val .position)
  | 0x021 => .num .velocity (c.val .velocity)
  | 0x025 => .num .torque (c.val .maxTorque)
  | 0x045 => .num .torque (c.val .maxTorque)
  | 0x026 => .num .position (c.val .stopPosition)
  | 0x027 => .num .time (c.val .timeout)
  | 0x046 => .num .time (c.val .timeout)
  | 0x028 => .num .velocity (c.val .velocityLimit)
  | 0x029 => .num .accel (c.val .accelLimit)
  | 0x02a => .num .voltage (c.val .fixedVoltage)
  | 0x02c => .num .current (c.val .fixedCurrent)
  | 0x02d => .int (if c.ignoreBounds then 1 else 0)
  | 0x048 => .int (if c.ignoreBounds then 1 else 0)
  | 0x022 => .num .torque (c.val .feedforward)
  | 0x042 => .num .torque (c.val .feedforward)
  | 0x023 => .num .pwm (c.val .kpScale)
  | 0x043 => .num .pwm (c.val .kpScale)
  | 0x024 => .num .pwm (c.val .kdScale)
  | 0x044 => .num .pwm (c.val .kdScale)
  | 0x02b => .num .pwm (c.val .ilimitScale)
  | 0x047 => .num .pwm (c.val .ilimitScale)
  | 0x030 => .num .torque b.pidP
  | 0x031 => .num .torque b.pidIntegral
  | 0x032 => .num .torque b.pidD
  | 0x033 => .num .torque (c.val .feedforward)
  | 0x034 => .num .torque b.controlTorque
  | 0x038 => .num .position b.controlPosition
  | 0x039 => .num .velocity (b.controlVelocity.getD .nan)
  | 0x03a => .num .torque b.controlTorque
  | 0x03b => .num .position b.pidError
  | 0x03c => .num .velocity b.pidErrorRate
  | 0x03d => .num .torque b.torqueError
  | 0x040 => .num .position (c.val .boundsMin)
  | 0x041 => .num .position (c.val .boundsMax)
  | 0x050 => .num .position (Ar.single.div (b.filtered 0) (b.cpr 0))
  | 0x051 => .num .velocity (Ar.single.div (b.encVelocity 0) (b.cpr 0))
  | 0x052 => .num .position (Ar.single.div (b.filtered 1) (b.cpr 1))
  | 0x053 => .num .velocity (Ar.single.div (b.encVelocity 1) (b.cpr 1))
  | 0x054 => .num .position (Ar.single.div (b.filtered 2) (b.cpr 2))
  | 0x055 => .num .velocity (Ar.single.div (b.encVelocity 2) (b.cpr 2))
  | 0x058 => .int (validity b)
  | 0x05c => .int (pinsToBits (b.pins 1))
  | 0x05d => .int (pinsToBits (b.pins 2))
  | 0x05e => .int (pinsToBits (b.pins 1))
  | 0x05f => .int (pinsToBits (b.pins 2))
  | 0x060 => .num .pwm (b.analog 1 0)
  | 0x061 => .num .pwm (b.analog 1 1)
  | 0x062 => .num .pwm (b.analog 1 2)
  | 0x063 => .num .pwm (b.analog 1 3)
  | 0x064 => .num .pwm (b.analog 1 4)
  | 0x068 => .num .pwm (b.analog 2 0)
  | 0x069 => .num .pwm (b.analog 2 1)
  | 0x06a => .num .pwm (b.analog 2 2)
  | 0x06b => .num .pwm (b.analog 2 3)
  | 0x06c => .num .pwm (b.analog 2 4)
  | 0x070 => .counter b.milliseconds
  | 0x071 => .int b.trim
  | 0x076 => .num .pwm (b.auxPwm 1 0)
  | 0x077 => .num .pwm (b.auxPwm 1 1)
  | 0x078 => .num .pwm (b.auxPwm 1 2)
  | 0x079 => .num .pwm (b.auxPwm 1 3)
  | 0x07a => .num .pwm (b.auxPwm 1 4)
  | 0x07b => .num .pwm (b.auxPwm 2 0)
  | 0x07c => .num .pwm (b.auxPwm 2 1)
  | 0x07d => .num .pwm (b.auxPwm 2 2)
  | 0x07e => .num .pwm (b.auxPwm 2 3)
  | 0x07f => .num .pwm (b.auxPwm 2 4)
  | 0x100 => .int32 b.modelNumber
  | 0x101 => .int32 b.firmwareVersion
  | 0x102 => .int32 5
  | 0x120 => .int32 (b.serial 0)
  | 0x121 => .int32 (b.serial 1)
  | 0x122 => .int32 (b.serial 2)
  | 0x150 => .int32 (uuidWord uuid 0)
  | 0x151 => .int32 (uuidWord uuid 1)
  | 0x152 => .int32 (uuidWord uuid 2)
  | 0x153 => .int32 (uuidWord uuid 3)
  | 0x140 => .int b.fsr1
  | 0x141 => .int b.fsr2
  | _ => .nothing

/-- moteus_controller.cc:1092-1101, the millisecond counter. -/
def counterValue (ms : Nat) : Res → Value
  | .int8 => .i8 (wrap 8 (ms % 256 : Nat))
  | .int16 => .i16 (wrap 16 (ms % 65536 : Nat))
  | .int32 => .i32 (wrap 32 ms)
  | .f32 => .f (Ar.single.lit ((ms % 8388608 : Nat) : ℚ))

/-- The register `src` read with the given type; an error code otherwise. -/
def Src.value : Src → Res → Except Nat Value
  | .num k x, r => .ok (scaleMapping k x r)
  | .int n, r => .ok (intMapping n r)
  | .counter ms, r => .ok (counterValue ms r)
  | .int32 n, r => if r = .int32 then .ok (.i32 (wrap 32 n)) else .error 1
  | .nothing, _ => .error 1

/-- moteus_controller.cc:842-1187 `Read` -/
def read (uuid : Bytes) (b : Board) (s : St) (reg : Nat) (r : Res) : Except Nat Value :=
  if s.discardAll then .error 1
  else (source uuid b s.command reg).value r

/-! ## Frames -/

/-- One item of a reply. -/
inductive Reply
  | value (reg : Nat) (v : Value)
  | writeError (reg code : Nat)
  | readError (reg code : Nat)
deriving DecidableEq

/-- The rest of the firmware: its unique identifier and what it reports once
the given calls have been made. -/
structure Env where
  uuid : Bytes
  board : List Effect → Board

/-- One register access of a frame, as `MicroServer` performs it. -/
def access (env : Env) (s : St) : Access → St × List Reply
  | .write reg r b =>
    let (s', e) := write env.uuid s reg (.ofBytes r b)
    (s', if e = 0 then [] else [.writeError reg e])
  | .read reg r =>
    match read env.uuid (env.board s.log) s reg r with
    | .ok v => (s, [.value reg v])
    | .error e => (s, [.readError reg e])
  | .reply .. => (s, [])
  | .error .. => (s, [])

/-- All accesses in order. -/
def accesses (env : Env) : St → List Access → St × List Reply
  | s, [] => (s, [])
  | s, a :: l =>
    ((accesses env (access env s a).1 l).1, (access env s a).2 ++ (accesses env (access env s a).1 l).2)

/-- moteus_controller.cc:541-544 `StartFrame` -/
def startFrame (s : St) : St := { s with commandValid := false, discardAll := false }

/-- moteus_controller.cc:546-552 `CompleteFrame`; the second component says
`kAccept`. -/
def completeFrame (s : St) : St × Bool :=
  if s.discardAll then ({ s with commandValid := false }, false) else (s, true)

/-- One frame; the reply is `none` when it is discarded. -/
def frame (env : Env) (s : St) (l : List Access) : St × Option (List Reply) :=
  let (s, replies) := accesses env (startFrame s) l
  let (s, accept) := completeFrame s
  (s, if accept then some replies else none)

/-- moteus_controller.cc:523-531 `Poll` -/
def poll (s : St) : St :=
  if s.commandValid then ({ s with commandValid := false }).call (.command s.command) else s

/-- One pass of the main loop, moteus.cc:312-320: `FDCanMicroServer::Poll`
delivers at most one frame (fdcan_micro_server.h:81-118), then the controller
is polled. -/
def loop (env : Env) (s : St) : Option (List Access) → St × Option (List Reply)
  | none => (poll s, none)
  | some l => (poll (frame env s l).1, (frame env s l).2)

/-- The main loop over any history of frames, with the replies sent. -/
def run (env : Env) : St → List (Option (List Access)) → St × List (Option (List Reply))
  | s, [] => (s, [])
  | s, e :: l => ((run env (loop env s e).1 l).1, (loop env s e).2 :: (run env (loop env s e).1 l).2)

end Verif.Fw.Registers
