import Verif.Float.Arith

/-!
# Position command update of the firmware

Model of `BldcServoPosition` (`fw/bldc_servo_position.h`), function by
function, over an arbitrary arithmetic `A` for the `float` operations.

Simplifications:
* the 64 bit positions are unbounded integers (their overflow is undefined
  behaviour in C++; it needs positions beyond 32768 turns);
* the conversion of a `float` to `int32_t` saturates and maps NaN to zero, as
  the `VCVT` instruction does (out of range it is undefined in C++);
* zeros carry no sign, so where `std::copysign` looks at the sign of a zero
  (or of a NaN) the model lets the environment choose it (`TrajIn.z1`, `z2`).

Properties C35, C36, C37.
-/

namespace Verif.Fw

open Verif.Float

/-- Truncation toward zero. -/
def truncQ (q : ℚ) : ℤ := if 0 ≤ q then q.floor else -(-q).floor

/-- `static_cast<int32_t>(float)` on the Cortex-M4 (`VCVT.S32.F32`). -/
def toI32 : Fl → ℤ
  | .nan => 0
  | .inf true => -2147483648
  | .inf false => 2147483647
  | .fin q => max (-2147483648) (min 2147483647 (truncQ q))

/-- `static_cast<int32_t>` of an integer. -/
def wrapI32 (n : ℤ) : ℤ := (n + 2147483648) % 4294967296 - 2147483648

/-- `MotorPosition::IntToFloat` (`fw/motor_position.h` 344-346). -/
def intToFloat (A : Ar) (v : ℤ) : Fl :=
  A.div (A.lit (wrapI32 (v / 4294967296))) (A.lit 65536)

/-- `MotorPosition::FloatToInt` (`fw/motor_position.h` 348-350). -/
def floatToInt (A : Ar) (x : Fl) : ℤ := 4294967296 * toI32 (A.mul (A.lit 65536) x)

/-- The sign bit of `x`; for a zero or a NaN the environment decides. -/
def signBit (z : Bool) : Fl → Bool
  | .nan => z
  | .inf s => s
  | .fin q => if q = 0 then z else decide (q < 0)

/-- `std::copysign`. -/
def copysign (z : Bool) (m x : Fl) : Fl := if signBit z x then m.abs.neg else m.abs

/-- The fields of `BldcServoStatus` that the update changes
(`fw/bldc_servo_structs.h` 159-163). -/
structure TrajStatus where
  cp : Option ℤ
  cv : Option Fl
  done : Bool
  controlPosition : Fl
deriving DecidableEq

/-- The fields of `BldcServoCommandData` that the update uses
(`fw/bldc_servo_structs.h` 304-331). -/
structure TrajData where
  position : Fl
  velocity : Fl
  posRaw : Option ℤ
  stopRaw : Option ℤ
  velLimit : Fl
  accelLimit : Fl
  ignoreBounds : Bool
deriving DecidableEq

/-- Configuration (`fw/bldc_servo_structs.h` 522, 523, 570, 648, 649). -/
structure TrajConfig where
  zeroCapture : Fl
  maxPositionSlip : Fl
  maxVelocitySlip : Fl
  positionMin : Fl
  positionMax : Fl
deriving DecidableEq

/-- The remaining arguments of one call of `UpdateCommand`, and measured
values. -/
structure TrajIn where
  /-- the `velocity` argument -/
  velocity : Fl
  /-- `position->position_relative_raw` -/
  posRel : ℤ
  /-- `absolute_relative_delta` -/
  delta : ℤ
  rateHz : Fl
  /-- `status->velocity_filt` -/
  velocityFilt : Fl
  /-- `status->velocity` -/
  measured : Fl
  /-- `status->motor_max_velocity` -/
  motorMax : Fl
  /-- sign of a zero in `CalculateAcceleration` -/
  z1 : Bool
  /-- sign of a zero velocity at the cruise limit -/
  z2 : Bool
deriving DecidableEq

/-- `*optional` (an empty optional is never dereferenced, see
`update_engaged`). -/
def derefF (x : Option Fl) : Fl := x.getD .nan
/-- `*optional` for positions. -/
def derefI (x : Option ℤ) : ℤ := x.getD 0

/-- Clamp of the velocity to the limit (`fw/bldc_servo_position.h` 38-41 and
200-203). -/
def clampVelocity (limit v : Fl) : Fl :=
  if limit.isNan then v
  else
    let v := if limit.blt v then limit else v
    if v.blt limit.neg then limit.neg else v

/-- `cond ? 1.0f : -1.0f` -/
def signOf (b : Bool) : ℚ := if b then 1 else -1

/-- `DoVelocityModeLimits` (`fw/bldc_servo_position.h` 30-62): new control
velocity and whether the trajectory is done. -/
def velocityModeLimits (A : Ar) (rateHz velLimit accelLimit velocity cv : Fl) : Fl × Bool :=
  let period := A.div (A.lit 1) rateHz
  let velocity := clampVelocity velLimit velocity
  if accelLimit.isNan then (velocity, true)
  else
    let dv := A.sub velocity cv
    let initial := (Fl.fin 0).blt dv
    let acceleration := A.mul accelLimit (.fin (signOf initial))
    let cv := A.add cv (A.mul acceleration period)
    let final := cv.blt velocity
    if final != initial then (velocity, true) else (cv, false)

/-- `DoVelocityOnlyLimit` (`fw/bldc_servo_position.h` 64-83): new control
velocity and whether the trajectory is done. -/
def velocityOnlyLimit (A : Ar) (period dx velLimit velocity : Fl) : Fl × Bool :=
  let initial := dx.blt (.fin 0)
  let cv := A.mul (.fin (-signOf initial)) velLimit
  let nextDx := A.sub dx (A.mul cv period)
  let final := nextDx.blt (.fin 0)
  if final != initial then (velocity, true) else (cv, false)

/-- `CalculateAcceleration` (`fw/bldc_servo_position.h` 85-126). -/
def calculateAcceleration (A : Ar) (z : Bool) (velLimit a v0 vf dx : Fl) : Fl :=
  if velLimit.isFinite && velLimit.blt v0.abs then copysign z a v0.neg
  else
    let vFrame := A.sub v0 vf
    if (Fl.fin 0).ble (A.mul vFrame dx) && !dx.beq (.fin 0) then
      let decel := A.div (A.mul vFrame vFrame) (A.mul (.fin 2) a)
      if decel.ble dx.abs then
        if velLimit.isNan || v0.abs.blt velLimit then copysign z a dx else .fin 0
      else copysign z a vFrame.neg
    else copysign z a vFrame.neg

/-- The velocity after the cruise correction (`fw/bldc_servo_position.h`
165-176). -/
def cruise (z : Bool) (velLimit v0 v1 : Fl) : Fl :=
  if velLimit.isFinite && (Fl.min v0.abs v1.abs).blt velLimit &&
      velLimit.blt (Fl.max v0.abs v1.abs) then copysign z velLimit v0
  else v1

/-- The completion test (`fw/bldc_servo_position.h` 178-185). -/
def complete (A : Ar) (period a v0 v1 vf dx : Fl) : Bool :=
  let targetCross := (Fl.min v0 v1).ble vf && vf.ble (Fl.max v0 v1)
  let targetNear := (A.sub v1 vf).abs.blt (A.mul (A.mul a (A.lit (1 / 2))) period)
  let positionNear := (A.div dx v1).abs.ble (A.mul (.fin 10) period)
  (targetCross || targetNear) && positionNear

/-- `DoVelocityAndAccelLimits` (`fw/bldc_servo_position.h` 128-191), `dx` being
the distance to the target of line 148: new control velocity and whether the
trajectory is done. -/
def velocityAndAccelLimits (A : Ar) (z1 z2 : Bool) (rateHz velLimit accelLimit velocity cv dx : Fl) :
    Fl × Bool :=
  let period := A.div (A.lit 1) rateHz
  if accelLimit.isNan then velocityOnlyLimit A period dx velLimit velocity
  else
    let acceleration := calculateAcceleration A z1 velLimit accelLimit cv velocity dx
    let v1 := A.add cv (A.mul acceleration period)
    if complete A period accelLimit cv v1 velocity dx then (velocity, true)
    else (cruise z2 velLimit cv v1, false)

/-- The distance to the target (`fw/bldc_servo_position.h` 148-149). -/
def distance (A : Ar) (target cp : ℤ) : Fl := intToFloat A (target - cp)

/-- `UpdateTrajectory` (`fw/bldc_servo_position.h` 193-212). -/
def updateTrajectory (A : Ar) (i : TrajIn) (velocity : Fl) (s : TrajStatus) (d : TrajData) :
    TrajStatus × TrajData :=
  let velocity := clampVelocity d.velLimit velocity
  match d.posRaw with
  | none =>
    let r := velocityModeLimits A i.rateHz d.velLimit d.accelLimit velocity (derefF s.cv)
    ({ s with cv := some r.1, done := s.done || r.2 }, d)
  | some target =>
    let r := velocityAndAccelLimits A i.z1 i.z2 i.rateHz d.velLimit d.accelLimit velocity
      (derefF s.cv) (distance A target (derefI s.cp))
    ({ s with cv := some r.1, done := s.done || r.2 },
      if r.2 then { d with position := .nan, posRaw := none } else d)

/-- Both limits absent. -/
def noLimits (d : TrajData) : Bool := d.velLimit.isNan && d.accelLimit.isNan

/-- Start of `UpdateCommand` (`fw/bldc_servo_position.h` 233-260); `velocity` is
not NaN any more. -/
def begin (i : TrajIn) (c : TrajConfig) (velocity : Fl) (s : TrajStatus) (d : TrajData) :
    TrajStatus × TrajData :=
  let s := if noLimits d then { s with done := true, cv := some velocity }
    else { s with done := false }
  match d.posRaw, noLimits d with
  | some target, true =>
    ({ s with cp := some target, cv := some velocity }, { d with position := .nan, posRaw := none })
  | _, _ =>
    if s.cp.isNone then
      ({ s with
          cp := some i.posRel
          cv := some (if i.velocityFilt.abs.blt c.zeroCapture then .fin 0 else i.velocityFilt) }, d)
    else (s, d)

/-- Lines 262-264. -/
def advance (A : Ar) (i : TrajIn) (velocity : Fl) (s : TrajStatus) (d : TrajData) :
    TrajStatus × TrajData :=
  if s.done then (s, d) else updateTrajectory A i velocity s d

/-- The limit of the motor (`fw/bldc_servo_position.h` 266-270). -/
def motorLimit (m cv : Fl) : Fl :=
  if m.blt cv then m else if cv.blt m.neg then m.neg else cv

/-- A velocity as a position step (`fw/bldc_servo_position.h` 277-281 and
285-289). -/
def posStep (A : Ar) (rateHz v : Fl) : ℤ :=
  toI32 (A.mul (A.lit 4294967296) (A.div v rateHz)) * 65536

/-- The position slip limit (`fw/bldc_servo_position.h` 293-306). -/
def positionSlip (A : Ar) (maxSlip : Fl) (current cp : ℤ) : ℤ :=
  if maxSlip.isFinite then
    let slip := floatToInt A maxSlip
    let error := current - cp
    let cp := if error < -slip then current + slip else cp
    if error > slip then current - slip else cp
  else cp

/-- The velocity slip limit (`fw/bldc_servo_position.h` 308-317). -/
def velocitySlip (A : Ar) (slip measured cv : Fl) : Fl :=
  if slip.isFinite then
    let error := A.sub measured cv
    let cv := if error.blt slip.neg then A.add measured slip else cv
    if slip.blt error then A.sub measured slip else cv
  else cv

/-- `saturate` with `<` (`fw/bldc_servo_position.h` 322-332). -/
def saturateMin (A : Ar) (value : Fl) (delta : ℤ) (p : ℤ × Bool) : ℤ × Bool :=
  if value.isNan then p
  else
    let limit := floatToInt A value - delta
    if p.1 - limit < 0 then (limit, true) else p

/-- `saturate` with `>` (`fw/bldc_servo_position.h` 322-334). -/
def saturateMax (A : Ar) (value : Fl) (delta : ℤ) (p : ℤ × Bool) : ℤ × Bool :=
  if value.isNan then p
  else
    let limit := floatToInt A value - delta
    if p.1 - limit > 0 then (limit, true) else p

/-- The position bounds (`fw/bldc_servo_position.h` 319-335). -/
def bounds (A : Ar) (c : TrajConfig) (ignoreBounds : Bool) (delta cp : ℤ) : ℤ × Bool :=
  if ignoreBounds then (cp, false)
  else saturateMax A c.positionMax delta (saturateMin A c.positionMin delta (cp, false))

/-- `sign` of an integer as a float (`fw/bldc_servo_position.h` 340-344). -/
def signI (n : ℤ) : ℚ := if n < 0 then -1 else if 0 < n then 1 else 0

/-- Whether the control position moves away from the stop position
(`fw/bldc_servo_position.h` 345-346). -/
def pastStop (A : Ar) (cp stop : ℤ) (velocityCommand : Fl) : Bool :=
  (Fl.fin 0).blt (A.mul (.fin (signI (cp - stop))) velocityCommand)

/-- The stop position (`fw/bldc_servo_position.h` 337-357): new control
position, or nothing when it is not reached. -/
def stopAt (A : Ar) (stop : Option ℤ) (cp : ℤ) (velocityCommand : Fl) : Option ℤ :=
  match stop with
  | none => none
  | some stop => if pastStop A cp stop velocityCommand then some stop else none

/-- Lines 337-371: stop position, limit hit and reported position. -/
def finish (A : Ar) (i : TrajIn) (velocityCommand : Fl) (cp : ℤ) (hit : Bool) (cv : Fl)
    (s : TrajStatus) (d : TrajData) : Fl × TrajStatus × TrajData :=
  match stopAt A d.stopRaw cp velocityCommand with
  | some stop =>
    (.fin 0,
      { s with cp := some stop, cv := some (.fin 0), done := true,
               controlPosition := intToFloat A (stop + i.delta) },
      { d with position := .nan, posRaw := none, velocity := .fin 0 })
  | none =>
    (if hit then .fin 0 else velocityCommand,
      { s with cp := some cp, cv := some (if hit then .fin 0 else cv),
               controlPosition := intToFloat A (cp + i.delta) },
      d)

/-- The velocity argument, with NaN replaced (`fw/bldc_servo_position.h`
224-226). -/
def velocityArg (v : Fl) : Fl := if v.isNan then .fin 0 else v

/-- The local state before the position bounds. -/
structure TrajMid where
  velocityCommand : Fl
  cp : ℤ
  cv : Fl
  s : TrajStatus
  d : TrajData

/-- `UpdateCommand` up to the position bounds (`fw/bldc_servo_position.h`
214-317). -/
def prepare (A : Ar) (c : TrajConfig) (i : TrajIn) (s : TrajStatus) (d : TrajData) : TrajMid :=
  let velocity := velocityArg i.velocity
  let b := begin i c velocity s d
  let t := advance A i velocity b.1 b.2
  let velocityCommand := motorLimit i.motorMax (derefF t.1.cv)
  let cp := derefI t.1.cp + posStep A i.rateHz velocityCommand
  { velocityCommand
    cp := positionSlip A c.maxPositionSlip i.posRel cp
    cv := velocitySlip A c.maxVelocitySlip i.measured velocityCommand
    s := t.1
    d := { t.2 with posRaw := t.2.posRaw.map (· + posStep A i.rateHz velocity) } }

/-- `UpdateCommand` (`fw/bldc_servo_position.h` 214-372): velocity command and
new state. -/
def updateCommand (A : Ar) (c : TrajConfig) (i : TrajIn) (s : TrajStatus) (d : TrajData) :
    Fl × TrajStatus × TrajData :=
  let m := prepare A c i s d
  let b := bounds A c m.d.ignoreBounds i.delta m.cp
  finish A i m.velocityCommand b.1 b.2 m.cv m.s m.d

end Verif.Fw
