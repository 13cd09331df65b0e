import Verif.Fw.Source

/-!
# Output position of the firmware

Model of the output side of `MotorPosition` (`fw/motor_position.h`): what
`HandleConfigUpdate` prepares, `ISR_UpdateOutput`, and the requests that set
the output position.

Simplifications:
* the 64 bit positions are unbounded integers (their overflow is undefined
  behaviour in C++; it needs positions beyond 32768 turns);
* `uint32_t` counts per revolution are converted to `float` with `A.lit`;
* commutation (`ISR_UpdateCommutation`) and the configuration checks are not
  part of this model.
-/

namespace Verif.Fw

open Verif.Float

/-- The configuration of the output (`fw/motor_position.h` 121-150) together
with that of the output source and of the reference source, if any. -/
structure OutputConfig where
  /-- `config_.sources[config_.output.source].cpr` -/
  cpr : ℕ
  /-- that source is referenced to the rotor -/
  rotor : Bool
  offset : Fl
  /-- `config_.output.sign == 1` (it is 1 or -1) -/
  forward : Bool
  /-- `rotor_to_output_ratio` -/
  ratio : Fl
  /-- counts per revolution of the reference source -/
  reference : Option ℕ

/-- `config_.output.sign` as a `float` -/
def OutputConfig.sign (c : OutputConfig) : ℚ := if c.forward then 1 else -1

/-- `encoder_ratio`, `output_ambiguity_scale_` (`fw/motor_position.h` 620-628) -/
def OutputConfig.scale (c : OutputConfig) : Fl := if c.rotor then c.ratio else .fin 1

/-- `output_cpr_scale_` (`fw/motor_position.h` 630-631) -/
def OutputConfig.cprScale (A : Ar) (c : OutputConfig) : Fl :=
  A.div (A.mul (.fin c.sign) c.scale) (A.lit c.cpr)

/-- `(1ll << 24) * static_cast<int32_t>((1l << 24) * x)` -/
def fixed (A : Ar) (x : Fl) : ℤ := 16777216 * toI32 (A.mul (A.lit 16777216) x)

/-- `output_encoder_step_` (`fw/motor_position.h` 633-634) -/
def OutputConfig.step (A : Ar) (c : OutputConfig) : ℤ := fixed A c.scale.abs

/-- `output_encoder_step_hb_1_4_` (`fw/motor_position.h` 638-639) -/
def OutputConfig.quarter (A : Ar) (c : OutputConfig) : ℤ :=
  wrapI32 ((c.step A).tdiv 4 * 1 / 4294967296)

/-- `output_encoder_step_hb_3_4_` (`fw/motor_position.h` 640-641) -/
def OutputConfig.threeQuarters (A : Ar) (c : OutputConfig) : ℤ :=
  wrapI32 ((c.step A).tdiv 4 * 3 / 4294967296)

inductive Homed
  | relative | rotor | output
deriving DecidableEq

/-- The output part of `Status` (`fw/motor_position.h` 218-275). -/
structure OutputStatus where
  relativeValid : Bool
  everValid : Bool
  relativeRaw : ℤ
  relative : Fl
  modulo : ℤ
  raw : ℤ
  position : Fl
  homed : Homed
  velocity : Fl
  thetaValid : Bool
  delta : ℤ
deriving DecidableEq

/-- After a configuration change. -/
def OutputStatus.init : OutputStatus :=
  ⟨false, false, 0, .fin 0, 0, 0, .fin 0, .relative, .fin 0, false, 0⟩

/-- `encoder_ratio` (`fw/motor_position.h` 679-682) -/
def encoderRatio (A : Ar) (c : OutputConfig) (filtered : Fl) : Fl :=
  if c.forward then A.div filtered (A.lit c.cpr)
  else A.sub (A.lit 1) (A.div filtered (A.lit c.cpr))

/-- `scaled_encoder_ratio` (`fw/motor_position.h` 683-686) -/
def scaledRatio (A : Ar) (c : OutputConfig) (filtered : Fl) : Fl :=
  if c.forward then A.mul filtered (c.cprScale A)
  else A.mul (A.sub (A.lit c.cpr) filtered) (c.cprScale A).abs

/-- `scaled_int_encoder_ratio` (`fw/motor_position.h` 687-688) -/
def code (A : Ar) (c : OutputConfig) (filtered : Fl) : ℤ := fixed A (scaledRatio A c filtered)

/-- The new `position_relative_modulo` (`fw/motor_position.h` 706-714). -/
def nextModulo (A : Ar) (c : OutputConfig) (filtered : Fl) (relativeRaw modulo : ℤ) : ℤ :=
  let hb := (relativeRaw - modulo) / 4294967296
  if hb < c.quarter A ∧ Fl.blt (A.lit (3 / 4)) (encoderRatio A c filtered) = true then
    modulo - c.step A
  else if c.threeQuarters A < hb ∧ Fl.blt (encoderRatio A c filtered) (A.lit (1 / 4)) = true then
    modulo + c.step A
  else modulo

/-- The first part of `ISR_UpdateOutput` (`fw/motor_position.h` 679-746). -/
def follow (A : Ar) (c : OutputConfig) (src : SourceStatus) (o : OutputStatus) : OutputStatus :=
  let si := code A c src.filtered
  let m0 := if o.everValid then o.modulo else -si
  let m := nextModulo A c src.filtered o.relativeRaw m0
  let relRaw := m + si
  let raw := o.raw + (relRaw - o.relativeRaw)
  let latch := src.activeAbsolute = true ∧ o.homed = .relative
  let raw := if latch then
      fixed A (wrapBalancedCpr A (A.add (scaledRatio A c src.filtered)
        (A.mul c.offset (.fin c.sign))) c.scale)
    else raw
  { o with
    relativeValid := true
    everValid := true
    modulo := m
    relativeRaw := relRaw
    raw := raw
    homed := if latch then .rotor else o.homed
    relative := intToFloat A relRaw
    position := intToFloat A raw
    velocity := A.mul src.velocity (c.cprScale A) }

/-- `std::round` -/
def roundAway (q : ℚ) : ℤ := if 0 ≤ q then (q + 1 / 2).floor else -(-q + 1 / 2).floor

/-- `std::round` on a `float` -/
def flRound (A : Ar) : Fl → Fl
  | .fin q => A.lit (roundAway q)
  | x => x

/-- `std::floor` on a `float` -/
def flFloor (A : Ar) : Fl → Fl
  | .fin q => A.lit q.floor
  | x => x

/-- The reading of the output source as an output position, up to its
ambiguity (`fw/motor_position.h` 1053-1058). -/
def outputValue (A : Ar) (c : OutputConfig) (src : SourceStatus) : Fl :=
  wrapBalancedCpr A (A.mul (A.add (A.mul (A.div src.filtered (A.lit c.cpr)) c.scale) c.offset)
    (.fin c.sign)) c.scale

/-- The reading of the reference source (`fw/motor_position.h` 1067-1071 and
775-780). -/
def referenceValue (A : Ar) (c : OutputConfig) (cpr : ℕ) (ref : SourceStatus) : Fl :=
  wrapBalancedCpr A (A.mul (A.add (A.div ref.filtered (A.lit cpr)) c.offset) (.fin c.sign)) (A.lit 1)

/-- Nearest to the request, no reference (`fw/motor_position.h` 1118-1121). -/
def nearestPlain (A : Ar) (scale value out : Fl) : Fl :=
  A.add out (A.mul (flRound A (A.div (A.sub value out) scale)) scale)

/-- Nearest to the request, with a reference (`fw/motor_position.h`
1080-1101). -/
def nearestReduced (A : Ar) (scale value out ref : Fl) : Fl :=
  let lower := flFloor A (A.div ref scale)
  let upper := A.add lower (A.lit 1)
  let lowerValue := A.add (A.mul lower scale) out
  let upperValue := A.add (A.mul upper scale) out
  let first := if Fl.blt (A.sub lowerValue ref).abs (A.sub upperValue ref).abs then lowerValue
    else upperValue
  A.add first (flRound A (A.sub value first))

/-- `ISR_SetOutputPositionNearestHelper` (`fw/motor_position.h` 1048-1130). -/
def setNearestHelper (A : Ar) (c : OutputConfig) (src : SourceStatus) (ref : SourceStatus)
    (value : Fl) (o : OutputStatus) : OutputStatus :=
  let out := outputValue A c src
  let final :=
    match c.reference with
    | some cpr =>
      let rv := referenceValue A c cpr ref
      if src.activeAbsolute = true ∧ ref.activeAbsolute = true ∧ Fl.blt c.scale (A.lit 1) = true then
        nearestReduced A c.scale value out rv
      else if src.activeAbsolute = false then rv
      else nearestPlain A c.scale value out
    | none => nearestPlain A c.scale value out
  let raw := floatToInt A final
  { o with raw := raw, position := intToFloat A raw, homed := .output }

/-- `ISR_SetOutputPositionNearest` (`fw/motor_position.h` 357-369). -/
def setNearest (A : Ar) (c : OutputConfig) (src : SourceStatus) (ref : SourceStatus)
    (value : Fl) (o : OutputStatus) : OutputStatus :=
  if src.activeAbsolute = false ∧ (c.reference = none ∨ ref.activeAbsolute = false) then o
  else setNearestHelper A c src ref value o

/-- `static_cast<int64_t>(static_cast<double>(value) * (1ll << 48))`: the
product is exact in `double`; the conversion saturates. -/
def doubleToInt : Fl → ℤ
  | .nan => 0
  | .inf true => -9223372036854775808
  | .inf false => 9223372036854775807
  | .fin q => max (-9223372036854775808) (min 9223372036854775807 (truncQ (q * 281474976710656)))

/-- `ISR_SetOutputPosition` (`fw/motor_position.h` 338-342). -/
def setExact (value : Fl) (o : OutputStatus) : OutputStatus :=
  { o with position := value, raw := doubleToInt value, homed := .output }

/-- The second part of `ISR_UpdateOutput` (`fw/motor_position.h` 749-782). -/
def reference (A : Ar) (c : OutputConfig) (src : SourceStatus) (ref : SourceStatus)
    (o : OutputStatus) : OutputStatus :=
  if src.activeVelocity = false ∧ src.activeTheta = false then
    { o with relativeValid := false, thetaValid := false, homed := .relative }
  else
    let o := { o with delta := (o.raw - o.relativeRaw) / 4294967296 }
    match c.reference with
    | none => o
    | some cpr =>
      if ref.activeAbsolute = true ∧ o.relativeValid = true then
        match o.homed with
        | .output => o
        | .rotor => setNearestHelper A c src ref (.fin 0) o
        | .relative => setExact (referenceValue A c cpr ref) o
      else o

/-- `ISR_UpdateOutput` (`fw/motor_position.h` 675-783). -/
def updateOutput (A : Ar) (c : OutputConfig) (src : SourceStatus) (ref : SourceStatus)
    (o : OutputStatus) : OutputStatus :=
  reference A c src ref (if src.activeVelocity then follow A c src o else o)

/-- The change of the modulo at an index pulse of the output source
(`fw/motor_position.h` 912-922). -/
def indexAdjust (A : Ar) (c : OutputConfig) (old : Fl) (offsetValue : ℕ) (o : OutputStatus) :
    OutputStatus :=
  { o with modulo := o.modulo - fixed A (A.mul
      (wrapBalancedCpr A (A.sub (A.lit offsetValue) old) (A.lit c.cpr)) (c.cprScale A)) }

/-- `ISR_RequireReindex` (`fw/motor_position.h` 371-377), the output part. -/
def requireReindex (o : OutputStatus) : OutputStatus := { o with homed := .relative, thetaValid := false }

end Verif.Fw
