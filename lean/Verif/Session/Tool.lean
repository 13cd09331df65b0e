import Verif.Session.Prog
import Mathlib.Data.Rat.Defs

/-!
# The calibration of `moteus_tool.py` as a program

Every function of `Stream` that takes part in `--calibrate` is transcribed
statement by statement.  Floating point numbers are elements of an arbitrary
type `F` with arbitrary operations (`Arith F`), so that what is proved holds
for the binary64 numbers of Python and for exact rational numbers alike.

Left out: everything that is only printed, the waiting times of
`asyncio.sleep`, and the encoder calibration arithmetic (`ce.calibrate`,
`ce.calibrate_hall`), which may return anything or raise here.  In the names of
settings, `N` stands for the source or port number that was read before.
-/

namespace Verif.Session

/-- The operations of Python's `float` that the tool uses.  `none` stands for
an exception. -/
class Arith (F : Type) where
  /-- literals and integers -/
  lit : Rat → F
  add : F → F → F
  sub : F → F → F
  mul : F → F → F
  /-- `none`: ZeroDivisionError -/
  div : F → F → Option F
  /-- `x < y` -/
  lt : F → F → Bool
  /-- `x <= y` -/
  le : F → F → Bool
  /-- `none`: ValueError -/
  sqrt : F → Option F
  hypot : F → F → F
  abs : F → F
  /-- the built-in `sum` -/
  sum : List F → F
  /-- `round(x)`; `none`: ValueError for NaN, OverflowError for infinities -/
  round : F → Option F
  /-- the value that is printed by `f"{x:.3f}"` -/
  fmt3 : F → F
  /-- `math.pi` -/
  pi : F
  /-- the value that is printed by `NaN` -/
  nan : F

/-- Text of an error reply, as far as the tool looks at it. -/
inductive Msg where
  | errorSetting | unknownCommand | other
  deriving DecidableEq, Repr

/-- Python exceptions.  `CommandError` is a `RuntimeError`
(lib/python/moteus/moteus.py:1430-1433). -/
inductive Exn where
  | command (m : Msg)
  | runtime | timeout | value | index | zeroDivision | assertion | type | name
  | attribute | other
  deriving DecidableEq, Repr

/-- The commands of the diagnostic channel that the tool sends while
calibrating (fw/board_debug.cc:423-830 for the `d` commands). -/
inductive Cmd (F : Type) where
  /-- `d stop` -/
  | stop
  /-- `d pwm <phase> <voltage> [<rate>]` -/
  | pwm (phase voltage : F) (rate : Option F)
  /-- `d vdq <d> <q>` -/
  | vdq (d q : F)
  /-- `d ind <voltage> <period> [o<offset>]` -/
  | ind (voltage : F) (period : Nat) (offset : Option F)
  /-- `d pos nan 0 nan c<current> b1` -/
  | posCurrent (current : F)
  /-- `d pos nan 0 nan o<voltage> b1` -/
  | posVoltage (voltage : F)
  /-- `d cali i<current> s<speed>` -/
  | cali (current speed : F)
  /-- `d cal <voltage> s<speed>` -/
  | cal (voltage speed : F)
  /-- `d index 0` -/
  | indexZero
  /-- `d rezero` -/
  | rezero
  /-- `conf set <key> <value>` -/
  | confSet (key : String) (value : F)
  /-- `conf write` -/
  | confWrite
  /-- `conf enumerate` -/
  | confEnumerate
  /-- `d reset` -/
  | reset

/-- The fields of `servo_stats` that are used. -/
structure Stats (F : Type) where
  mode : Nat
  d_A : F
  q_A : F
  velocity : F
  velocityFilt : Option F
  filtBusV : F
  measIndIntegrator : F

/-- What goes over the wire. -/
inductive Ev (F : Type) where
  /-- A command was sent; `acked` if an `OK` reply was received. -/
  | sent (c : Cmd F) (acked : Bool)
  /-- `conf get <key>` was answered with this value. -/
  | got (key : String) (value : F)
  /-- `conf enumerate` was answered with these settings. -/
  | listed (l : List (String × F))
  /-- The telemetry channel `servo_stats` was received. -/
  | stats (s : Stats F)
  /-- Anything else that only reads. -/
  | reading

/-- Programs of the tool. -/
abbrev P (F α : Type) := M Exn (Ev F) α

open Arith

variable {F : Type} [Arith F]

/-- Raise `e` where the operation has no result. -/
def orRaise (e : Exn) {α : Type} : Option α → P F α
  | some a => pure a
  | none => M.raise e

/-- `if not c: raise e` -/
def check (c : Bool) (e : Exn) : P F Unit := if c then pure () else M.raise e

/-- `if c: p` -/
def when (c : Bool) (p : P F Unit) : P F Unit := if c then p else pure ()

/-- A computation that is not modelled: any value, any exception. -/
def anything {α : Type} : P F α := fun t _ => t = []

/-- lib/python/moteus/moteus_tool.py:732-735 `command`, moteus.py:1525-1542
`read_until_OK`, `command`: send, and return when `OK` is received, or raise.
The reply can be an error, and the exchange can be interrupted. -/
def command (c : Cmd F) : P F Unit := fun t r =>
  (t = [.sent c true] ∧ r = .ok ()) ∨ ∃ e, t = [.sent c false] ∧ r = .raised e

/-- moteus_tool.py:737-740 `write_message`: send without waiting for a reply. -/
def writeMessage (c : Cmd F) : P F Unit := fun t r =>
  t = [.sent c false] ∧ (r = .ok () ∨ ∃ e, r = .raised e)

/-- What `conf get` answers. -/
inductive ConfReply (F : Type) where
  /-- a number -/
  | value (x : F)
  /-- text that is not a number and not an error -/
  | text
  /-- `ERR` with `error reading` or `unknown group` -/
  | unsupported
  /-- any other `ERR` -/
  | err

/-- moteus_tool.py:749, 753, 757 `command(f"conf get {name}",
allow_any_response=True)`. -/
def confGet (key : String) : P F (ConfReply F) := fun t r =>
  (∃ x, t = [.got key x] ∧ r = .ok (.value x)) ∨
  (t = [.reading] ∧ (r = .ok .text ∨ r = .ok .unsupported ∨ r = .ok .err ∨
    ∃ e, r = .raised e))

/-- moteus_tool.py:748-754 `read_config_double` (and `read_config_int`): a
reply that is not a number raises ValueError. -/
def readConfig (key : String) : P F F := do
  match ← confGet key with
  | .value x => pure x
  | _ => M.raise .value

/-- moteus_tool.py:756-763 `is_config_supported` -/
def isConfigSupported (key : String) : P F Bool := do
  match ← confGet key with
  | .unsupported => pure false
  | .err => M.raise .runtime
  | _ => pure true

/-- moteus.py:1517-1523, 1558-1583 `readline`, `read_data`, and any other exchange that
only reads. -/
def readAny {α : Type} : P F α := fun t _ => t = [.reading]

/-- `time.time()` -/
def clock : P F F := fun t r => t = [] ∧ ∃ x, r = .ok x

/-- moteus.py:1558-1583 `read_data("servo_stats")` -/
def readStatsData : P F (Stats F) := fun t r =>
  (∃ s, t = [.stats s] ∧ r = .ok s) ∨ (t = [.reading] ∧ ∃ e, r = .raised e)

/-- moteus_tool.py:962-966 `read_servo_stats` -/
def readServoStats : P F (Stats F) := do
  let s ← (readStatsData : P F (Stats F))
  if s.mode = 1 then M.raise .runtime else pure s

/-- moteus_tool.py:968-969 `check_for_fault` -/
def checkForFault : P F Unit := do
  let _ ← (readServoStats : P F (Stats F))
  pure ()

/-- The telemetry channel `motor_position`, as far as used. -/
structure MotorPosition where
  error : Nat
  homed : Nat
  thetaValid : Bool
  raw : Int

/-- The telemetry channel `firmware`. -/
structure Firmware where
  version : Nat
  family : Nat

/-- The command line options of the calibration (moteus_tool.py:2201-2276);
`none` for an option that was not given and has no default. -/
structure Args (F : Type) where
  calNoUpdate : Bool
  calHall : Bool
  calBwHz : F
  encoderBwHz : Option F
  calLlEncoderVoltage : Option F
  calLlEncoderSpeed : Option F
  calLlKvVoltage : Option F
  calPower : Option F
  calSpeed : Option F
  calVoltage : Option F
  calKvVoltage : Option F
  calMotorPower : F
  calMotorSpeed : F
  calMotorPoles : Option Int
  calForceKv : Option F
  calMaxKvPowerFactor : F
  calForceEncoderCurrentMode : Bool

/-- Python's `min(a, b)` -/
def pyMin (a b : F) : F := if lt b a then b else a

/-- Python's `max(a, b)` -/
def pyMax (a b : F) : F := if lt a b then b else a

/-- `if x:` for an optional number: neither `None` nor zero. -/
def truthy (x : Option F) : Bool :=
  match x with
  | none => false
  | some v => lt v (lit 0) || lt (lit 0) v || !(le v v)

/-- moteus_tool.py:521-525 `_round_nearest_4v` -/
def roundNearest4v (v : F) : Option F :=
  if lt v (lit 14) then some (lit 12)
  else do
    let q ← div v (lit 4)
    let n ← round q
    some (mul n (lit 4))

/-- moteus_tool.py:528-529 `_average` -/
def average (xs : List F) : Option F := div (sum xs) (lit xs.length)

/-- moteus_tool.py:74-79 `stddev` -/
def stddev (xs : List F) : Option F :=
  if xs = [] then some (lit 0)
  else do
    let mean ← div (sum xs) (lit xs.length)
    let v ← div (sum (xs.map fun x => mul (sub x mean) (sub x mean))) (lit xs.length)
    sqrt v

/-- regression.py:16-34 `linear_regression`; the lists have the same length
here.  `none`: ZeroDivisionError. -/
def linearRegression (xs ys : List F) : Option (F × F) := do
  let mx ← div (sum xs) (lit xs.length)
  let my ← div (sum ys) (lit ys.length)
  let b ← div (sum ((xs.zip ys).map fun p => mul (sub p.1 mx) (sub p.2 my)))
    (sum (xs.map fun x => mul (sub x mx) (sub x mx)))
  some (sub my (mul b mx), b)

/-- moteus_tool.py:986-1004 `handle_deprecated(new, old)` for an option pair;
the result is the value of the new option.  `newExists` is false if the parser
has no option of the new name, in which case looking at it raises
AttributeError. -/
def handleDeprecated (newExists : Bool) (new old : Option F) : P F (Option F) :=
  match old with
  | none => pure new
  | some v =>
    if newExists then
      match new with
      | some _ => M.raise .runtime
      | none => pure (some v)
    else M.raise .attribute

/-- moteus_tool.py:986-1004 `calculate_calibration_parameters`.  The parser
(moteus_tool.py:2201-2276) has no `--cal-ll-resistance-voltage`. -/
def calculateCalibrationParameters (a : Args F) : P F (Args F) := do
  let v ← handleDeprecated true a.calLlEncoderVoltage a.calPower
  let s ← handleDeprecated true a.calLlEncoderSpeed a.calSpeed
  let _ ← handleDeprecated false none a.calVoltage
  let k ← handleDeprecated true a.calLlKvVoltage a.calKvVoltage
  pure { a with calLlEncoderVoltage := v, calLlEncoderSpeed := s, calLlKvVoltage := k }

/-- moteus_tool.py:1006-1017 `clear_motor_offsets` -/
def clearMotorOffsets : P F Unit :=
  M.Loop (fun i : Nat => M.Catch
    (do command (.confSet s!"motor.offset.{i}" (lit 0)); pure (.inl (i + 1)))
    (fun e => match e with
      | .command .errorSetting => pure (.inr ())
      | e => M.raise e)) 0

/-- moteus_tool.py:1076-1090: a setting that an old firmware may not have. -/
def setIfSupported (key : String) (x : F) : P F Unit :=
  M.Catch (command (.confSet key x)) (fun e => match e with
    | .command .errorSetting => pure ()
    | e => M.raise e)

/-- moteus_tool.py:1463-1488 `find_current` -/
def findCurrent (voltage : F) : P F (F × F) := do
  check (lt voltage (lit 20) && le (lit 0) voltage) .assertion
  command (.pwm (lit 0) (fmt3 voltage) none)
  let data ← M.collect (List.range 20) (fun _ => do
    let s ← (readServoStats : P F (Stats F))
    pure (hypot s.d_A s.q_A))
  command .stop
  let current ← orRaise .zeroDivision (div (sum data) (lit data.length))
  let noise ← orRaise .value (stddev data)
  pure (current, noise)

/-- One entry of `results` of `calibrate_winding_resistance2`: voltage,
current, noise (the step resistance is only printed). -/
structure Sample (F : Type) where
  voltage : F
  current : F
  noise : F

/-- moteus_tool.py:1521-1524: the resistance of this step, which is printed. -/
def stepResistance (results : List (Sample F)) (v current : F) : Option F :=
  match results.getLast? with
  | none => some (lit 0)
  | some l => div (sub v l.voltage) (sub current l.current)

/-- moteus_tool.py:1518-1539: one round of the search. -/
def resistanceRound (a : Args F) (inputV : F) (st : F × List (Sample F)) :
    P F ((F × List (Sample F)) ⊕ List (Sample F)) := do
  let v := st.1
  let results := st.2
  let (current, noise) ← findCurrent v
  let _ ← orRaise .zeroDivision (stepResistance results v current)
  let results := results ++ [⟨v, current, noise⟩]
  let power := mul (mul current v) (lit (3/2))
  if lt a.calMotorPower power || lt (mul (lit (4/10)) inputV) v then
    pure (.inr results)
  else
    pure (.inl (mul v (lit (11/10)), results))

/-- moteus_tool.py:1495-1566 `calibrate_winding_resistance2` -/
def calibrateWindingResistance2 (a : Args F) (inputV : F) : P F (F × F × F) := do
  let results ← M.Loop (resistanceRound a inputV) (lit (1/100), [])
  let last ← orRaise .index results.getLast?
  let lessThan ← orRaise .index
    (results.filter fun x => lt x.current (mul (lit (6/10)) last.current)).getLast?
  let resistance ← orRaise .zeroDivision
    (div (sub last.voltage lessThan.voltage) (sub last.current lessThan.current))
  command (.confSet "motor.resistance_ohm" resistance)
  pure (resistance, last.voltage, last.noise)

/-- moteus_tool.py:1569-1602 `_test_inductance_period` -/
def testInductancePeriod (fw : Firmware) (calVoltage inputV : F) (period : Nat) :
    P F (F × F) := do
  let offset := pyMin (mul (lit (2/10)) inputV) calVoltage
  let indVoltage := if fw.version < 0x010a then calVoltage
    else pyMin (mul (lit (15/100)) inputV) (mul (lit (8/10)) calVoltage)
  command (if fw.version < 0x010a then .ind calVoltage period none
    else .ind indVoltage period (some offset))
  let start ← (clock : P F F)
  command (if fw.version < 0x010a then .stop else .posVoltage offset)
  let stop ← (clock : P F F)
  let data ← (readServoStats : P F (Stats F))
  let diDt ← orRaise .zeroDivision (div data.measIndIntegrator (sub stop start))
  pure (diDt, indVoltage)

/-- `highest_di_dt`, `highest_cal_voltage`, `since_highest` -/
abbrev Highest (F : Type) := Option (F × F × Nat)

/-- moteus_tool.py:1638-1644 -/
def updateHighest (h : Highest F) (diDt indVoltage : F) : F × F × Nat :=
  match h with
  | none => (diDt, indVoltage, 0)
  | some (hi, hv, n) => if lt hi diDt then (diDt, indVoltage, 0) else (hi, hv, n + 1)

/-- moteus_tool.py:1649-1650 -/
def sweepDone (diDt : F) (h : F × F × Nat) : Bool :=
  lt (lit 0) h.1 && (lt diDt (mul (lit (1/2)) h.1) || decide (2 < h.2.2))

/-- moteus_tool.py:1633-1652: the sweep over the periods. -/
def inductanceSweep (fw : Firmware) (calVoltage inputV : F) :
    List Nat → Highest F → P F (Highest F)
  | [], h => pure h
  | period :: rest, h => do
    let (diDt, indVoltage) ← testInductancePeriod fw calVoltage inputV period
    if sweepDone diDt (updateHighest h diDt indVoltage) then
      pure (some (updateHighest h diDt indVoltage))
    else inductanceSweep fw calVoltage inputV rest (some (updateHighest h diDt indVoltage))

/-- moteus_tool.py:1626 `periods_to_test` -/
def periodsToTest : List Nat := [2, 3, 4, 6, 8, 10, 12, 16, 20, 24, 32]

/-- moteus_tool.py:1605-1672 `calibrate_inductance` -/
def calibrateInductance (fw : Firmware) (calVoltage inputV : F) : P F (Option F) := do
  let oldPoles ← (readConfig "motor.poles" : P F F)
  when (le oldPoles (lit 0) && le (lit 0) oldPoles) (command (.confSet "motor.poles" (lit 2)))
  let h ← M.Catch
    (do
      let h ← inductanceSweep fw calVoltage inputV periodsToTest none
      command .stop
      pure (some h))
    (fun e => match e with
      | .command .unknownCommand => pure none
      | .timeout => pure none
      | e => M.raise e)
  match h with
  | none => pure none
  | some none => M.raise .type
  | some (some (hi, hv, _)) => do
    let inductance ← orRaise .zeroDivision (div hv hi)
    if lt inductance (lit (1/1000000)) then M.raise .runtime
    else pure (some inductance)

/-- moteus_tool.py:1734-1767 `calculate_bandwidth` -/
def calculateBandwidth (a : Args F) (resistance inductance controlRate : F) :
    P F (F × F × F) := do
  let sense ← isConfigSupported (F := F) "servo.current_sense_ohm"
  when sense (do
    let _ ← (readConfig "servo.current_sense_ohm" : P F F)
    pure ())
  let rate30 ← orRaise .zeroDivision (div controlRate (lit 30))
  let twopi := mul (lit 2) pi
  let board := mul (mul rate30 (lit 2)) pi
  let cal := mul a.calBwHz twopi
  let w := pyMin board cal
  let bw ← orRaise .zeroDivision (div w twopi)
  pure (mul w inductance, mul w resistance, bw)

/-- moteus_tool.py:1693-1698: is the output encoder a hall sensor? -/
def hallOutput : P F Bool := do
  let sup ← isConfigSupported (F := F) "motor_position.rotor_to_output_ratio"
  if sup then do
    let _ ← (readConfig "motor_position.output.source" : P F F)
    let type ← (readConfig "motor_position.sources.N.type" : P F F)
    pure (le type (lit 4) && le (lit 4) type)
  else pure false

/-- moteus_tool.py:1700-1711: the limits for a hall output encoder. -/
def hallBandwidth (a : Args F) (inductance : Option F) (desired : F) : P F F := do
  let x ← (match inductance with
    | none => pure desired
    | some l => do
      let x ← orRaise .zeroDivision (div (lit (2/100)) l)
      pure (pyMin desired x) : P F F)
  -- multiplying `None` raises TypeError
  let poles ← orRaise .type a.calMotorPoles
  pure (pyMin x (mul (mul (lit (1/2)) (lit poles)) a.calMotorSpeed))

/-- moteus_tool.py:1681-1711: the bandwidth that is wanted. -/
def desiredBandwidth (a : Args F) (torqueBw inductance : Option F) : P F F :=
  if truthy a.encoderBwHz then orRaise .type a.encoderBwHz
  else do
    -- `max(10, None)` raises TypeError
    let bw ← orRaise .type torqueBw
    let hall ← (hallOutput : P F Bool)
    if hall then hallBandwidth a inductance (pyMax (lit 10) bw)
    else pure (pyMax (lit 10) bw)

/-- moteus_tool.py:1722-1731: storing the encoder filter. -/
def storeFilter (servoStyle : Bool) (kp ki bw : F) : P F Unit :=
  if servoStyle then do
    command (.confSet "servo.encoder_filter.enabled" (lit 1))
    command (.confSet "servo.encoder_filter.kp" kp)
    command (.confSet "servo.encoder_filter.ki" ki)
  else do
    let _ ← (readConfig "motor_position.commutation_source" : P F F)
    command (.confSet "motor_position.sources.N.pll_filter_hz" bw)

/-- moteus_tool.py:1674-1732 `set_encoder_filter` -/
def setEncoderFilter (a : Args F) (torqueBw inductance : Option F) (controlRate : F) :
    P F (Option (F × F × F)) := do
  let motorPositionStyle ← isConfigSupported (F := F) "motor_position.sources.0.pll_filter_hz"
  let servoStyle ← isConfigSupported (F := F) "servo.encoder_filter.enabled"
  if !motorPositionStyle && !servoStyle then pure none
  else do
    let desired ← desiredBandwidth a torqueBw inductance
    let rate30 ← orRaise .zeroDivision (div controlRate (lit 30))
    let bw := pyMin rate30 desired
    let w := mul (mul bw (lit 2)) pi
    storeFilter servoStyle (mul (lit 2) w) (mul w w) bw
    pure (some (mul (lit 2) w, mul w w, bw))

/-- moteus_tool.py:1211-1219 `find_encoder_cal_voltage`; `none` stands for the
one-element tuple that is returned when the option is given (the trailing comma
of line 1213). -/
def findEncoderCalVoltage (a : Args F) (inputV resistance : F) : P F (Option F) := do
  if truthy a.calLlEncoderVoltage then pure none
  else do
    let p ← orRaise .zeroDivision (div a.calMotorPower (lit (3/2)))
    let r ← orRaise .value (sqrt (mul p resistance))
    pure (some (pyMin (mul (lit (4/10)) inputV) r))

/-- moteus_tool.py:1327-1340 `find_index` -/
def findIndex (a : Args F) (voltage : F) : P F Unit := do
  let speed ← orRaise .type a.calLlEncoderSpeed
  command (.pwm (lit 0) voltage (some (mul (mul speed (lit 2)) pi)))
  let start ← (clock : P F F)
  M.Loop (fun _ : Unit => do
    let m ← (readAny : P F MotorPosition)
    if m.homed ≠ 0 || m.thetaValid then pure (.inr ())
    else do
      let now ← (clock : P F F)
      check (!lt (lit 40) (sub now start)) .runtime
      pure (.inl ())) ()
  command .stop

/-- moteus_tool.py:1342-1362 `ensure_valid_theta` -/
def ensureValidTheta (a : Args F) (voltage : F) : P F Unit := do
  let poles ← (readConfig "motor.poles" : P F F)
  when (le poles (lit 0) && le (lit 0) poles) (command (.confSet "motor.poles" (lit 2)))
  let m ← M.Catch (do let m ← (readAny : P F MotorPosition); pure (some m))
    (fun e => match e with
      | .runtime => pure none
      | .command _ => pure none
      | e => M.raise e)
  match m with
  | none => pure ()
  | some m =>
    if m.error ≠ 0 then M.raise .runtime
    else if m.homed = 0 && !m.thetaValid then findIndex a voltage
    else pure ()

/-- What `ce.calibrate` returns, as far as used. -/
structure CalResult (F : Type) where
  poles : Int
  invert : Bool
  phaseInvert : Bool
  offset : List F
  errors : Bool

/-- The kinds of lines that are received while the encoder is calibrated. -/
inductive Line where
  | done | start | err | other | data
  deriving DecidableEq, Repr

/-- moteus_tool.py:1398-1414: read lines until `CAL done`. -/
def readCalibration : P F Unit :=
  M.Loop (fun _ : Unit => do
    let l ← (readAny : P F Line)
    match l with
    | .done => pure (.inr ())
    | .start => pure (.inl ())
    | .data => pure (.inl ())
    | .err => M.raise .runtime
    | .other => M.raise .runtime) ()

/-- moteus_tool.py:1456-1457: the table of offsets. -/
def storeOffsets : Nat → List F → P F Unit
  | _, [] => pure ()
  | i, x :: xs => do
    command (.confSet s!"motor.offset.{i}" x)
    storeOffsets (i + 1) xs

/-- moteus_tool.py:1382-1396: start of the calibration in the controller. -/
def startCalibration (useCurrent : Bool) (voltage current speed : F) : P F Unit :=
  if useCurrent then do
    let _ ← (readConfig "motor.poles" : P F F)
    command (.confSet "motor.poles" (lit 2))
    command (.posCurrent current)
    writeMessage (.cali current speed)
  else do
    command (.pwm (lit 0) voltage none)
    writeMessage (.cal voltage speed)

/-- moteus_tool.py:1364-1461 `calibrate_encoder_mapping_absolute` -/
def calibrateEncoderMappingAbsolute (a : Args F) (fw : Firmware)
    (voltage current noise : F) : P F (CalResult F) := do
  ensureValidTheta a voltage
  let quality ← orRaise .zeroDivision (div current noise)
  let useCurrent := (lt (lit 20) quality || a.calForceEncoderCurrentMode) &&
    decide (0x010a ≤ fw.version)
  let speed ← orRaise .type a.calLlEncoderSpeed
  startCalibration useCurrent voltage current speed
  readCalibration
  let allowPhaseInvert ← isConfigSupported (F := F) "motor.phase_invert"
  let result ← (anything : P F (CalResult F))
  check (!result.errors) .runtime
  check (decide (a.calMotorPoles = none ∨ a.calMotorPoles = some result.poles)) .runtime
  command (.confSet "motor.poles" (lit result.poles))
  let sup ← isConfigSupported (F := F) "motor_position.sources.0.sign"
  command (if sup then
      .confSet "motor_position.sources.0.sign" (lit (if result.invert then -1 else 1))
    else .confSet "motor.invert" (lit (if result.invert then 1 else 0)))
  when allowPhaseInvert
    (command (.confSet "motor.phase_invert" (lit (if result.phaseInvert then 1 else 0))))
  storeOffsets 0 result.offset
  pure result

/-- moteus_tool.py:1275-1325 `calibrate_encoder_mapping_hall` -/
def calibrateEncoderMappingHall (a : Args F) (voltage : F) : P F (CalResult F) := do
  let poles ← orRaise .runtime a.calMotorPoles
  check (decide (poles % 2 ≠ 1)) .runtime
  let _ ← (readConfig "motor_position.commutation_source" : P F F)
  let _ ← (readConfig "motor_position.sources.N.aux_number" : P F F)
  M.each (List.range 24) (fun i => do
    let phase := mul (mul (lit ((i : Rat) / 24)) (lit 2)) pi
    command (.pwm phase voltage none)
    let _ ← (readAny : P F MotorPosition)
    pure ())
  command .stop
  let allowPhaseInvert ← isConfigSupported (F := F) "motor.phase_invert"
  let r ← (anything : P F (Int × Int × Int × CalResult F))
  command (.confSet "motor.poles" (lit poles))
  command (.confSet "motor_position.sources.N.sign" (lit r.1))
  command (.confSet "motor_position.sources.N.offset" (lit r.2.1))
  command (.confSet "auxN.hall.polarity" (lit r.2.2.1))
  when allowPhaseInvert
    (command (.confSet "motor.phase_invert" (lit (if r.2.2.2.phaseInvert then 1 else 0))))
  M.each (List.range 64) (fun i =>
    command (.confSet s!"motor.offset.{i}" (lit 0)))
  pure r.2.2.2

/-- Run `p` and keep its exception as a value. -/
def attempt {α : Type} (p : P F α) : P F (Except Exn α) :=
  M.Catch (do let a ← p; pure (Except.ok a)) (fun e => pure (Except.error e))

/-- moteus_tool.py:1246-1259: the body of the `try`.  The two settings are kept
for the `finally` block, so they are part of the outcome whatever happens; they
are modelled as a first program that determines them and a second one that is
run if nothing was raised. -/
def saveSettings : P F (Option F × Option F × Option Exn) := do
  match ← attempt (isConfigSupported (F := F) "motor_position.output.sign") with
  | .error e => pure (none, none, some e)
  | .ok false => pure (none, none, none)
  | .ok true =>
    match ← attempt (readConfig "motor_position.output.sign" : P F F) with
    | .error e => pure (none, none, some e)
    | .ok s =>
      match ← attempt (command (.confSet "motor_position.output.sign" (lit 1) : Cmd F)) with
      | .error e => pure (some s, none, some e)
      | .ok () =>
        match ← attempt (readConfig "servo.voltage_mode_control" : P F F) with
        | .error e => pure (some s, none, some e)
        | .ok v => pure (some s, some v, none)

/-- moteus_tool.py:1263-1272: the `finally` block.  A setting that was not read
is written as the text `None`. -/
def restoreSettings (none' : F) (sign voltageMode : Option F) : P F Unit := do
  command .stop
  match sign with
  | none => pure ()
  | some s => do
    command (.confSet "motor_position.output.sign" s)
    command (.confSet "servo.voltage_mode_control" (voltageMode.getD none'))

/-- moteus_tool.py:1229-1238: does the motor commutate from hall sensors? -/
def hallCommutation : P F Bool := do
  let sup ← isConfigSupported (F := F) "motor_position.commutation_source"
  if sup then do
    let _ ← (readConfig "motor_position.commutation_source" : P F F)
    let type ← (readConfig "motor_position.sources.N.type" : P F F)
    pure (le type (lit 4) && le (lit 4) type)
  else pure false

/-- moteus_tool.py:1221-1272 `calibrate_encoder_mapping`; the second result is
`self.encoder_cal_voltage`.  `none'` is the value a device makes of the text
`None`. -/
def calibrateEncoderMapping (a : Args F) (fw : Firmware) (none' : F)
    (inputV resistance noise : F) : P F (CalResult F × F) := do
  let voltage? ← findEncoderCalVoltage a inputV resistance
  -- dividing a tuple raises TypeError
  let voltage ← orRaise .type voltage?
  let current ← orRaise .zeroDivision (div voltage resistance)
  let hallConfigured ← (hallCommutation : P F Bool)
  if a.calHall || hallConfigured then do
    check hallConfigured .runtime
    let r ← calibrateEncoderMappingHall a voltage
    pure (r, voltage)
  else do
    let (sign, mode, failed) ← saveSettings
    let r ← M.Finally
      (match failed with
        | some e => M.raise e
        | none => calibrateEncoderMappingAbsolute a fw voltage current noise)
      (restoreSettings none' sign mode)
    pure (r, voltage)

/-- Keep the last `n` entries of a list of at most `n + 1`. -/
def window (n : Nat) (xs : List F) : List F := if xs.length > n then xs.drop 1 else xs

/-- moteus_tool.py:1814-1831: the motor takes too much power and does not
turn. -/
def powerSafety (a : Args F) (power : List F) (recent : F) : P F Unit :=
  if power.length ≥ 5 then do
    let avg ← orRaise .zeroDivision (average power)
    if lt (abs recent) (lit (2/10)) &&
        lt (mul a.calMaxKvPowerFactor a.calMotorPower) avg then do
      command .stop
      M.raise .runtime
    else pure ()
  else pure ()

/-- moteus_tool.py:1833-1842: has the speed settled? -/
def settled (vel : List F) (recent : F) : P F Bool :=
  if decide (vel.length ≥ 5) && lt (abs recent) (lit (2/10)) then pure true
  else if vel.length = 15 then do
    let a1 ← orRaise .zeroDivision (average (vel.take 5))
    let a2 ← orRaise .zeroDivision (average ((vel.drop 5).take 5))
    pure (le (lit 0) (sub recent a2) != le (lit 0) (sub a2 a1))
  else pure false

/-- moteus_tool.py:1791-1843: one round of `find_speed`. -/
def speedRound (a : Args F) (voltage start : F) (st : List F × List F) :
    P F ((List F × List F) ⊕ F) := do
  let data ← (readServoStats : P F (Stats F))
  let power := window 5 (st.1 ++ [mul (mul voltage (hypot data.d_A data.q_A)) (lit (3/2))])
  let vel := window 15 (st.2 ++ [data.velocity])
  let recent ← orRaise .zeroDivision (average (vel.drop (vel.length - 5)))
  let now ← (clock : P F F)
  if lt (lit 2) (sub now start) then pure (.inr recent)
  else do
    powerSafety a power recent
    let done ← settled vel recent
    if done then pure (.inr recent) else pure (.inl (power, vel))

/-- moteus_tool.py:1769-1845 `find_speed` -/
def findSpeed (a : Args F) (voltage : F) : P F F := do
  check (lt voltage (lit 20) && le (lit 0) voltage) .assertion
  command (.vdq (lit 0) (fmt3 voltage))
  let start ← (clock : P F F)
  M.Loop (speedRound a voltage start) ([], [])

/-- moteus_tool.py:1870-1872 `first_nonzero_speed_voltage` -/
def firstNonzero (a : Args F) (first : Option F) (v speed : F) : Option F :=
  if lt (mul (lit (1/10)) a.calMotorSpeed) (abs speed) && first.isNone then some v else first

/-- moteus_tool.py:1875-1877 -/
def fastEnough (a : Args F) (first : Option F) (v speed : F) : Bool :=
  match first with
  | none => false
  | some f => lt (mul (lit 2) f) v && lt a.calMotorSpeed (abs speed)

/-- moteus_tool.py:1862-1880: one round of `find_kv_cal_voltage`; the state is
`maybe_result` and `first_nonzero_speed_voltage`. -/
def kvRound (a : Args F) (inputV scale : F) (st : F × Option F) :
    P F ((F × Option F) ⊕ F) := do
  let v := st.1
  if lt (mul (lit (2/10)) inputV) v then pure (.inr v)
  else do
    let s ← findSpeed a v
    let speed ← orRaise .zeroDivision (div s scale)
    if fastEnough a (firstNonzero a st.2 v speed) v speed then pure (.inr v)
    else pure (.inl (mul v (lit (11/10)), firstNonzero a st.2 v speed))

/-- moteus_tool.py:1852-1883 `find_kv_cal_voltage` -/
def findKvCalVoltage (a : Args F) (inputV scale : F) : P F F := do
  if truthy a.calLlKvVoltage then orRaise .type a.calLlKvVoltage
  else M.Loop (kvRound a inputV scale) (lit (1/100), none)

/-- moteus_tool.py:1966-1984 `stop_and_idle` -/
def stopAndIdle : P F Unit := do
  command .stop
  M.Loop (fun n : Nat => do
    let s ← (readServoStats : P F (Stats F))
    let n := if lt (abs (s.velocityFilt.getD s.velocity)) (lit (3/10)) then n + 1 else 0
    pure (if n > 5 then .inr () else .inl n)) 0

/-- moteus_tool.py:1920-1945: from the measurements to `motor_kv`. -/
def kvOfSpeeds (fw : Firmware) (scale sign : F) (pts : List (F × F)) : P F F := do
  let last ← orRaise .index pts.getLast?
  let threshold := abs (mul (lit (45/100)) last.2)
  let pts := pts.filter fun p => lt threshold (abs p.2)
  let fit ← orRaise .zeroDivision (linearRegression (pts.map (·.1)) (pts.map (·.2)))
  let geared ← orRaise .zeroDivision (div (lit 1) fit.2)
  let vPerHz := mul geared scale
  let vPerHz := if fw.version ≤ 0x0106 then mul vPerHz sign else vPerHz
  if lt vPerHz (lit 0) then M.raise .runtime
  else
    orRaise .zeroDivision (div (mul (mul (lit (114/100)) (lit (1/2))) (lit 60)) vPerHz)

/-- moteus_tool.py:1888-1945: measure Kv. -/
def measureKv (a : Args F) (fw : Firmware) (encoderVoltage inputV scale sign : F) :
    P F F := do
  ensureValidTheta a encoderVoltage
  let lo ← (readConfig "servopos.position_min" : P F F)
  let hi ← (readConfig "servopos.position_max" : P F F)
  command (.confSet "servopos.position_min" nan)
  command (.confSet "servopos.position_max" nan)
  command .indexZero
  let v ← findKvCalVoltage a inputV scale
  stopAndIdle
  let voltages := [lit 0, lit (1/4), lit (1/2), lit (3/4), lit 1].map fun x : F => mul x v
  let speeds ← M.collect voltages (findSpeed a)
  stopAndIdle
  command (.confSet "servopos.position_min" lo)
  command (.confSet "servopos.position_max" hi)
  kvOfSpeeds fw scale sign (voltages.zip speeds)

/-- moteus_tool.py:1950-1959: store Kv, or its equivalent in older firmware. -/
def storeKv (fw : Firmware) (kv : F) : P F F :=
  if fw.version ≥ 0x010a then do
    command (.confSet "motor.Kv" kv)
    pure kv
  else do
    let kv ← orRaise .zeroDivision
      (if fw.family = 2 then div kv (lit (138/100)) else some kv)
    let vPerHz ← orRaise .zeroDivision
      (div (mul (mul (lit (109/100)) (lit (1/2))) (lit 60)) kv)
    command (.confSet "motor.v_per_hz" vPerHz)
    pure kv

/-- moteus_tool.py:1885-1964 `calibrate_kv_rating` -/
def calibrateKvRating (a : Args F) (fw : Firmware) (encoderVoltage inputV scale sign : F) :
    P F F := do
  let kv ← (match a.calForceKv with
    | some kv => pure kv
    | none => measureKv a fw encoderVoltage inputV scale sign : P F F)
  let kv ← storeKv fw kv
  check (!lt kv (lit 0)) .runtime
  pure kv

/-- moteus_tool.py:840-865 `write_config_stream`: a setting that the device
rejects is skipped. -/
def writeConfigStream : List (String × F) → P F Unit
  | [] => pure ()
  | (k, v) :: rest => do
    M.Catch (command (.confSet k v)) (fun e => match e with
      | .command _ => pure ()
      | e => M.raise e)
    writeConfigStream rest

/-- moteus_tool.py:971-984 `restore_config` -/
def restoreConfig (old : List (String × F)) : P F Unit := do
  writeConfigStream old
  command .confWrite
  writeMessage .reset

/-- `command("conf enumerate")`: any list of settings. -/
def confEnumerate : P F (List (String × F)) := fun t r =>
  (∃ l, t = [.sent .confEnumerate true, .listed l] ∧ r = .ok l) ∨
  ∃ e, t = [.sent .confEnumerate false] ∧ r = .raised e

/-- moteus_tool.py:1054-1062: scale and sign of the output. -/
def outputScale : P F (Option (F × F)) := do
  let old ← isConfigSupported (F := F) "motor.unwrapped_position_scale"
  if old then do
    let s ← (readConfig "motor.unwrapped_position_scale" : P F F)
    pure (some (s, lit 1))
  else do
    let new ← isConfigSupported (F := F) "motor_position.rotor_to_output_ratio"
    if new then do
      let s ← (readConfig "motor_position.rotor_to_output_ratio" : P F F)
      let g ← (readConfig "motor_position.output.sign" : P F F)
      pure (some (s, g))
    else pure none

/-- moteus_tool.py:1065-1071: the control rate. -/
def controlRate : P F F := do
  let sup ← isConfigSupported (F := F) "servo.pwm_rate_hz"
  if sup then do
    let r ← (readConfig "servo.pwm_rate_hz" : P F F)
    if le r (lit 40000) then pure r else orRaise .zeroDivision (div r (lit 2))
  else pure (lit 40000)

/-- moteus_tool.py:1142-1158: voltage mode control. -/
def chooseVoltageMode (inputV resistance noise : F) : P F Unit := do
  let sup ← isConfigSupported (F := F) "servo.voltage_mode_control"
  when sup (do
    let i ← orRaise .zeroDivision (div (mul (lit (1/2)) inputV) resistance)
    let q ← orRaise .zeroDivision (div i noise)
    command (.confSet "servo.voltage_mode_control" (lit (if lt q (lit 40) then 1 else 0))))

/-- moteus_tool.py:1033-1036: commutation must be from source 0. -/
def checkCommutationSource : P F Unit := do
  let sup ← isConfigSupported (F := F) "motor_position.commutation_source"
  when sup (do
    let s ← (readConfig "motor_position.commutation_source" : P F F)
    check (le s (lit 0) && le (lit 0) s) .runtime)

/-- moteus_tool.py:1022-1025: the settings before `--cal-no-update`. -/
def captureConfig (a : Args F) : P F (Option (List (String × F))) :=
  if a.calNoUpdate then do
    let l ← confEnumerate (F := F)
    pure (some l)
  else pure none

/-- moteus_tool.py:1112-1122: the gains of the current loop. -/
def storeBandwidth (a : Args F) (resistance : F) (inductance : Option F) (rate : F) :
    P F (Option F) :=
  match inductance with
  | none => pure none
  | some l => do
    let (kp, ki, bw) ← calculateBandwidth a resistance l rate
    command (.confSet "servo.pid_dq.kp" kp)
    command (.confSet "servo.pid_dq.ki" ki)
    checkForFault
    pure (some bw)

/-- moteus_tool.py:1040-1132: everything up to the encoder mapping.  The result
is scale and sign of the output, the resistance, the noise, the input voltage
and the encoder voltage. -/
def calibrateElectrical (a : Args F) (fw : Firmware) (none' : F) :
    P F (Option (F × F) × F × F × F × F) := do
  clearMotorOffsets
  command .stop
  let scaleSign ← outputScale
  let rate ← controlRate
  setIfSupported "motor.phase_invert" (lit 0)
  setIfSupported "motor_position.sources.0.sign" (lit 1)
  let stats ← (readServoStats : P F (Stats F))
  let inputV ← orRaise .value (roundNearest4v stats.filtBusV)
  checkForFault
  let (resistance, highestVoltage, noise) ← calibrateWindingResistance2 a inputV
  checkForFault
  let inductance ← calibrateInductance fw highestVoltage inputV
  checkForFault
  let torqueBw ← storeBandwidth a resistance inductance rate
  let _ ← setEncoderFilter a torqueBw inductance rate
  checkForFault
  let (_, encoderVoltage) ← calibrateEncoderMapping a fw none' inputV resistance noise
  pure (scaleSign, resistance, noise, inputV, encoderVoltage)

/-- moteus_tool.py:1133-1161: everything after the encoder mapping, up to the
saving. -/
def calibrateMechanical (a : Args F) (fw : Firmware) (scaleSign : Option (F × F))
    (resistance noise inputV encoderVoltage : F) : P F Unit := do
  checkForFault
  -- unbound if neither setting is supported
  let (scale, sign) ← orRaise .name scaleSign
  let _ ← calibrateKvRating a fw encoderVoltage inputV scale sign
  checkForFault
  command .rezero
  chooseVoltageMode inputV resistance noise
  let _ ← (readAny : P F Unit)
  pure ()

/-- moteus_tool.py:1163-1170: save, or restore the old settings. -/
def saveOrRestore (old : Option (List (String × F))) : P F Unit :=
  match old with
  | none => command .confWrite
  | some l => restoreConfig l

/-- moteus_tool.py:1020-1161: all measurements; the result is what was captured
for `--cal-no-update`. -/
def measureAll (args : Args F) (none' : F) : P F (Option (List (String × F))) := do
  let fw ← (readAny : P F Firmware)
  let old ← captureConfig args
  check (decide (fw.version ≤ 0x010a)) .runtime
  checkCommutationSource
  let a ← calculateCalibrationParameters args
  let (scaleSign, resistance, noise, inputV, encoderVoltage) ←
    calibrateElectrical a fw none'
  calibrateMechanical a fw scaleSign resistance noise inputV encoderVoltage
  pure old

/-- moteus_tool.py:1019-1209 `do_calibrate`; writing the report may fail. -/
def doCalibrate (args : Args F) (none' : F) : P F Unit := do
  let old ← measureAll args none'
  saveOrRestore old
  (anything : P F Unit)

end Verif.Session
