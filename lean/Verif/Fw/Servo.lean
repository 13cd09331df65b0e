import Verif.Float.Arith

/-!
# The mode logic of the servo

Model of the part of `BldcServo::Impl` (`fw/bldc_servo.cc`) that decides which
mode the controller is in, which fault it reports, and whether the output stage
is powered, together with the enable sequence of the gate driver
(`fw/drv8323.cc` 77-125).

The control interrupt (`ISR_DoSenseCritical`, `ISR_DoSense`, `ISR_DoControl`)
is one event, `Ev.cycle`.  The calls made from the main loop (`Command`,
`PollMillisecond`, `Fault`) are sequences of single memory accesses (`Act`)
that are executed one by one by `Ev.step`, so that the interrupt may come
between any two of them.

Simplifications:
* everything numeric below the mode logic is an arbitrary input of the cycle:
  the sensor readings and the three compare register values that the current
  and voltage loops compute (`In.duty`);
* the configuration may be different in every cycle;
* of a command only the fields that the mode logic looks at are kept; the
  unused one of the two command buffers is left out since `Command` overwrites
  it completely;
* `MJ_ASSERT` stops the controller for good, leaving the outputs as they are;
* the sums of the calibration samples do not wrap (256 values of 16 bits fit).

Properties C30, C31, C32, C33, C34.
-/

namespace Verif.Fw

open Verif.Float

/-- `BldcServoMode` (`fw/bldc_servo_structs.h`); `bad` is every value outside the
enumeration, which the register interface lets through when negative. -/
inductive Mode
  | stopped | fault | enabling | calibrating | calibrationComplete
  | pwm | voltage | voltageFoc | voltageDq | current
  | position | positionTimeout | zeroVelocity | stayWithinBounds
  | measureInductance | brake | numModes | bad
deriving DecidableEq, Repr

/-- `MotorDriver::EnableResult` (`fw/motor_driver.h` 21-28). -/
inductive Drv
  | disabled | enabled | enabling1 | enabling2 | enabling3 | calibrateFailed
deriving DecidableEq, Repr

/-- `errc` (`fw/error.h` 25-52), the codes used here. -/
inductive Code
  | success | calibrationFault | motorDriverFault | overVoltage | encoderFault
  | motorNotConfigured | pwmCycleOverrun | overTemperature | startOutsideLimit
  | underVoltage | configChanged | thetaInvalid | positionInvalid
  | driverEnableFault | stopPositionDeprecated | timingViolation
  | bemfFeedforwardNoAccelLimit
deriving DecidableEq, Repr

/-- The command the interrupt works on (`current_data_`). -/
structure Cmd where
  mode : Mode
  timeout : Fl
  ignoreBounds : Bool
  /-- `fixed_voltage_override` is not NaN -/
  fixedVoltage : Bool
  /-- `fixed_current_override` is not NaN -/
  fixedCurrent : Bool
deriving DecidableEq

/-- What the main loop hands to `Command` (`CommandData`). -/
structure CmdIn where
  cmd : Cmd
  velocityLimit : Fl
  accelLimit : Fl
  stopPosition : Fl
deriving DecidableEq

/-- The configuration `Command` reads. -/
structure CmdCfg where
  defaultTimeout : Fl
  defaultVelocityLimit : Fl
  defaultAccelLimit : Fl
  maxVelocity : Fl
  bemfFeedforward : Fl
  bemfOverride : Bool
deriving DecidableEq

/-- What one control cycle reads from the outside. -/
structure In where
  /-- `rate_config_.period_s` -/
  period : Fl
  maxVoltage : Fl
  faultTemperature : Fl
  motorFaultTemperature : Fl
  cooldownCycles : ℕ
  timeoutMode : ℕ
  fixedVoltageMode : Bool
  positionMin : Fl
  positionMax : Fl
  /-- `phase_monitors_.read()` -/
  phaseHigh : Bool
  driverFault : Bool
  busV : Fl
  fetTemp : Fl
  motorTemp : Fl
  position : Fl
  poles : ℕ
  thetaValid : Bool
  relativeValid : Bool
  /-- `position_.error != kNone` -/
  encoderError : Bool
  epoch : ℕ
  adc1 : ℕ
  adc2 : ℕ
  adc3 : ℕ
  /-- the compare values `ISR_DoPwmControl` writes if it is reached -/
  duty : ℕ × ℕ × ℕ

/-- One memory access of the main loop. -/
inductive Act
  | readMode (elapsed calOk : Bool)
  | pinHigh
  | advance (elapsed calOk : Bool)
  | setDrv (d : Drv)
  | writeConfig
  | result
  | setCode (c : Code)
  | setMode (m : Mode)
  | load (c : Cmd)
deriving DecidableEq

/-- The state. -/
structure St where
  mode : Mode := .stopped
  code : Code := .success
  /-- `status_.timeout_s` -/
  timeout : Fl := .fin 0
  cooldown : ℕ := 0
  /-- the three compare registers -/
  duty : ℕ × ℕ × ℕ := (0, 0, 0)
  /-- the output stage is powered (`PowerOn`) -/
  power : Bool := false
  drv : Drv := .disabled
  /-- the enable pin of the gate driver -/
  pin : Bool := false
  /-- the gate driver has received its configuration since it was enabled -/
  written : Bool := false
  count : ℕ := 0
  sum1 : ℕ := 0
  sum2 : ℕ := 0
  sum3 : ℕ := 0
  offset1 : ℕ := 2048
  offset2 : ℕ := 2048
  offset3 : ℕ := 2048
  /-- `isr_motor_position_epoch_` -/
  epoch : ℕ := 0
  cur : Cmd := ⟨.stopped, .fin 0, false, false, false⟩
  /-- what the main loop call in progress has still to do -/
  todo : List Act := []
  halted : Bool := false
deriving DecidableEq

/-! ### The control interrupt -/

/-- `status_.mode = kFault; status_.fault = c;` -/
def St.fail (s : St) (c : Code) : St := { s with mode := .fault, code := c }

/-- `ISR_DoSenseCritical`, lines 994-998. -/
def senseCritical (i : In) (s : St) : St :=
  if s.mode ≠ .fault ∧ i.phaseHigh = true then s.fail .pwmCycleOverrun else s

/-- `ISR_DoSense`, lines 1007-1011. -/
def senseTimeout (s : St) : St :=
  if s.cur.timeout.isNan || !(s.cur.timeout.beq (.fin 0)) then
    { s with timeout := s.cur.timeout, cur := { s.cur with timeout := .fin 0 } }
  else s

/-- `ISR_DoControl`, lines 1468-1471. -/
def tick (A : Ar) (i : In) (s : St) : St :=
  if !s.timeout.isNan && Fl.blt (.fin 0) s.timeout then
    { s with timeout := Fl.max (.fin 0) (A.sub s.timeout i.period) }
  else s

/-- `ISR_IsOutsideLimits`, lines 1355-1360. -/
def outsideLimits (i : In) : Bool :=
  (!i.positionMin.isNan && Fl.blt i.position i.positionMin) ||
  (!i.positionMax.isNan && Fl.blt i.positionMax i.position)

/-- `ISR_StartCalibrating`, lines 1362-1383. -/
def startCalibrating (i : In) (s : St) : St :=
  { s with epoch := i.epoch, mode := .enabling, duty := (0, 0, 0), power := false,
           count := 0, sum1 := 0, sum2 := 0, sum3 := 0 }

/-- Lines 1325-1335: enter the commanded mode `m`. -/
def enterMode (m : Mode) (i : In) (s : St) : St :=
  if (m = .position ∨ m = .stayWithinBounds) ∧ s.cur.ignoreBounds = false ∧
      outsideLimits i = true then
    s.fail .startOutsideLimit
  else { s with mode := m }

/-- `ISR_MaybeChangeMode`, lines 1288-1351: an active mode `m` is commanded. -/
def activate (m : Mode) (i : In) (s : St) : St :=
  match s.mode with
  | .numModes => { s with halted := true }
  | .fault | .enabling | .calibrating | .positionTimeout | .bad => s
  | .stopped => startCalibrating i s
  | .calibrationComplete | .pwm | .voltage | .voltageFoc | .voltageDq | .current
  | .position | .zeroVelocity | .stayWithinBounds | .measureInductance | .brake =>
    enterMode m i s

/-- `ISR_MaybeChangeMode`, lines 1260-1353, with the test of its caller (1474). -/
def changeMode (i : In) (s : St) : St :=
  if s.cur.mode = s.mode then s else
  match s.cur.mode with
  | .numModes | .fault | .calibrating | .calibrationComplete => { s with halted := true }
  | .stopped => { s with mode := .stopped }
  | .enabling | .bad => s
  | .pwm => activate .pwm i s
  | .voltage => activate .voltage i s
  | .voltageFoc => activate .voltageFoc i s
  | .voltageDq => activate .voltageDq i s
  | .current => activate .current i s
  | .position => activate .position i s
  | .positionTimeout => activate .positionTimeout i s
  | .zeroVelocity => activate .zeroVelocity i s
  | .stayWithinBounds => activate .stayWithinBounds i s
  | .measureInductance => activate .measureInductance i s
  | .brake => activate .brake i s

/-- `ISR_DoControl`, lines 1479-1506: conditions that raise a fault in every mode
but stopped and fault; the last one that applies gives the code. -/
def persistent (i : In) (s : St) : St :=
  if s.mode = .stopped ∨ s.mode = .fault then s else
  let s := if i.driverFault then s.fail .motorDriverFault else s
  let s := if Fl.blt i.maxVoltage i.busV then s.fail .overVoltage else s
  let s := if Fl.blt i.busV (.fin 4) then s.fail .underVoltage else s
  let s := if Fl.blt i.faultTemperature i.fetTemp then s.fail .overTemperature else s
  if i.motorFaultTemperature.isFinite && Fl.blt i.motorFaultTemperature i.motorTemp then
    s.fail .overTemperature
  else s

/-- `ISR_DoControl`, lines 1508-1512. -/
def watchdog (s : St) : St :=
  if (s.mode = .position ∨ s.mode = .stayWithinBounds) ∧
      (!s.timeout.isNan && Fl.ble s.timeout (.fin 0)) = true then
    { s with mode := .positionTimeout }
  else s

/-- `ISR_DoControl`, lines 1517-1519. -/
def clearCode (s : St) : St := if s.mode ≠ .fault then { s with code := .success } else s

/-- `current_control`, lines 1195-1226. -/
def currentControl (i : In) : Mode → Bool
  | .current | .position | .zeroVelocity | .stayWithinBounds => true
  | .positionTimeout => i.timeoutMode == 12 || i.timeoutMode == 10
  | _ => false

/-- `ISR_DoControl`, lines 1525-1527. -/
def reload (i : In) (s : St) : St :=
  if currentControl i s.mode then { s with cooldown := i.cooldownCycles } else s

/-- `ISR_DoControl` up to the dispatch on the mode. -/
def decideMode (A : Ar) (i : In) (s : St) : St :=
  let s := changeMode i (tick A i (senseTimeout (senseCritical i s)))
  if s.halted then s else reload i (clearCode (watchdog (persistent i s)))

/-- `ISR_DoPwmControl`, lines 1660-1677: write the registers and power on. -/
def drive (i : In) (s : St) : St := { s with duty := i.duty, power := true }

/-- `ISR_CalculatePhaseVoltage`, lines 1903-1909. -/
def phaseVoltage (i : In) (s : St) : St :=
  if i.epoch ≠ s.epoch then s.fail .configChanged else s

/-- `ISR_DoCurrent` (1711-1895) and `ISR_DoVoltageDQCommand` (1929-1956). -/
def doCurrent (i : In) (s : St) : St :=
  if i.poles = 0 then s.fail .motorNotConfigured
  else if i.thetaValid = false then s.fail .thetaInvalid
  else drive i (phaseVoltage i s)

/-- `ISR_DoPositionCommon`, lines 2012-2170. -/
def doPosition (fixedV fixedC : Bool) (i : In) (s : St) : St :=
  if i.fixedVoltageMode || fixedV || fixedC then
    if fixedC then doCurrent i s else drive i (phaseVoltage i s)
  else if i.relativeValid = false then s.fail .positionInvalid
  else if i.encoderError then s.fail .encoderFault
  else doCurrent i s

/-- `StartEnable(false)`, `fw/drv8323.cc` 77-82. -/
def disableDriver (s : St) : St := { s with pin := false, drv := .disabled, written := false }

/-- `ISR_DoStopped`, lines 1597-1613. -/
def doStopped (i : In) (s : St) : St :=
  if s.cooldown ≠ 0 then doCurrent i { s with cooldown := s.cooldown - 1 }
  else { disableDriver s with duty := (0, 0, 0), power := false }

/-- `ISR_DoFault`, lines 1615-1623. -/
def doFault (s : St) : St := { s with duty := (0, 0, 0), power := false }

/-- An offset is acceptable, lines 1639-1641. -/
def offsetBad (x : ℕ) : Bool := decide (200 < ((x : ℤ) - 2048).natAbs)

/-- `ISR_DoCalibrating`, lines 1625-1652. -/
def doCalibrating (i : In) (s : St) : St :=
  let s := { s with sum1 := s.sum1 + i.adc1, sum2 := s.sum2 + i.adc2, sum3 := s.sum3 + i.adc3,
                    count := s.count + 1 }
  if s.count < 256 then s
  else if offsetBad (s.sum1 / 256) || offsetBad (s.sum2 / 256) || offsetBad (s.sum3 / 256) then
    s.fail .calibrationFault
  else { s with offset1 := s.sum1 / 256, offset2 := s.sum2 / 256, offset3 := s.sum3 / 256,
                mode := .calibrationComplete }

/-- `ISR_DoBrake`, lines 2275-2281. -/
def doBrake (s : St) : St := { s with duty := (0, 0, 0), power := true }

/-- `ISR_DoPositionTimeout`, lines 1958-1982. -/
def doTimeout (i : In) (s : St) : St :=
  if i.timeoutMode = 0 then doStopped i s
  else if i.timeoutMode = 10 then doPosition false false i s
  else if i.timeoutMode = 12 then doPosition false false i s
  else if i.timeoutMode = 15 then doBrake s
  else doStopped i s

/-- `ISR_DoControl`, lines 1529-1594. -/
def dispatch (i : In) (s : St) : St :=
  match s.mode with
  | .numModes | .stopped => doStopped i s
  | .fault => doFault s
  | .enabling | .calibrationComplete | .bad => s
  | .calibrating => doCalibrating i s
  | .pwm | .voltage | .voltageFoc => drive i s
  | .voltageDq | .current => doCurrent i s
  | .position | .stayWithinBounds => doPosition s.cur.fixedVoltage s.cur.fixedCurrent i s
  | .positionTimeout => doTimeout i s
  | .zeroVelocity => doPosition false false i s
  | .measureInductance => drive i (phaseVoltage i s)
  | .brake => doBrake s

/-- One control cycle. -/
def cycle (A : Ar) (i : In) (s : St) : St :=
  if s.halted then s else
  let s := decideMode A i s
  if s.halted then s else dispatch i s

/-! ### The main loop -/

/-- `Command`, lines 352-372: the limits that apply. -/
def commandLimits (c : CmdIn) (k : CmdCfg) : Fl × Fl :=
  let vl := if c.velocityLimit.isNan then k.defaultVelocityLimit
            else if Fl.blt c.velocityLimit (.fin 0) then .nan else c.velocityLimit
  let al := if c.accelLimit.isNan then k.defaultAccelLimit
            else if Fl.blt c.accelLimit (.fin 0) then .nan else c.accelLimit
  if !vl.isNan || !al.isNan then
    (if vl.isNan then k.maxVelocity else Fl.min vl k.maxVelocity, al)
  else (vl, al)

/-- Lines 417-419: the command is refused for its stop position. -/
def stopRefused (c : CmdIn) (k : CmdCfg) : Bool :=
  !c.stopPosition.isNan &&
    ((commandLimits c k).2.isFinite || (commandLimits c k).1.isFinite)

/-- Lines 426-428: the command is refused for lack of an acceleration limit. -/
def bemfRefused (c : CmdIn) (k : CmdCfg) : Bool :=
  !(k.bemfFeedforward.beq (.fin 0)) && !(commandLimits c k).2.isFinite && !k.bemfOverride

/-- Lines 334-341: the modes that cannot be commanded. -/
def ignored : Mode → Bool
  | .fault | .enabling | .calibrating | .calibrationComplete => true
  | _ => false

/-- The command that reaches the interrupt (lines 349-351). -/
def loaded (c : CmdIn) (k : CmdCfg) : Cmd :=
  { c.cmd with timeout := if c.cmd.timeout.beq (.fin 0) then k.defaultTimeout else c.cmd.timeout }

/-- `Command`, lines 333-445. -/
def commandActs (c : CmdIn) (k : CmdCfg) : List Act :=
  if ignored c.cmd.mode then [] else
  (if stopRefused c k then [.setCode .stopPositionDeprecated, .setMode .fault] else []) ++
  (if bemfRefused c k then [.setCode .bemfFeedforwardNoAccelLimit, .setMode .fault] else []) ++
  [.load (loaded c k)]

/-- `StartEnable(true)`, `fw/drv8323.cc` 84-121: what is left to do in state `d`. -/
def enableActs (d : Drv) (elapsed calOk : Bool) : List Act :=
  match d with
  | .disabled => [.setDrv .enabling1]
  | .enabling1 => if elapsed then [.setDrv .enabled, .writeConfig, .setDrv .enabling2] else []
  | .enabling2 => [.setDrv .enabling3]
  | .enabling3 => [.setDrv (if calOk then .enabled else .calibrateFailed)]
  | .enabled | .calibrateFailed => []

/-- `PollMillisecond`, lines 530-547: the result `d` of `StartEnable`. -/
def resultActs : Drv → List Act
  | .enabled => [.setMode .calibrating]
  | .calibrateFailed => [.setCode .driverEnableFault, .setMode .fault]
  | _ => []

/-- Execute one memory access; `rest` is what follows it. -/
def act (a : Act) (rest : List Act) (s : St) : St :=
  match a with
  | .readMode e c =>
    { s with todo := (if s.mode = .enabling then [.pinHigh, .advance e c, .result] else []) ++ rest }
  | .pinHigh => { s with pin := true, todo := rest }
  | .advance e c => { s with todo := enableActs s.drv e c ++ rest }
  | .setDrv d => { s with drv := d, todo := rest }
  | .writeConfig => { s with written := s.written || s.pin, todo := rest }
  | .result => { s with todo := resultActs s.drv ++ rest }
  | .setCode c => { s with code := c, todo := rest }
  | .setMode m => { s with mode := m, todo := rest }
  | .load c => { s with cur := c, todo := rest }

/-- What can happen. -/
inductive Ev
  /-- the control interrupt -/
  | cycle (i : In)
  /-- the main loop gets on with the call in progress -/
  | step
  /-- the main loop calls `Command` -/
  | command (c : CmdIn) (k : CmdCfg)
  /-- the main loop calls `PollMillisecond` -/
  | poll (elapsed calOk : Bool)
  /-- the main loop calls `Fault` (lines 606-615), with interrupts disabled -/
  | raise (c : Code)

/-- The main loop does one thing at a time. -/
def exec (A : Ar) (s : St) : Ev → St
  | .cycle i => cycle A i s
  | .step =>
    if s.halted then s else
    match s.todo with
    | [] => s
    | a :: rest => act a rest s
  | .command c k => if s.halted || !s.todo.isEmpty then s else { s with todo := commandActs c k }
  | .poll e c => if s.halted || !s.todo.isEmpty then s else { s with todo := [.readMode e c] }
  | .raise c =>
    if s.halted || !s.todo.isEmpty then s
    else if s.mode ≠ .fault then s.fail c else s

/-- A run. -/
def run (A : Ar) (s : St) (evs : List Ev) : St := evs.foldl (exec A) s

/-- What can happen when the interrupt never comes inside a main loop call. -/
inductive Whole
  | cycle (i : In)
  | command (c : CmdIn) (k : CmdCfg)
  | poll (elapsed calOk : Bool)
  | raise (c : Code)

/-- The events a whole call stands for. -/
def Whole.events : Whole → List Ev
  | .cycle i => [.cycle i]
  | .command c k => .command c k :: List.replicate 5 .step
  | .poll e c => .poll e c :: List.replicate 9 .step
  | .raise c => [.raise c]

/-- A run in which the interrupt never comes inside a main loop call. -/
def runWhole (A : Ar) (s : St) (evs : List Whole) : St := run A s (evs.flatMap Whole.events)

end Verif.Fw
