import Verif.Fw.ServoStop

/-!
# Concrete runs of the servo

A second way to compute a run of `Verif.Fw.Servo` that evaluates the state after
every event, so that the kernel can follow runs of hundreds of cycles, and some
runs that other modules use as witnesses.
-/

namespace Verif.Fw

open Verif.Float

universe v

def Mode.force {α : Sort v} (x : Mode) (k : Mode → α) : α :=
  match x with
  | .stopped => k .stopped
  | .fault => k .fault
  | .enabling => k .enabling
  | .calibrating => k .calibrating
  | .calibrationComplete => k .calibrationComplete
  | .pwm => k .pwm
  | .voltage => k .voltage
  | .voltageFoc => k .voltageFoc
  | .voltageDq => k .voltageDq
  | .current => k .current
  | .position => k .position
  | .positionTimeout => k .positionTimeout
  | .zeroVelocity => k .zeroVelocity
  | .stayWithinBounds => k .stayWithinBounds
  | .measureInductance => k .measureInductance
  | .brake => k .brake
  | .numModes => k .numModes
  | .bad => k .bad

theorem Mode.force_eq {α : Sort v} (x : Mode) (k : Mode → α) : x.force k = k x := by cases x <;> rfl

def Drv.force {α : Sort v} (x : Drv) (k : Drv → α) : α :=
  match x with
  | .disabled => k .disabled
  | .enabled => k .enabled
  | .enabling1 => k .enabling1
  | .enabling2 => k .enabling2
  | .enabling3 => k .enabling3
  | .calibrateFailed => k .calibrateFailed

theorem Drv.force_eq {α : Sort v} (x : Drv) (k : Drv → α) : x.force k = k x := by cases x <;> rfl

def Code.force {α : Sort v} (x : Code) (k : Code → α) : α :=
  match x with
  | .success => k .success
  | .calibrationFault => k .calibrationFault
  | .motorDriverFault => k .motorDriverFault
  | .overVoltage => k .overVoltage
  | .encoderFault => k .encoderFault
  | .motorNotConfigured => k .motorNotConfigured
  | .pwmCycleOverrun => k .pwmCycleOverrun
  | .overTemperature => k .overTemperature
  | .startOutsideLimit => k .startOutsideLimit
  | .underVoltage => k .underVoltage
  | .configChanged => k .configChanged
  | .thetaInvalid => k .thetaInvalid
  | .positionInvalid => k .positionInvalid
  | .driverEnableFault => k .driverEnableFault
  | .stopPositionDeprecated => k .stopPositionDeprecated
  | .timingViolation => k .timingViolation
  | .bemfFeedforwardNoAccelLimit => k .bemfFeedforwardNoAccelLimit

theorem Code.force_eq {α : Sort v} (x : Code) (k : Code → α) : x.force k = k x := by cases x <;> rfl

def forceBool {α : Sort v} (x : Bool) (k : Bool → α) : α :=
  match x with
  | true => k true
  | false => k false

theorem forceBool_eq {α : Sort v} (x : Bool) (k : Bool → α) : forceBool x k = k x := by
  cases x <;> rfl

def forceNat {α : Sort v} (x : ℕ) (k : ℕ → α) : α :=
  match x with
  | 0 => k 0
  | n + 1 => k (n + 1)

theorem forceNat_eq {α : Sort v} (x : ℕ) (k : ℕ → α) : forceNat x k = k x := by
  cases x <;> rfl

def forceFl {α : Sort v} (x : Fl) (k : Fl → α) : α :=
  match x with
  | .nan => k .nan
  | .inf b => forceBool b fun b => k (.inf b)
  | .fin q => k (.fin q)

theorem forceFl_eq {α : Sort v} (x : Fl) (k : Fl → α) : forceFl x k = k x := by
  cases x <;> simp [forceFl, forceBool_eq]

def forceList {α : Sort v} : List Act → (List Act → α) → α
  | [], k => k []
  | a :: l, k => forceList l fun l => k (a :: l)

theorem forceList_eq {α : Sort v} (x : List Act) (k : List Act → α) : forceList x k = k x := by
  induction x generalizing k with
  | nil => rfl
  | cons a l ih => simp [forceList, ih]

def forceTriple {α : Sort v} (x : ℕ × ℕ × ℕ) (k : ℕ × ℕ × ℕ → α) : α :=
  match x with
  | (a, b, c) => forceNat a fun a => forceNat b fun b => forceNat c fun c => k (a, b, c)

theorem forceTriple_eq {α : Sort v} (x : ℕ × ℕ × ℕ) (k : ℕ × ℕ × ℕ → α) :
    forceTriple x k = k x := by
  obtain ⟨a, b, c⟩ := x
  simp [forceTriple, forceNat_eq]

def Cmd.force {α : Sort v} (x : Cmd) (k : Cmd → α) : α :=
  match x with
  | ⟨m, t, a, b, c⟩ => m.force fun m => forceFl t fun t => forceBool a fun a =>
      forceBool b fun b => forceBool c fun c => k ⟨m, t, a, b, c⟩

theorem Cmd.force_eq {α : Sort v} (x : Cmd) (k : Cmd → α) : x.force k = k x := by
  cases x
  simp [Cmd.force, Mode.force_eq, forceFl_eq, forceBool_eq]

/-- Evaluate the whole state. -/
def St.force {α : Sort v} (x : St) (k : St → α) : α :=
  match x with
  | ⟨m, c, t, cd, du, po, dr, pi, wr, ct, s1, s2, s3, o1, o2, o3, ep, cu, td, ha⟩ =>
    m.force fun m => c.force fun c => forceFl t fun t => forceNat cd fun cd =>
    forceTriple du fun du => forceBool po fun po => dr.force fun dr => forceBool pi fun pi =>
    forceBool wr fun wr => forceNat ct fun ct => forceNat s1 fun s1 => forceNat s2 fun s2 =>
    forceNat s3 fun s3 => forceNat o1 fun o1 => forceNat o2 fun o2 => forceNat o3 fun o3 =>
    forceNat ep fun ep => cu.force fun cu => forceList td fun td => forceBool ha fun ha =>
    k ⟨m, c, t, cd, du, po, dr, pi, wr, ct, s1, s2, s3, o1, o2, o3, ep, cu, td, ha⟩

theorem St.force_eq {α : Sort v} (x : St) (k : St → α) : x.force k = k x := by
  cases x
  simp [St.force, Mode.force_eq, Drv.force_eq, Code.force_eq, Cmd.force_eq, forceFl_eq,
    forceBool_eq, forceNat_eq, forceList_eq, forceTriple_eq]

/-- `run`, evaluated step by step. -/
def runF (A : Ar) : St → List Ev → St
  | s, [] => s
  | s, e :: evs => (exec A s e).force fun s => runF A s evs

theorem runF_eq (A : Ar) (evs : List Ev) (s : St) : runF A s evs = run A s evs := by
  induction evs generalizing s with
  | nil => rfl
  | cons e evs ih => simp only [runF, St.force_eq, ih]; rfl

/-- `runWhole`, evaluated step by step. -/
def runWholeF (A : Ar) (s : St) (evs : List Whole) : St := runF A s (evs.flatMap Whole.events)

theorem runWholeF_eq (A : Ar) (evs : List Whole) (s : St) :
    runWholeF A s evs = runWhole A s evs := runF_eq A _ s



/-- Sane sensors and a configured motor. -/
def okIn : In :=
  { period := .fin (1 / 32768), maxVoltage := .fin 46, faultTemperature := .fin 75,
    motorFaultTemperature := .nan, cooldownCycles := 256, timeoutMode := 12,
    fixedVoltageMode := false, positionMin := .nan, positionMax := .nan, phaseHigh := false,
    driverFault := false, busV := .fin 24, fetTemp := .fin 30, motorTemp := .fin 0,
    position := .fin 0, poles := 14, thetaValid := true, relativeValid := true,
    encoderError := false, epoch := 1, adc1 := 2048, adc2 := 2048, adc3 := 2048,
    duty := (100, 110, 120) }

/-- The configuration that `Command` reads. -/
def okCfg : CmdCfg :=
  { defaultTimeout := .fin (1 / 8), defaultVelocityLimit := .nan, defaultAccelLimit := .nan,
    maxVelocity := .fin 500, bemfFeedforward := .fin 0, bemfOverride := false }

/-- A command that asks for mode `m`, without time limit. -/
def ask (m : Mode) : CmdIn :=
  { cmd := ⟨m, .nan, false, false, false⟩, velocityLimit := .nan, accelLimit := .nan,
    stopPosition := .nan }

/-- From reset into mode `m`: the command, the enable sequence of the gate driver,
the calibration and one cycle in that mode. -/
def startUp (m : Mode) : List Whole :=
  [.command (ask m) okCfg, .cycle okIn, .poll false true, .poll true true, .poll true true,
   .poll true true] ++ List.replicate 256 (.cycle okIn) ++ [.cycle okIn]

/-- The start-up ends with the motor driven. -/
example : (runWhole Ar.single {} (startUp .position)).mode = .position ∧
    (runWhole Ar.single {} (startUp .position)).power = true ∧
    (runWhole Ar.single {} (startUp .position)).duty = (100, 110, 120) ∧
    (runWhole Ar.single {} (startUp .position)).drv = .enabled ∧
    (runWhole Ar.single {} (startUp .position)).cooldown = 256 := by
  rw [← runWholeF_eq]
  decide +kernel

/-- The hypotheses of `C34_obeyed_partial` in a driven state. -/
example : (run Ar.single (runWhole Ar.single {} (startUp .position))
      [.command (ask .stopped) okCfg]).todo = [.load (loaded (ask .stopped) okCfg)] ∧
    (runWhole Ar.single {} (startUp .position ++ [.command (ask .stopped) okCfg, .cycle okIn])).mode
      = .stopped := by
  rw [← runWholeF_eq]
  decide +kernel

/-- **C34 is violated in the cooldown.**  A stop command that arrives while the
angle of the rotor is not valid puts the controller into fault. -/
theorem C34_cooldown_refuted :
    let s := runWhole Ar.single {} (startUp .position ++ [.command (ask .stopped) okCfg,
      .cycle { okIn with thetaValid := false }])
    s.mode = .fault ∧ s.code = .thetaInvalid := by
  rw [← runWholeF_eq]
  decide +kernel

/-- **C34 is violated after a failed assertion.**  The mode number 16 is accepted
as a command; the control interrupt then fails an assertion with the motor still
driven, and from there nothing, so no stop command either, has an effect. -/
theorem C34_assertion_refuted :
    let s := runWhole Ar.single {} (startUp .position ++ [.command (ask .numModes) okCfg,
      .cycle okIn])
    s.mode = .position ∧ s.power = true ∧ s.duty = (100, 110, 120) ∧
    ∀ evs, run Ar.single s evs = s := by
  have h : let s := runWhole Ar.single {} (startUp .position ++ [.command (ask .numModes) okCfg,
      .cycle okIn])
    s.mode = .position ∧ s.power = true ∧ s.duty = (100, 110, 120) ∧ s.halted = true := by
    rw [← runWholeF_eq]
    decide +kernel
  exact ⟨h.1, h.2.1, h.2.2.1, fun evs => halted_run _ h.2.2.2 evs⟩

end Verif.Fw
