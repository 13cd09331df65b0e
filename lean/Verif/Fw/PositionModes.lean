import Verif.Fw.CurrentControl
import Verif.Fw.Trajectory

/-!
# Torque of the position modes

Model of `ISR_DoPositionCommon`, `ISR_DoPosition`, `ISR_DoPositionTimeout`,
`ISR_DoZeroVelocity` and `ISR_DoStayWithinBounds` (`fw/bldc_servo.cc` 1958-2224).

Property C84.
-/

namespace Verif.Fw.Modes

open Verif.Float Verif.Fw

/-! ## Model -/

/-- `Threshold` (`fw/bldc_servo.cc` 68-71). -/
def threshold (x lo hi : Fl) : Fl := if Fl.blt lo x && Fl.blt x hi then .fin 0 else x

/-- What is configured: members of `config_`, `motor_` and `motor_position_->config()`.
`toCurrent` is `torque_to_current` (C42). -/
structure Config where
  traj : TrajConfig
  pid : PidConfig
  fixedVoltageMode : Bool
  fixedVoltage : Fl
  bemfFeedforward : Fl
  velocityThreshold : Fl
  timeoutMode : ℤ
  timeoutMaxTorque : Fl
  defaultVelocityLimit : Fl
  defaultAccelLimit : Fl
  fluxBrakeMinVoltage : Fl
  fluxBrakeResistance : Fl
  vPerHz : Fl
  toCurrent : Fl → Fl
  torqueConfigured : Bool
  cogging : List ℤ
  coggingScale : Fl
  ratio : Fl

/-- What is measured in a cycle. -/
structure Meas where
  traj : TrajIn
  relativeValid : Bool
  encoderError : Bool
  /-- `position_.velocity` -/
  velocity : Fl
  /-- `position_.position` -/
  position : Fl
  /-- `filtered_value / cpr` of the commutation source -/
  commutation : Fl
  /-- `status_.filt_1ms_bus_V` -/
  bus : Fl
  rateHz : ℤ

/-- `BldcServoCommandData` (`fw/bldc_servo_structs.h` 304-336). -/
structure Command where
  traj : TrajData
  maxTorque : Fl := .fin 100
  feedforward : Fl := .fin 0
  kpScale : Fl := .fin 1
  kdScale : Fl := .fin 1
  ilimitScale : Fl := .fin 1
  fixedVoltageOverride : Fl := .nan
  fixedCurrentOverride : Fl := .nan
  boundsMin : Fl := .fin 0
  boundsMax : Fl := .fin 0

/-- The state that lasts from cycle to cycle: trajectory, command and controller. -/
structure State where
  traj : TrajStatus
  pid : PidState

/-- What a mode asks for in the end. -/
inductive Outcome
  /-- `ISR_DoCurrent` with d and q current and feedforward velocity; `torque` is
  `control_.torque_Nm`. -/
  | current (torque d q velocity : Fl)
  /-- `ISR_DoCurrent` for a fixed current in the d axis. -/
  | fixedCurrent (d : Fl)
  /-- `ISR_DoVoltageDQ` in the d axis. -/
  | voltage (d : Fl)
  | positionInvalid
  | encoderFault
  | stopped
  | brake
deriving DecidableEq

variable (A : Ar)

/-- `sample` (`fw/bldc_servo.cc` 2119-2133): index of the entry to the left. -/
def leftIndex (size : ℕ) (x : Fl) : ℤ := min (size - 1 : ℤ) (toI32 (A.mul (A.lit size) x))

/-- Access to the table; `none` outside. -/
def entry (table : List ℤ) (i : ℤ) : Option ℤ := if i < 0 then none else table[i.toNat]?

/-- `sample` (`fw/bldc_servo.cc` 2119-2133); `none`: a read outside of the table. -/
def sample (table : List ℤ) (scale x : Fl) : Option Fl := do
  let left := leftIndex A table.length x
  let right := (left + 1).tmod table.length
  let fraction := A.mul (A.sub x (A.div (A.lit left) (A.lit table.length))) (A.lit table.length)
  let l ← entry table left
  let r ← entry table right
  let leftComp := A.mul (A.lit l) scale
  let rightComp := A.mul (A.lit r) scale
  pure (A.add (A.mul (A.sub rightComp leftComp) fraction) leftComp)

/-- `d_A` (`fw/bldc_servo.cc` 2147-2160): the flux brake. -/
def fluxBrake (c : Config) (bus : Fl) : Fl :=
  if Fl.ble c.fluxBrakeMinVoltage (.fin 0) then .fin 0
  else
    let error := A.sub bus c.fluxBrakeMinVoltage
    if Fl.ble error (.fin 0) then .fin 0 else A.div error c.fluxBrakeResistance

/-- `measured_velocity` (`fw/bldc_servo.cc` 2081-2084). -/
def measuredVelocity (c : Config) (velocity command : Fl) : Fl :=
  A.add command
    (threshold (A.sub velocity command) c.velocityThreshold.neg c.velocityThreshold)

/-- `PID::ApplyOptions`. -/
structure Options where
  kp : Fl := .fin 1
  kd : Fl := .fin 1
  ilimit : Fl := .fin 1

/-- The call of `pid_position_.Apply` (`fw/bldc_servo.cc` 2090-2099). -/
def applyPid (c : Config) (m : Meas) (o : Options) (cp : ℤ) (velocityCommand : Fl) (s : PidState) :
    PidState :=
  pidApply A c.pid s
    { measured := intToFloat A (m.traj.posRel - cp)
      inputDesired := .fin 0
      measuredRate := measuredVelocity A c m.velocity velocityCommand
      inputDesiredRate := velocityCommand
      rateHz := m.rateHz
      kpScale := o.kp
      kdScale := o.kd
      ilimitScale := o.ilimit }

/-- `limited_torque_Nm` (`fw/bldc_servo.cc` 2089-2102). -/
def limitedTorque (maxTorque feedforward command : Fl) : Fl :=
  Fl.limit (A.add command feedforward) maxTorque.neg maxTorque

/-- `q_A` (`fw/bldc_servo.cc` 2107-2145); 5 A is `kMaxUnconfiguredCurrent`. -/
def qCurrent (c : Config) (torque comp : Fl) : Fl :=
  let compensated := A.add (c.toCurrent (A.mul torque c.ratio)) comp
  if c.torqueConfigured then compensated else Fl.limit compensated (.fin (-5)) (.fin 5)

/-- `ISR_DoPositionCommon` (`fw/bldc_servo.cc` 2012-2168); a read outside of the
cogging table counts as NaN.  What it writes into `status_.position`,
`status_.velocity` and `status_.torque_error_Nm` is left out. -/
def positionCommon (c : Config) (m : Meas) (o : Options) (maxTorque feedforward velocity : Fl)
    (s : State) (d : Command) : Outcome × State × Command :=
  let u := updateCommand A c.traj { m.traj with velocity } s.traj d.traj
  let s := { s with traj := u.2.1 }
  let d := { d with traj := u.2.2 }
  if c.fixedVoltageMode || !d.fixedVoltageOverride.isNan || !d.fixedCurrentOverride.isNan then
    if !d.fixedCurrentOverride.isNan then (.fixedCurrent d.fixedCurrentOverride, s, d)
    else
      (.voltage (if d.fixedVoltageOverride.isNan then
        A.add c.fixedVoltage (A.mul (A.mul u.1.abs c.vPerHz) c.bemfFeedforward)
        else d.fixedVoltageOverride), s, d)
  else if !m.relativeValid then (.positionInvalid, s, d)
  else if m.encoderError then (.encoderFault, s, d)
  else
    let pid := applyPid A c m o (derefI s.traj.cp) u.1 s.pid
    let torque := limitedTorque A maxTorque feedforward pid.command
    let comp := (sample A c.cogging c.coggingScale m.commutation).getD .nan
    (.current torque (fluxBrake A c m.bus) (qCurrent A c torque comp) (A.div u.1 c.ratio),
      { s with pid }, d)

/-- `ISR_DoPosition` (`fw/bldc_servo.cc` 2002-2010). -/
def doPosition (c : Config) (m : Meas) (s : State) (d : Command) : Outcome × State × Command :=
  positionCommon A c m ⟨d.kpScale, d.kdScale, d.ilimitScale⟩ d.maxTorque d.feedforward
    d.traj.velocity s d

/-- `zero_velocity` (`fw/bldc_servo.cc` 1986-1991). -/
def zeroCommand : Command where
  traj := ⟨.nan, .fin 0, none, none, .nan, .nan, false⟩

/-- `ISR_DoZeroVelocity` (`fw/bldc_servo.cc` 1985-2000); the command is used for
`kd_scale` only. -/
def doZeroVelocity (c : Config) (m : Meas) (s : State) (d : Command) : Outcome × State :=
  let r := positionCommon A c m ⟨.fin 0, d.kdScale, .fin 0⟩ c.timeoutMaxTorque (.fin 0) (.fin 0) s
    zeroCommand
  (r.1, r.2.1)

/-- `timeout_data` (`fw/bldc_servo.cc` 1962-1967). -/
def timeoutCommand (c : Config) : Command where
  traj := ⟨.nan, .fin 0, none, none, c.defaultVelocityLimit, c.defaultAccelLimit, false⟩

/-- `ISR_DoPositionTimeout` (`fw/bldc_servo.cc` 1958-1983); 0, 10, 12 and 15 are
`kStopped`, `kPosition`, `kZeroVelocity` and `kBrake`. -/
def doTimeout (c : Config) (m : Meas) (s : State) (d : Command) : Outcome × State :=
  if c.timeoutMode = 0 then (.stopped, s)
  else if c.timeoutMode = 10 then
    let r := positionCommon A c m {} (timeoutCommand c).maxTorque (.fin 0) (.fin 0) s
      (timeoutCommand c)
    (r.1, r.2.1)
  else if c.timeoutMode = 12 then doZeroVelocity A c m s d
  else if c.timeoutMode = 15 then (.brake, s)
  else (.stopped, s)

/-- `target_position` (`fw/bldc_servo.cc` 2171-2181). -/
def boundTarget (m : Meas) (d : Command) : Option Fl :=
  if !d.boundsMin.isNan && Fl.blt m.position d.boundsMin then some d.boundsMin
  else if !d.boundsMax.isNan && Fl.blt d.boundsMax m.position then some d.boundsMax
  else none

/-- `ISR_DoStayWithinBounds` (`fw/bldc_servo.cc` 2170-2224). -/
def doStayWithin (c : Config) (m : Meas) (s : State) (d : Command) : Outcome × State × Command :=
  match boundTarget m d with
  | none =>
    positionCommon A c m ⟨.fin 0, .fin 0, .fin 0⟩ d.maxTorque d.feedforward (.fin 0)
      ⟨{ s.traj with cp := none, cv := none, controlPosition := .nan }, .clear⟩ d
  | some target =>
    let raw := floatToInt A target - m.traj.delta
    positionCommon A c m ⟨d.kpScale, d.kdScale, d.ilimitScale⟩ d.maxTorque d.feedforward (.fin 0)
      { s with traj := { s.traj with cp := some raw, cv := some (.fin 0), controlPosition := target } }
      { d with traj := { d.traj with posRaw := some raw, velocity := .fin 0 } }

variable {A}

/-! ## Limits of torque and current -/

/-- What `positionCommon` hands to the current loop. -/
theorem common_current {c : Config} {m : Meas} {o : Options} {maxT ff v : Fl} {s : State}
    {d : Command} {t dA qA vel : Fl} {s' : State} {d' : Command}
    (h : positionCommon A c m o maxT ff v s d = (.current t dA qA vel, s', d')) :
    let u := updateCommand A c.traj { m.traj with velocity := v } s.traj d.traj
    t = limitedTorque A maxT ff s'.pid.command ∧
    s'.pid = applyPid A c m o (derefI s'.traj.cp) u.1 s.pid ∧ s'.traj = u.2.1 ∧
    d' = { d with traj := u.2.2 } ∧ dA = fluxBrake A c m.bus ∧
    qA = qCurrent A c t ((sample A c.cogging c.coggingScale m.commutation).getD .nan) ∧
    vel = A.div u.1 c.ratio ∧ m.relativeValid = true ∧ m.encoderError = false ∧
    c.fixedVoltageMode = false ∧ d.fixedVoltageOverride = .nan ∧ d.fixedCurrentOverride = .nan := by
  have nn : ∀ x : Fl, x.isNan = true → x = .nan := by intro x; cases x <;> simp [Fl.isNan]
  unfold positionCommon at h
  dsimp only at h
  split at h
  · split at h <;> simp at h
  · rename_i h1
    simp only [Bool.or_eq_true, Bool.not_eq_true', not_or, Bool.not_eq_true, Bool.not_eq_false] at h1
    split at h
    · simp at h
    · rename_i h2
      split at h
      · simp at h
      · rename_i h3
        simp only [Prod.mk.injEq, Outcome.current.injEq] at h
        obtain ⟨⟨rfl, rfl, rfl, rfl⟩, rfl, rfl⟩ := h
        refine ⟨rfl, rfl, rfl, rfl, rfl, rfl, rfl, ?_, ?_, h1.1.1, nn _ h1.1.2, nn _ h1.2⟩
        · simpa using h2
        · simpa using h3

theorem limited_mem {M x ff : Fl} (hM : (Fl.fin 0).Le M) :
    limitedTorque A M ff x = .nan ∨
      (M.neg.Le (limitedTorque A M ff x) ∧ (limitedTorque A M ff x).Le M) := by
  have h0 : M.neg.Le (.fin 0) := by simpa [Fl.neg] using Fl.neg_Le hM
  by_cases h : A.add x ff = .nan
  · left; unfold limitedTorque; rw [h]; exact Fl.limit_nan _ _
  · exact Or.inr (Fl.limit_mem (h0.trans hM) h)

/-- **C84.** The torque of position mode is within the commanded maximum. -/
theorem C84_position_torque {c : Config} {m : Meas} {s : State} {d : Command}
    (hM : (Fl.fin 0).Le d.maxTorque) {t dA qA v : Fl}
    (h : (doPosition A c m s d).1 = .current t dA qA v) :
    t = .nan ∨ (d.maxTorque.neg.Le t ∧ t.Le d.maxTorque) := by
  obtain ⟨e, -⟩ := common_current (A := A) (h ▸ rfl :
    doPosition A c m s d = (.current t dA qA v, (doPosition A c m s d).2.1, (doPosition A c m s d).2.2))
  rw [e]; exact limited_mem hM

/-- **C84.** The same when staying within bounds. -/
theorem C84_stay_torque {c : Config} {m : Meas} {s : State} {d : Command}
    (hM : (Fl.fin 0).Le d.maxTorque) {t dA qA v : Fl}
    (h : (doStayWithin A c m s d).1 = .current t dA qA v) :
    t = .nan ∨ (d.maxTorque.neg.Le t ∧ t.Le d.maxTorque) := by
  have h' : doStayWithin A c m s d =
    (.current t dA qA v, (doStayWithin A c m s d).2.1, (doStayWithin A c m s d).2.2) := h ▸ rfl
  revert h'
  generalize (doStayWithin A c m s d).2 = r
  unfold doStayWithin
  split <;> intro h' <;> obtain ⟨e, -⟩ := common_current h' <;> rw [e] <;> exact limited_mem hM

/-- **C84.** With zero velocity the torque is within the limit for timeouts. -/
theorem C84_zero_torque {c : Config} {m : Meas} {s : State} {d : Command}
    (hM : (Fl.fin 0).Le c.timeoutMaxTorque) {t dA qA v : Fl}
    (h : (doZeroVelocity A c m s d).1 = .current t dA qA v) :
    t = .nan ∨ (c.timeoutMaxTorque.neg.Le t ∧ t.Le c.timeoutMaxTorque) := by
  unfold doZeroVelocity at h
  obtain ⟨e, -⟩ := common_current (A := A) (Prod.ext h rfl)
  rw [e]; exact limited_mem hM

/-! ## Timeouts -/

/-- **C84.** The behaviour after a timeout is that of the documented table: 10 is like
a position command without position, with velocity 0 and the default limits; 12 is
zero velocity; 15 is brake; everything else is stopped. -/
theorem C84_timeout (c : Config) (m : Meas) (s : State) (d : Command) :
    (c.timeoutMode = 10 → doTimeout A c m s d =
      let r := doPosition A c m s
        { traj := ⟨.nan, .fin 0, none, none, c.defaultVelocityLimit, c.defaultAccelLimit, false⟩ }
      (r.1, r.2.1)) ∧
    (c.timeoutMode = 12 → doTimeout A c m s d = doZeroVelocity A c m s d) ∧
    (c.timeoutMode = 15 → doTimeout A c m s d = (.brake, s)) ∧
    (c.timeoutMode ≠ 10 → c.timeoutMode ≠ 12 → c.timeoutMode ≠ 15 →
      doTimeout A c m s d = (.stopped, s)) := by
  refine ⟨fun h => ?_, fun h => ?_, fun h => ?_, fun h1 h2 h3 => ?_⟩
  · simp [doTimeout, h, doPosition, timeoutCommand]
  · simp [doTimeout, h]
  · simp [doTimeout, h]
  · simp [doTimeout, h1, h2, h3]

/-! ## Faults -/

/-- **C84.** Without a valid position, or with an encoder error, the position modes
end in a fault; the controller keeps its state. -/
theorem C84_faults (c : Config) (m : Meas) (s : State) (d : Command)
    (hv : c.fixedVoltageMode = false) (h1 : d.fixedVoltageOverride = .nan)
    (h2 : d.fixedCurrentOverride = .nan) :
    (m.relativeValid = false → (doPosition A c m s d).1 = .positionInvalid ∧
      (doPosition A c m s d).2.1.pid = s.pid) ∧
    (m.relativeValid = true → m.encoderError = true → (doPosition A c m s d).1 = .encoderFault ∧
      (doPosition A c m s d).2.1.pid = s.pid) := by
  constructor
  · intro h
    simp [doPosition, positionCommon, hv, h1, h2, h, Fl.isNan]
  · intro h h'
    simp [doPosition, positionCommon, hv, h1, h2, h, h', Fl.isNan]

/-! ## Flux brake, unconfigured motors -/

/-- **C84.** At or below the configured voltage, or with none configured, there is no
current in the d axis. -/
theorem C84_flux_brake_off (c : Config) (hA : A.Law) {bus mn : ℚ} (hm : c.fluxBrakeMinVoltage = .fin mn)
    (h : mn ≤ 0 ∨ bus ≤ mn) : fluxBrake A c (.fin bus) = .fin 0 := by
  unfold fluxBrake
  rw [hm]
  by_cases h0 : mn ≤ 0
  · simp [h0]
  · have hb : bus ≤ mn := h.resolve_left h0
    have : (A.sub (.fin bus) (.fin mn)).ble (.fin 0) = true :=
      hA.rnd_le hA.rep_zero (x := bus + -mn) (by linarith)
    simp [h0, this]

/-- **C84.** Above it, the d axis current is the excess over the virtual resistance; it
is never negative. -/
theorem C84_flux_brake (c : Config) (hA : A.Law) {bus mn r : ℚ} (hm : c.fluxBrakeMinVoltage = .fin mn)
    (hr : c.fluxBrakeResistance = .fin r) (h0 : 0 < r) :
    (Fl.fin 0).Le (fluxBrake A c (.fin bus)) ∧
    (0 < mn → mn < bus → A = .exact → fluxBrake A c (.fin bus) = .fin ((bus - mn) / r)) := by
  constructor
  · unfold fluxBrake
    split
    · simp
    · dsimp only
      split
      · simp
      · rename_i h1
        rw [hm] at h1 ⊢
        rw [hr]
        change ¬ (A.rnd (bus + -mn)).ble (.fin 0) = true at h1
        change (Fl.fin 0).Le (A.div (A.rnd (bus + -mn)) (.fin r))
        rcases e : A.rnd (bus + -mn) with _ | b | x
        · exact absurd e (Ar.rnd_ne_nan _)
        · rw [e] at h1
          have hb : b = false := by cases b <;> simp_all [Fl.ble]
          subst hb
          simp [Ar.div, Fl.Le, Fl.ble, not_lt.mpr h0.le]
        · rw [e] at h1
          have hx : 0 < x := by simpa using h1
          simp only [Ar.div, h0.ne', if_false]
          exact hA.le_rnd hA.rep_zero (div_pos hx h0).le
  · rintro h1 h2 rfl
    unfold fluxBrake
    rw [hm, hr]
    have e1 : Ar.exact.sub (.fin bus) (.fin mn) = .fin (bus - mn) := by
      simp [Ar.sub, Ar.add, Fl.neg, sub_eq_add_neg]
    have h3 : ¬ bus - mn ≤ 0 := by linarith
    simp only [e1, Fl.ble_fin, not_le.mpr h1, decide_false, Bool.false_eq_true, if_false, h3]
    simp [Ar.div, h0.ne']

/-- **C84.** Without a configured torque constant the q axis current is at most 5 A. -/
theorem C84_unconfigured (c : Config) (torque comp : Fl) (h : c.torqueConfigured = false) :
    qCurrent A c torque comp = .nan ∨
      ((Fl.fin (-5)).Le (qCurrent A c torque comp) ∧ (qCurrent A c torque comp).Le (.fin 5)) := by
  unfold qCurrent
  simp only [h, Bool.false_eq_true, if_false]
  by_cases hn : A.add (c.toCurrent (A.mul torque c.ratio)) comp = .nan
  · left; rw [hn]; exact Fl.limit_nan _ _
  · exact Or.inr (Fl.limit_mem (by simp) hn)

/-! ## Zero velocity -/

theorem mul_sign (hA : A.Law) {x y : Fl} (hx : (Fl.fin 0).Le x) :
    ((Fl.fin 0).Le y → A.mul x y = .nan ∨ (Fl.fin 0).Le (A.mul x y)) ∧
    (y.Le (.fin 0) → A.mul x y = .nan ∨ (A.mul x y).Le (.fin 0)) := by
  rcases x with _ | ⟨_ | _⟩ | a
  · simp [Fl.Le] at hx
  · constructor <;> intro hy <;> rcases y with _ | ⟨_ | _⟩ | b <;>
      simp [Fl.Le, Fl.ble] at hy <;> simp [Ar.mul, Fl.Le, Fl.ble, Ar.infMul]
    · by_cases h : b = 0
      · simp [h]
      · simp [h, not_lt.mpr hy]
    · by_cases h : b = 0
      · simp [h]
      · simp [h, lt_of_le_of_ne hy h]
  · simp [Fl.Le, Fl.ble] at hx
  · have ha : 0 ≤ a := by simpa using hx
    constructor <;> intro hy <;> rcases y with _ | ⟨_ | _⟩ | b <;>
      simp only [Fl.Le, Fl.ble, decide_eq_true_eq, Bool.false_eq_true] at hy <;>
      simp only [Ar.mul, Ar.infMul]
    · by_cases h : a = 0
      · simp [h]
      · simp [h, not_lt.mpr ha, Fl.Le, Fl.ble]
    · exact Or.inr (hA.le_rnd hA.rep_zero (mul_nonneg ha hy))
    · by_cases h : a = 0
      · simp [h]
      · simp [h, not_lt.mpr ha, Fl.Le, Fl.ble]
    · exact Or.inr (hA.rnd_le hA.rep_zero (mul_nonpos_of_nonneg_of_nonpos ha hy))

theorem mul_sign_neg (hA : A.Law) {x y : Fl} (hx : x.Le (.fin 0)) :
    ((Fl.fin 0).Le y → A.mul x y = .nan ∨ (A.mul x y).Le (.fin 0)) ∧
    (y.Le (.fin 0) → A.mul x y = .nan ∨ (Fl.fin 0).Le (A.mul x y)) := by
  rcases x with _ | ⟨_ | _⟩ | a
  · simp [Fl.Le] at hx
  · simp [Fl.Le, Fl.ble] at hx
  · constructor <;> intro hy <;> rcases y with _ | ⟨_ | _⟩ | b <;>
      simp [Fl.Le, Fl.ble] at hy <;> simp [Ar.mul, Fl.Le, Fl.ble, Ar.infMul]
    · by_cases h : b = 0
      · simp [h]
      · simp [h, not_lt.mpr hy]
    · by_cases h : b = 0
      · simp [h]
      · simp [h, lt_of_le_of_ne hy h]
  · have ha : a ≤ 0 := by simpa using hx
    constructor <;> intro hy <;> rcases y with _ | ⟨_ | _⟩ | b <;>
      simp only [Fl.Le, Fl.ble, decide_eq_true_eq, Bool.false_eq_true] at hy <;>
      simp only [Ar.mul, Ar.infMul]
    · by_cases h : a = 0
      · simp [h]
      · simp [h, lt_of_le_of_ne ha h, Fl.Le, Fl.ble]
    · exact Or.inr (hA.rnd_le hA.rep_zero (mul_nonpos_of_nonpos_of_nonneg ha hy))
    · by_cases h : a = 0
      · simp [h]
      · simp [h, lt_of_le_of_ne ha h, Fl.Le, Fl.ble]
    · exact Or.inr (hA.le_rnd hA.rep_zero (mul_nonneg_of_nonpos_of_nonpos ha hy))

theorem add_zero_repF {x : Fl} (h : A.RepF x) : A.add x (.fin 0) = x := by
  rcases x with _ | b | a
  · rfl
  · rfl
  · show A.rnd (a + 0) = _
    rw [add_zero]; exact Ar.Rep.rnd h

theorem zero_add_repF {x : Fl} (h : A.RepF x) : A.add (.fin 0) x = x := by
  rcases x with _ | b | a
  · rfl
  · rfl
  · show A.rnd (0 + a) = _
    rw [zero_add]; exact Ar.Rep.rnd h

theorem sub_zero_repF {x : Fl} (h : A.RepF x) : A.sub x (.fin 0) = x := by
  have : (Fl.fin 0).neg = .fin 0 := by simp [Fl.neg]
  rw [Ar.sub, this]; exact add_zero_repF h

/-- A product with a scale of zero. -/
theorem zero_scale (hA : A.Law) (k : ℚ) (x : Fl) :
    A.mul (A.mul (.fin 0) (.fin k)) x = .nan ∨ A.mul (A.mul (.fin 0) (.fin k)) x = .fin 0 := by
  have e : A.mul (.fin 0) (.fin k) = .fin 0 := by
    show A.rnd (0 * k) = _
    rw [zero_mul]; exact hA.rep_zero.rnd
  rw [e]
  rcases x with _ | b | a
  · exact Or.inl rfl
  · left; simp [Ar.mul, Ar.infMul]
  · right
    show A.rnd (0 * a) = _
    rw [zero_mul]; exact hA.rep_zero.rnd

theorem limit_sign {x M : Fl} (hM : (Fl.fin 0).Le M) :
    ((Fl.fin 0).Le x → (Fl.fin 0).Le (Fl.limit x M.neg M)) ∧
    (x.Le (.fin 0) → (Fl.limit x M.neg M).Le (.fin 0)) := by
  have h0 : M.neg.Le (.fin 0) := by simpa [Fl.neg] using Fl.neg_Le hM
  constructor
  · intro h
    exact (Fl.limit_between h (Ar.Le_posInf h.not_nan.2) hM (Ar.Le_posInf h0.not_nan.1)).1
  · intro h
    exact (Fl.limit_between (Ar.negInf_Le h.not_nan.1) h (Ar.negInf_Le hM.not_nan.2) h0).2

theorem motorLimit_zero {m : Fl} (h : m.blt (.fin 0) = false) : motorLimit m (.fin 0) = .fin 0 := by
  unfold motorLimit
  rcases m with _ | ⟨_ | _⟩ | a <;> simp_all [Fl.neg, Fl.blt, Fl.ble]

/-- The velocity command of zero velocity mode, once there is a control position. -/
theorem zero_update (c : TrajConfig) (i : TrajIn) (s : TrajStatus) (hcp : s.cp.isSome = true)
    (hm : i.motorMax.blt (.fin 0) = false) :
    (updateCommand A c { i with velocity := .fin 0 } s zeroCommand.traj).1 = .fin 0 := by
  obtain ⟨cp, hcp⟩ := Option.isSome_iff_exists.mp hcp
  simp only [updateCommand, prepare, finish, stopAt, zeroCommand, begin, advance, noLimits, Fl.isNan,
    velocityArg, hcp, Bool.and_self, if_true, Option.isNone_some, Bool.false_eq_true, if_false,
    derefF, Option.getD_some, motorLimit_zero hm]
  split <;> rfl

/-- **C84.** Zero velocity mode only brakes: with the sign -1 that is configured by
default and gains that are not negative, the torque never has the sign of the
velocity.  This holds in every cycle that starts with a control position, whatever
the state of the controller; `RepF` says that the velocity is a float. -/
theorem C84_zero_brakes (hA : A.Law) {c : Config} {m : Meas} {s : State} {d : Command}
    (hM : (Fl.fin 0).Le c.timeoutMaxTorque) (hcp : s.traj.cp.isSome = true)
    (hmot : m.traj.motorMax.blt (.fin 0) = false) (hrate : c.pid.maxDesiredRate.blt (.fin 0) = false)
    {kp kd il ds : ℚ} (h1 : c.pid.kp = .fin kp) (h2 : c.pid.kd = .fin kd)
    (h4 : c.pid.ilimit = .fin il) (h5 : d.kdScale = .fin ds) (hkd : 0 ≤ kd) (hds : 0 ≤ ds)
    (hs : c.pid.sign = -1) (hv : A.RepF m.velocity) {t dA qA v : Fl}
    (h : (doZeroVelocity A c m s d).1 = .current t dA qA v) :
    ((Fl.fin 0).Le m.velocity → t = .nan ∨ t.Le (.fin 0)) ∧
    (m.velocity.Le (.fin 0) → t = .nan ∨ (Fl.fin 0).Le t) := by
  unfold doZeroVelocity at h
  obtain ⟨e, ep, -⟩ := common_current (A := A) (Prod.ext h rfl)
  rw [zero_update c.traj m.traj s.traj hcp hmot] at ep
  generalize derefI _ = cp at ep
  rw [ep] at e
  clear ep h
  have hmv : measuredVelocity A c m.velocity (.fin 0) = .fin 0 ∨
      measuredVelocity A c m.velocity (.fin 0) = m.velocity := by
    unfold measuredVelocity threshold
    rw [sub_zero_repF hv]
    split
    · left; exact add_zero_repF hA.rep_zero
    · right; exact zero_add_repF hv
  have hdr : ∀ x, stepDesiredRate c.pid.maxDesiredRate x (.fin 0) = .fin 0 := by
    intro x
    unfold stepDesiredRate
    split
    · rcases hc : c.pid.maxDesiredRate with _ | ⟨_ | _⟩ | a <;>
        simp_all [Fl.limit, Fl.neg, Fl.blt, Fl.ble]
    · rfl
  have hint := C41_scale_zero hA c.pid s.pid
    { measured := intToFloat A (m.traj.posRel - cp)
      inputDesired := .fin 0
      measuredRate := measuredVelocity A c m.velocity (.fin 0)
      inputDesiredRate := .fin 0
      rateHz := m.rateHz
      kpScale := .fin 0
      kdScale := d.kdScale
      ilimitScale := .fin 0 } il h4 rfl
  have hneg : (A.lit (-1 : ℤ)).Le (.fin 0) := hA.rnd_le hA.rep_zero (by norm_num)
  have hg : (Fl.fin 0).Le (A.mul (.fin ds) (.fin kd)) := hA.le_rnd hA.rep_zero (mul_nonneg hds hkd)
  -- the command of the controller has the sign of minus the velocity
  have hcmd : ∀ er : Fl, (er = .fin 0 ∨ er = m.velocity) → ∀ p a : Fl, (p = .nan ∨ p = .fin 0) →
      (a = .nan ∨ a = .fin 0) →
      ((Fl.fin 0).Le m.velocity →
        A.mul (A.lit (-1 : ℤ)) (A.add (A.add p (A.mul (A.mul (.fin ds) (.fin kd)) er)) a) = .nan ∨
        (A.mul (A.lit (-1 : ℤ)) (A.add (A.add p (A.mul (A.mul (.fin ds) (.fin kd)) er)) a)).Le (.fin 0)) ∧
      (m.velocity.Le (.fin 0) →
        A.mul (A.lit (-1 : ℤ)) (A.add (A.add p (A.mul (A.mul (.fin ds) (.fin kd)) er)) a) = .nan ∨
        (Fl.fin 0).Le (A.mul (A.lit (-1 : ℤ)) (A.add (A.add p (A.mul (A.mul (.fin ds) (.fin kd)) er)) a))) := by
    intro er her p a hp ha
    rcases hp with rfl | rfl
    · constructor <;> intro _ <;> left <;> simp [Current.add_nan_left, Current.mul_nan_right]
    rcases ha with rfl | rfl
    · constructor <;> intro _ <;> left <;> simp [Current.add_nan_right, Current.mul_nan_right]
    rw [zero_add_repF (hA.repF_mul _ _), add_zero_repF (hA.repF_mul _ _)]
    have z : (Fl.fin 0).Le (.fin 0) := Fl.Le.refl (by simp)
    constructor
    · intro hp
      have : (Fl.fin 0).Le er := by rcases her with rfl | rfl; exacts [z, hp]
      rcases (mul_sign hA hg).1 this with e | e
      · left; rw [e]; exact Current.mul_nan_right _
      · exact (mul_sign_neg hA hneg).1 e
    · intro hp
      have : er.Le (.fin 0) := by rcases her with rfl | rfl; exacts [z, hp]
      rcases (mul_sign hA hg).2 this with e | e
      · left; rw [e]; exact Current.mul_nan_right _
      · exact (mul_sign_neg hA hneg).2 e
  have hap : ∃ er p a : Fl, (er = .fin 0 ∨ er = m.velocity) ∧ (p = .nan ∨ p = .fin 0) ∧
      (a = .nan ∨ a = .fin 0) ∧
      (applyPid A c m ⟨.fin 0, d.kdScale, .fin 0⟩ cp (.fin 0) s.pid).command =
        A.mul (A.lit (-1 : ℤ)) (A.add (A.add p (A.mul (A.mul (.fin ds) (.fin kd)) er)) a) := by
    refine ⟨A.sub (measuredVelocity A c m.velocity (.fin 0)) (.fin 0), A.mul (A.mul (.fin 0) (.fin kp))
      (applyPid A c m ⟨.fin 0, d.kdScale, .fin 0⟩ cp (.fin 0) s.pid).error, _, ?_, ?_, hint, ?_⟩
    rotate_left 2
    · simp only [applyPid, pidApply, hdr, hs, h1, h2, h5]
    · rcases hmv with e | e <;> rw [e]
      · left; exact sub_zero_repF hA.rep_zero
      · right; exact sub_zero_repF hv
    · exact zero_scale hA kp _
  obtain ⟨er, p, a, her, hp, ha, hc⟩ := hap
  have key := hcmd er her p a hp ha
  rw [← hc] at key
  unfold limitedTorque at e
  have hrep : A.add (applyPid A c m ⟨.fin 0, d.kdScale, .fin 0⟩ cp (.fin 0) s.pid).command (.fin 0) =
      (applyPid A c m ⟨.fin 0, d.kdScale, .fin 0⟩ cp (.fin 0) s.pid).command :=
    add_zero_repF (hA.repF_mul _ _)
  rw [hrep] at e
  rw [e]
  constructor
  · intro hp
    rcases key.1 hp with k | k
    · left; rw [k]; exact Fl.limit_nan _ _
    · exact Or.inr ((limit_sign hM).2 k)
  · intro hp
    rcases key.2 hp with k | k
    · left; rw [k]; exact Fl.limit_nan _ _
    · exact Or.inr ((limit_sign hM).1 k)

end Verif.Fw.Modes
