import Verif.Fw.StayWithin

/-!
# The torque in exact arithmetic, cogging compensation, and what the position modes do not do

Property C84.
-/

namespace Verif.Fw.Modes

open Verif.Float Verif.Fw

variable {A : Ar}

/-! ## The torque in exact arithmetic -/

/-- Specification: values below a threshold count as zero. -/
def Spec.deadband (th x : ℚ) : ℚ := if -th < x ∧ x < th then 0 else x

/-- Specification: the torque of a position controller with feedforward and limit. -/
def Spec.torque (maxTorque sign kp kd integral ff error velocityError : ℚ) : ℚ :=
  max (-maxTorque) (min maxTorque (sign * (kp * error + kd * velocityError + integral) + ff))

theorem exact_sub (p q : ℚ) : Ar.exact.sub (.fin p) (.fin q) = .fin (p - q) := by
  simp [Ar.sub, Ar.add, Fl.neg, sub_eq_add_neg]

theorem measured_exact (c : Config) {th v w : ℚ} (hth : c.velocityThreshold = .fin th) :
    measuredVelocity .exact c (.fin v) (.fin w) = .fin (w + Spec.deadband th (v - w)) := by
  unfold measuredVelocity threshold
  rw [exact_sub, hth]
  simp only [Fl.neg, Fl.blt_fin]
  unfold Spec.deadband
  by_cases h1 : -th < v - w <;> by_cases h2 : v - w < th <;> simp [h1, h2, Ar.add]

/-- **C84, in exact arithmetic.** Without desired rate limit, the torque is the sum of
proportional, derivative and integral term with the scales of the command, plus
feedforward, limited; the position error is measured in whole 1/65536 turns. -/
theorem C84_exact {c : Config} {m : Meas} {o : Options} {v : Fl} {s : State} {d : Command}
    {kp ki kd irl il M ff w vel th ks ds sc a : ℚ} {sign cp : ℤ} {old : Option ℚ}
    (hpid : c.pid = qConfig kp ki kd irl il 0 sign) (hth : c.velocityThreshold = .fin th)
    (hu : (updateCommand .exact c.traj { m.traj with velocity := v } s.traj d.traj).1 = .fin w)
    (hcp : (updateCommand .exact c.traj { m.traj with velocity := v } s.traj d.traj).2.1.cp = some cp)
    (hv : m.velocity = .fin vel) (ho : o = ⟨.fin ks, .fin ds, .fin sc⟩)
    (ha : s.pid.integral = .fin a) (hd : s.pid.desired = Verif.Fw.Spec.stored old)
    (hr : 0 < m.rateHz) (hil : 0 ≤ il * sc) (hM : 0 ≤ M)
    (hnear : |m.traj.posRel - cp| < 9223372036854775808)
    (hval : m.relativeValid = true) (henc : m.encoderError = false) (hf : c.fixedVoltageMode = false)
    (h1 : d.fixedVoltageOverride = .nan) (h2 : d.fixedCurrentOverride = .nan) :
    let e : ℚ := ((m.traj.posRel - cp) / 4294967296 : ℤ) / 65536
    let a' := Verif.Fw.Spec.integral ki irl (il * sc) m.rateHz a e
    ∃ dA qA vel' : Fl, (positionCommon .exact c m o (.fin M) (.fin ff) v s d).1 =
        .current (.fin (Spec.torque M sign (ks * kp) (ds * kd) a' ff e (Spec.deadband th (vel - w))))
          dA qA vel' ∧
      (positionCommon .exact c m o (.fin M) (.fin ff) v s d).2.1.pid.integral = .fin a' := by
  intro e a'
  have hpos : intToFloat .exact (m.traj.posRel - cp) = .fin e := by
    have hw : wrapI32 ((m.traj.posRel - cp) / 4294967296) = (m.traj.posRel - cp) / 4294967296 := by
      rw [abs_lt] at hnear
      unfold wrapI32; omega
    unfold intToFloat
    rw [hw]
    simp [Ar.lit, Ar.div, e]
  have hp := C41_output_exact kp ki kd irl il 0 sign s.pid a e 0 (w + Spec.deadband th (vel - w)) w ks ds sc
    old m.rateHz ha hd hr hil le_rfl
  have hset : Verif.Fw.Spec.setPoint 0 m.rateHz old 0 = 0 := by
    unfold Verif.Fw.Spec.setPoint; cases old <;> simp
  rw [hset] at hp
  simp only [sub_zero, true_or, if_true, add_sub_cancel_left] at hp
  have hap : applyPid .exact c m o cp (.fin w) s.pid =
      pidApply .exact (qConfig kp ki kd irl il 0 sign) s.pid
        ⟨.fin e, .fin 0, .fin (w + Spec.deadband th (vel - w)), .fin w, m.rateHz, .fin ks, .fin ds, .fin sc⟩ := by
    unfold applyPid
    rw [hpos, hpid, hv, measured_exact c hth, ho]
  have hlt : limitedTorque .exact (.fin M) (.fin ff) (applyPid .exact c m o cp (.fin w) s.pid).command =
      .fin (Spec.torque M sign (ks * kp) (ds * kd) a' ff e (Spec.deadband th (vel - w))) := by
    rw [hap]
    unfold limitedTorque
    rw [hp.2.2]
    show Fl.limit (Ar.exact.rnd _) _ _ = _
    rw [Ar.exact_rnd, limit_within hM]
    rfl
  unfold positionCommon
  dsimp only
  rw [hu, hcp, hf, h1, h2, hval, henc]
  simp only [Fl.isNan, Bool.not_true, Bool.or_self, Bool.false_eq_true, if_false, derefI,
    Option.getD_some, hlt]
  exact ⟨_, _, _, rfl, by rw [hap]; exact hp.2.1⟩

/-! ## Cogging compensation -/

/-- Specification: linear interpolation in a periodic table. -/
def Spec.interpolate (table : List ℤ) (scale x : ℚ) : ℚ :=
  let n := table.length
  let l : ℕ := ⌊n * x⌋₊
  let f : ℚ := n * x - l
  scale * ((1 - f) * table.getD (l % n) 0 + f * table.getD ((l + 1) % n) 0)

theorem toI32_nonneg {x : Fl} (h : (Fl.fin 0).Le x) : 0 ≤ toI32 x := by
  rcases x with _ | ⟨_ | _⟩ | q
  · simp [Fl.Le] at h
  · simp [toI32]
  · simp [Fl.Le, Fl.ble] at h
  · have hq : 0 ≤ q := by simpa using h
    have : 0 ≤ truncQ q := by
      unfold truncQ
      rw [if_pos hq]
      exact Int.floor_nonneg.mpr hq
    simp only [toI32]
    omega

theorem leftIndex_range (hA : A.Law) {n : ℕ} (hn : 0 < n) {x : ℚ} (hx : 0 ≤ x) :
    0 ≤ leftIndex A n (.fin x) ∧ leftIndex A n (.fin x) < n := by
  have h1 : (Fl.fin 0).Le (A.lit n) := hA.le_rnd hA.rep_zero (Nat.cast_nonneg n)
  have h2 : 0 ≤ toI32 (A.mul (A.lit n) (.fin x)) := by
    rcases (mul_sign (y := .fin x) hA h1).1 (by simpa using hx) with e | e
    · rw [e]; simp [toI32]
    · exact toI32_nonneg e
  unfold leftIndex
  omega

/-- **C84.** For a position that is not negative, the table is only read inside of its
bounds, with binary32 rounding. -/
theorem C84_cogging_in_range (hA : A.Law) {table : List ℤ} (hn : table ≠ []) (scale : Fl) {x : ℚ}
    (hx : 0 ≤ x) : (sample A table scale (.fin x)).isSome = true := by
  have hl : 0 < table.length := List.length_pos_iff.mpr hn
  obtain ⟨h1, h2⟩ := leftIndex_range hA hl hx
  have get : ∀ i : ℤ, 0 ≤ i → i < table.length → ∃ v, entry table i = some v := by
    intro i h0 h
    have : i.toNat < table.length := by omega
    exact ⟨table[i.toNat], by simp [entry, not_lt.mpr h0, this]⟩
  obtain ⟨a, ha⟩ := get _ h1 h2
  obtain ⟨b, hb⟩ := get ((leftIndex A table.length (.fin x) + 1).tmod table.length)
    (Int.tmod_nonneg _ (by omega)) (Int.tmod_lt_of_pos _ (by omega))
  simp [sample, ha, hb]

/-- **C84.** In exact arithmetic it is the linear interpolation of the periodic table. -/
theorem C84_cogging_exact {table : List ℤ} (hn : table ≠ []) (hbig : table.length ≤ 65536)
    (scale : ℚ) {x : ℚ} (h0 : 0 ≤ x) (h1 : x < 1) :
    sample .exact table (.fin scale) (.fin x) = some (.fin (Spec.interpolate table scale x)) := by
  have hl : 0 < table.length := List.length_pos_iff.mpr hn
  set n := table.length with hnd
  have hlq : (0 : ℚ) < n := by exact_mod_cast hl
  have hy0 : 0 ≤ (n : ℚ) * x := by positivity
  have hyn : (n : ℚ) * x < n := by nlinarith
  have hfl : (⌊(n : ℚ) * x⌋₊ : ℕ) < n := by
    rw [Nat.floor_lt hy0]; exact hyn
  have hleft : leftIndex .exact n (.fin x) = (⌊(n : ℚ) * x⌋₊ : ℤ) := by
    have e : Ar.exact.mul (Ar.exact.lit n) (.fin x) = .fin (n * x) := by simp [Ar.lit, Ar.mul]
    unfold leftIndex
    rw [e]
    have ht : truncQ (n * x) = (⌊(n : ℚ) * x⌋₊ : ℤ) := by
      unfold truncQ
      rw [if_pos hy0]
      exact (Int.natCast_floor_eq_floor hy0).symm
    simp only [toI32, ht]
    omega
  set l := ⌊(n : ℚ) * x⌋₊ with hld
  have hright : ((l : ℤ) + 1).tmod n = (((l + 1) % n : ℕ) : ℤ) := by
    rw [Int.tmod_eq_emod_of_nonneg (by omega)]; push_cast; rfl
  have get : ∀ k : ℕ, k < n → entry table (k : ℤ) = some (table.getD k 0) := by
    intro k hk
    have hk' : k < table.length := hk
    simp [entry, hk', List.getD_eq_getElem?_getD]
  unfold sample
  rw [← hnd, hleft]
  dsimp only
  rw [hright, get l hfl, get _ (Nat.mod_lt _ hl)]
  unfold Spec.interpolate
  rw [← hnd]
  dsimp only
  rw [← hld, Nat.mod_eq_of_lt hfl]
  simp [Ar.lit, Ar.mul, Ar.add, Ar.sub, Ar.div, Fl.neg, hlq.ne']
  field_simp
  ring

/-! ## A concrete servo -/

/-- A configuration with gains 4, 1 and 1/16 and a torque constant of 1. -/
def sampleConfig : Config where
  traj := ⟨.fin (1 / 16), .nan, .nan, .nan, .nan⟩
  pid := qConfig 4 1 (1 / 16) (-1) 0 0 (-1)
  fixedVoltageMode := false
  fixedVoltage := .fin 0
  bemfFeedforward := .fin 1
  velocityThreshold := .fin 0
  timeoutMode := 12
  timeoutMaxTorque := .fin 5
  defaultVelocityLimit := .nan
  defaultAccelLimit := .nan
  fluxBrakeMinVoltage := .fin 30
  fluxBrakeResistance := .fin (1 / 2)
  vPerHz := .fin (1 / 8)
  toCurrent := id
  torqueConfigured := true
  cogging := [0, 4, 8, 4]
  coggingScale := .fin (1 / 8)
  ratio := .fin 1

/-- A cycle at position 0 with the given velocity and filtered velocity. -/
def sampleMeas (velocity filtered : ℚ) : Meas where
  traj := ⟨.fin 0, 0, 0, .fin 32768, .fin filtered, .fin velocity, .fin 500, false, false⟩
  relativeValid := true
  encoderError := false
  velocity := .fin velocity
  position := .fin 0
  commutation := .fin (1 / 8)
  bus := .fin 32
  rateHz := 32768

/-- Control position at a quarter turn, or none. -/
def sampleState (engaged : Bool) : State :=
  ⟨⟨if engaged then some 70368744177664 else none, if engaged then some (.fin 0) else none, true, .nan⟩, .clear⟩

/-- A command without position, with velocity 0. -/
def sampleCommand : Command where
  traj := ⟨.nan, .fin 0, none, none, .nan, .nan, false⟩

/-- The torque, if the outcome has one. -/
def Outcome.torque : Outcome → Option Fl
  | .current t _ _ _ => some t
  | _ => none

/-- The whole cycle: at a quarter turn from the set point 1 Nm, less than the maximum;
2 V above the limit the flux brake draws 4 A, and half way between two entries the
cogging compensation is 1/4 A. -/
example : (doPosition .single sampleConfig (sampleMeas 0 0) (sampleState true) sampleCommand).1 =
    .current (.fin 1) (.fin 4) (.fin (5 / 4)) (.fin 0) := by decide +kernel

/-- Hypotheses of `C84_position_torque`, `C84_stay_torque` and `C84_zero_torque`: the
limit is met with equality. -/
example : (doPosition .single sampleConfig (sampleMeas 0 0) (sampleState true)
      { sampleCommand with maxTorque := .fin (1 / 2) }).1.torque = some (.fin (1 / 2)) ∧
    (doStayWithin .single sampleConfig (sampleMeas 0 0) (sampleState true)
      { sampleCommand with maxTorque := .fin (1 / 2), boundsMin := .fin 1, boundsMax := .nan }).1.torque =
      some (.fin (1 / 2)) ∧
    (doZeroVelocity .single sampleConfig (sampleMeas 1000 0) (sampleState true) sampleCommand).1.torque =
      some (.fin (-5)) := by
  decide +kernel

/-- Hypotheses of `C84_zero_brakes`. -/
example : ∃ t dA qA v, (doZeroVelocity .single sampleConfig (sampleMeas 16 0) (sampleState true)
      sampleCommand).1 = .current t dA qA v ∧ t = .fin (-1) ∧
    (Fl.fin 0).Le sampleConfig.timeoutMaxTorque ∧ Ar.single.RepF (.fin 16) :=
  ⟨.fin (-1), .fin 4, .fin (-3 / 4), .fin 0, by decide +kernel, rfl, by simp [sampleConfig],
    by constructor <;> decide +kernel⟩

/-- Hypotheses of `C84_stay_inside`: between -1 and 1 turns only the feedforward acts. -/
example : Spec.inside (.fin (-1)) (.fin 1) (sampleMeas 3 3).position ∧
    (doStayWithin .single sampleConfig (sampleMeas 3 3) (sampleState true)
      { sampleCommand with feedforward := .fin 2, boundsMin := .fin (-1), boundsMax := .fin 1 }).1.torque =
      some (.fin 2) := by
  constructor
  · constructor <;> right <;> simp [sampleMeas]
  · decide +kernel

/-- Hypotheses of `C84_stay_outside`, with limits of velocity and acceleration. -/
example : Spec.violated (.fin 1) .nan (sampleMeas 0 0).position = some (.fin 1) ∧
    Ar.single.div (Ar.single.lit 1) (.fin 32768) = .fin (1 / 32768) ∧
    LimitsFine .single (.fin (1 / 32768)) ⟨.nan, .fin 0, none, none, .fin 2, .fin 4, false⟩ ∧
    (doStayWithin .single sampleConfig (sampleMeas 0 0) (sampleState true)
      { traj := ⟨.nan, .fin 0, none, none, .fin 2, .fin 4, false⟩
        boundsMin := .fin 1, boundsMax := .nan }).1.torque = some (.fin 4) := by
  refine ⟨by decide +kernel, by decide +kernel, ⟨Or.inr ⟨2, rfl, by norm_num, ?_, Or.inr ?_⟩,
    Or.inr ⟨4, rfl, by norm_num⟩⟩, by decide +kernel⟩
  · constructor <;> decide +kernel
  · decide +kernel

/-- Hypotheses of `C84_exact`. -/
example : (updateCommand .exact sampleConfig.traj (sampleMeas 8 8).traj (sampleState true).traj
      sampleCommand.traj).1 = .fin 0 ∧
    (updateCommand .exact sampleConfig.traj (sampleMeas 8 8).traj (sampleState true).traj
      sampleCommand.traj).2.1.cp = some 70368744177664 ∧
    Spec.torque 100 (-1) 4 (1 / 16) 0 0 (-1 / 4) (Spec.deadband 0 8) = 1 / 2 := by
  refine ⟨by decide +kernel, by decide +kernel, ?_⟩
  norm_num [Spec.torque, Spec.deadband]

/-- Hypotheses of `C84_faults`. -/
example : (doPosition .single sampleConfig { sampleMeas 0 0 with relativeValid := false }
      (sampleState true) sampleCommand).1 = .positionInvalid ∧
    (doPosition .single sampleConfig { sampleMeas 0 0 with encoderError := true }
      (sampleState true) sampleCommand).1 = .encoderFault := by
  decide +kernel

/-- Hypotheses of `C84_unconfigured`: 8 Nm become 5 A. -/
example : (doPosition .single { sampleConfig with torqueConfigured := false } (sampleMeas 0 0)
      (sampleState true) { sampleCommand with feedforward := .fin 8 }).1 =
    .current (.fin 9) (.fin 4) (.fin 5) (.fin 0) := by decide +kernel

/-- Hypotheses of `C84_cogging_exact`. -/
example : Spec.interpolate [0, 4, 8, 4] (1 / 8) (7 / 8) = 1 / 4 := by
  have : (⌊(7 / 2 : ℚ)⌋₊ : ℕ) = 3 := by rw [Nat.floor_eq_iff (by norm_num)]; norm_num
  simp only [Spec.interpolate, List.length_cons, List.length_nil]
  norm_num [this]

/-! ## What does not hold -/

/-- **C84, refuted: a maximum torque that is not a number.** It is no limit at all. -/
theorem C84_nan_limit_refuted :
    (doPosition .single sampleConfig (sampleMeas 0 0) (sampleState true)
      { sampleCommand with maxTorque := .nan, feedforward := .fin 1000000 }).1.torque =
    some (.fin 1000001) := by
  decide +kernel

/-- **C84, refuted: a negative maximum torque.** It acts as a command to apply torque:
with no error at all and -3 Nm, the torque is 3 Nm. -/
theorem C84_negative_limit_refuted :
    (doPosition .single sampleConfig (sampleMeas 0 0) ⟨⟨some 0, some (.fin 0), true, .nan⟩, .clear⟩
      { sampleCommand with maxTorque := .fin (-3) }).1.torque = some (.fin 3) := by
  decide +kernel

/-- **C84, refuted: the maximum torque of `d zero`.** It is ignored: a maximum of 0 Nm
does not keep zero velocity mode from applying 1 Nm. -/
theorem C84_zero_limit_refuted :
    (doZeroVelocity .single sampleConfig (sampleMeas 16 0) (sampleState true)
      { sampleCommand with maxTorque := .fin 0 }).1.torque = some (.fin (-1)) := by
  decide +kernel

/-- **C84, refuted: zero velocity only brakes.** In the first cycle, without control
position, the velocity command is the filtered velocity: the motor, at velocity 16 and
filtered velocity 32, is accelerated. -/
theorem C84_zero_first_cycle_refuted :
    (doZeroVelocity .single sampleConfig (sampleMeas 16 32) (sampleState false) sampleCommand).1.torque =
      some (.fin 1) := by
  decide +kernel

/-- **C84, refuted: the kd scale "is internally limited to be no more than the kp
scale".** With kp scale 0 the kd scale 1 acts in full. -/
theorem C84_kd_scale_refuted :
    (doPosition .single sampleConfig (sampleMeas 16 0) (sampleState true)
      { sampleCommand with kpScale := .fin 0, kdScale := .fin 1 }).1.torque = some (.fin (-1)) := by
  decide +kernel

/-- **C84, refuted: timeout mode 10.** The documentation says that only the maximum
current limits its torque; a further limit is 100 Nm. -/
theorem C84_timeout_hold_refuted :
    (doTimeout .single { sampleConfig with timeoutMode := 10 } (sampleMeas 16384 0) (sampleState true)
      sampleCommand).1.torque = some (.fin (-100)) ∧
    (doPosition .single { sampleConfig with timeoutMode := 10 } (sampleMeas 16384 0) (sampleState true)
      { sampleCommand with maxTorque := .fin 1000000 }).1.torque = some (.fin (-1023)) := by
  decide +kernel

/-- **C84, refuted: "phase voltage is limited beforehand".** In fixed voltage mode the
voltage grows with the velocity beyond the bus voltage of 32 V without any limit. -/
theorem C84_fixed_voltage_refuted :
    (doPosition .single { sampleConfig with fixedVoltageMode := true, fixedVoltage := .fin 1 }
      (sampleMeas 0 0) (sampleState true)
      { sampleCommand with traj := ⟨.nan, .fin 400, none, none, .nan, .nan, false⟩ }).1 =
    .voltage (.fin 51) := by
  decide +kernel

end Verif.Fw.Modes
