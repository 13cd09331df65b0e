import Verif.Fw.CommandPrep
import Verif.Fw.CommutationAngle
import Verif.Fw.PositionExact
import Verif.Fw.ServoRuns

/-!
# Open loop operation

Model of the angle of the field (`fw/bldc_servo.cc` 911-924) and of the cycles in
which a fixed voltage or a fixed current is applied (lines 2033-2070): with
`servo.fixed_voltage_mode`, or with one of the overrides of a command.

Property C95.
-/

namespace Verif.Fw.Open

open Verif.Float Verif.Fw Verif.Fw.Modes

variable {A : Ar}

/-! ## Model -/

/-- What the angle depends on: `output.sign`, `rotor_to_output_ratio`, `poles`. -/
structure Gear where
  sign : ℤ
  ratio : Fl
  poles : ℕ

/-- The synthetic angle for a control position (lines 917-922). -/
def theta (A : Ar) (g : Gear) (cp : ℤ) : Fl :=
  wrapZeroToTwoPi A (A.mul (A.mul (A.mul
    (A.div (A.mul (A.lit g.sign) (intToFloat A cp)) g.ratio)
    (A.lit g.poles)) (A.lit (1 / 2))) (.fin twoPi))

/-- Lines 915-922; `none`: an empty `optional` is read. -/
def fieldAngle (A : Ar) (g : Gear) (synthetic : Bool) (measured : Fl) (cp : Option ℤ) : Option Fl :=
  if synthetic then cp.map (theta A g) else some measured

/-- `status_.position` of these modes (lines 2038-2042). -/
def reported (A : Ar) (s : State) : Fl := intToFloat A (derefI s.traj.cp)

/-- One cycle in position mode (lines 914-924, then `ISR_DoPosition`): the angle and
what is done with it. -/
def cycle (A : Ar) (c : Modes.Config) (g : Gear) (synthetic : Bool) (x : Meas × Fl)
    (s : State × Command) : (Option Fl × Outcome) × State × Command :=
  let r := Modes.doPosition A c x.1 s.1 s.2
  ((fieldAngle A g synthetic x.2 s.1.traj.cp, r.1), r.2)

/-- Many cycles; `x.2` is the angle of the encoder. -/
def run (A : Ar) (c : Modes.Config) (g : Gear) (synthetic : Bool) :
    State × Command → List (Meas × Fl) → List (Option Fl × Outcome)
  | _, [] => []
  | s, x :: l => (cycle A c g synthetic x s).1 :: run A c g synthetic (cycle A c g synthetic x s).2 l

/-! ## Which angle belongs to what -/

/-- Specification: the command asks for open loop operation. -/
def Spec.OpenLoop (mode : Bool) (voltage current : Fl) : Prop :=
  mode = true ∨ voltage ≠ .nan ∨ current ≠ .nan

/-- The field is turned by an angle that no encoder has measured. -/
def Spec.Blind : Outcome → Prop
  | .voltage _ => True
  | .fixedCurrent _ => True
  | _ => False

theorem nan_iff (x : Fl) : x.isNan = true ↔ x = .nan := by cases x <;> simp [Fl.isNan]

/-- **C95.** What `ISR_DoPosition` applies: the current of the command, else the
voltage of the command, else the configured voltage, else it controls position. -/
theorem C95_applied (c : Modes.Config) (m : Meas) (s : State) (d : Command) :
    (d.fixedCurrentOverride ≠ .nan →
      (Modes.doPosition A c m s d).1 = .fixedCurrent d.fixedCurrentOverride) ∧
    (d.fixedCurrentOverride = .nan → d.fixedVoltageOverride ≠ .nan →
      (Modes.doPosition A c m s d).1 = .voltage d.fixedVoltageOverride) ∧
    (d.fixedCurrentOverride = .nan → d.fixedVoltageOverride = .nan → c.fixedVoltageMode = true →
      c.bemfFeedforward = .fin 0 →
      (A.mul (updateCommand A c.traj { m.traj with velocity := d.traj.velocity } s.traj d.traj).1.abs
        c.vPerHz).isFinite = true →
      ∀ q, c.fixedVoltage = .fin q → A.Rep q → A.rnd 0 = .fin 0 →
        (Modes.doPosition A c m s d).1 = .voltage (.fin q)) ∧
    (¬ Spec.OpenLoop c.fixedVoltageMode d.fixedVoltageOverride d.fixedCurrentOverride →
      ¬ Spec.Blind (Modes.doPosition A c m s d).1) := by
  have hn : ∀ x : Fl, x ≠ .nan → x.isNan = false := by
    intro x hx
    cases h : x.isNan with
    | false => rfl
    | true => exact absurd ((nan_iff x).1 h) hx
  have en : Fl.isNan .nan = true := rfl
  refine ⟨fun h => ?_, fun h1 h2 => ?_, ?_, fun h => ?_⟩
  · simp [Modes.doPosition, positionCommon, hn _ h]
  · simp only [Modes.doPosition, positionCommon, h1, hn _ h2, en, Bool.not_false, Bool.or_true,
      Bool.true_or, if_true, Bool.not_true, Bool.false_eq_true, if_false]
  · intro h1 h2 h3 h4 h5 q hq hr h0
    have fin : ∀ x : Fl, x.isFinite = true → ∃ y, x = .fin y := by
      intro x; cases x <;> simp [Fl.isFinite]
    obtain ⟨y, hy⟩ := fin _ h5
    simp only [Modes.doPosition, positionCommon, h1, h2, h3, Fl.isNan, Bool.true_or, if_true,
      Bool.not_true, Bool.false_eq_true, if_false]
    rw [hy, h4, hq]
    show Outcome.voltage (A.add (.fin q) (A.rnd (y * 0))) = _
    rw [mul_zero, h0]
    show Outcome.voltage (A.rnd (q + 0)) = _
    rw [add_zero, hr.rnd]
  · unfold Spec.OpenLoop at h
    push Not at h
    obtain ⟨h1, h2, h3⟩ := h
    have h1 : c.fixedVoltageMode = false := by simpa using h1
    simp only [Modes.doPosition, positionCommon, h1, h2, h3, Fl.isNan]
    simp only [Bool.not_true, Bool.or_self, Bool.false_eq_true, if_false]
    split
    · simp [Spec.Blind]
    · split <;> simp [Spec.Blind]

/-- **C95.** For every command that `Command` has prepared, position mode uses the
synthetic angle exactly if it operates in open loop. -/
theorem C95_source {R : Type} (pc : Prep.Config) (delta now : ℤ) (p : Prep.Data R) (c : Modes.Config)
    (m : Meas) (s : State) (d : Command) (hc : c.fixedVoltageMode = pc.fixedVoltageMode)
    (h1 : d.fixedVoltageOverride = p.fixedVoltageOverride)
    (h2 : d.fixedCurrentOverride = p.fixedCurrentOverride) :
    (Prep.prepare A pc delta now p).syntheticTheta = true ↔ Spec.Blind (Modes.doPosition A c m s d).1 := by
  have e : (Prep.prepare A pc delta now p).syntheticTheta =
      (c.fixedVoltageMode || !d.fixedVoltageOverride.isNan || !d.fixedCurrentOverride.isNan) := by
    rw [hc, h1, h2]; rfl
  rw [e]
  unfold Modes.doPosition positionCommon
  dsimp only
  by_cases hb : (c.fixedVoltageMode || !d.fixedVoltageOverride.isNan || !d.fixedCurrentOverride.isNan) = true
  · rw [if_pos hb]
    refine ⟨fun _ => ?_, fun _ => hb⟩
    split <;> simp [Spec.Blind]
  · rw [if_neg hb]
    refine ⟨fun h => absurd h hb, fun h => ?_⟩
    split at h
    · simp [Spec.Blind] at h
    · split at h <;> simp [Spec.Blind] at h

/-! ## Independence of the encoder -/

/-- Specification: the same cycle, but for what the encoder says. -/
structure Spec.SameOutside (x y : Meas × Fl) : Prop where
  delta : x.1.traj.delta = y.1.traj.delta
  rate : x.1.traj.rateHz = y.1.traj.rateHz
  motorMax : x.1.traj.motorMax = y.1.traj.motorMax
  z1 : x.1.traj.z1 = y.1.traj.z1
  z2 : x.1.traj.z2 = y.1.traj.z2

/-- Once the control position is known and there is no slip limit, the trajectory
does not depend on the encoder. -/
theorem update_blind {c : TrajConfig} {i j : TrajIn} {s : TrajStatus} {d : TrajData}
    (hp : c.maxPositionSlip.isFinite = false) (hv : c.maxVelocitySlip.isFinite = false)
    (hs : s.cp.isSome = true) (v : i.velocity = j.velocity) (e1 : i.delta = j.delta)
    (e2 : i.rateHz = j.rateHz) (e3 : i.motorMax = j.motorMax) (e4 : i.z1 = j.z1) (e5 : i.z2 = j.z2) :
    updateCommand A c i s d = updateCommand A c j s d := by
  have hb : begin i c (velocityArg i.velocity) s d = begin j c (velocityArg j.velocity) s d := by
    rw [v]
    unfold begin
    dsimp only
    split
    · rfl
    · have hs' : s.cp.isNone = false := by simpa using hs
      by_cases hn : noLimits d = true
      · simp only [if_pos hn, hs', Bool.false_eq_true, if_false]
      · simp only [if_neg hn, hs', Bool.false_eq_true, if_false]
  have ha : ∀ x y, advance A i (velocityArg i.velocity) x y = advance A j (velocityArg j.velocity) x y := by
    intro x y
    unfold advance updateTrajectory
    rw [v, e2, e4, e5]
  rw [v] at hb ha
  unfold updateCommand Verif.Fw.prepare finish positionSlip velocitySlip
  simp only [hb, ha, hp, hv, e1, e2, e3, v, Bool.false_eq_true, if_false]

/-- After a cycle the control position is known. -/
theorem update_some (c : TrajConfig) (i : TrajIn) (s : TrajStatus) (d : TrajData) :
    (updateCommand A c i s d).2.1.cp.isSome = true := by
  unfold updateCommand finish
  dsimp only
  split <;> rfl

theorem doPosition_cp (c : Modes.Config) (m : Meas) (s : State) (d : Command) :
    (Modes.doPosition A c m s d).2.1.traj.cp.isSome = true := by
  have h := update_some (A := A) c.traj { m.traj with velocity := d.traj.velocity } s.traj d.traj
  unfold Modes.doPosition positionCommon
  dsimp only
  split
  · split <;> exact h
  · split
    · exact h
    · split <;> exact h

/-- What a cycle leaves of a command. -/
theorem doPosition_keeps (c : Modes.Config) (m : Meas) (s : State) (d : Command) :
    (Modes.doPosition A c m s d).2.2.fixedVoltageOverride = d.fixedVoltageOverride ∧
    (Modes.doPosition A c m s d).2.2.fixedCurrentOverride = d.fixedCurrentOverride := by
  unfold Modes.doPosition positionCommon
  dsimp only
  split
  · split <;> exact ⟨rfl, rfl⟩
  · split
    · exact ⟨rfl, rfl⟩
    · split <;> exact ⟨rfl, rfl⟩

/-- One cycle. -/
theorem cycle_blind {c : Modes.Config} {g : Gear} {x y : Meas × Fl} {s : State × Command}
    (hp : c.traj.maxPositionSlip.isFinite = false) (hv : c.traj.maxVelocitySlip.isFinite = false)
    (ho : Spec.OpenLoop c.fixedVoltageMode s.2.fixedVoltageOverride s.2.fixedCurrentOverride)
    (hs : s.1.traj.cp.isSome = true) (h : Spec.SameOutside x y) :
    cycle A c g true x s = cycle A c g true y s := by
  have hu := update_blind (A := A) (i := { x.1.traj with velocity := s.2.traj.velocity })
    (j := { y.1.traj with velocity := s.2.traj.velocity }) (s := s.1.traj) (d := s.2.traj)
    hp hv hs rfl h.delta h.rate h.motorMax h.z1 h.z2
  have hb : (c.fixedVoltageMode || !s.2.fixedVoltageOverride.isNan ||
      !s.2.fixedCurrentOverride.isNan) = true := by
    have hn : ∀ x : Fl, x ≠ .nan → x.isNan = false := by
      intro x hx
      cases h : x.isNan with
      | false => rfl
      | true => exact absurd ((nan_iff x).1 h) hx
    rcases ho with ho | ho | ho
    · simp [ho]
    · simp [hn _ ho]
    · simp [hn _ ho]
  have : Modes.doPosition A c x.1 s.1 s.2 = Modes.doPosition A c y.1 s.1 s.2 := by
    unfold Modes.doPosition positionCommon
    dsimp only
    rw [if_pos hb, if_pos hb, hu]
  unfold cycle fieldAngle
  rw [this]
  rfl

/-- **C95.** In open loop operation, once the control position is known and without
limits of the slip: the angles and the voltages or currents of all following cycles
do not depend on anything that an encoder says. -/
theorem C95_blind (c : Modes.Config) (g : Gear) (s : State) (d : Command)
    (hp : c.traj.maxPositionSlip.isFinite = false) (hv : c.traj.maxVelocitySlip.isFinite = false)
    (ho : Spec.OpenLoop c.fixedVoltageMode d.fixedVoltageOverride d.fixedCurrentOverride)
    (hs : s.traj.cp.isSome = true) (l l' : List (Meas × Fl))
    (h : List.Forall₂ Spec.SameOutside l l') :
    run A c g true (s, d) l = run A c g true (s, d) l' := by
  induction h generalizing s d with
  | nil => rfl
  | @cons x y l l' hxy _ ih =>
    have e := cycle_blind (A := A) (g := g) (s := (s, d)) hp hv ho hs hxy
    unfold run
    rw [e]
    congr 1
    have k := doPosition_keeps (A := A) c y.1 s d
    exact ih (cycle A c g true y (s, d)).2.1 (cycle A c g true y (s, d)).2.2
      (by
        show Spec.OpenLoop _ (Modes.doPosition A c y.1 s d).2.2.fixedVoltageOverride
          (Modes.doPosition A c y.1 s d).2.2.fixedCurrentOverride
        rw [k.1, k.2]; exact ho)
      (doPosition_cp c y.1 s d)

/-- **C95.** From the second cycle on, every angle is the synthetic angle of a control
position. -/
theorem C95_engaged (c : Modes.Config) (g : Gear) (s : State) (d : Command) (l : List (Meas × Fl)) :
    ∀ o ∈ (run A c g true (s, d) l).tail, ∃ cp, o.1 = some (theta A g cp) := by
  have key : ∀ (l : List (Meas × Fl)) (s : State × Command), s.1.traj.cp.isSome = true →
      ∀ o ∈ run A c g true s l, ∃ cp, o.1 = some (theta A g cp) := by
    intro l
    induction l with
    | nil => intro s _ o ho; simp [run] at ho
    | cons x l ih =>
      intro s hs o ho
      unfold run at ho
      rcases List.mem_cons.1 ho with rfl | ho
      · obtain ⟨cp, e⟩ := Option.isSome_iff_exists.1 hs
        exact ⟨cp, by simp [cycle, fieldAngle, e]⟩
      · exact ih _ (doPosition_cp c x.1 s.1 s.2) o ho
  cases l with
  | nil => intro o ho; simp [run] at ho
  | cons x l =>
    intro o ho
    exact key l _ (doPosition_cp c x.1 s d) o ho

/-! ## The angle -/

/-- Specification: electrical turns at a control position, given in units of 2^-48
turns of the output; the unit of the angle is 2^-16 turns. -/
def Spec.turns (g : Gear) (ratio : ℚ) (cp : ℤ) : ℚ :=
  g.sign * ((wrapI32 (cp / 4294967296) : ℤ) / 65536 : ℚ) / ratio * (g.poles / 2)

private theorem tri {x y z a b c : ℚ} (h1 : |x - y| ≤ a) (h2 : |y - z| ≤ b) (h : a + b ≤ c) :
    |x - z| ≤ c := (abs_sub_le x y z).trans (by linarith)

private theorem bnd {x y a b c : ℚ} (h1 : |x - y| ≤ a) (h2 : |y| ≤ b) (h : a + b ≤ c) : |x| ≤ c := by
  have := abs_sub_abs_le_abs_sub x y
  linarith

/-- **C95.** The synthetic angle is, up to whole turns and rounding, the electrical
angle of the control position; `X` bounds the position in turns, `W` the angle in
radians. -/
theorem C95_angle {κ : ℚ} (hA : Fine A κ) (g : Gear) (hsg : g.sign = 1 ∨ g.sign = -1) {s X W : ℚ}
    (hr : g.ratio = .fin s) (hs0 : 0 < s) (hs1 : s ≤ 4096) (hp1 : 1 ≤ g.poles) (hp2 : g.poles ≤ 255)
    (cp : ℤ) (hX1 : 1 ≤ X)
    (hX : |((wrapI32 (cp / 4294967296) : ℤ) / 65536 : ℚ)| ≤ X)
    (hW : X * (g.poles / 2 * twoPi) / s ≤ W) (hW7 : 7 ≤ W) (hW' : W ≤ 16384) :
    ∃ (θ : ℚ) (n : ℤ), theta A g cp = .fin θ ∧
      |θ - (Spec.turns g s cp + n) * twoPi| ≤ 25 * (W * κ) := by
  have hk0 := hA.nonneg'
  have hk1 := hA.le'
  obtain ⟨tp6, tp7⟩ := twoPi_bounds
  set N : ℤ := wrapI32 (cp / 4294967296) with hN
  have hNb : |(N : ℚ)| ≤ 65536 * X := by
    rw [abs_div, abs_of_pos (by norm_num : (0 : ℚ) < 65536), div_le_iff₀ (by norm_num)] at hX
    linarith
  have hNi : |(N : ℚ)| ≤ 2147483648 := by
    have : |N| ≤ 2147483648 := by
      rw [hN]; unfold wrapI32; rw [abs_le]; omega
    exact_mod_cast this
  have hP : (1 : ℚ) ≤ g.poles := by exact_mod_cast hp1
  have hP' : (g.poles : ℚ) ≤ 255 := by exact_mod_cast hp2
  have hXk : X * κ ≤ X * (1 / 8388608) := mul_le_mul_of_nonneg_left hk1 (by linarith)
  have hX0 : 0 ≤ X * κ := mul_nonneg (by linarith) hk0
  have hXu : X / s * (g.poles / 2 * twoPi) ≤ 16384 := by
    have : X * (g.poles / 2 * twoPi) / s = X / s * (g.poles / 2 * twoPi) := by ring
    linarith
  have hXs0 : 0 < X / s := by positivity
  have hXs : X / s ≤ 16384 := by nlinarith [mul_nonneg hXs0.le (by linarith : (0 : ℚ) ≤ g.poles - 1)]
  have hXl : 1 / 4096 ≤ X / s := by
    rw [div_le_div_iff₀ (by norm_num) hs0]
    linarith
  have hXb : X ≤ 16384 * 4096 := by
    rw [div_le_iff₀ hs0] at hXs
    nlinarith
  -- the position in turns
  set x : ℚ := (N : ℚ) / 65536 with hx
  obtain ⟨a, ea, ha⟩ := op hA (x := (N : ℚ)) (65536 * X) hNb (by linarith) (by linarith)
  have ha2 : |a / 65536 - x| ≤ X * κ := by
    rw [hx, ← sub_div, abs_div, abs_of_pos (by norm_num : (0 : ℚ) < 65536), div_le_iff₀ (by norm_num)]
    linarith
  have ha3 : |a / 65536| ≤ 2 * X := by
    exact bnd ha2 hX (by linarith)
  obtain ⟨b, eb, hb⟩ := op hA (2 * X) ha3 (by linarith) (by linarith)
  have l1 : intToFloat A cp = .fin b := by
    unfold intToFloat
    have e65 : A.lit 65536 = .fin 65536 := by
      have := hA.lit_nat (n := 65536) (by norm_num)
      exact_mod_cast this
    rw [e65, ← hN]
    show A.div (A.rnd N) (.fin 65536) = _
    rw [ea]
    simp only [Ar.div]
    rw [if_neg (by norm_num), eb]
  have hb2 : |b - x| ≤ 3 * (X * κ) := by
    exact tri hb ha2 (by linarith)
  -- the sign
  have hσ : |(g.sign : ℚ)| = 1 := by rcases hsg with h | h <;> simp [h]
  have hcb : |(g.sign : ℚ) * b| ≤ 2 * X := by
    rw [abs_mul, hσ, one_mul]
    exact bnd hb2 hX (by linarith)
  obtain ⟨c, ec, hc⟩ := op hA (2 * X) hcb (by linarith) (by linarith)
  have hc2 : |c - g.sign * x| ≤ 5 * (X * κ) := by
    have : |(g.sign : ℚ) * b - g.sign * x| ≤ 3 * (X * κ) := by
      rw [← mul_sub, abs_mul, hσ, one_mul]; exact hb2
    exact tri hc this (by linarith)
  have lsg : A.lit g.sign = .fin g.sign := by
    apply hA.lit_int
    rcases hsg with h | h <;> rw [h] <;> norm_num
  -- the ratio
  have hgx : |(g.sign : ℚ) * x| ≤ X := by rw [abs_mul, hσ, one_mul]; exact hX
  have hc3 : |c| ≤ 2 * X := by
    exact bnd hc2 hgx (by linarith)
  have hd0 : |c / s| ≤ 2 * (X / s) := by
    rw [abs_div, abs_of_pos hs0, div_le_iff₀ hs0, mul_assoc, div_mul_cancel₀ _ hs0.ne']
    exact hc3
  obtain ⟨d, ed, hd⟩ := op hA (2 * (X / s)) hd0 (by linarith) (by linarith)
  set Y := X / s with hY
  have hYk : 0 ≤ Y * κ := mul_nonneg hXs0.le hk0
  have hYk1 : Y * κ ≤ Y * (1 / 8388608) := mul_le_mul_of_nonneg_left hk1 hXs0.le
  have hcs : |c / s - g.sign * x / s| ≤ 5 * (Y * κ) := by
    rw [← sub_div, abs_div, abs_of_pos hs0, div_le_iff₀ hs0]
    have : 5 * (Y * κ) * s = 5 * (X * κ) := by rw [hY]; field_simp
    rw [this]; exact hc2
  set z : ℚ := g.sign * x / s with hz
  have hzY : |z| ≤ Y := by
    rw [hz, abs_div, abs_of_pos hs0, hY]
    exact div_le_div_of_nonneg_right hgx hs0.le
  have hd2 : |d - z| ≤ 7 * (Y * κ) := by
    exact tri hd hcs (by linarith)
  -- the poles
  set p : ℚ := (g.poles : ℚ) with hp
  have hYp : 0 ≤ Y * p * κ := mul_nonneg (mul_nonneg hXs0.le (by linarith)) hk0
  have hYp1 : Y * p * κ ≤ Y * p * (1 / 8388608) :=
    mul_le_mul_of_nonneg_left hk1 (mul_nonneg hXs0.le (by linarith))
  have hp0 : 0 ≤ p := by linarith
  have hYp0 : 0 ≤ Y * p := mul_nonneg hXs0.le hp0
  have hYpl : 1 / 4096 ≤ Y * p := by
    have := mul_le_mul_of_nonneg_left hP hXs0.le
    linarith
  have hYpu : Y * p ≤ 16384 := by
    have := mul_le_mul_of_nonneg_left tp6.le hYp0
    linarith
  have hd3 : |d| ≤ 2 * Y := by
    exact bnd hd2 hzY (by linarith)
  have he0 : |d * p| ≤ 2 * (Y * p) := by
    rw [abs_mul, abs_of_nonneg hp0]
    have := mul_le_mul_of_nonneg_right hd3 hp0
    linarith
  obtain ⟨e, ee, he⟩ := op hA (2 * (Y * p)) he0 (by linarith) (by linarith)
  have he2 : |e - z * p| ≤ 9 * (Y * p * κ) := by
    have : |d * p - z * p| ≤ 7 * (Y * p * κ) := by
      rw [← sub_mul, abs_mul, abs_of_nonneg hp0]
      have := mul_le_mul_of_nonneg_right hd2 hp0
      linarith
    exact tri he this (by linarith)
  have hzp : |z * p| ≤ Y * p := by
    rw [abs_mul, abs_of_nonneg hp0]
    exact mul_le_mul_of_nonneg_right hzY hp0
  have hf0 : |e * (1 / 2)| ≤ Y * p := by
    have := bnd he2 hzp (le_refl _)
    rw [abs_mul, abs_of_pos (by norm_num : (0 : ℚ) < 1 / 2)]
    linarith
  obtain ⟨f, ef, hf⟩ := op hA (Y * p) hf0 hYpl (by linarith)
  have hf2 : |f - z * p / 2| ≤ 11 / 2 * (Y * p * κ) := by
    have : |e * (1 / 2) - z * p / 2| ≤ 9 / 2 * (Y * p * κ) := by
      rw [show e * (1 / 2) - z * p / 2 = (e - z * p) * (1 / 2) by ring, abs_mul,
        abs_of_pos (by norm_num : (0 : ℚ) < 1 / 2)]
      linarith
    exact tri hf this (by linarith)
  -- radians
  have hW2 : Y * p * twoPi ≤ 2 * W := by
    have : X * (p / 2 * twoPi) / s = Y * p * twoPi / 2 := by rw [hY]; ring
    rw [this] at hW
    linarith
  have hWk : 0 ≤ W * κ := mul_nonneg (by linarith) hk0
  have hWk1 : W * κ ≤ W * (1 / 8388608) := mul_le_mul_of_nonneg_left hk1 (by linarith)
  have hfz : |f * twoPi - z * p / 2 * twoPi| ≤ 11 * (W * κ) := by
    rw [← sub_mul, abs_mul, abs_of_pos (by linarith : (0 : ℚ) < twoPi)]
    calc |f - z * p / 2| * twoPi ≤ 11 / 2 * (Y * p * κ) * twoPi :=
          mul_le_mul_of_nonneg_right hf2 (by linarith)
      _ = 11 / 2 * κ * (Y * p * twoPi) := by ring
      _ ≤ 11 / 2 * κ * (2 * W) := mul_le_mul_of_nonneg_left hW2 (by linarith)
      _ = 11 * (W * κ) := by ring
  have hzW : |z * p / 2 * twoPi| ≤ W := by
    rw [abs_mul, abs_div, abs_of_pos (by linarith : (0 : ℚ) < twoPi), abs_of_pos (by norm_num : (0 : ℚ) < 2)]
    have := mul_le_mul_of_nonneg_right hzp (by linarith : (0 : ℚ) ≤ twoPi)
    linarith
  have hg0 : |f * twoPi| ≤ 2 * W := by
    exact bnd hfz hzW (by linarith)
  obtain ⟨y, ey, hy⟩ := op hA (2 * W) hg0 (by linarith) (by linarith)
  have hy4 : |y| ≤ 4 * W := by
    exact bnd hy hg0 (by linarith)
  obtain ⟨θ, n, eθ, h1, -, -⟩ := wrapCpr_near hA
    ⟨twoPi_rep hA, by linarith, by linarith, by linarith, hW'⟩ hy4
  have lp : A.lit p = .fin p := by
    rw [hp]; exact hA.lit_nat (by omega)
  have lh : A.lit (1 / 2) = .fin (1 / 2) := by
    have := (hA.unscale (n := 1) (k := -1) (by norm_num) (by norm_num) (by norm_num)).rnd
    rw [show ((1 : ℤ) : ℚ) * pow2 (-1) = 1 / 2 from by decide +kernel] at this
    exact this
  refine ⟨θ, n, ?_, ?_⟩
  · unfold theta
    rw [l1, lsg, hr]
    show wrapZeroToTwoPi A (A.mul (A.mul (A.mul (A.div (A.rnd (g.sign * b)) (.fin s)) (A.lit p))
      (A.lit (1 / 2))) (.fin twoPi)) = _
    rw [ec]
    have e1 : A.div (.fin c) (.fin s) = .fin d := by
      simp only [Ar.div]
      rw [if_neg hs0.ne', ed]
    rw [e1, lp, lh]
    show wrapZeroToTwoPi A (A.mul (A.mul (A.rnd (d * p)) (.fin (1 / 2))) (.fin twoPi)) = _
    rw [ee]
    show wrapZeroToTwoPi A (A.mul (A.rnd (e * (1 / 2))) (.fin twoPi)) = _
    rw [ef]
    show wrapZeroToTwoPi A (A.rnd (f * twoPi)) = _
    rw [ey, wrapZeroToTwoPi_eq, eθ]
  · have : Spec.turns g s cp = z * p / 2 := by
      unfold Spec.turns
      rw [hz, hx, hN, hp]
      ring
    rw [this, add_mul]
    have h2 := tri hy hfz (le_refl _)
    have h3 : |θ - (z * p / 2 * twoPi + n * twoPi)| ≤ 10 * (W * κ) + (2 * W * κ + 11 * (W * κ)) := by
      refine tri h1 ?_ (le_refl _)
      rw [add_sub_add_right_eq_sub]
      exact h2
    linarith

/-! ## The reported position -/

/-- **C95, without an offset between absolute and relative position.** The reported
position is the control position. -/
theorem C95_reported_partial (c : Modes.Config) (m : Meas) (s : State) (d : Command)
    (h : m.traj.delta = 0) :
    reported A (Modes.doPosition A c m s d).2.1 = (Modes.doPosition A c m s d).2.1.traj.controlPosition := by
  have key : ∀ v : Fl, let u := updateCommand A c.traj { m.traj with velocity := v } s.traj d.traj
      intToFloat A (derefI u.2.1.cp) = u.2.1.controlPosition := by
    intro v
    dsimp only
    unfold updateCommand finish
    dsimp only
    split <;> simp [derefI, h]
  unfold reported Modes.doPosition positionCommon
  dsimp only
  split
  · split <;> exact key _
  · split
    · exact key _
    · split <;> exact key _

/-- Fixed voltage mode with 2 V. -/
def openConfig : Modes.Config :=
  { Modes.sampleConfig with fixedVoltageMode := true, fixedVoltage := .fin 2, bemfFeedforward := .fin 0 }

def gear : Gear := ⟨1, .fin 1, 14⟩

/-- Hypotheses of `C95_reported_partial`, at a quarter turn. -/
example : (sampleMeas 0 0).traj.delta = 0 ∧
    reported .single (Modes.doPosition .single openConfig (sampleMeas 0 0) (sampleState true)
      sampleCommand).2.1 = .fin (1 / 4) := by decide +kernel

/-- **C95 is violated after the output position has been set.** The offset (here one
turn) is missing in the reported position: 0.25 instead of 1.25. -/
theorem C95_reported_refuted :
    let m := { sampleMeas 0 0 with traj := { (sampleMeas 0 0).traj with delta := 281474976710656 } }
    let r := Modes.doPosition .single openConfig m (sampleState true) sampleCommand
    r.1 = .voltage (.fin 2) ∧ r.2.1.traj.controlPosition = .fin (5 / 4) ∧
      reported .single r.2.1 = .fin (1 / 4) := by decide +kernel

/-! ## Examples and further violations -/

/-- The three cases of `C95_applied`, and its last one. -/
example : (Modes.doPosition .single openConfig (sampleMeas 0 0) (sampleState true)
      { sampleCommand with fixedVoltageOverride := .fin 3, fixedCurrentOverride := .fin 4 }).1 =
      .fixedCurrent (.fin 4) ∧
    (Modes.doPosition .single openConfig (sampleMeas 0 0) (sampleState true)
      { sampleCommand with fixedVoltageOverride := .fin 3 }).1 = .voltage (.fin 3) ∧
    (Ar.single.mul (updateCommand .single openConfig.traj (sampleMeas 0 0).traj (sampleState true).traj
      sampleCommand.traj).1.abs openConfig.vPerHz).isFinite = true ∧
    (Modes.doPosition .single openConfig (sampleMeas 0 0) (sampleState true) sampleCommand).1 =
      .voltage (.fin 2) := by decide +kernel

example : ¬ Spec.OpenLoop Modes.sampleConfig.fixedVoltageMode sampleCommand.fixedVoltageOverride
    sampleCommand.fixedCurrentOverride := by
  simp [Spec.OpenLoop, Modes.sampleConfig, sampleCommand]

/-- Hypotheses of `C95_blind`: the encoder stands at 0, or runs with 100 Hz at another
position and is not valid. -/
example : Spec.SameOutside (sampleMeas 0 0, .fin 0)
      ({ sampleMeas 100 100 with
          traj := { (sampleMeas 100 100).traj with posRel := 12345 }, relativeValid := false }, .nan) ∧
    openConfig.traj.maxPositionSlip.isFinite = false ∧ openConfig.traj.maxVelocitySlip.isFinite = false ∧
    (sampleState true).traj.cp.isSome = true :=
  ⟨⟨rfl, rfl, rfl, rfl, rfl⟩, rfl, rfl, rfl⟩

/-- Hypotheses of `C95_angle`, at a quarter turn of a motor with 14 poles: 7/4
electrical turns. -/
example : Spec.turns gear 1 70368744177664 = 7 / 4 ∧
    |((wrapI32 (70368744177664 / 4294967296) : ℤ) / 65536 : ℚ)| ≤ 1 ∧
    1 * ((14 : ℕ) / 2 * twoPi) / 1 ≤ 49 ∧
    (theta .single gear 70368744177664).Le (.fin (472 / 100)) ∧
    (Fl.fin (471 / 100)).Le (theta .single gear 70368744177664) := by
  unfold Fl.Le
  decide +kernel

/-- **C95 is violated in the first cycle.** The angle is computed before there is a
control position: an empty value is read. -/
theorem C95_first_refuted :
    (run .single openConfig gear true (sampleState false, sampleCommand)
      [(sampleMeas 0 0, .fin 0), (sampleMeas 0 0, .fin 0)]) =
    [(none, .voltage (.fin 2)), (some (.fin 0), .voltage (.fin 2))] := by decide +kernel

/-- **C95 is violated at the start.** The documentation says that the encoder is not
used at all; the first control position is that of the encoder. -/
theorem C95_start_refuted :
    let m := { sampleMeas 0 0 with traj := { (sampleMeas 0 0).traj with posRel := 70368744177664 } }
    let cp := fun m => (Modes.doPosition .single openConfig m (sampleState false) sampleCommand).2.1.traj.cp
    Spec.SameOutside (sampleMeas 0 0, .fin 0) (m, .fin 0) ∧
    cp (sampleMeas 0 0) = some 0 ∧ cp m = some 70368744177664 :=
  ⟨⟨rfl, rfl, rfl, rfl, rfl⟩, by decide +kernel, by decide +kernel⟩

/-- **C95.** With `servo.fixed_voltage_mode` a timeout with action 10 or 12 keeps the
operation open loop. -/
theorem C95_timeout (c : Modes.Config) (m : Meas) (s : State) (d : Command)
    (hc : c.fixedVoltageMode = true) (ht : c.timeoutMode = 10 ∨ c.timeoutMode = 12) :
    Spec.Blind (Modes.doTimeout A c m s d).1 := by
  rcases ht with ht | ht <;>
    simp [Modes.doTimeout, ht, doZeroVelocity, positionCommon, timeoutCommand, zeroCommand, hc, Fl.isNan,
      Spec.Blind]

/-- **C95 is violated after a timeout with an override.** The default action controls
torque, but the angle stays synthetic. -/
theorem C95_timeout_refuted :
    let p : Prep.Data Unit := { Prep.sampleData with fixedVoltageOverride := .fin 2 }
    let d := { sampleCommand with fixedVoltageOverride := .fin 2 }
    (Prep.prepare .single Prep.sampleConfig 0 0 p).syntheticTheta = true ∧
    Modes.sampleConfig.timeoutMode = 12 ∧
    Spec.Blind (Modes.doPosition .single Modes.sampleConfig (sampleMeas 16 0) (sampleState true) d).1 ∧
    (Modes.doTimeout .single Modes.sampleConfig (sampleMeas 16 0) (sampleState true) d).1 =
      .current (.fin (-1)) (.fin 4) (.fin (-3 / 4)) (.fin 0) := by
  refine ⟨by decide +kernel, by decide +kernel, ?_, by decide +kernel⟩
  have : (Modes.doPosition .single Modes.sampleConfig (sampleMeas 16 0) (sampleState true)
    { sampleCommand with fixedVoltageOverride := .fin 2 }).1 = .voltage (.fin 2) := by decide +kernel
  rw [this]
  trivial

/-- **C95 is violated when stopping.** Without a valid angle of the encoder the motor
turns in fixed voltage mode, but the stop ends in a fault. -/
theorem C95_stop_refuted :
    let i := { okIn with fixedVoltageMode := true, thetaValid := false, relativeValid := false }
    let s := runWhole Ar.single {} (startUp .position ++ [.cycle i])
    let e := runWhole Ar.single s [.command (ask .stopped) okCfg, .cycle i]
    s.mode = .position ∧ s.power = true ∧ e.mode = .fault ∧ e.code = .thetaInvalid := by
  simp only [← runWholeF_eq]
  decide +kernel

/-- **C95 is violated for the fixed current.** It needs a valid angle of the encoder,
although that angle is not used. -/
theorem C95_fixed_current_refuted :
    let i := { okIn with thetaValid := false, relativeValid := false }
    let c := { ask .position with cmd := ⟨.position, .nan, false, false, true⟩ }
    let v := { ask .position with cmd := ⟨.position, .nan, false, true, false⟩ }
    let s := runWhole Ar.single {} (startUp .position)
    (runWhole Ar.single s [.command v okCfg, .cycle i]).mode = .position ∧
    (runWhole Ar.single s [.command c okCfg, .cycle i]).mode = .fault := by
  simp only [← runWholeF_eq]
  decide +kernel

/-- **C95 is violated far from 0.** At 30000 turns, a motor with 14 poles: the control
position advances by 60 units of 2^-16 turns, 2.3 degrees of the electrical turn, and
the angle stays the same. -/
theorem C95_coarse_refuted :
    let cp : ℤ := 30000 * 281474976710656
    let cp' := cp + 60 * 4294967296
    Spec.turns gear 1 cp' - Spec.turns gear 1 cp = 60 * 7 / 65536 ∧
    theta .single gear cp = theta .single gear cp' := by decide +kernel

end Verif.Fw.Open
