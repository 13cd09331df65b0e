import Verif.Fw.FocPwm
import Verif.Fw.FocAngle

/-!
# The modes used for calibration

Model of `ISR_DoVoltageFOC` (`fw/bldc_servo.cc` 1702-1709) and
`ISR_DoMeasureInductance` (2226-2273) with the start of that mode (1338-1342), of the
command `d ind` (`fw/board_debug.cc` 754-787) and of `ISR_MaybeEmitDebug`
(`fw/bldc_servo.cc` 2283-2379).

Property C87.
-/

namespace Verif.Fw.TestModes

open Verif.Float Verif.Fw Verif.Fw.Foc

variable {A : Ar}

local notation "u" => ((1 : ℝ) / 16777216)

/-! ## Voltage vectors -/

/-- `max_voltage` (lines 1705-1706) and `max_V` (2256-2257). -/
def maxVoltage (A : Ar) (rc : RateConfig) (busV : Fl) : Fl :=
  A.mul (A.mul (A.sub (half A) rc.minPwm) busV) (svpwmRatio A)

/-- `rate_config_.period_s` (lines 126, 137, 145-146). -/
def periodS (A : Ar) (pwmRateHz : ℤ) : Fl :=
  A.div (.fin 1) (A.lit ((if 30000 < pwmRateHz then pwmRateHz / 2 else pwmRateHz : ℤ) : ℚ))

/-- The next angle (line 1703). -/
def nextTheta (A : Ar) (period theta rate : Fl) : Fl := A.add theta (A.mul rate period)

/-- The output of `ISR_DoVoltageFOC` (lines 1705-1708). -/
def voltageFoc (A : Ar) (rc : RateConfig) (counts : ℤ) (phaseInvert : Bool) (busV : Fl)
    (sc : SinCos) (voltage : Fl) : PwmOut :=
  let m := maxVoltage A rc busV
  pwmControl A rc counts phaseInvert
    (balanced A busV (inverseDq A sc (Fl.limit voltage m.neg m) (.fin 0)))

/-- The angle after `n` cycles. -/
def thetaRun (A : Ar) (period rate : Fl) (theta : Fl) : ℕ → Fl
  | 0 => theta
  | n + 1 => nextTheta A period (thetaRun A period rate theta n) rate

/-- The limit agrees with the one of `ISR_DoCurrent` up to 2^-18. -/
theorem limit_agrees (hA : A.Law3) (hB : Band A) (bd : Bool) (n : ℤ) {V m : ℚ} (hV : 1 ≤ V)
    (hV2 : V ≤ 2 ^ 20) (hm : maxV A (rateConfig A bd n) (.fin V) = .fin m) :
    ∃ m', maxVoltage A (rateConfig A bd n) (.fin V) = .fin m' ∧ 0 < m' ∧ m' ≤ m * (1 + 1 / 2 ^ 18) := by
  obtain ⟨lo, hi, e1, e2, -, -, b1, b2, b3, b4, e5⟩ := C40_band_proper hB bd n
  obtain ⟨w, ew, xw, -⟩ := apx_maxV hA bd n hV hV2 e2 b3 b4
  rw [hm] at ew
  injection ew with ew
  subst ew
  obtain ⟨l1, l2⟩ := band_lo hA b1 b2 e5
  have rV : (1 : ℝ) ≤ V := castLe hV (by norm_num)
  have rV2 : (V : ℝ) ≤ 1048576 := by
    have : ((V : ℚ) : ℝ) ≤ ((2 ^ 20 : ℚ) : ℝ) := by exact_mod_cast hV2
    norm_num at this
    exact this
  have r1 : (7 / 8 : ℝ) ≤ hi := castLe b3 (by norm_num)
  have r2 : (hi : ℝ) < 1 := by exact_mod_cast b4
  have s1 : Apx (A.sub (half A) (.fin lo)) (1 / 2 - (lo : ℝ)) (1 * u) (1 / 2) := by
    rw [half_eq hA, sub_fin]
    refine Apx.rnd hA (e := 0) (M := 1 / 2) ?_ ?_ (by norm_num) (by norm_num) le_rfl
    · push_cast; norm_num
    · have u1 : u ≤ 1 / 1000 := by norm_num
      have u2 : (3 / 100 : ℝ) ≤ lo := castLe b1.le (by norm_num)
      rw [abs_le]; constructor <;> linarith
  have fV : Apx (.fin V) (V : ℝ) 0 V := Apx.fin_self (by rw [abs_of_nonneg (by linarith)])
  have s2 := Apx.mul hA s1 fV (g := 2 * u * V) (P := 1 / 2 * V) (by norm_num; linarith)
    (by norm_num; linarith) (by linarith)
  have k : Apx (svpwmRatio A) (11547 / 10000) (2 * u) (11547 / 10000) :=
    Apx.rnd hA (e := 0) (M := 11547 / 10000) (by norm_num) (by norm_num) (by norm_num)
      (by norm_num) le_rfl
  have s3 := Apx.mul hA s2 k (g := 6 * u * V) (P := 57735 / 100000 * V) (by norm_num; linarith)
    (by norm_num; linarith) (by linarith)
  obtain ⟨m', em, xm, -⟩ := s3
  refine ⟨m', by unfold maxVoltage; rw [e1]; exact em, ?_, ?_⟩
  · have hp : (3 / 8 - u) * V ≤ (1 / 2 - (lo : ℝ)) * V := mul_le_mul_of_nonneg_right (by linarith) (by linarith)
    have : (0 : ℝ) < m' := by
      have := (abs_le.1 xm).1
      generalize (1 / 2 - (lo : ℝ)) * V = W at *
      norm_num at this hp
      linarith
    exact_mod_cast this
  · have hp : (1 / 2 - (lo : ℝ)) * V ≤ (hi - 1 / 2 + u) * V := mul_le_mul_of_nonneg_right (by linarith) (by linarith)
    have hq : 3 / 8 * (V : ℝ) ≤ (hi - 1 / 2) * V := mul_le_mul_of_nonneg_right (by linarith) (by linarith)
    have : (m' : ℝ) ≤ m * (1 + 1 / 2 ^ 18) := by
      have a1 := (abs_le.1 xm).2
      have a2 := (abs_le.1 xw).1
      push_cast at a2
      have e3 : (2 * (hi : ℝ) - 1) * (11547 / 20000) * V = (hi - 1 / 2) * V * (11547 / 10000) := by ring
      rw [e3] at a2
      rw [add_mul] at hp
      generalize (1 / 2 - (lo : ℝ)) * V = W at *
      generalize ((hi : ℝ) - 1 / 2) * V = X at *
      norm_num at a1 a2 hp hq ⊢
      linarith
    have h2 : ((m * (1 + 1 / 2 ^ 18) : ℚ) : ℝ) = (m : ℝ) * (1 + 1 / 2 ^ 18) := by push_cast; ring
    rw [← h2] at this
    exact_mod_cast this

/-- Specification: the closest voltage within ±m. -/
def Spec.clip (v m : ℚ) : ℚ := max (-m) (min m v)

theorem limit_clip {v m : ℚ} (hm : 0 ≤ m) : Fl.limit (.fin v) (.fin (-m)) (.fin m) = .fin (Spec.clip v m) := by
  rw [Fl.limit_fin]
  unfold Spec.clip
  congr 1
  split
  · rename_i h
    rw [min_eq_right (by linarith), max_eq_left (by linarith)]
  · split
    · rename_i h; rw [min_eq_left h.le, max_eq_right (by linarith)]
    · rw [min_eq_right (by linarith), max_eq_right (by linarith)]

theorem clip_sq {v m : ℚ} (hm : 0 ≤ m) : Spec.clip v m ^ 2 ≤ m ^ 2 := by
  have h1 : -m ≤ Spec.clip v m := le_max_left _ _
  have h2 : Spec.clip v m ≤ m := max_le (by linarith) (min_le_left _ _)
  nlinarith

/-- **C87.** The voltage of the mode reaches the motor in the direction of the angle: with
the limit `m`, the duty cycles differ by the phases of a vector of length
`Spec.clip voltage m`. -/
theorem C87_voltage_vector (hA : A.Law3) (hB : Band A) (bd : Bool) (n counts : ℤ) (inv : Bool)
    {θ ε : ℝ} {sc : SinCos} {V v m : ℚ} (ht : Turned θ ε sc) (hε : ε ≤ 1 / 8) (hV : 1 ≤ V)
    (hV2 : V ≤ 2 ^ 20) (hm : maxVoltage A (rateConfig A bd n) (.fin V) = .fin m) :
    let out := (voltageFoc A (rateConfig A bd n) counts inv (.fin V) sc (.fin v)).duty
    let phase := onPhase θ (Spec.clip v m) 0
    ∃ x y z : ℚ, out = ⟨.fin x, .fin y, .fin z⟩ ∧
      |((x : ℝ) - y) - (phase 0 - phase 1) / V| ≤ 1 / 2 ^ 15 + 12 * ε ∧
      |((y : ℝ) - z) - (phase 1 - phase 2) / V| ≤ 1 / 2 ^ 15 + 12 * ε ∧
      |((x : ℝ) - z) - (phase 0 - phase 2) / V| ≤ 1 / 2 ^ 15 + 12 * ε := by
  obtain ⟨lo, hi, -, e2, -, -, -, -, b3, b4, -⟩ := C40_band_proper hB bd n
  obtain ⟨m0, em0, -, -⟩ := apx_maxV hA bd n hV hV2 e2 b3 b4
  obtain ⟨m', e', hpos, hle⟩ := limit_agrees hA hB bd n hV hV2 em0
  rw [hm] at e'
  injection e' with e'
  subst e'
  have h := C82_line_voltage hA hB bd n counts inv true (d := Spec.clip v m) (q := 0) ht hε hV hV2 em0 (by
    have h1 := clip_sq (v := v) hpos.le
    have h2 : m ^ 2 ≤ (m0 * (1 + 1 / 2 ^ 18)) ^ 2 := by
      apply pow_le_pow_left₀ hpos.le hle
    linarith)
  have e : voltageFoc A (rateConfig A bd n) counts inv (.fin V) sc (.fin v) =
      voltageDQ A (rateConfig A bd n) counts inv true (.fin V) sc (.fin (Spec.clip v m)) (.fin 0) := by
    unfold voltageFoc
    dsimp only
    rw [hm, show (Fl.fin m).neg = .fin (-m) from rfl, limit_clip hpos.le]
    rfl
  rw [← e] at h
  simpa using h

/-- The limit at 24 V and 30 kHz is about 12.1 V. -/
example : maxVoltage .single (rateConfig .single false 30000) (.fin 24) = .fin (3183411 / 262144) := by
  decide +kernel

/-- **C87.** The angle advances at the commanded rate, up to an error of half a unit in the
last place per cycle: `g` is the step, `M` bounds the angle. -/
theorem C87_angle_advances (hA : A.Law3) {period rate : Fl} {t g M : ℚ} (n : ℕ)
    (hg : A.mul rate period = .fin g) (hM0 : 0 ≤ M) (hM : M ≤ 2 ^ 100)
    (hr : |t| + n * (|g| + (M / 16777216 + 1 / 2 ^ 98)) ≤ M) :
    ∃ x, thetaRun A period rate (.fin t) n = .fin x ∧
      |x - (t + n * g)| ≤ n * (M / 16777216 + 1 / 2 ^ 98) := by
  have p127 : pow2 127 = 2 ^ 127 := by decide +kernel
  have hη : 0 ≤ M / 16777216 + 1 / 2 ^ 98 := by positivity
  induction n with
  | zero => exact ⟨t, rfl, by simp⟩
  | succ n ih =>
    push_cast at hr
    have hg0 := abs_nonneg g
    obtain ⟨x, ex, hx⟩ := ih (by linarith)
    have hb : |x + g| ≤ M := by
      have h1 : |x + g| ≤ |x - (t + n * g)| + (|t| + (n + 1) * |g|) := by
        have e : x + g = (x - (t + n * g)) + (t + (n + 1) * g) := by ring
        rw [e]
        refine (abs_add_le _ _).trans (add_le_add le_rfl ((abs_add_le _ _).trans ?_))
        rw [abs_mul, abs_of_nonneg (by positivity : (0 : ℚ) ≤ n + 1)]
      linarith
    have e1 : A.rnd (x + g) = .fin (A.rq (x + g)) := hA.toLaw2.rnd_fin (by
      rw [p127]
      have : (2 : ℚ) ^ 100 ≤ 2 ^ 127 := by norm_num
      linarith)
    refine ⟨A.rq (x + g), ?_, ?_⟩
    · show nextTheta A period (thetaRun A period rate (.fin t) n) rate = _
      rw [ex, nextTheta, hg, Ar.add_fin, e1]
    · have h2 := Apx.rq_err hA (x + g)
      have h3 : A.rq (x + g) - (t + ((n : ℚ) + 1) * g) =
          (A.rq (x + g) - (x + g)) + (x - (t + n * g)) := by ring
      push_cast
      rw [h3]
      refine (abs_add_le _ _).trans ?_
      have h4 : |x + g| * (1 / 16777216) ≤ M / 16777216 := by linarith
      linarith

/-- One radian per second for one second. -/
example : ∃ x, thetaRun .single (periodS .single 30000) (.fin 1) (.fin 0) 30000 = .fin x ∧
    |x - (0 + (30000 : ℕ) * (9162597 / 274877906944))| ≤ (30000 : ℕ) * (2 / 16777216 + 1 / 2 ^ 98) :=
  C87_angle_advances Ar.single_law3 30000 (by decide +kernel) (by norm_num) (by norm_num) (by norm_num)

/-- At one radian per second the vector stops turning after 1024 rad, and between 512 and
1024 rad it turns at almost twice the rate. -/
theorem C87_rotation_refuted :
    (∀ n, thetaRun .single (periodS .single 30000) (.fin 1) (.fin 1024) n = .fin 1024) ∧
    nextTheta .single (periodS .single 30000) (.fin 512) (.fin 1) = .fin (512 + 1 / 16384) ∧
    (1 / 16384 : ℚ) > 18 / 10 * (1 / 30000) := by
  refine ⟨fun n => ?_, by decide +kernel, by norm_num⟩
  induction n with
  | zero => rfl
  | succ n ih =>
    show nextTheta .single _ (thetaRun .single _ _ _ n) _ = _
    rw [ih]
    decide +kernel

/-! ## Inductance -/

/-- A value stored in an `int8_t`. -/
def wrap8 (n : ℤ) : ℤ := (n + 128) % 256 - 128

/-- The state of the measurement: `meas_ind_phase`, `meas_ind_integrator`,
`meas_ind_old_d_A`. -/
structure Ind where
  phase : ℤ
  integrator : Fl
  oldD : Fl

/-- The start of the mode (lines 1338-1342). -/
def start (dA : Fl) : Ind := ⟨0, .fin 0, dA⟩

/-- The phase of the square wave (lines 2236-2245). -/
def nextPhase (period phase : ℤ) : ℤ :=
  let oldSign : ℤ := if 0 < phase then 1 else -1
  let p := wrap8 (phase + -oldSign)
  if p = 0 then wrap8 (-oldSign * period) else p

/-- `ISR_DoMeasureInductance` (lines 2226-2273): the new state and `d_V`. -/
def measure (A : Ar) (period : ℤ) (dV override maxV dA : Fl) (s : Ind) : Ind × Fl :=
  let oldSignFloat : Fl := if 0 < s.phase then .fin 1 else .fin (-1)
  let phase := nextPhase period s.phase
  let offset := if override.isFinite then override else .fin 0
  let d := Fl.limit (A.add offset (A.mul dV (if 0 < phase then .fin 1 else .fin (-1)))) maxV.neg maxV
  ({ phase
     integrator := A.add s.integrator (A.mul (A.sub dA s.oldD) oldSignFloat)
     oldD := dA }, d)

/-- The phase in cycle `n` of the measurement. -/
def phaseAt (period : ℤ) : ℕ → ℤ
  | 0 => nextPhase period 0
  | n + 1 => nextPhase period (phaseAt period n)

/-- Specification: the sign of a square wave whose half periods are `P` cycles, after one
positive cycle. -/
def Spec.positive (P n : ℕ) : Bool := n = 0 || (n - 1) / P % 2 = 1

theorem phase_form {P : ℕ} (h1 : 1 ≤ P) (h2 : P ≤ 127) (n : ℕ) :
    phaseAt P (n + 1) = if n / P % 2 = 0 then -(P : ℤ) + (n % P : ℕ) else (P : ℤ) - (n % P : ℕ) := by
  induction n with
  | zero =>
    have : nextPhase P 0 = 1 := by
      unfold nextPhase wrap8; norm_num
    show nextPhase P (nextPhase P 0) = _
    rw [this]
    simp only [Nat.zero_div, Nat.zero_mod, if_true]
    unfold nextPhase wrap8
    norm_num
    omega
  | succ n ih =>
    show nextPhase P (phaseAt P (n + 1)) = _
    rw [ih]
    have hlt := Nat.mod_lt n h1
    have hdm := Nat.div_add_mod n P
    have hs : (n % P + 1 < P ∧ (n + 1) / P = n / P ∧ (n + 1) % P = n % P + 1) ∨
        (n % P + 1 = P ∧ (n + 1) / P = n / P + 1 ∧ (n + 1) % P = 0) := by
      rcases Nat.lt_or_ge (n % P + 1) P with h | h
      · left
        have hd : (n + 1) / P = n / P := by
          rw [Nat.div_eq_of_lt_le] <;> nlinarith [Nat.zero_le (n % P)]
        refine ⟨h, hd, ?_⟩
        have := Nat.div_add_mod (n + 1) P
        rw [hd] at this
        omega
      · right
        have h' : n % P + 1 = P := by omega
        have hd : (n + 1) / P = n / P + 1 := by
          rw [Nat.div_eq_of_lt_le] <;> nlinarith [Nat.zero_le (n % P)]
        refine ⟨h', hd, ?_⟩
        have := Nat.div_add_mod (n + 1) P
        rw [hd, Nat.mul_add] at this
        omega
    generalize n % P = r at *
    rcases hs with ⟨a1, a2, a3⟩ | ⟨a1, a2, a3⟩ <;> rw [a2, a3] <;> generalize n / P = k at * <;>
      rcases Nat.mod_two_eq_zero_or_one k with hk | hk <;>
      (try have hk' : (k + 1) % 2 = 1 - k % 2 := by omega) <;>
      simp only [hk, hk', nextPhase, wrap8] <;> norm_num <;> split_ifs <;> omega

/-- **C87.** The voltage is a square wave: one positive cycle, then half periods of
`period` cycles, first negative. -/
theorem C87_square_wave {P : ℕ} (h1 : 1 ≤ P) (h2 : P ≤ 127) (n : ℕ) :
    decide (0 < phaseAt P n) = Spec.positive P n := by
  cases n with
  | zero =>
    have : nextPhase P 0 = 1 := by
      unfold nextPhase wrap8; norm_num
    simp [phaseAt, this, Spec.positive]
  | succ n =>
    rw [phase_form h1 h2]
    have hlt := Nat.mod_lt n h1
    unfold Spec.positive
    rcases Nat.mod_two_eq_zero_or_one (n / P) with hk | hk <;> simp [hk] <;> omega

/-- **C87.** Each half period is the negative of the one before. -/
theorem C87_square_symmetric {P : ℕ} (h1 : 1 ≤ P) (n : ℕ) :
    Spec.positive P (n + 1 + P) = !Spec.positive P (n + 1) := by
  unfold Spec.positive
  rw [show n + 1 + P - 1 = n + P by omega, show n + 1 - 1 = n by omega, Nat.add_div_right n h1]
  rcases Nat.mod_two_eq_zero_or_one (n / P) with hk | hk
  · have : (n / P).succ % 2 = 1 := by omega
    simp [hk, this]
  · have : (n / P).succ % 2 = 0 := by omega
    simp [hk, this]

/-- The state after `n` cycles with the currents `dA`. -/
def indRun (A : Ar) (period : ℤ) (dV override maxV : Fl) (dA : ℕ → Fl) : ℕ → Ind
  | 0 => start (dA 0)
  | n + 1 => (measure A period dV override maxV (dA n) (indRun A period dV override maxV dA n)).1

theorem indRun_phase (period : ℤ) (dV override maxV : Fl) (dA : ℕ → Fl) (n : ℕ) :
    (indRun A period dV override maxV dA (n + 1)).phase = phaseAt period n ∧
      (indRun A period dV override maxV dA (n + 1)).oldD = dA n := by
  induction n with
  | zero => exact ⟨rfl, rfl⟩
  | succ n ih =>
    refine ⟨?_, rfl⟩
    show nextPhase period (indRun A period dV override maxV dA (n + 1)).phase = _
    rw [ih.1]
    rfl

/-- **C87.** The voltage in cycle `n`: the square wave around the offset, if one is
given, limited to what the bus allows.  Exact arithmetic. -/
theorem C87_wave_partial {P : ℕ} (h1 : 1 ≤ P) (h2 : P ≤ 127) (dA : ℕ → Fl) (n : ℕ) (V m : ℚ)
    (override : Fl) :
    let off : ℚ := match override with
      | .fin q => q
      | _ => 0
    (measure .exact P (.fin V) override (.fin m) (dA n)
      (indRun .exact P (.fin V) override (.fin m) dA n)).2 =
    Fl.limit (.fin (off + if Spec.positive P n then V else -V)) (.fin (-m)) (.fin m) := by
  have hp : nextPhase P (indRun .exact P (.fin V) override (.fin m) dA n).phase = phaseAt P n := by
    cases n with
    | zero => rfl
    | succ n => rw [(indRun_phase P _ _ _ _ n).1]; rfl
  have hs := C87_square_wave h1 h2 n
  unfold measure
  dsimp only
  rw [hp]
  rw [← hs]
  by_cases h0 : 0 < phaseAt P n <;> rcases override with _ | b | q <;>
    simp [h0, Fl.isFinite, Ar.mul, Ar.add, Fl.neg]

/-- Specification: +1 or -1. -/
def Spec.sign (P n : ℕ) : ℚ := if Spec.positive P n then 1 else -1

theorem next_cases {P : ℕ} (h1 : 1 ≤ P) (h2 : P ≤ 127) {p : ℤ} (hp : (1 ≤ p ∧ p ≤ P) ∨ (-P ≤ p ∧ p ≤ -1)) :
    (1 < p ∧ nextPhase P p = p - 1) ∨ (p = 1 ∧ nextPhase P p = -P) ∨ (p < -1 ∧ nextPhase P p = p + 1) ∨
      (p = -1 ∧ nextPhase P p = P) := by
  unfold nextPhase wrap8
  rcases hp with ⟨a, b⟩ | ⟨a, b⟩
  · have e : (if 0 < p then (1 : ℤ) else -1) = 1 := if_pos (by omega)
    simp only [e]
    split_ifs <;> omega
  · have e : (if 0 < p then (1 : ℤ) else -1) = -1 := if_neg (by omega)
    simp only [e]
    split_ifs <;> omega

/-- The sum of the signs of the cycles before cycle `n`. -/
def signSum (P : ℕ) : ℕ → ℤ
  | 0 => 0
  | n + 1 => signSum P n + if 0 < phaseAt P n then 1 else -1

theorem signSum_form {P : ℕ} (h1 : 1 ≤ P) (h2 : P ≤ 127) (n : ℕ) :
    (1 ≤ phaseAt P n ∧ phaseAt P n ≤ P ∧ signSum P n = 1 - phaseAt P n) ∨
    (-P ≤ phaseAt P n ∧ phaseAt P n ≤ -1 ∧ signSum P n = 1 - phaseAt P n - P) := by
  induction n with
  | zero =>
    have : nextPhase P 0 = 1 := by
      unfold nextPhase wrap8; norm_num
    left
    simp only [phaseAt, this, signSum]
    omega
  | succ n ih =>
    have hs : signSum P (n + 1) = signSum P n + if 0 < phaseAt P n then 1 else -1 := rfl
    have hn := next_cases h1 h2 (p := phaseAt P n) (by omega)
    have e : phaseAt P (n + 1) = nextPhase P (phaseAt P n) := rfl
    rw [hs, e]
    generalize nextPhase P (phaseAt P n) = q at *
    generalize phaseAt P n = p at *
    split_ifs <;> omega

/-- **C87.** What is integrated: if the current changes by `g` in the direction of the
voltage and drifts by `h` per cycle, the integral after `n + 1` cycles is `n g` plus at most
a half period of drift.  Exact arithmetic. -/
theorem C87_integral_partial {P : ℕ} (h1 : 1 ≤ P) (h2 : P ≤ 127) (dV override maxV : Fl) {i : ℕ → ℚ} {g h : ℚ}
    (hi : ∀ n, i (n + 1) = i n + Spec.sign P n * g + h) (n : ℕ) :
    ∃ S : ℤ, (indRun .exact P dV override maxV (fun k => .fin (i k)) (n + 1)).integrator =
        .fin (n * g + S * h) ∧ 1 - (P : ℤ) ≤ S ∧ S ≤ 1 := by
  refine ⟨signSum P n, ?_, ?_⟩
  · induction n with
    | zero => simp [indRun, measure, start, signSum, Ar.sub, Ar.add, Ar.mul, Fl.neg]
    | succ n ih =>
      obtain ⟨e1, e2⟩ := indRun_phase (A := .exact) P dV override maxV (fun k => .fin (i k)) n
      show Ar.exact.add (indRun .exact P dV override maxV (fun k => .fin (i k)) (n + 1)).integrator
        (Ar.exact.mul (Ar.exact.sub (.fin (i (n + 1))) (indRun .exact P dV override maxV (fun k => .fin (i k)) (n + 1)).oldD)
          (if 0 < (indRun .exact P dV override maxV (fun k => .fin (i k)) (n + 1)).phase then .fin 1 else .fin (-1))) = _
      rw [ih, e1, e2]
      have hsq := C87_square_wave h1 h2 n
      have es : signSum P (n + 1) = signSum P n + if 0 < phaseAt P n then 1 else -1 := rfl
      rw [es]
      have hin := hi n
      unfold Spec.sign at hin
      rw [← hsq] at hin
      by_cases hp : 0 < phaseAt P n
      · simp only [hp, if_true, decide_true] at hin ⊢
        simp only [Ar.sub, Fl.neg, Ar.add, Ar.mul, Ar.exact_rnd]
        congr 1
        rw [hin]; push_cast; ring
      · simp only [hp, if_false, decide_false] at hin ⊢
        simp only [Ar.sub, Fl.neg, Ar.add, Ar.mul, Ar.exact_rnd]
        congr 1
        simp at hin
        rw [hin]; push_cast; ring
  · have := signSum_form h1 h2 n
    omega

/-- A triangle of current. -/
example : ∃ i : ℕ → ℚ, ∀ n, i (n + 1) = i n + Spec.sign 4 n * 2 + 1 / 10 :=
  ⟨fun n => n.rec 0 fun n x => x + Spec.sign 4 n * 2 + 1 / 10, fun _ => rfl⟩

/-- **C87.** Whatever voltage and offset are commanded, unless their sum is NaN, the
measurement applies a finite voltage within the limit, and it reaches the motor. -/
theorem C87_inductance_voltage (hA : A.Law3) (hB : Band A) (bd : Bool) (n counts : ℤ) (inv pos : Bool)
    {θ ε : ℝ} {sc : SinCos} {V m : ℚ} (ht : Turned θ ε sc) (hε : ε ≤ 1 / 8) (hV : 1 ≤ V)
    (hV2 : V ≤ 2 ^ 20) (hm : maxVoltage A (rateConfig A bd n) (.fin V) = .fin m)
    (period : ℤ) (dV override dA : Fl) (s : Ind)
    (hn : (measure A period dV override (.fin m) dA s).2 ≠ .nan) :
    ∃ d x y z : ℚ, (measure A period dV override (.fin m) dA s).2 = .fin d ∧ |d| ≤ m ∧
      (voltageDQ A (rateConfig A bd n) counts inv pos (.fin V) sc (.fin d) (.fin 0)).duty =
        ⟨.fin x, .fin y, .fin z⟩ ∧
      |((x : ℝ) - y) - (onPhase θ d 0 0 - onPhase θ d 0 1) / V| ≤ 1 / 2 ^ 15 + 12 * ε ∧
      |((y : ℝ) - z) - (onPhase θ d 0 1 - onPhase θ d 0 2) / V| ≤ 1 / 2 ^ 15 + 12 * ε ∧
      |((x : ℝ) - z) - (onPhase θ d 0 0 - onPhase θ d 0 2) / V| ≤ 1 / 2 ^ 15 + 12 * ε := by
  obtain ⟨lo, hi, -, e2, -, -, -, -, b3, b4, -⟩ := C40_band_proper hB bd n
  obtain ⟨m0, em0, -, -⟩ := apx_maxV hA bd n hV hV2 e2 b3 b4
  obtain ⟨m', e', hpos, hle⟩ := limit_agrees hA hB bd n hV hV2 em0
  rw [hm] at e'
  injection e' with e'
  subst e'
  obtain ⟨d, ed, hd⟩ : ∃ d, (measure A period dV override (.fin m) dA s).2 = .fin d ∧ |d| ≤ m := by
    unfold measure at hn ⊢
    simp only at hn ⊢
    generalize A.add _ _ = w at hn ⊢
    have hw : w ≠ .nan := by rintro rfl; simp at hn
    obtain ⟨g1, g2⟩ := Fl.limit_mem (a := w) (lo := (Fl.fin m).neg) (hi := .fin m)
      (show (Fl.fin (-m)).Le (.fin m) by simp; linarith) hw
    generalize Fl.limit w (Fl.fin m).neg (.fin m) = l at g1 g2 ⊢
    rcases l with _ | ⟨_ | _⟩ | l
    · exact absurd rfl g2.not_nan.1
    · simp [Fl.Le, Fl.ble] at g2
    · simp [Fl.Le, Fl.ble, Fl.neg] at g1
    · exact ⟨l, rfl, abs_le.2 ⟨by simpa [Fl.neg] using g1, by simpa using g2⟩⟩
  obtain ⟨x, y, z, r1, r2, r3, r4⟩ := C82_line_voltage hA hB bd n counts inv pos (d := d) (q := 0) ht hε hV hV2 em0 (by
    have h1 : d ^ 2 ≤ m ^ 2 := by rw [← sq_abs d]; exact pow_le_pow_left₀ (abs_nonneg _) hd 2
    have h2 : m ^ 2 ≤ (m0 * (1 + 1 / 2 ^ 18)) ^ 2 := pow_le_pow_left₀ hpos.le hle 2
    linarith)
  refine ⟨d, x, y, z, ed, hd, r1, ?_⟩
  have e0 : (if pos then ((0 : ℚ) : ℝ) else -((0 : ℚ) : ℝ)) = 0 := by cases pos <;> simp
  simp only [e0] at r2 r3 r4
  exact ⟨r2, r3, r4⟩

example : (measure .exact 4 (.fin 100) (.fin 2) (.fin 12) (.fin 0) (start (.fin 0))).2 = .fin 12 := by
  decide +kernel

/-- The period that `d ind` accepts (`fw/board_debug.cc` 765-769). -/
def indPeriod (x : Fl) : Option ℤ :=
  let period := wrap8 (toI32 x)
  if period ≤ 0 then none else some period

/-- **C87.** Every accepted period is in the range of the theorems above. -/
theorem C87_period_range {x : Fl} {p : ℤ} (h : indPeriod x = some p) : 1 ≤ p ∧ p ≤ 127 := by
  unfold indPeriod at h
  simp only at h
  split at h
  · cases h
  · injection h with h
    subst h
    rename_i hp
    unfold wrap8 at *
    omega

/-- A period of 300 cycles is accepted, and 44 are used. -/
theorem C87_period_refuted : indPeriod (.fin 300) = some 44 := by decide +kernel

/-! ## Debug output -/

/-- `write_scalar` (`fw/bldc_servo.cc` 2290-2297) of two bytes into `debug_buf_` (line 2486). -/
def writeScalar (buf : List ℕ) (v : ℕ × ℕ) : List ℕ :=
  if buf.length + 2 > 7 then buf else buf ++ [v.1, v.2]

/-- `ISR_MaybeEmitDebug`: the bytes given to the UART; `fields` are the 20 values, all of two
bytes, in the order of their bits. -/
def emit (mask : ℕ) (fields : List (ℕ × ℕ)) : List ℕ :=
  if mask = 0 then [] else
    (fields.zipIdx.filter fun f => mask.testBit f.2).foldl (fun b f => writeScalar b f.1) [0x5a]

/-- **C87.** The bytes are the mark and the first three selected values, never more than
the seven of the buffer. -/
theorem C87_debug (mask : ℕ) (fields : List (ℕ × ℕ)) (h : mask ≠ 0) :
    emit mask fields = 0x5a :: (((fields.zipIdx.filter fun f => mask.testBit f.2).map
      fun f => [f.1.1, f.1.2]).take 3).flatten ∧ (emit mask fields).length ≤ 7 := by
  have key : emit mask fields = 0x5a :: (((fields.zipIdx.filter fun f => mask.testBit f.2).map
      fun f => [f.1.1, f.1.2]).take 3).flatten := by
    unfold emit
    rw [if_neg h]
    generalize fields.zipIdx.filter _ = l
    have full : ∀ (l : List ((ℕ × ℕ) × ℕ)) (b : List ℕ), 5 < b.length →
        l.foldl (fun b f => writeScalar b f.1) b = b := by
      intro l
      induction l with
      | nil => intro b _; rfl
      | cons x l ih =>
        intro b hb
        rw [List.foldl_cons, writeScalar, if_pos (by omega)]
        exact ih b hb
    rcases l with _ | ⟨x, _ | ⟨y, _ | ⟨z, l⟩⟩⟩
    · rfl
    · simp [writeScalar]
    · simp [writeScalar]
    · simp only [List.foldl_cons]
      rw [full]
      · simp [writeScalar]
      · simp [writeScalar]
  refine ⟨key, ?_⟩
  rw [key]
  generalize (fields.zipIdx.filter fun f => mask.testBit f.2) = l
  rcases l with _ | ⟨x, _ | ⟨y, _ | ⟨z, l⟩⟩⟩ <;> simp

example : emit 0b1111 [(1, 2), (3, 4), (5, 6), (7, 8)] = [0x5a, 1, 2, 3, 4, 5, 6] := by decide +kernel

end Verif.Fw.TestModes
