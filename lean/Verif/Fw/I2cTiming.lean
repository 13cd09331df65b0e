import Mathlib.Tactic.Linarith
import Mathlib.Tactic.NormNum
import Mathlib.Tactic.Positivity
import Mathlib.Tactic.FieldSimp
import Mathlib.Data.Rat.Floor

/-!
# Property C77: the timing of the I2C bus

Model of `fw/stm32_i2c_timing.h`.  The computation is in `int64_t`; the model computes in `ℤ` with the
truncating division of C++ and applies the conversion to `int` where a result is stored in a field of
type `int`.  No intermediate result leaves the range of `int64_t` for inputs of type `int`: the largest
is `10^12 * 68`.
-/

namespace Verif.Fw

/-! ## Model -/

/-- `I2cMode` (fw/stm32_i2c_timing.h:38-42). -/
inductive I2cMode
  | standard
  | fast
  | fastPlus
  deriving DecidableEq, Repr

/-- `TimingInput` (fw/stm32_i2c_timing.h:49-56).  `analog_filter` is not used by the computation and is
left out. -/
structure I2cInput where
  peripheralHz : ℤ
  i2cHz : ℤ
  mode : I2cMode
  riseNs : ℤ
  fallNs : ℤ

/-- `TimingResult` (fw/stm32_i2c_timing.h:22-36).  `digital_noise_filter` is always 0. -/
structure I2cResult where
  error : ℤ := 0
  prescaler : ℤ := 0
  scldel : ℤ := 0
  sdadel : ℤ := 0
  sclh : ℤ := 0
  scll : ℤ := 0
  timingr : ℤ := 0
  deriving DecidableEq, Repr

/-- Conversion of an `int64_t` to `int` (two's complement). -/
def toInt32 (x : ℤ) : ℤ := (x + 2 ^ 31) % 2 ^ 32 - 2 ^ 31

/-- `scl_min_low_ps` (fw/stm32_i2c_timing.h:68-76). -/
def sclMinLow : I2cMode → ℤ
  | .standard => 4700000
  | .fast => 1300000
  | .fastPlus => 500000

/-- `scl_min_high_ps` (fw/stm32_i2c_timing.h:77-85). -/
def sclMinHigh : I2cMode → ℤ
  | .standard => 4000000
  | .fast => 600000
  | .fastPlus => 260000

/-- `data_min_hold_ps` (fw/stm32_i2c_timing.h:86-98). -/
def dataMinHold : I2cMode → ℤ
  | .standard => 300000
  | .fast => 10
  | .fastPlus => 10

/-- `data_min_setup_ps` (fw/stm32_i2c_timing.h:99-107). -/
def dataMinSetup : I2cMode → ℤ
  | .standard => 250000
  | .fast => 100000
  | .fastPlus => 50000

/-- `i2c_max_hz` (fw/stm32_i2c_timing.h:109-117). -/
def i2cMaxHz : I2cMode → ℤ
  | .standard => 100000
  | .fast => 400000
  | .fastPlus => 1000000

/-- The part of the period with a low clock, in percent (fw/stm32_i2c_timing.h:122-129). -/
def lowPercent : I2cMode → ℤ
  | .standard => 54
  | .fast => 68
  | .fastPlus => 67

/-- `detail::TryTimingWithPrescaler` (fw/stm32_i2c_timing.h:59-170).  A clock of 0 Hz is a division by
zero, see `calculateI2cTiming`.  The shifts of the non-negative fields are multiplications; `prescaler
<< 28` for a prescaler of 8 or more leaves the range of `int` and is taken modulo `2^32`, as the
compilers do (and C++20 prescribes).  The fields do not overlap when they are in range, so `|` is
addition. -/
def tryPrescaler (i : I2cInput) (p : ℤ) : I2cResult :=
  let t := (1000000000000 : ℤ).tdiv i.peripheralHz
  let tp := t * (p + 1)
  let hz := max 1 (min i.i2cHz (i2cMaxHz i.mode))
  let total := (1000000000000 : ℤ).tdiv hz
  let low := (total * lowPercent i.mode).tdiv 100
  let scll := toInt32 ((max (sclMinLow i.mode) low).tdiv tp)
  if scll > 255 then { error := 2, prescaler := p, scll := scll }
  else
    let actualLow := (scll + 1) * tp
    let high := total - actualLow
    let sclh := toInt32 ((max (sclMinHigh i.mode) high).tdiv tp)
    if sclh > 255 then { error := 3, prescaler := p, scll := scll, sclh := sclh }
    else
      let sdadel := toInt32 ((dataMinHold i.mode).tdiv tp)
      if sdadel > 15 then { error := 4, prescaler := p, scll := scll, sclh := sclh, sdadel := sdadel }
      else
        let scldel := toInt32 ((dataMinSetup i.mode).tdiv tp)
        if scldel > 15 then
          { error := 5, prescaler := p, scll := scll, sclh := sclh, sdadel := sdadel, scldel := scldel }
        else
          { prescaler := p, scll := scll, sclh := sclh, sdadel := sdadel, scldel := scldel
            timingr := (scll + sclh * 2 ^ 8 + sdadel * 2 ^ 16 + scldel * 2 ^ 20 + p * 2 ^ 28) % 2 ^ 32 }

/-- The loop of `CalculateI2cTiming` over the prescalers that are left (fw/stm32_i2c_timing.h:176-185):
the number of prescalers left, and the next one. -/
def tryFrom (i : I2cInput) : ℕ → ℤ → I2cResult
  | 0, _ => { error := 1 }
  | n + 1, p => if (tryPrescaler i p).error ≠ 0 then tryFrom i n (p + 1) else tryPrescaler i p

/-- `CalculateI2cTiming` (fw/stm32_i2c_timing.h:173-186). `none` is the division by zero. -/
def calculateI2cTiming (i : I2cInput) : Option I2cResult :=
  if i.peripheralHz = 0 then none else some (tryFrom i 16 0)

/-! ## Specification -/

namespace Spec

/-- The meaning of the register `I2C_TIMINGR` of the STM32G4: bits 31-28 `PRESC`, 23-20 `SCLDEL`, 19-16
`SDADEL`, 15-8 `SCLH`, 7-0 `SCLL` (reference manual RM0440, "I2C timing register"). -/
structure TimingFields (r : ℤ) (presc scldel sdadel sclh scll : ℕ) : Prop where
  presc_lt : presc < 16
  scldel_lt : scldel < 16
  sdadel_lt : sdadel < 16
  sclh_lt : sclh < 256
  scll_lt : scll < 256
  value : r = presc * 2 ^ 28 + scldel * 2 ^ 20 + sdadel * 2 ^ 16 + sclh * 2 ^ 8 + scll

/-- The period of the clock of the peripheral, in picoseconds. -/
def clkPs (hz : ℤ) : ℚ := 10 ^ 12 / hz

/-- Picoseconds for which the clock line is low, or high, for a field `n`. -/
def sclPs (hz : ℤ) (presc n : ℕ) : ℚ := (n + 1) * ((presc + 1) * clkPs hz)

/-- Picoseconds between a change of the data line and the rising edge of the clock. -/
def setupPs (hz : ℤ) (presc scldel : ℕ) : ℚ := (scldel + 1) * ((presc + 1) * clkPs hz)

/-- Picoseconds between the falling edge of the clock and a change of the data line: `SDADEL` prescaled
periods, one more period of the peripheral clock and two for the synchronisation of the input. -/
def holdPs (hz : ℤ) (presc sdadel : ℕ) : ℚ := sdadel * ((presc + 1) * clkPs hz) + 3 * clkPs hz

/-- Table 10 of the I2C specification (NXP UM10204), in picoseconds: low and high period of the clock,
set-up time of the data, and highest bus frequency. -/
structure BusLimits where
  low : ℚ
  high : ℚ
  setup : ℚ
  hz : ℚ

def busLimits : I2cMode → BusLimits
  | .standard => ⟨4700 * 1000, 4000 * 1000, 250 * 1000, 100 * 1000⟩
  | .fast => ⟨1300 * 1000, 600 * 1000, 100 * 1000, 400 * 1000⟩
  | .fastPlus => ⟨500 * 1000, 260 * 1000, 50 * 1000, 1000 * 1000⟩

/-- The wanted hold time of the data (the comments at fw/stm32_i2c_timing.h:89-94). -/
def wantedHold : I2cMode → ℚ
  | .standard => 300 * 1000
  | .fast => 10
  | .fastPlus => 10

end Spec

open Spec

/-! ## Proofs -/

theorem toInt32_of {x : ℤ} (h0 : 0 ≤ x) (h1 : x < 2 ^ 31) : toInt32 x = x := by
  unfold toInt32; omega

/-- The quotient of a duration by a period, as the fields are computed. -/
theorem field_quot {a p : ℤ} (ha : 0 ≤ a) (hp : 0 < p) :
    0 ≤ a.tdiv p ∧ a.tdiv p * p ≤ a ∧ a < (a.tdiv p + 1) * p := by
  rw [Int.tdiv_eq_ediv_of_nonneg ha]
  refine ⟨Int.ediv_nonneg ha hp.le, Int.ediv_mul_le a hp.ne', ?_⟩
  exact Int.lt_ediv_add_one_mul_self a hp

/-- The clock period that the computation uses: truncated, but positive. -/
theorem clk_trunc {hz : ℤ} (h0 : 0 < hz) (h1 : hz < 2 ^ 31) :
    465 ≤ (1000000000000 : ℤ).tdiv hz ∧ (1000000000000 : ℤ).tdiv hz * hz ≤ 10 ^ 12 ∧
      10 ^ 12 < ((1000000000000 : ℤ).tdiv hz + 1) * hz := by
  obtain ⟨a, b, c⟩ := field_quot (a := 1000000000000) (by norm_num) h0
  refine ⟨?_, by linarith, by linarith⟩
  by_contra hlt
  have : (1000000000000 : ℤ).tdiv hz + 1 ≤ 465 := by omega
  nlinarith

theorem total_bounds {hz : ℤ} (h : 1 ≤ hz) : 0 ≤ (1000000000000 : ℤ).tdiv hz ∧
    (1000000000000 : ℤ).tdiv hz ≤ 10 ^ 12 := by
  obtain ⟨a, b, c⟩ := field_quot (a := 1000000000000) (by norm_num) (p := hz) (by omega)
  exact ⟨a, by nlinarith⟩

/-- What a result without error says about the fields, in the truncated clock period `t`. -/
structure TryOk (i : I2cInput) (p : ℤ) (r : I2cResult) (t total : ℤ) : Prop where
  prescaler : r.prescaler = p
  ll : 0 ≤ r.scll ∧ r.scll ≤ 255
  lh : 0 ≤ r.sclh ∧ r.sclh ≤ 255
  da : 0 ≤ r.sdadel ∧ r.sdadel ≤ 15
  cl : 0 ≤ r.scldel ∧ r.scldel ≤ 15
  low : max (sclMinLow i.mode) ((total * lowPercent i.mode).tdiv 100) < (r.scll + 1) * (t * (p + 1)) ∧
    r.scll * (t * (p + 1)) ≤ max (sclMinLow i.mode) ((total * lowPercent i.mode).tdiv 100)
  high : max (sclMinHigh i.mode) (total - (r.scll + 1) * (t * (p + 1))) < (r.sclh + 1) * (t * (p + 1)) ∧
    r.sclh * (t * (p + 1)) ≤ max (sclMinHigh i.mode) (total - (r.scll + 1) * (t * (p + 1)))
  hold : dataMinHold i.mode < (r.sdadel + 1) * (t * (p + 1)) ∧
    r.sdadel * (t * (p + 1)) ≤ dataMinHold i.mode
  setup : dataMinSetup i.mode < (r.scldel + 1) * (t * (p + 1)) ∧
    r.scldel * (t * (p + 1)) ≤ dataMinSetup i.mode
  timingr : r.timingr = r.scll + r.sclh * 2 ^ 8 + r.sdadel * 2 ^ 16 + r.scldel * 2 ^ 20 + p * 2 ^ 28

theorem quot32 {a p : ℤ} (ha : 0 ≤ a) (hb : a ≤ 7 * 10 ^ 11) (hp : 466 ≤ p + 1) :
    0 ≤ toInt32 (a.tdiv p) ∧ toInt32 (a.tdiv p) * p ≤ a ∧ a < (toInt32 (a.tdiv p) + 1) * p := by
  obtain ⟨h1, h2, h3⟩ := field_quot (p := p) ha (by omega)
  have : a.tdiv p < 2 ^ 31 := by
    by_contra h
    have h : 2 ^ 31 ≤ a.tdiv p := by omega
    nlinarith
  rw [toInt32_of h1 this]
  exact ⟨h1, h2, h3⟩

theorem mode_bounds (m : I2cMode) : 0 < sclMinLow m ∧ sclMinLow m ≤ 4700000 ∧ 0 < sclMinHigh m ∧
    sclMinHigh m ≤ 4000000 ∧ 0 < dataMinHold m ∧ dataMinHold m ≤ 300000 ∧ 0 < dataMinSetup m ∧
    dataMinSetup m ≤ 250000 ∧ 54 ≤ lowPercent m ∧ lowPercent m ≤ 68 := by
  cases m <;> decide

/-- The frequency that is aimed at. -/
def aimHz (i : I2cInput) : ℤ := max 1 (min i.i2cHz (i2cMaxHz i.mode))

theorem aim_pos (i : I2cInput) : 1 ≤ aimHz i := le_max_left _ _

theorem try_ok {i : I2cInput} {p : ℤ} (h0 : 0 < i.peripheralHz) (h1 : i.peripheralHz < 2 ^ 31)
    (hp : 0 ≤ p ∧ p < 16) (he : (tryPrescaler i p).error = 0) :
    TryOk i p (tryPrescaler i p) ((1000000000000 : ℤ).tdiv i.peripheralHz)
      ((1000000000000 : ℤ).tdiv (aimHz i)) := by
  obtain ⟨ht, -, -⟩ := clk_trunc h0 h1
  obtain ⟨hT0, hT1⟩ := total_bounds (aim_pos i)
  obtain ⟨m1, m2, m3, m4, m5, m6, m7, m8, m9, m10⟩ := mode_bounds i.mode
  unfold aimHz at hT0 hT1 ⊢
  unfold tryPrescaler at he ⊢
  dsimp only at he ⊢
  set t := (1000000000000 : ℤ).tdiv i.peripheralHz
  set total := (1000000000000 : ℤ).tdiv (max 1 (min i.i2cHz (i2cMaxHz i.mode)))
  have htp : 465 ≤ t * (p + 1) := by nlinarith
  set tp := t * (p + 1) with etp
  have hlow : 0 ≤ (total * lowPercent i.mode).tdiv 100 ∧
      (total * lowPercent i.mode).tdiv 100 ≤ 7 * 10 ^ 11 ∧
      total - (total * lowPercent i.mode).tdiv 100 ≤ 7 * 10 ^ 11 := by
    have : 0 ≤ total * lowPercent i.mode := by positivity
    obtain ⟨a, b, c⟩ := field_quot (p := 100) this (by norm_num)
    exact ⟨a, by nlinarith, by nlinarith⟩
  have qll := quot32 (a := max (sclMinLow i.mode) ((total * lowPercent i.mode).tdiv 100)) (p := tp)
    (le_max_of_le_right hlow.1) (max_le (by omega) hlow.2.1) (by omega)
  set scll := toInt32 ((max (sclMinLow i.mode) ((total * lowPercent i.mode).tdiv 100)).tdiv tp)
  by_cases c1 : scll > 255
  · simp [c1] at he
  rw [if_neg c1] at he ⊢
  have hal : 0 ≤ (scll + 1) * tp := by
    have := qll.1
    positivity
  have qlh := quot32 (a := max (sclMinHigh i.mode) (total - (scll + 1) * tp)) (p := tp)
    (le_max_of_le_left m3.le) (max_le (by omega) (by
      have := (le_max_right _ _).trans qll.2.2.le
      omega)) (by omega)
  set sclh := toInt32 ((max (sclMinHigh i.mode) (total - (scll + 1) * tp)).tdiv tp)
  by_cases c2 : sclh > 255
  · simp [c2] at he
  rw [if_neg c2] at he ⊢
  have qda := quot32 (a := dataMinHold i.mode) (p := tp) m5.le (by omega) (by omega)
  set sdadel := toInt32 ((dataMinHold i.mode).tdiv tp)
  by_cases c3 : sdadel > 15
  · simp [c3] at he
  rw [if_neg c3] at he ⊢
  have qcl := quot32 (a := dataMinSetup i.mode) (p := tp) m7.le (by omega) (by omega)
  set scldel := toInt32 ((dataMinSetup i.mode).tdiv tp)
  by_cases c4 : scldel > 15
  · simp [c4] at he
  rw [if_neg c4]
  exact
    { prescaler := rfl
      ll := ⟨qll.1, by dsimp; omega⟩
      lh := ⟨qlh.1, by dsimp; omega⟩
      da := ⟨qda.1, by dsimp; omega⟩
      cl := ⟨qcl.1, by dsimp; omega⟩
      low := ⟨qll.2.2, qll.2.1⟩
      high := ⟨qlh.2.2, qlh.2.1⟩
      hold := ⟨qda.2.2, qda.2.1⟩
      setup := ⟨qcl.2.2, qcl.2.1⟩
      timingr := by
        have := qll.1; have := qlh.1; have := qda.1; have := qcl.1
        dsimp
        apply Int.emod_eq_of_lt <;> omega }

theorem tryFrom_cases (i : I2cInput) (n : ℕ) (p : ℤ) :
    ((tryFrom i n p).error = 1 ∧ ∀ q, p ≤ q → q < p + n → (tryPrescaler i q).error ≠ 0) ∨
    ∃ q, p ≤ q ∧ q < p + n ∧ tryFrom i n p = tryPrescaler i q ∧ (tryPrescaler i q).error = 0 ∧
      ∀ q', p ≤ q' → q' < q → (tryPrescaler i q').error ≠ 0 := by
  induction n generalizing p with
  | zero => exact .inl ⟨rfl, fun q a b => by simp at b; omega⟩
  | succ n ih =>
    by_cases h : (tryPrescaler i p).error ≠ 0
    · rw [tryFrom, if_pos h]
      rcases ih (p + 1) with ⟨a, b⟩ | ⟨q, a, b, c, d, e⟩
      · refine .inl ⟨a, fun q h1 h2 => ?_⟩
        rcases eq_or_ne q p with rfl | hq
        · exact h
        · exact b q (by omega) (by push_cast at h2; omega)
      · refine .inr ⟨q, by omega, by push_cast; omega, c, d, fun q' h1 h2 => ?_⟩
        rcases eq_or_ne q' p with rfl | hq
        · exact h
        · exact e q' (by omega) h2
    · rw [tryFrom, if_neg h]
      exact .inr ⟨p, le_refl _, by push_cast; omega, rfl, by simpa using h, fun q' h1 h2 => by omega⟩

theorem calculate_ok {i : I2cInput} {r : I2cResult} (h0 : 0 < i.peripheralHz)
    (h1 : i.peripheralHz < 2 ^ 31) (h : calculateI2cTiming i = some r) (he : r.error = 0) :
    ∃ p, 0 ≤ p ∧ p < 16 ∧ r = tryPrescaler i p ∧ TryOk i p r ((1000000000000 : ℤ).tdiv i.peripheralHz)
      ((1000000000000 : ℤ).tdiv (aimHz i)) ∧
      ∀ q, 0 ≤ q → q < p → (tryPrescaler i q).error ≠ 0 := by
  rw [calculateI2cTiming, if_neg h0.ne'] at h
  obtain rfl := Option.some_inj.mp h
  rcases tryFrom_cases i 16 0 with ⟨a, -⟩ | ⟨q, a, b, c, d, e⟩
  · rw [a] at he; simp at he
  · rw [c] at he ⊢
    exact ⟨q, a, by simpa using b, rfl, try_ok h0 h1 ⟨a, by simpa using b⟩ he, e⟩

/-- The clock period that the computation uses, against the real one. -/
theorem clk_real {hz : ℤ} (h0 : 0 < hz) (h1 : hz < 2 ^ 31) :
    (((1000000000000 : ℤ).tdiv hz : ℤ) : ℚ) ≤ clkPs hz ∧
      clkPs hz * ((10 ^ 12 - hz) / 10 ^ 12) ≤ (((1000000000000 : ℤ).tdiv hz : ℤ) : ℚ) ∧
      0 < clkPs hz := by
  obtain ⟨-, h2, h3⟩ := clk_trunc h0 h1
  have hz0 : (0 : ℚ) < hz := by exact_mod_cast h0
  have h2' : ((((1000000000000 : ℤ).tdiv hz : ℤ)) : ℚ) * hz ≤ 10 ^ 12 := by exact_mod_cast h2
  have h3' : (10 : ℚ) ^ 12 < ((((1000000000000 : ℤ).tdiv hz : ℤ)) + 1) * hz := by exact_mod_cast h3
  unfold clkPs
  refine ⟨by rwa [le_div_iff₀ hz0], ?_, by positivity⟩
  have : (10 : ℚ) ^ 12 / hz * ((10 ^ 12 - hz) / 10 ^ 12) = (10 ^ 12 - hz) / hz := by
    field_simp
  rw [this, div_le_iff₀ hz0]
  linarith

/-- The real period of the bus that is asked for: not faster than the mode allows, and at least 1 Hz. -/
theorem total_real {hz : ℤ} (h : 1 ≤ hz) : (10 : ℚ) ^ 12 / hz ≤ ((1000000000000 : ℤ).tdiv hz : ℤ) + 1 ∧
    (((1000000000000 : ℤ).tdiv hz : ℤ) : ℚ) ≤ 10 ^ 12 / hz := by
  obtain ⟨-, b, c⟩ := field_quot (a := 1000000000000) (by norm_num) (p := hz) (by omega)
  have hz0 : (0 : ℚ) < hz := by exact_mod_cast h
  constructor
  · rw [div_le_iff₀ hz0]
    have : ((1000000000000 : ℤ) : ℚ) < (((1000000000000 : ℤ).tdiv hz + 1) * hz : ℤ) := by exact_mod_cast c
    push_cast at this
    linarith
  · rw [le_div_iff₀ hz0]
    have : (((1000000000000 : ℤ).tdiv hz * hz : ℤ) : ℚ) ≤ ((1000000000000 : ℤ) : ℚ) := by exact_mod_cast b
    push_cast at this
    linarith

theorem fields_of {i : I2cInput} {p : ℤ} {r : I2cResult} {t total : ℤ} (hp : 0 ≤ p ∧ p < 16)
    (h : TryOk i p r t total) :
    TimingFields r.timingr p.toNat r.scldel.toNat r.sdadel.toNat r.sclh.toNat r.scll.toNat := by
  obtain ⟨-, hll, hlh, hda, hcl, -, -, -, -, ht⟩ := h
  refine ⟨by omega, by omega, by omega, by omega, by omega, ?_⟩
  rw [ht, Int.toNat_of_nonneg hp.1, Int.toNat_of_nonneg hll.1, Int.toNat_of_nonneg hlh.1,
    Int.toNat_of_nonneg hda.1, Int.toNat_of_nonneg hcl.1]
  ring

/-- The fields of a register value are unique. -/
theorem fields_unique {r : ℤ} {a b c d e a' b' c' d' e' : ℕ} (h : TimingFields r a b c d e)
    (h' : TimingFields r a' b' c' d' e') : a = a' ∧ b = b' ∧ c = c' ∧ d = d' ∧ e = e' := by
  obtain ⟨h1, h2, h3, h4, h5, h6⟩ := h
  obtain ⟨g1, g2, g3, g4, g5, g6⟩ := h'
  omega

/-- Scaling of an inequality from the truncated to the real clock period. -/
theorem scale_lt {n p : ℕ} {x t : ℤ} {c : ℚ} (h : x < (n + 1 : ℤ) * (t * (p + 1))) (hc : (t : ℚ) ≤ c) :
    (x : ℚ) < (n + 1) * ((p + 1) * c) := by
  have h' : (x : ℚ) < (n + 1) * (t * (p + 1)) := by exact_mod_cast h
  have : ((n : ℚ) + 1) * (t * (p + 1)) ≤ (n + 1) * ((p + 1) * c) := by
    rw [mul_comm (t : ℚ)]
    gcongr
  linarith

section

variable {i : I2cInput} {r : I2cResult} {presc scldel sdadel sclh scll : ℕ}

/-- The fields in the register of a successful computation, in the truncated clock period. -/
theorem register_ok (h0 : 0 < i.peripheralHz) (h1 : i.peripheralHz < 2 ^ 31)
    (h : calculateI2cTiming i = some r) (he : r.error = 0)
    (hf : TimingFields r.timingr presc scldel sdadel sclh scll) :
    TryOk i presc r ((1000000000000 : ℤ).tdiv i.peripheralHz) ((1000000000000 : ℤ).tdiv (aimHz i)) ∧
      r.scldel = scldel ∧ r.sdadel = sdadel ∧ r.sclh = sclh ∧ r.scll = scll ∧
      ∀ q : ℕ, q < presc → (tryPrescaler i q).error ≠ 0 := by
  obtain ⟨p, hp0, hp1, -, ho, hmin⟩ := calculate_ok h0 h1 h he
  obtain ⟨e1, e2, e3, e4, e5⟩ := fields_unique hf (fields_of ⟨hp0, hp1⟩ ho)
  have ep : p = presc := by omega
  subst ep
  have := ho.ll; have := ho.lh; have := ho.da; have := ho.cl
  exact ⟨ho, by omega, by omega, by omega, by omega, fun q hq => hmin q (by omega) (by omega)⟩

/-- **C77**: the value for the timing register is within the limits of the I2C specification for the
mode: the clock line is low and high long enough, and a change of the data line precedes the rising edge
of the clock by the set-up time (without the rise time of the line, see `C77_setup_refuted`).  The bus is
not faster than the mode allows and not faster than requested. -/
theorem C77_limits_partial (h0 : 0 < i.peripheralHz) (h1 : i.peripheralHz < 2 ^ 31)
    (h : calculateI2cTiming i = some r) (he : r.error = 0)
    (hf : TimingFields r.timingr presc scldel sdadel sclh scll) :
    (busLimits i.mode).low ≤ sclPs i.peripheralHz presc scll ∧
    (busLimits i.mode).high ≤ sclPs i.peripheralHz presc sclh ∧
    (busLimits i.mode).setup ≤ setupPs i.peripheralHz presc scldel ∧
    10 ^ 12 / (busLimits i.mode).hz ≤
      sclPs i.peripheralHz presc scll + sclPs i.peripheralHz presc sclh ∧
    (1 ≤ i.i2cHz → (10 : ℚ) ^ 12 / i.i2cHz ≤
      sclPs i.peripheralHz presc scll + sclPs i.peripheralHz presc sclh) := by
  obtain ⟨ho, e1, e2, e3, e4, -⟩ := register_ok h0 h1 h he hf
  obtain ⟨hc, -, hc0⟩ := clk_real h0 h1
  obtain ⟨-, -, -, -, -, hl, hh, -, hs, -⟩ := ho
  rw [e1] at hs
  rw [e3, e4] at hh
  rw [e4] at hl
  set t := (1000000000000 : ℤ).tdiv i.peripheralHz
  obtain ⟨ha1, ha2⟩ := total_real (aim_pos i)
  set total := (1000000000000 : ℤ).tdiv (aimHz i)
  have hper : (10 : ℚ) ^ 12 / (aimHz i : ℤ) ≤
      sclPs i.peripheralHz presc scll + sclPs i.peripheralHz presc sclh := by
    have h3 : total < ((scll + sclh + 1 : ℕ) + 1 : ℤ) * (t * (presc + 1)) := by
      have := lt_of_le_of_lt (le_max_right _ _) hh.1
      push_cast
      linarith
    have h4 : total + 1 ≤ ((scll + sclh + 1 : ℕ) + 1 : ℤ) * (t * (presc + 1)) := h3
    have h4' : ((total : ℚ) + 1) ≤ ((scll + sclh + 1 : ℕ) + 1) * (t * (presc + 1)) := by
      exact_mod_cast h4
    have h5 : (((scll + sclh + 1 : ℕ) : ℚ) + 1) * (t * (presc + 1)) ≤
        ((scll + sclh + 1 : ℕ) + 1) * ((presc + 1) * clkPs i.peripheralHz) := by
      rw [mul_comm (t : ℚ)]
      gcongr
    have h6 : sclPs i.peripheralHz presc scll + sclPs i.peripheralHz presc sclh =
        ((scll + sclh + 1 : ℕ) + 1) * ((presc + 1) * clkPs i.peripheralHz) := by
      unfold sclPs; push_cast; ring
    rw [h6]
    exact ha1.trans (h4'.trans h5)
  have hpos : (0 : ℚ) < (aimHz i : ℤ) := by exact_mod_cast aim_pos i
  refine ⟨?_, ?_, ?_, ?_, fun h5 => ?_⟩
  · have := (scale_lt (lt_of_le_of_lt (le_max_left _ _) hl.1) hc).le
    refine le_trans (le_of_eq ?_) this
    cases i.mode <;> norm_num [busLimits, sclMinLow]
  · have := (scale_lt (lt_of_le_of_lt (le_max_left _ _) hh.1) hc).le
    refine le_trans (le_of_eq ?_) this
    cases i.mode <;> norm_num [busLimits, sclMinHigh]
  · have := (scale_lt hs.1 hc).le
    refine le_trans (le_of_eq ?_) this
    cases i.mode <;> norm_num [busLimits, dataMinSetup]
  · refine le_trans ?_ hper
    have h7 : ((aimHz i : ℤ) : ℚ) ≤ (busLimits i.mode).hz := by
      have h8 : aimHz i ≤ i2cMaxHz i.mode := by
        unfold aimHz
        exact max_le (by cases i.mode <;> decide) (min_le_right _ _)
      have h9 : ((i2cMaxHz i.mode : ℤ) : ℚ) = (busLimits i.mode).hz := by
        cases i.mode <;> norm_num [busLimits, i2cMaxHz]
      rw [← h9]
      exact_mod_cast h8
    gcongr
  · refine le_trans ?_ hper
    have h8 : aimHz i ≤ i.i2cHz := max_le h5 (min_le_left _ _)
    have h9 : ((aimHz i : ℤ) : ℚ) ≤ i.i2cHz := by exact_mod_cast h8
    gcongr

/-- **C77**: the bus is not much slower than requested either.  `f` is the requested frequency, limited
to what the mode allows; the low part of the period and the high part are each rounded up to whole
prescaled clock periods `P`, and extended to the limits of the mode.  The left side is less than the
period by the relative error of the whole number of picoseconds that the computation takes for the clock
period. -/
theorem C77_period (h0 : 0 < i.peripheralHz) (h1 : i.peripheralHz < 2 ^ 31) (h2 : 1 ≤ i.i2cHz)
    (h : calculateI2cTiming i = some r) (he : r.error = 0)
    (hf : TimingFields r.timingr presc scldel sdadel sclh scll) {f P : ℚ}
    (hfr : f = min (i.i2cHz : ℚ) (busLimits i.mode).hz)
    (hP : P = (presc + 1) * clkPs i.peripheralHz) :
    (sclPs i.peripheralHz presc scll + sclPs i.peripheralHz presc sclh) *
        ((10 ^ 12 - i.peripheralHz) / 10 ^ 12) ≤
      max (10 ^ 12 / f) (max (busLimits i.mode).low (68 / 100 * (10 ^ 12 / f)) +
        (busLimits i.mode).high + P) + P := by
  obtain ⟨ho, e1, e2, e3, e4, -⟩ := register_ok h0 h1 h he hf
  obtain ⟨hc, hc', hc0⟩ := clk_real h0 h1
  obtain ⟨-, -, -, -, -, hl, hh, -, -, -⟩ := ho
  rw [e3, e4] at hh
  rw [e4] at hl
  set t := (1000000000000 : ℤ).tdiv i.peripheralHz
  obtain ⟨-, ha2⟩ := total_real (aim_pos i)
  obtain ⟨hT0, -⟩ := total_bounds (aim_pos i)
  set total := (1000000000000 : ℤ).tdiv (aimHz i)
  have hm : ((i2cMaxHz i.mode : ℤ) : ℚ) = (busLimits i.mode).hz := by
    cases i.mode <;> norm_num [busLimits, i2cMaxHz]
  have haim : ((aimHz i : ℤ) : ℚ) = f := by
    have h8 : aimHz i = min i.i2cHz (i2cMaxHz i.mode) := by
      unfold aimHz
      exact max_eq_right (le_min h2 (by cases i.mode <;> decide))
    rw [h8, hfr, ← hm]
    push_cast
    rfl
  rw [haim] at ha2
  have hlow : ((sclMinLow i.mode : ℤ) : ℚ) = (busLimits i.mode).low := by
    cases i.mode <;> norm_num [busLimits, sclMinLow]
  have hhigh : ((sclMinHigh i.mode : ℤ) : ℚ) = (busLimits i.mode).high := by
    cases i.mode <;> norm_num [busLimits, sclMinHigh]
  have hpct : (((total * lowPercent i.mode).tdiv 100 : ℤ) : ℚ) ≤ 68 / 100 * (10 ^ 12 / f) := by
    obtain ⟨-, -, -, -, -, -, -, -, m9, m10⟩ := mode_bounds i.mode
    have : 0 ≤ total * lowPercent i.mode := by positivity
    obtain ⟨-, b, -⟩ := field_quot (p := 100) this (by norm_num)
    have b2 : (total * lowPercent i.mode).tdiv 100 * 100 ≤ total * 68 := by nlinarith
    have b' : (((total * lowPercent i.mode).tdiv 100 : ℤ) : ℚ) * 100 ≤ total * 68 := by
      exact_mod_cast b2
    linarith
  have htP : (t : ℚ) * (presc + 1) ≤ P := by
    rw [hP, mul_comm]
    gcongr
  -- the period in truncated units
  have hS : (((scll + 1 : ℤ) * (t * (presc + 1)) + (sclh + 1 : ℤ) * (t * (presc + 1)) : ℤ) : ℚ) ≤
      max (10 ^ 12 / f) (max (busLimits i.mode).low (68 / 100 * (10 ^ 12 / f)) +
        (busLimits i.mode).high + P) + P := by
    have l1 : ((scll : ℚ)) * (t * (presc + 1)) ≤
        max (busLimits i.mode).low (68 / 100 * (10 ^ 12 / f)) := by
      have : ((scll : ℚ)) * (t * (presc + 1)) ≤
          max ((sclMinLow i.mode : ℤ) : ℚ) (((total * lowPercent i.mode).tdiv 100 : ℤ) : ℚ) := by
        exact_mod_cast hl.2
      rw [hlow] at this
      exact this.trans (max_le_max le_rfl hpct)
    have l2 : ((sclh : ℚ)) * (t * (presc + 1)) ≤
        max (busLimits i.mode).high (total - (scll + 1) * (t * (presc + 1))) := by
      rw [← hhigh]
      exact_mod_cast hh.2
    push_cast
    rcases le_max_iff.mp l2 with l2 | l2
    · refine le_trans ?_ (add_le_add_left (le_max_right _ _) P)
      linarith
    · refine le_trans ?_ (add_le_add_left (le_max_left _ _) P)
      linarith
  have hX : (sclPs i.peripheralHz presc scll + sclPs i.peripheralHz presc sclh) *
      ((10 ^ 12 - i.peripheralHz) / 10 ^ 12) = ((scll + 1 : ℚ) + (sclh + 1)) * (presc + 1) *
      (clkPs i.peripheralHz * ((10 ^ 12 - i.peripheralHz) / 10 ^ 12)) := by
    unfold sclPs; ring
  rw [hX]
  refine le_trans ?_ hS
  push_cast
  have : ((scll + 1 : ℚ) + (sclh + 1)) * (presc + 1) *
      (clkPs i.peripheralHz * ((10 ^ 12 - i.peripheralHz) / 10 ^ 12)) ≤
      ((scll + 1 : ℚ) + (sclh + 1)) * (presc + 1) * t := by gcongr
  linarith

/-- **C77**: with a prescaled clock of at most three periods of the peripheral clock, a change of the data
line follows the falling edge of the clock by at least the wanted hold time, and in any case by no less
than it minus what a prescaled period exceeds three periods. -/
theorem C77_hold_partial (h0 : 0 < i.peripheralHz) (h1 : i.peripheralHz < 2 ^ 31)
    (h : calculateI2cTiming i = some r) (he : r.error = 0)
    (hf : TimingFields r.timingr presc scldel sdadel sclh scll) :
    (presc ≤ 2 → wantedHold i.mode < holdPs i.peripheralHz presc sdadel) ∧
      wantedHold i.mode - ((presc : ℚ) - 2) * clkPs i.peripheralHz <
        holdPs i.peripheralHz presc sdadel := by
  obtain ⟨ho, e1, e2, e3, e4, -⟩ := register_ok h0 h1 h he hf
  obtain ⟨hc, -, hc0⟩ := clk_real h0 h1
  have hd := ho.hold.1
  rw [e2] at hd
  have := scale_lt hd hc
  have hw : ((dataMinHold i.mode : ℤ) : ℚ) = wantedHold i.mode := by
    cases i.mode <;> norm_num [wantedHold, dataMinHold]
  rw [hw] at this
  have key : wantedHold i.mode - ((presc : ℚ) - 2) * clkPs i.peripheralHz <
        holdPs i.peripheralHz presc sdadel := by
    unfold holdPs
    linarith
  refine ⟨fun hp => ?_, key⟩
  have : (presc : ℚ) ≤ 2 := by exact_mod_cast hp
  nlinarith

end

/-- **C77**: at a clock of up to 170 MHz (that of the controller) there is a timing for each bus frequency
of 30 kHz or more, in each mode, and it is found. -/
theorem C77_found (i : I2cInput) (h0 : 0 < i.peripheralHz) (h1 : i.peripheralHz ≤ 170000000)
    (h2 : 30000 ≤ i.i2cHz) : ∃ r presc scldel sdadel sclh scll, calculateI2cTiming i = some r ∧
      r.error = 0 ∧ TimingFields r.timingr presc scldel sdadel sclh scll := by
  have hok : (tryPrescaler i 15).error = 0 := by
    obtain ⟨ht, -, hti⟩ := clk_trunc h0 (by omega)
    have haim : 30000 ≤ aimHz i := by
      unfold aimHz
      exact le_max_of_le_right (le_min h2 (by cases i.mode <;> decide))
    obtain ⟨hT0, hT1⟩ := total_bounds (aim_pos i)
    have hT2 : (1000000000000 : ℤ).tdiv (aimHz i) ≤ 33333333 := by
      obtain ⟨-, b, -⟩ := field_quot (a := 1000000000000) (by norm_num) (p := aimHz i) (by omega)
      by_contra hc
      have : 33333334 ≤ (1000000000000 : ℤ).tdiv (aimHz i) := by omega
      nlinarith
    obtain ⟨m1, m2, m3, m4, m5, m6, m7, m8, m9, m10⟩ := mode_bounds i.mode
    unfold aimHz at hT0 hT1 hT2
    unfold tryPrescaler
    dsimp only
    set t := (1000000000000 : ℤ).tdiv i.peripheralHz
    have ht2 : 5882 ≤ t := by
      by_contra hc
      have : t + 1 ≤ 5882 := by omega
      nlinarith
    set total := (1000000000000 : ℤ).tdiv (max 1 (min i.i2cHz (i2cMaxHz i.mode)))
    have htp : 94112 ≤ t * (15 + 1) := by omega
    set tp := t * (15 + 1) with etp
    have hlow : 0 ≤ (total * lowPercent i.mode).tdiv 100 ∧
        (total * lowPercent i.mode).tdiv 100 ≤ 22666667 ∧
        total - (total * lowPercent i.mode).tdiv 100 ≤ 15333334 := by
      have : 0 ≤ total * lowPercent i.mode := by positivity
      obtain ⟨a, b, c⟩ := field_quot (p := 100) this (by norm_num)
      exact ⟨a, by nlinarith, by nlinarith⟩
    have bound : ∀ {a n : ℤ}, 0 ≤ a → a ≤ 7 * 10 ^ 11 → a < (n + 1) * 94112 → 0 ≤ n →
        0 ≤ toInt32 (a.tdiv tp) ∧ a < (toInt32 (a.tdiv tp) + 1) * tp ∧ ¬ toInt32 (a.tdiv tp) > n := by
      intro a n ha ha' hn h0
      obtain ⟨q1, q2, q3⟩ := quot32 (p := tp) ha ha' (by omega)
      refine ⟨q1, q3, fun hc => ?_⟩
      have : n + 1 ≤ toInt32 (a.tdiv tp) := hc
      nlinarith
    obtain ⟨l0, l1, l2⟩ := bound (a := max (sclMinLow i.mode) ((total * lowPercent i.mode).tdiv 100))
      (n := 255) (le_max_of_le_right hlow.1) (max_le (by omega) (by omega))
      (max_lt (by omega) (by omega)) (by omega)
    rw [if_neg l2]
    set scll := toInt32 ((max (sclMinLow i.mode) ((total * lowPercent i.mode).tdiv 100)).tdiv tp)
    have hal := lt_of_le_of_lt (le_max_right _ _) l1
    rw [if_neg (bound (n := 255) (le_max_of_le_left m3.le) (max_le (by omega) (by omega))
      (max_lt (by omega) (by omega)) (by omega)).2.2,
      if_neg (bound (n := 15) m5.le (by omega) (by omega) (by omega)).2.2,
      if_neg (bound (n := 15) m7.le (by omega) (by omega) (by omega)).2.2]
  rcases tryFrom_cases i 16 0 with ⟨-, a⟩ | ⟨q, a, b, c, d, e⟩
  · exact absurd hok (a 15 (by omega) (by omega))
  · have ho := try_ok h0 (by omega) ⟨a, by simpa using b⟩ d
    refine ⟨tryPrescaler i q, _, _, _, _, _, ?_, d, fields_of ⟨a, by simpa using b⟩ ho⟩
    rw [calculateI2cTiming, if_neg h0.ne', c]

/-- The hypotheses hold for the settings in the unit test of the project: 64 MHz, 400 kHz, fast mode. -/
example : calculateI2cTiming ⟨64000000, 400000, .fast, 100, 10⟩ =
      some ⟨0, 0, 6, 0, 51, 108, 0x0060336c⟩ ∧
    TimingFields 0x0060336c 0 6 0 51 108 := by
  refine ⟨by decide +kernel, ?_⟩
  constructor <;> norm_num

/-- **C77**: the rise time of the lines, part of the input, is not taken into account (nor is the fall
time).  The reference manual asks for a set-up delay of at least the rise time plus the set-up time of the
mode.  At 64 MHz, 400 kHz in fast mode with the default rise time of 100 ns, the delay is 109 ns instead
of 200 ns. -/
theorem C77_setup_refuted : ∃ (i : I2cInput) (r : I2cResult) (presc scldel sdadel sclh scll : ℕ),
    i.peripheralHz = 64000000 ∧ i.i2cHz = 400000 ∧ i.mode = .fast ∧ i.riseNs = 100 ∧
    calculateI2cTiming i = some r ∧ r.error = 0 ∧
    TimingFields r.timingr presc scldel sdadel sclh scll ∧
    setupPs i.peripheralHz presc scldel < i.riseNs * 1000 + (busLimits i.mode).setup := by
  refine ⟨⟨64000000, 400000, .fast, 100, 10⟩, ⟨0, 0, 6, 0, 51, 108, 0x0060336c⟩, 0, 6, 0, 51, 108, rfl, rfl,
    rfl, rfl, by decide +kernel, rfl, by constructor <;> norm_num, ?_⟩
  norm_num [setupPs, clkPs, busLimits]

/-- **C77**: no result depends on the rise and fall times. -/
theorem C77_edges_ignored (hz f : ℤ) (m : I2cMode) (a b a' b' : ℤ) :
    calculateI2cTiming ⟨hz, f, m, a, b⟩ = calculateI2cTiming ⟨hz, f, m, a', b'⟩ := by
  have h : ∀ p, tryPrescaler ⟨hz, f, m, a, b⟩ p = tryPrescaler ⟨hz, f, m, a', b'⟩ p := fun p => rfl
  have h' : ∀ n p, tryFrom ⟨hz, f, m, a, b⟩ n p = tryFrom ⟨hz, f, m, a', b'⟩ n p := by
    intro n
    induction n with
    | zero => intro p; rfl
    | succ n ih => intro p; rw [tryFrom, tryFrom, h, ih]
  simp only [calculateI2cTiming, h']

/-- **C77**: with a larger prescaler the hold time is too short: the field is rounded down.  In standard
mode at 64 MHz and 20 kHz the data line changes 266 ns after the clock instead of 300 ns. -/
theorem C77_hold_refuted : ∃ (i : I2cInput) (r : I2cResult) (presc scldel sdadel sclh scll : ℕ),
    i.peripheralHz = 64000000 ∧ i.i2cHz = 20000 ∧ i.mode = .standard ∧
    calculateI2cTiming i = some r ∧ r.error = 0 ∧
    TimingFields r.timingr presc scldel sdadel sclh scll ∧
    holdPs i.peripheralHz presc sdadel < wantedHold i.mode := by
  refine ⟨⟨64000000, 20000, .standard, 100, 10⟩, ⟨0, 6, 2, 2, 210, 246, 6 * 2 ^ 28 + 2 * 2 ^ 20 + 2 * 2 ^ 16 +
    210 * 2 ^ 8 + 246⟩, 6, 2, 2, 210, 246, rfl, rfl, rfl, by decide +kernel, rfl, by constructor <;> norm_num, ?_⟩
  norm_num [holdPs, clkPs, wantedHold]

end Verif.Fw
