import Verif.Float.Approx
import Verif.Fw.TrajLimits
import Verif.Fw.ServoCalib
import Verif.Fw.CurrentLimits
import Mathlib.Analysis.SpecialFunctions.Log.Basic
import Mathlib.Analysis.Complex.ExponentialBounds
import Mathlib.Tactic.FieldSimp

/-!
# What the controller measures

Model of the filters, the conversion of currents, the limits that follow from the
hardware and the thermistors: `ExponentialFilter` (`fw/bldc_servo.cc` 244-265), the
scaling in `UpdateConfig` (483-523) and `ISR_CalculateCurrentState` (1132-1189),
`Interpolate` (75-77), `fw/thermistor.h`, `Drv8323::max_sense_V` (`fw/drv8323.cc`
200-205).

Property C86.
-/

namespace Verif.Fw.Measure

open Verif.Float Verif.Fw

variable {A : Ar}

/-! ## Filters -/

/-- `ExponentialFilter::operator()` (`fw/bldc_servo.cc` 252-258). -/
def filter (A : Ar) (alpha beta input filtered : Fl) : Fl :=
  if filtered.isNan then input else A.add (A.mul alpha input) (A.mul beta filtered)

/-- The constructor (lines 248-250): `alpha_` and `one_minus_alpha_`. -/
def gains (A : Ar) (rateHz period : Fl) : Fl × Fl :=
  let alpha := A.div (A.lit 1) (A.mul rateHz period)
  (alpha, A.sub (A.lit 1) alpha)

/-- The filter over a list of inputs. -/
def filterRun (A : Ar) (alpha beta : Fl) (y : Fl) (xs : List Fl) : Fl :=
  xs.foldl (fun y x => filter A alpha beta x y) y

/-- **C86.** After NaN the filter starts again with the next sample. -/
theorem C86_filter_restarts (alpha beta x : Fl) : filter A alpha beta x .nan = x := rfl

/-- **C86.** In exact arithmetic the filtered value never leaves the range of its
samples. -/
theorem C86_filter_range {a lo hi y : ℚ} (h0 : 0 ≤ a) (h1 : a ≤ 1) (xs : List ℚ)
    (hx : ∀ x ∈ xs, lo ≤ x ∧ x ≤ hi) (hy : lo ≤ y ∧ y ≤ hi) :
    ∃ z, filterRun .exact (.fin a) (.fin (1 - a)) (.fin y) (xs.map .fin) = .fin z ∧ lo ≤ z ∧ z ≤ hi := by
  induction xs generalizing y with
  | nil => exact ⟨y, rfl, hy⟩
  | cons x xs ih =>
    have hx0 := hx x (List.mem_cons_self ..)
    have e : filter .exact (.fin a) (.fin (1 - a)) (.fin x) (.fin y) = .fin (a * x + (1 - a) * y) := by
      simp [filter, Fl.isNan, Ar.mul, Ar.add]
    show ∃ z, filterRun .exact (.fin a) (.fin (1 - a))
      (filter .exact (.fin a) (.fin (1 - a)) (.fin x) (.fin y)) (xs.map .fin) = _ ∧ _
    rw [e]
    refine ih (fun x h => hx x (List.mem_cons_of_mem _ h)) ?_
    constructor <;> nlinarith

/-- One step with rounded gains. -/
theorem filter_step_err (hA : A.Law3) {a b x y M : ℚ} (ha : 0 ≤ a) (hb : 0 ≤ b)
    (hab : |a + b - 1| ≤ 1 / 8388608) (hx : |x| ≤ M) (hy : |y| ≤ M) (hM : M ≤ 2 ^ 100) :
    ∃ z, filter A (.fin a) (.fin b) (.fin x) (.fin y) = .fin z ∧
      |z - (x + b * (y - x))| ≤ M / 2097152 + 1 / 2 ^ 95 := by
  have hM0 : 0 ≤ M := (abs_nonneg x).trans hx
  have hab' := abs_le.mp hab
  have ha1 : a ≤ 2 := by linarith
  have hb1 : b ≤ 2 := by linarith
  have p127 : pow2 127 = 2 ^ 127 := by decide +kernel
  have h1 : |a * x| ≤ a * M := by rw [abs_mul, abs_of_nonneg ha]; exact mul_le_mul_of_nonneg_left hx ha
  have h2 : |b * y| ≤ b * M := by rw [abs_mul, abs_of_nonneg hb]; exact mul_le_mul_of_nonneg_left hy hb
  have haM : a * M ≤ 2 * M := mul_le_mul_of_nonneg_right ha1 hM0
  have hbM : b * M ≤ 2 * M := mul_le_mul_of_nonneg_right hb1 hM0
  have habM : a * M + b * M ≤ M + M / 8388608 := by nlinarith
  have big : (2 : ℚ) ^ 100 * 8 ≤ 2 ^ 127 := by norm_num
  have e1 : A.rnd (a * x) = .fin (A.rq (a * x)) := hA.toLaw2.rnd_fin (by rw [p127]; linarith)
  have e2 : A.rnd (b * y) = .fin (A.rq (b * y)) := hA.toLaw2.rnd_fin (by rw [p127]; linarith)
  have g1 := Apx.rq_err hA (a * x)
  have g2 := Apx.rq_err hA (b * y)
  generalize A.rq (a * x) = p at *
  generalize A.rq (b * y) = q at *
  have t0 : (0 : ℚ) < 1 / 2 ^ 98 := by positivity
  have t1 : (1 : ℚ) / 2 ^ 98 ≤ 1 := by norm_num
  have hp : |p - a * x| ≤ a * M / 16777216 + 1 / 2 ^ 98 := g1.trans (by linarith)
  have hq : |q - b * y| ≤ b * M / 16777216 + 1 / 2 ^ 98 := g2.trans (by linarith)
  have hpq : |p + q| ≤ M + M / 8388608 + (M + M / 8388608) / 16777216 + 2 * (1 / 2 ^ 98) := by
    have := abs_le.mp hp; have := abs_le.mp hq; have := abs_le.mp h1; have := abs_le.mp h2
    rw [abs_le]; constructor <;> linarith
  have e3 : A.rnd (p + q) = .fin (A.rq (p + q)) := hA.toLaw2.rnd_fin (by
    rw [p127]; refine hpq.trans ?_; linarith)
  have g3 := Apx.rq_err hA (p + q)
  refine ⟨A.rq (p + q), ?_, ?_⟩
  · show A.add (A.rnd (a * x)) (A.rnd (b * y)) = _
    rw [e1, e2, Ar.add_fin, e3]
  · generalize A.rq (p + q) = s at *
    have hd : a * x + b * y - (x + b * (y - x)) = (a + b - 1) * x := by ring
    have k3 : |a * x + b * y - (x + b * (y - x))| ≤ M / 8388608 := by
      rw [hd, abs_mul]
      calc |a + b - 1| * |x| ≤ 1 / 8388608 * M := mul_le_mul hab hx (abs_nonneg _) (by norm_num)
        _ = M / 8388608 := by ring
    have k4 : (1 : ℚ) / 2 ^ 95 = 8 * (1 / 2 ^ 98) := by norm_num
    rw [k4]
    have := abs_le.mp hp; have := abs_le.mp hq; have := abs_le.mp g3; have := abs_le.mp k3
    generalize (1 : ℚ) / 2 ^ 98 = t at *
    rw [abs_le]; constructor <;> linarith

theorem filter_step (hA : A.Law3) {a b x y M : ℚ} (ha : 0 ≤ a) (hb : 0 ≤ b)
    (hab : |a + b - 1| ≤ 1 / 8388608) (hx : |x| ≤ M) (hy : |y| ≤ M) (hM : M ≤ 2 ^ 100) :
    ∃ z, filter A (.fin a) (.fin b) (.fin x) (.fin y) = .fin z ∧
      |z - x| ≤ b * |y - x| + (M / 2097152 + 1 / 2 ^ 95) := by
  obtain ⟨z, e, h⟩ := filter_step_err hA ha hb hab hx hy hM
  refine ⟨z, e, ?_⟩
  have h1 := abs_add_le (z - (x + b * (y - x))) (b * (y - x))
  rw [abs_mul, abs_of_nonneg hb, show z - (x + b * (y - x)) + b * (y - x) = z - x by ring] at h1
  linarith

/-- **C86.** With rounding, a constant input is approached geometrically up to an error
proportional to 2^-21 times the time constant of the filter in samples. -/
theorem C86_filter_converges (hA : A.Law3) {a b x y M : ℚ} (ha : 0 ≤ a) (hb : 0 ≤ b) (hb1 : b < 1)
    (hab : |a + b - 1| ≤ 1 / 8388608) (hM0 : 0 ≤ M) (hM : M ≤ 2 ^ 100)
    (hr : |x| + |y - x| + (M / 2097152 + 1 / 2 ^ 95) / (1 - b) ≤ M) (n : ℕ) :
    ∃ z, filterRun A (.fin a) (.fin b) (.fin y) (List.replicate n (.fin x)) = .fin z ∧
      |z - x| ≤ b ^ n * |y - x| + (M / 2097152 + 1 / 2 ^ 95) / (1 - b) := by
  have hd0 : (0 : ℚ) ≤ M / 2097152 + 1 / 2 ^ 95 := by positivity
  have hfix : b * ((M / 2097152 + 1 / 2 ^ 95) / (1 - b)) + (M / 2097152 + 1 / 2 ^ 95) =
      (M / 2097152 + 1 / 2 ^ 95) / (1 - b) := by
    have : 1 - b ≠ 0 := by linarith
    field_simp
    ring
  have hE0 : 0 ≤ (M / 2097152 + 1 / 2 ^ 95) / (1 - b) := div_nonneg hd0 (by linarith)
  have step := fun (z : ℚ) (hz : |z| ≤ M) =>
    filter_step hA ha hb hab (x := x) (y := z) (M := M) (by linarith [abs_nonneg (y - x)]) hz hM
  generalize (M / 2097152 + 1 / 2 ^ 95) = δ at *
  generalize δ / (1 - b) = E at *
  induction n with
  | zero => exact ⟨y, rfl, by simpa using hE0⟩
  | succ n ih =>
    obtain ⟨z, e, hz⟩ := ih
    have hpow : b ^ n * |y - x| ≤ |y - x| := mul_le_of_le_one_left (abs_nonneg _) (pow_le_one₀ hb hb1.le)
    have hzM : |z| ≤ M := by
      have := abs_add_le x (z - x)
      rw [show x + (z - x) = z by ring] at this
      linarith
    obtain ⟨w, e2, hw⟩ := step z hzM
    refine ⟨w, ?_, ?_⟩
    · rw [List.replicate_succ', filterRun, List.foldl_append]
      show filter A (.fin a) (.fin b) (.fin x) (filterRun A _ _ _ _) = _
      rw [e, e2]
    · have h1 : b * |z - x| ≤ b * (b ^ n * |y - x| + E) := mul_le_mul_of_nonneg_left hz hb
      rw [pow_succ]
      have : b * (b ^ n * |y - x| + E) = b ^ n * b * |y - x| + b * E := by ring
      linarith

/-- The gains add up to 1 but for rounding. -/
theorem C86_gains (hA : A.Law3) {r p a : ℚ} (h : (gains A (.fin r) (.fin p)).1 = .fin a) (h0 : 0 ≤ a)
    (h1 : a ≤ 1) :
    ∃ b, (gains A (.fin r) (.fin p)).2 = .fin b ∧ 0 ≤ b ∧ b ≤ 1 ∧ |a + b - 1| ≤ 1 / 8388608 := by
  have e : (gains A (.fin r) (.fin p)).2 = A.rnd (1 - a) := by
    show A.sub (A.lit 1) (gains A (.fin r) (.fin p)).1 = _
    rw [h, show A.lit 1 = .fin 1 by simpa using hA.toLaw2.lit_int (n := 1) (by norm_num)]
    show A.rnd (1 + -a) = _
    rw [← sub_eq_add_neg]
  have p127 : pow2 127 = 2 ^ 127 := by decide +kernel
  have r1 : A.Rep 1 := by simpa using hA.toLaw2.rep_int (n := 1) (by norm_num)
  have e1 : A.rnd (1 - a) = .fin (A.rq (1 - a)) := hA.toLaw2.rnd_fin (by
    rw [p127, abs_le]; constructor <;> norm_num <;> linarith)
  refine ⟨A.rq (1 - a), by rw [e, e1], hA.toLaw.nonneg (by linarith), ?_, ?_⟩
  · have := hA.toLaw.rnd_le r1 (x := 1 - a) (by linarith)
    rw [e1] at this
    simpa using this
  · have := Apx.rq_err hA (1 - a)
    have h3 : |1 - a| ≤ 1 := by rw [abs_le]; constructor <;> linarith
    have h4 : (1 : ℚ) / 2 ^ 98 ≤ 1 / 16777216 := by norm_num
    have h5 : a + A.rq (1 - a) - 1 = A.rq (1 - a) - (1 - a) := by ring
    rw [h5]
    linarith

/-- The rate of the interrupt in which the filters run (lines 126 and 137). -/
def intRate (pwmRateHz : ℤ) : ℤ := if 30000 < pwmRateHz then pwmRateHz / 2 else pwmRateHz

/-- Specification: the gain of a filter with a time constant of `period` seconds that is
called `rate` times per second. -/
def Spec.gain (rate : ℤ) (period : ℚ) : ℚ := 1 / (rate * period)

/-- **C86.** Up to 30 kHz the filters have the time constants of the code.  Exact
arithmetic. -/
theorem C86_time_constant_partial {rate : ℤ} {period : ℚ} (h0 : 0 < rate) (h1 : rate ≤ 30000) (hp : 0 < period) :
    gains .exact (.fin rate) (.fin period) =
      (.fin (Spec.gain (intRate rate) period), .fin (1 - Spec.gain (intRate rate) period)) := by
  have hr : (rate : ℚ) ≠ 0 := by exact_mod_cast h0.ne'
  unfold gains intRate Spec.gain
  rw [if_neg (by omega)]
  simp [Ar.lit, Ar.div, Ar.mul, Ar.sub, Ar.add, Fl.neg, hr, hp.ne', sub_eq_add_neg]

/-- Above, the gain is half of that: the constructor gets the PWM rate, the interrupt runs
at half of it, so "1 ms" is 2 ms at 60 kHz. -/
theorem C86_time_constant_refuted :
    (gains .exact (.fin 60000) (.fin (1 / 1000))).1 = .fin (1 / 60) ∧
      Spec.gain (intRate 60000) (1 / 1000) = 1 / 30 := by
  constructor
  · decide +kernel
  · norm_num [Spec.gain, intRate]

/-- The slow filter of the bus voltage at 30 kHz, in binary32. -/
example : gains .single (.fin 30000) (.fin (1 / 2)) =
    (.fin (9162597 / 137438953472), .fin (8388049 / 8388608)) := by decide +kernel

example : ∃ z, filterRun .single (.fin (9162597 / 137438953472)) (.fin (8388049 / 8388608)) (.fin 30)
    (List.replicate 100000 (.fin 24)) = .fin z ∧ |z - 24| ≤
      (8388049 / 8388608) ^ 100000 * |30 - 24| + (31 / 2097152 + 1 / 2 ^ 95) / (1 - 8388049 / 8388608) :=
  C86_filter_converges Ar.single_law3 (by norm_num) (by norm_num) (by norm_num) (by norm_num [abs_le])
    (by norm_num) (by norm_num) (by norm_num) _

/-- The filtered bus voltage need not reach the voltage: coming from above, it stays at
24.0286 V for 24 V. -/
theorem C86_filter_stalls_refuted (n : ℕ) :
    filterRun .single (.fin (9162597 / 137438953472)) (.fin (8388049 / 8388608))
      (.fin (6298959 / 262144)) (List.replicate n (.fin 24)) = .fin (6298959 / 262144) := by
  induction n with
  | zero => rfl
  | succ n ih =>
    rw [List.replicate_succ]
    show filterRun _ _ _ (filter _ _ _ _ _) _ = _
    rw [show filter .single (.fin (9162597 / 137438953472)) (.fin (8388049 / 8388608)) (.fin 24)
      (.fin (6298959 / 262144)) = .fin (6298959 / 262144) by decide +kernel]
    exact ih

/-- One infinite sample is never forgotten. -/
theorem C86_filter_infinite_refuted {a b : ℚ} (hb : 0 < b) (xs : List ℚ) :
    filterRun .exact (.fin a) (.fin b) (.inf false) (xs.map .fin) = .inf false := by
  induction xs with
  | nil => rfl
  | cons x xs ih =>
    show filterRun _ _ _ (filter _ _ _ _ _) _ = _
    rw [show filter .exact (.fin a) (.fin b) (.fin x) (.inf false) = .inf false by
      simp [filter, Fl.isNan, Ar.mul, Ar.add, Ar.infMul, hb.ne', not_lt.mpr hb.le]]
    exact ih

/-! ## Currents -/

/-- `adc_scale_` (lines 514-516); `i_gain` is the configured gain of the amplifier. -/
def adcScale (A : Ar) (ohm gain : Fl) : Fl :=
  A.div (A.lit (33 / 10)) (A.mul (A.mul (A.lit 4096) ohm) gain)

/-- `cur1_A` and its like (lines 1133-1135); the difference of two 16 bit values is an
`int`. -/
def current (A : Ar) (raw offset : ℕ) (scale : Fl) : Fl := A.mul (A.lit ((raw : ℚ) - offset)) scale

/-- `Drv8323::max_sense_V` (`fw/drv8323.cc` 200-205). -/
def maxSenseV (A : Ar) (gain : Fl) : Fl :=
  A.div (A.mul (A.lit (1 / 2)) (A.sub (A.lit (33 / 10)) (A.lit (1 / 2)))) gain

/-- The maximum current after `UpdateConfig` (lines 493-500). -/
def maxCurrent (A : Ar) (configured ohm gain : Fl) : Fl :=
  Fl.min configured (A.div (A.mul (A.lit (95 / 100)) (maxSenseV A gain)) ohm)

/-- Specification: the reading of a 12 bit converter with 3.3 V that belongs to a current
`i` through the shunt, `offset` being the reading for no current. -/
def Spec.reading (offset : ℕ) (ohm gain i : ℚ) : ℚ := offset + i * ohm * gain / (33 / 10) * 4096

/-- **C86.** The reading at no current gives exactly 0, larger readings positive and
smaller readings negative currents. -/
theorem C86_current_sign (hA : A.Law2) {raw offset : ℕ} {s : ℚ} (hs : 0 < s) (hr : raw < 65536)
    (ho : offset < 65536) :
    (raw = offset → current A raw offset (.fin s) = .fin 0) ∧
    (offset ≤ raw → (Fl.fin 0).Le (current A raw offset (.fin s))) ∧
    (raw ≤ offset → (current A raw offset (.fin s)).Le (.fin 0)) := by
  have e : current A raw offset (.fin s) = A.rnd (((raw : ℚ) - offset) * s) := by
    unfold current
    have := (hA.rep_int (n := (raw : ℤ) - offset) (by rw [abs_le]; constructor <;> omega)).rnd
    push_cast at this
    rw [Ar.lit, this]
    rfl
  rw [e]
  refine ⟨fun h => ?_, fun h => ?_, fun h => ?_⟩
  · subst h; rw [sub_self, zero_mul]; exact hA.rep_zero.rnd
  · have : (offset : ℚ) ≤ raw := by exact_mod_cast h
    exact hA.toLaw.le_rnd hA.toLaw.rep_zero (mul_nonneg (by linarith) hs.le)
  · have : (raw : ℚ) ≤ offset := by exact_mod_cast h
    exact hA.toLaw.rnd_le hA.toLaw.rep_zero (mul_nonpos_of_nonpos_of_nonneg (by linarith) hs.le)

/-- **C86.** A reading that is right up to half a count gives the current up to half the
scale.  Exact arithmetic. -/
theorem C86_current_partial {raw offset : ℕ} {ohm gain i : ℚ} (ho : 0 < ohm) (hg : 0 < gain)
    (h : |raw - Spec.reading offset ohm gain i| ≤ 1 / 2) :
    ∃ s m, adcScale .exact (.fin ohm) (.fin gain) = .fin s ∧
      current .exact raw offset (.fin s) = .fin m ∧ |m - i| ≤ s / 2 := by
  have hk : (0 : ℚ) < 4096 * ohm * gain := by positivity
  refine ⟨33 / 10 / (4096 * ohm * gain), ((raw : ℚ) - offset) * (33 / 10 / (4096 * ohm * gain)), ?_, ?_, ?_⟩
  · simp [adcScale, Ar.lit, Ar.mul, Ar.div, ho.ne', hg.ne']
  · simp [current, Ar.lit, Ar.mul]
  · have e : ((raw : ℚ) - offset) * (33 / 10 / (4096 * ohm * gain)) - i =
        (raw - Spec.reading offset ohm gain i) * (33 / 10 / (4096 * ohm * gain)) := by
      unfold Spec.reading; field_simp; ring
    rw [e, abs_mul, abs_of_pos (div_pos (by norm_num) hk)]
    have : (0 : ℚ) < 33 / 10 / (4096 * ohm * gain) := div_pos (by norm_num) hk
    nlinarith

/-- **C86.** No current up to the maximum drives the converter to its end, for every
offset that the calibration accepts (`Offset`, C32).  Exact arithmetic. -/
theorem C86_sensable_partial {samples : List ℕ} {offset : ℕ} (h : Offset samples offset)
    {ohm gain i I : ℚ} {configured : Fl} (ho : 0 < ohm) (hg : 0 < gain)
    (hI : maxCurrent .exact configured (.fin ohm) (.fin gain) = .fin I) (hi : |i| ≤ I) :
    197 < Spec.reading offset ohm gain i ∧ Spec.reading offset ohm gain i < 3899 := by
  obtain ⟨_, h1, h2⟩ := h
  have h1' : (1848 : ℚ) ≤ offset := by exact_mod_cast h1
  have h2' : (offset : ℚ) ≤ 2248 := by exact_mod_cast h2
  have hv : Ar.exact.div (Ar.exact.mul (Ar.exact.lit (95 / 100)) (maxSenseV .exact (.fin gain))) (.fin ohm) =
      .fin (133 / 100 / gain / ohm) := by
    simp [maxSenseV, Ar.lit, Ar.mul, Ar.div, Ar.sub, Ar.add, Fl.neg, ho.ne', hg.ne']
    ring
  have hle : I ≤ 133 / 100 / gain / ohm := by
    unfold maxCurrent at hI
    rw [hv] at hI
    unfold Fl.min at hI
    split at hI
    · injection hI with hI; linarith
    · rename_i hlt
      rw [hI] at hlt
      simpa using hlt
  have hb : |i * ohm * gain| ≤ 133 / 100 := by
    rw [abs_mul, abs_mul, abs_of_pos ho, abs_of_pos hg]
    calc |i| * ohm * gain ≤ 133 / 100 / gain / ohm * ohm * gain := by
          have := hi.trans hle
          have h3 := mul_le_mul_of_nonneg_right this ho.le
          exact mul_le_mul_of_nonneg_right h3 hg.le
      _ = 133 / 100 := by field_simp
  rw [abs_le] at hb
  unfold Spec.reading
  constructor <;> linarith

example : maxCurrent .exact (.fin 100) (.fin (1 / 2000)) (.fin 20) = .fin 100 ∧
    maxCurrent .exact (.fin 200) (.fin (1 / 2000)) (.fin 20) = .fin 133 := by decide +kernel

example : 197 < Spec.reading 2048 (1 / 2000) 20 (-133) ∧ Spec.reading 2048 (1 / 2000) 20 (-133) < 3899 :=
  C86_sensable_partial (samples := List.replicate 256 2048) (configured := .fin 200) (I := 133)
    (by unfold Offset; rw [List.sum_replicate]; norm_num) (by norm_num) (by norm_num) (by decide +kernel) (by norm_num)

/-- 10 A through 0.5 mΩ with gain 20: 2172 counts. -/
example : ∃ s m, adcScale .exact (.fin (1 / 2000)) (.fin 20) = .fin s ∧
    current .exact 2172 2048 (.fin s) = .fin m ∧ |m - 10| ≤ s / 2 :=
  C86_current_partial (by norm_num) (by norm_num) (by norm_num [Spec.reading, abs_le])

/-- A negative shunt resistance gives a negative maximum current. -/
theorem C86_negative_shunt_refuted :
    maxCurrent .exact (.fin 100) (.fin (-1 / 2000)) (.fin 20) = .fin (-133) := by decide +kernel

/-- A maximum that is not a number is no limit. -/
theorem C86_nan_current_refuted (ohm gain : Fl) : maxCurrent A .nan ohm gain = .nan := by
  simp [maxCurrent, Fl.min]

/-! ## Power -/

/-- The power profile of a board (`fw/moteus_hw.h` 85-88). -/
structure Board where
  vLow : ℚ
  pLow : ℚ
  vHigh : ℚ
  pHigh : ℚ

/-- `fw/moteus_hw.cc` 310-314, 355-359, 363-367. -/
def r4 : Board := ⟨30, 900, 38, 400⟩
def n1 : Board := ⟨36, 2000, 44, 1000⟩
def c1 : Board := ⟨28, 250, 41, 150⟩

/-- `Interpolate` (`fw/bldc_servo.cc` 75-77). -/
def interpolate (A : Ar) (x xl xh vl vh : Fl) : Fl :=
  A.add (A.mul (A.div (A.sub x xl) (A.sub xh xl)) (A.sub vh vl)) vl

/-- `board_power_limit` (lines 1178-1184). -/
def boardPower (A : Ar) (b : Board) (busV derate : Fl) : Fl :=
  A.mul (Fl.limit (interpolate A busV (.fin b.vLow) (.fin b.vHigh) (.fin b.pLow) (.fin b.pHigh))
    (.fin b.pHigh) (.fin b.pLow)) derate

/-- `max_power_W` (lines 1173-1189). -/
def maxPower (A : Ar) (b : Board) (override : Bool) (configured busV derate : Fl) : Fl :=
  if override && configured.isFinite then configured
  else if !configured.isFinite then boardPower A b busV derate
  else Fl.min configured (boardPower A b busV derate)

/-- Specification: the table of docs/reference.md 2457-2470. -/
def Spec.profile (b : Board) (v rate : ℚ) : ℚ :=
  (if v ≤ b.vLow then b.pLow
   else if b.vHigh ≤ v then b.pHigh
   else b.pLow - (b.pLow - b.pHigh) * ((v - b.vLow) / (b.vHigh - b.vLow))) * (rate / 30000)

/-- **C86.** The power limit of the board is the documented one.  Exact arithmetic. -/
theorem C86_profile_partial (b : Board) (hv : b.vLow < b.vHigh) (hp : b.pHigh ≤ b.pLow) (v rate : ℚ) :
    boardPower .exact b (.fin v) (.fin (rate / 30000)) = .fin (Spec.profile b v rate) := by
  have hd : b.vHigh - b.vLow ≠ 0 := by linarith
  have hd' : b.vHigh + -b.vLow ≠ 0 := by linarith
  have e : interpolate .exact (.fin v) (.fin b.vLow) (.fin b.vHigh) (.fin b.pLow) (.fin b.pHigh) =
      .fin ((v - b.vLow) / (b.vHigh - b.vLow) * (b.pHigh - b.pLow) + b.pLow) := by
    simp [interpolate, Ar.sub, Ar.add, Ar.mul, Ar.div, Fl.neg, hd', sub_eq_add_neg]
  unfold boardPower
  rw [e, Fl.limit_fin]
  have hpos : 0 < b.vHigh - b.vLow := by linarith
  show Fl.fin _ = Fl.fin _
  congr 1
  simp only [Ar.exact, id]
  unfold Spec.profile
  congr 1
  by_cases h1 : v ≤ b.vLow
  · rw [if_pos h1]
    have : (v - b.vLow) / (b.vHigh - b.vLow) ≤ 0 := div_nonpos_of_nonpos_of_nonneg (by linarith) hpos.le
    rw [if_neg (by nlinarith)]
    split
    · rfl
    · nlinarith
  · rw [if_neg h1]
    by_cases h2 : b.vHigh ≤ v
    · rw [if_pos h2]
      have : 1 ≤ (v - b.vLow) / (b.vHigh - b.vLow) := by rw [le_div_iff₀ hpos]; linarith
      split
      · rfl
      · rw [if_neg (by nlinarith)]; nlinarith
    · rw [if_neg h2]
      have k1 : 0 ≤ (v - b.vLow) / (b.vHigh - b.vLow) := div_nonneg (by linarith) hpos.le
      have k2 : (v - b.vLow) / (b.vHigh - b.vLow) ≤ 1 := by rw [div_le_one hpos]; linarith
      rw [if_neg (by nlinarith), if_neg (by nlinarith)]
      ring

/-- **C86.** The three boards have the documented table (`docs/reference.md` 2461-2465):
at 30000 Hz full power up to the first voltage, the second power from the second
voltage on; proportional to the PWM rate. -/
theorem C86_documented (v rate : ℚ) :
    let p := fun b => boardPower .exact b (.fin v) (.fin (rate / 30000))
    (v ≤ 30 → p r4 = .fin (900 * rate / 30000)) ∧ (38 ≤ v → p r4 = .fin (400 * rate / 30000)) ∧
    (v ≤ 28 → p c1 = .fin (250 * rate / 30000)) ∧ (41 ≤ v → p c1 = .fin (150 * rate / 30000)) ∧
    (v ≤ 36 → p n1 = .fin (2000 * rate / 30000)) ∧ (44 ≤ v → p n1 = .fin (1000 * rate / 30000)) := by
  have h4 := C86_profile_partial r4 (by decide +kernel) (by decide +kernel) v rate
  have hc := C86_profile_partial c1 (by decide +kernel) (by decide +kernel) v rate
  have hn := C86_profile_partial n1 (by decide +kernel) (by decide +kernel) v rate
  dsimp only
  rw [h4, hc, hn]
  have lo : ∀ b : Board, v ≤ b.vLow → Spec.profile b v rate = b.pLow * rate / 30000 := by
    intro b h
    unfold Spec.profile
    rw [if_pos h]
    ring
  have hi : ∀ b : Board, b.vLow < b.vHigh → b.vHigh ≤ v → Spec.profile b v rate = b.pHigh * rate / 30000 := by
    intro b h0 h
    unfold Spec.profile
    rw [if_neg (by linarith), if_pos h]
    ring
  refine ⟨fun h => ?_, fun h => ?_, fun h => ?_, fun h => ?_, fun h => ?_, fun h => ?_⟩
  · rw [lo r4 h]; rfl
  · rw [hi r4 (by decide +kernel) h]; rfl
  · rw [lo c1 h]; rfl
  · rw [hi c1 (by decide +kernel) h]; rfl
  · rw [lo n1 h]; rfl
  · rw [hi n1 (by decide +kernel) h]; rfl

example : boardPower .exact r4 (.fin 34) (.fin (15000 / 30000)) = .fin 325 := by decide +kernel

theorem add_fin_ne_nan {x : Fl} (q : ℚ) (h : x ≠ .nan) : A.add x (.fin q) ≠ .nan := by
  rcases x with _ | s | a
  · exact absurd rfl h
  · simp [Ar.add]
  · exact Ar.rnd_ne_nan _

theorem mul_fin_ne_nan {x : Fl} {q : ℚ} (hq : q ≠ 0) (h : x ≠ .nan) : A.mul x (.fin q) ≠ .nan := by
  rcases x with _ | s | a
  · exact absurd rfl h
  · simp [Ar.mul, Ar.infMul, hq]
  · exact Ar.rnd_ne_nan _

theorem div_fin_ne_nan {x : Fl} {q : ℚ} (hq : q ≠ 0) (h : x ≠ .nan) : A.div x (.fin q) ≠ .nan := by
  rcases x with _ | s | a
  · exact absurd rfl h
  · simp [Ar.div]
  · simp only [Ar.div, hq, if_false]; exact Ar.rnd_ne_nan _

/-- **C86.** Whatever the voltage, the power limit of the board lies between its two
powers times the rate factor, also with rounding. -/
theorem C86_board_range (hA : A.Law) {b : Board} {v d dv dp : ℚ} (hd : 0 ≤ d)
    (hv : A.sub (.fin b.vHigh) (.fin b.vLow) = .fin dv) (hv0 : dv ≠ 0)
    (hp : A.sub (.fin b.pHigh) (.fin b.pLow) = .fin dp) (hp0 : dp ≠ 0) (hpp : b.pHigh ≤ b.pLow) :
    (A.rnd (b.pHigh * d)).Le (boardPower A b (.fin v) (.fin d)) ∧
    (boardPower A b (.fin v) (.fin d)).Le (A.rnd (b.pLow * d)) := by
  have hn : interpolate A (.fin v) (.fin b.vLow) (.fin b.vHigh) (.fin b.pLow) (.fin b.pHigh) ≠ .nan := by
    unfold interpolate
    rw [hv, hp]
    exact add_fin_ne_nan _ (mul_fin_ne_nan hp0 (div_fin_ne_nan hv0 (Ar.rnd_ne_nan _)))
  obtain ⟨h1, h2⟩ := Fl.limit_mem (a := interpolate A (.fin v) (.fin b.vLow) (.fin b.vHigh) (.fin b.pLow)
    (.fin b.pHigh)) (lo := .fin b.pHigh) (hi := .fin b.pLow) (by simpa using hpp) hn
  unfold boardPower
  generalize Fl.limit _ _ _ = l at h1 h2
  rcases l with _ | ⟨_ | _⟩ | l
  · exact absurd rfl h1.not_nan.2
  · simp [Fl.Le, Fl.ble] at h2
  · simp [Fl.Le, Fl.ble] at h1
  · have h1 : b.pHigh ≤ l := by simpa using h1
    have h2 : l ≤ b.pLow := by simpa using h2
    exact ⟨hA.rnd_mono (mul_le_mul_of_nonneg_right h1 hd), hA.rnd_mono (mul_le_mul_of_nonneg_right h2 hd)⟩

example (v : ℚ) : (Ar.single.rnd (r4.pHigh * (1 / 2))).Le (boardPower .single r4 (.fin v) (.fin (1 / 2))) ∧
    (boardPower .single r4 (.fin v) (.fin (1 / 2))).Le (Ar.single.rnd (r4.pLow * (1 / 2))) :=
  C86_board_range Ar.single_law (dv := 8) (dp := -500) (by norm_num) (by decide +kernel) (by norm_num)
    (by decide +kernel) (by norm_num) (by decide +kernel)

/-- **C86.** A finite configured power is an upper limit; it replaces that of the board
only with the override, and a limit that is not finite leaves that of the board. -/
theorem C86_max_power (b : Board) (configured busV derate : Fl) (hn : boardPower A b busV derate ≠ .nan) :
    (configured.isFinite = true → maxPower A b true configured busV derate = configured) ∧
    (configured.isFinite = true → (maxPower A b false configured busV derate).Le configured) ∧
    (maxPower A b false configured busV derate).Le (boardPower A b busV derate) ∧
    (configured.isFinite = false → ∀ o, maxPower A b o configured busV derate = boardPower A b busV derate) := by
  unfold maxPower
  generalize boardPower A b busV derate = p at *
  have hm : configured.isFinite = true →
      (Fl.min configured p).Le configured ∧ (Fl.min configured p).Le p := by
    intro hf
    have hc : configured ≠ .nan := by rintro rfl; simp [Fl.isFinite] at hf
    unfold Fl.min
    split
    · rename_i h; exact ⟨Fl.Le_of_blt h, Fl.Le.refl hn⟩
    · rename_i h
      rw [Bool.not_eq_true, Fl.not_blt hn hc] at h
      exact ⟨Fl.Le.refl hc, h⟩
  refine ⟨fun h => by simp [h], fun h => ?_, ?_, fun h o => by simp [h]⟩
  · simpa [h] using (hm h).1
  · cases h : configured.isFinite
    · simpa using Fl.Le.refl hn
    · simpa using (hm h).2

/-- A negative configured power is a negative limit. -/
theorem C86_negative_power_refuted : maxPower .single r4 false (.fin (-1)) (.fin 24) (.fin 1) = .fin (-1) := by
  decide +kernel

/-! ## Maximum velocity of the motor -/

/-- `v_per_hz_` (line 512); `0.5f * 60.0f` is the constant 30. -/
def vPerHz (A : Ar) (kv : Fl) : Fl := if kv.beq (.fin 0) then .fin 0 else A.div (A.lit 30) kv

/-- `status_.motor_max_velocity` (lines 1169-1171). -/
def motorMaxVelocity (A : Ar) (ratio busV kv : Fl) : Fl :=
  A.div (A.mul (A.mul (A.mul ratio (A.lit (87 / 100))) (A.lit (1 / 2))) busV) (vPerHz A kv)

/-- Not below 0; NaN counts as such. -/
def NotNeg (x : Fl) : Prop := x.blt (.fin 0) = false

theorem notNeg_rnd (hA : A.Law) {x : ℚ} (h : 0 ≤ x) : NotNeg (A.rnd x) := by
  have := hA.le_rnd hA.rep_zero h
  unfold NotNeg
  rw [Fl.not_blt (Ar.rnd_ne_nan _) (by simp)]
  exact this

theorem notNeg_fin {q : ℚ} : NotNeg (.fin q) ↔ 0 ≤ q := by simp [NotNeg]

theorem notNeg_cases {x : Fl} (h : NotNeg x) : x = .nan ∨ x = .inf false ∨ ∃ q, x = .fin q ∧ 0 ≤ q := by
  rcases x with _ | ⟨_ | _⟩ | q
  · exact .inl rfl
  · exact .inr (.inl rfl)
  · simp [NotNeg, Fl.blt, Fl.ble] at h
  · exact .inr (.inr ⟨q, rfl, notNeg_fin.1 h⟩)

theorem notNeg_inf : NotNeg (.inf false) := by simp [NotNeg, Fl.blt, Fl.ble]

theorem notNeg_nan : NotNeg .nan := by simp [NotNeg]

theorem notNeg_infMul {q : ℚ} (h : 0 ≤ q) : NotNeg (Ar.infMul false q) := by
  unfold Ar.infMul
  split
  · exact notNeg_nan
  · rw [decide_eq_false (not_lt.2 h)]; exact notNeg_inf

theorem notNeg_mul (hA : A.Law) {x y : Fl} (hx : NotNeg x) (hy : NotNeg y) : NotNeg (A.mul x y) := by
  rcases notNeg_cases hx with rfl | rfl | ⟨x, rfl, px⟩ <;>
    rcases notNeg_cases hy with rfl | rfl | ⟨y, rfl, py⟩
  any_goals exact notNeg_nan
  · exact notNeg_infMul py
  · exact notNeg_infMul px
  · exact notNeg_rnd hA (mul_nonneg px py)

theorem notNeg_div (hA : A.Law) {x y : Fl} (hx : NotNeg x) (hy : NotNeg y) : NotNeg (A.div x y) := by
  rcases notNeg_cases hx with rfl | rfl | ⟨x, rfl, px⟩ <;>
    rcases notNeg_cases hy with rfl | rfl | ⟨y, rfl, py⟩
  any_goals exact notNeg_nan
  · simp only [Ar.div, decide_eq_false (not_lt.2 py)]; exact notNeg_inf
  · simp only [Ar.div]
    split
    · split
      · exact notNeg_nan
      · rw [decide_eq_false (not_lt.2 px)]; exact notNeg_inf
    · exact notNeg_rnd hA (div_nonneg px py)

/-- **C86.** The maximum velocity of the motor is never negative if neither the voltage
nor Kv is; this is what the limits of the trajectory need (C36, C84). -/
theorem C86_motor_velocity (hA : A.Law) {ratio busV kv : Fl} (hr : NotNeg ratio) (hb : NotNeg busV)
    (hk : NotNeg kv) : NotNeg (motorMaxVelocity A ratio busV kv) := by
  refine notNeg_div hA (notNeg_mul hA (notNeg_mul hA (notNeg_mul hA hr (notNeg_rnd hA (by norm_num)))
    (notNeg_rnd hA (by norm_num))) hb) ?_
  unfold vPerHz
  split
  · simp [NotNeg]
  · exact notNeg_div hA (notNeg_rnd hA (by norm_num)) hk

/-- **C86.** Its value: 87 % of the speed at which the back EMF, at Kv, takes half of the
voltage times the ratio.  Exact arithmetic. -/
theorem C86_motor_velocity_value_partial {ratio busV kv : ℚ} (hk : kv ≠ 0) :
    motorMaxVelocity .exact (.fin ratio) (.fin busV) (.fin kv) =
      .fin (87 / 100 * (ratio * busV * kv / 60)) := by
  have : (Fl.fin kv).beq (.fin 0) = false := by
    rw [← Bool.not_eq_true, Fl.beq_fin]; simpa using hk
  simp [motorMaxVelocity, vPerHz, this, Ar.div, Ar.mul, Ar.lit, hk]
  field_simp
  ring

/-- Without Kv there is no limit. -/
example : motorMaxVelocity .single (.fin (15 / 16)) (.fin 24) (.fin 0) = .inf false := by decide +kernel

/-- A negative Kv gives a negative maximum. -/
theorem C86_negative_kv_refuted :
    motorMaxVelocity .exact (.fin 1) (.fin 24) (.fin (-300)) = .fin (-522 / 5) := by decide +kernel

/-- **C86.** The filtered voltage stays finite and not negative as long as the samples are
such, with rounding. -/
theorem C86_filter_bounded (hA : A.Law3) {a b X M y : ℚ} (ha : 0 ≤ a) (hb : 0 ≤ b)
    (hab : |a + b - 1| ≤ 1 / 8388608) (hb1 : b ≤ 1) (hM : M ≤ 2 ^ 100)
    (hX : X ≤ M) (hr : (1 - b) * X + b * M + (M / 2097152 + 1 / 2 ^ 95) ≤ M) (xs : List ℚ)
    (hx : ∀ x ∈ xs, 0 ≤ x ∧ x ≤ X) (hy : 0 ≤ y ∧ y ≤ M) :
    ∃ z, filterRun A (.fin a) (.fin b) (.fin y) (xs.map .fin) = .fin z ∧ 0 ≤ z ∧ z ≤ M := by
  induction xs generalizing y with
  | nil => exact ⟨y, rfl, hy⟩
  | cons x xs ih =>
    obtain ⟨x0, x1⟩ := hx x (List.mem_cons_self ..)
    have hM0 : 0 ≤ M := hy.1.trans hy.2
    have hbM : 0 ≤ b * M := mul_nonneg hb hM0
    have ht : (0 : ℚ) ≤ 1 / 2 ^ 95 := by positivity
    have hMM : 0 ≤ M / 2097152 := by positivity
    obtain ⟨z, e, hz⟩ := filter_step_err hA ha hb hab (x := x) (y := y) (M := M)
      (by rw [abs_of_nonneg x0]; linarith) (by rw [abs_of_nonneg hy.1]; exact hy.2) hM
    have z0 : 0 ≤ z := by
      have h1 : NotNeg (A.mul (.fin a) (.fin x)) := notNeg_mul hA.toLaw (notNeg_fin.2 ha) (notNeg_fin.2 x0)
      have h2 : NotNeg (A.mul (.fin b) (.fin y)) := notNeg_mul hA.toLaw (notNeg_fin.2 hb) (notNeg_fin.2 hy.1)
      have e' : A.add (A.mul (.fin a) (.fin x)) (A.mul (.fin b) (.fin y)) = .fin z := e
      generalize A.mul (.fin a) (.fin x) = u at *
      generalize A.mul (.fin b) (.fin y) = w at *
      rcases notNeg_cases h1 with rfl | rfl | ⟨u, rfl, p1⟩ <;>
        rcases notNeg_cases h2 with rfl | rfl | ⟨w, rfl, p2⟩
      all_goals try (simp [Ar.add] at e'; done)
      have := notNeg_rnd hA.toLaw (add_nonneg p1 p2)
      rw [← Ar.add_fin, e'] at this
      exact notNeg_fin.1 this
    have z1 : z ≤ M := by
      have h1 := (abs_le.1 hz).2
      have h2 : (1 - b) * x ≤ (1 - b) * X := mul_le_mul_of_nonneg_left x1 (by linarith)
      have h3 : b * y ≤ b * M := mul_le_mul_of_nonneg_left hy.2 hb
      linarith
    show ∃ z, filterRun A (.fin a) (.fin b) (filter A (.fin a) (.fin b) (.fin x) (.fin y)) (xs.map .fin) = _ ∧ _
    rw [e]
    exact ih (fun x h => hx x (List.mem_cons_of_mem _ h)) ⟨z0, z1⟩

/-- The fast filter at 30 kHz, for voltages up to 80 V. -/
example (xs : List ℚ) (hx : ∀ x ∈ xs, 0 ≤ x ∧ x ≤ 80) :
    ∃ z, filterRun .single (.fin (9162596 / 274877906944 * 1000)) (.fin (1 - 9162596 / 274877906944 * 1000))
      (.fin 24) (xs.map .fin) = .fin z ∧ 0 ≤ z ∧ z ≤ 81 :=
  C86_filter_bounded Ar.single_law3 (by norm_num) (by norm_num) (by norm_num) (by norm_num)
    (by norm_num) (by norm_num) (by norm_num) xs hx (by norm_num)

/-! ## Thermistors -/

/-- The index into the table (`fw/thermistor.h` 35-38). -/
def index (raw : ℕ) : ℕ := max 1 (min (32 - 2) (raw * 32 / 4096))

/-- `MakeTable` (lines 48-57), over the reals because of the logarithm. -/
noncomputable def tableValue (ohm count : ℝ) : ℝ :=
  let v := 33 / 10 * count / 4096
  let rt := 33 / 10 * 10000 / v - 10000
  1 / (1 / (27315 / 100 + 25) + 1 / 4050 * Real.log (rt / ohm)) - 27315 / 100

/-- The table (lines 26-30). -/
noncomputable def table (ohm : ℝ) (i : ℕ) : ℝ := tableValue ohm ((i * 4096 / 32 : ℕ) : ℝ)

/-- `Calculate` (lines 32-45), over the reals. -/
noncomputable def calculate (ohm : ℝ) (raw : ℕ) : ℝ :=
  let offset := index raw
  let thisValue := offset * 4096 / 32
  let nextValue := (offset + 1) * 4096 / 32
  let temp1 := table ohm offset
  let temp2 := table ohm (offset + 1)
  temp1 + (temp2 - temp1) * ((raw : ℝ) - thisValue) / ((nextValue : ℝ) - thisValue)

/-- Specification: resistance of the thermistor at `T` kelvin, `ohm` being that at 25 °C. -/
noncomputable def Spec.resistance (ohm T : ℝ) : ℝ :=
  ohm * Real.exp (4050 * (1 / T - 1 / (29815 / 100)))

/-- Specification: the converter measures the 10 kΩ resistor below the thermistor. -/
noncomputable def Spec.count (ohm T : ℝ) : ℝ := 4096 * 10000 / (10000 + Spec.resistance ohm T)

/-- **C86.** Every reading selects two entries of the table. -/
theorem C86_thermistor_index (raw : ℕ) : 1 ≤ index raw ∧ index raw + 1 < 32 := by
  unfold index; omega

/-- **C86.** The entry of the table for the count that a thermistor of the configured
resistance with B = 4050 K gives is the temperature in °C. -/
theorem C86_thermistor_table {ohm T : ℝ} (ho : 0 < ohm) (hT : 0 < T) :
    tableValue ohm (Spec.count ohm T) = T - 27315 / 100 := by
  have hR : 0 < Spec.resistance ohm T := mul_pos ho (Real.exp_pos _)
  unfold tableValue Spec.count
  have e : 33 / 10 * 10000 / (33 / 10 * (4096 * 10000 / (10000 + Spec.resistance ohm T)) / 4096) - 10000 =
      Spec.resistance ohm T := by field_simp; ring
  simp only [e]
  have e2 : Spec.resistance ohm T / ohm = Real.exp (4050 * (1 / T - 1 / (29815 / 100))) := by
    unfold Spec.resistance; field_simp
  rw [e2, Real.log_exp]
  have : 1 / (27315 / 100 + 25 : ℝ) + 1 / 4050 * (4050 * (1 / T - 1 / (29815 / 100))) = 1 / T := by
    norm_num; ring
  rw [this, one_div_one_div]

/-- Thermistors up to 100 MΩ: no pole of the formula inside the table. -/
theorem tableValue_lt {ohm c d : ℝ} (ho : 0 < ohm) (ho2 : ohm ≤ 10 ^ 8) (hc : 0 < c) (hcd : c < d)
    (hd : d ≤ 3968) : tableValue ohm c < tableValue ohm d := by
  have hd0 : 0 < d := hc.trans hcd
  have e : ∀ x : ℝ, 0 < x → 33 / 10 * 10000 / (33 / 10 * x / 4096) - 10000 = 10000 * (4096 - x) / x := by
    intro x hx; field_simp
  unfold tableValue
  simp only [e c hc, e d hd0]
  have hrd : 0 < 10000 * (4096 - d) / d / ohm := div_pos (div_pos (by linarith) hd0) ho
  have hlt : 10000 * (4096 - d) / d / ohm < 10000 * (4096 - c) / c / ohm := by
    apply div_lt_div_of_pos_right _ ho
    rw [div_lt_div_iff₀ hd0 hc]
    nlinarith
  have hlog := Real.log_lt_log hrd hlt
  have hge : (1 : ℝ) / 2 ^ 19 ≤ 10000 * (4096 - d) / d / ohm := by
    rw [div_div, div_le_div_iff₀ (by norm_num) (mul_pos hd0 ho)]
    have : d * ohm ≤ 3968 * 10 ^ 8 := mul_le_mul hd ho2 ho.le (by norm_num)
    nlinarith
  have hlg : -(19 * 0.6931471808) < Real.log (10000 * (4096 - d) / d / ohm) := by
    have h1 := Real.log_le_log (by norm_num) hge
    rw [one_div, Real.log_inv, Real.log_pow] at h1
    have h2 := Real.log_two_lt_d9
    push_cast at h1
    linarith
  have hpos : 0 < 1 / (27315 / 100 + 25 : ℝ) + 1 / 4050 * Real.log (10000 * (4096 - d) / d / ohm) := by
    norm_num; linarith
  have := one_div_lt_one_div_of_lt hpos (show
    1 / (27315 / 100 + 25 : ℝ) + 1 / 4050 * Real.log (10000 * (4096 - d) / d / ohm) <
    1 / (27315 / 100 + 25 : ℝ) + 1 / 4050 * Real.log (10000 * (4096 - c) / c / ohm) by linarith)
  linarith

theorem table_lt {ohm : ℝ} (ho : 0 < ohm) (ho2 : ohm ≤ 10 ^ 8) {i j : ℕ} (hi : 1 ≤ i) (hij : i < j)
    (hj : j ≤ 31) : table ohm i < table ohm j := by
  have e : ∀ k : ℕ, ((k * 4096 / 32 : ℕ) : ℝ) = 128 * k := by
    intro k
    rw [show k * 4096 / 32 = 128 * k by omega]
    push_cast; rfl
  have h1 : (1 : ℝ) ≤ i := by exact_mod_cast hi
  have h2 : (i : ℝ) < j := by exact_mod_cast hij
  have h3 : (j : ℝ) ≤ 31 := by exact_mod_cast hj
  unfold table
  rw [e, e]
  exact tableValue_lt ho ho2 (by linarith) (by linarith) (by linarith)

theorem calculate_eq (ohm : ℝ) (raw : ℕ) : calculate ohm raw = table ohm (index raw) +
    (table ohm (index raw + 1) - table ohm (index raw)) * ((raw : ℝ) - 128 * index raw) / 128 := by
  unfold calculate
  dsimp only
  rw [show index raw * 4096 / 32 = 128 * index raw by omega,
    show (index raw + 1) * 4096 / 32 = 128 * index raw + 128 by omega]
  push_cast
  congr 2
  ring

/-- **C86.** A higher count is a higher temperature, over the whole range of the
converter. -/
theorem C86_thermistor_increases {ohm : ℝ} (ho : 0 < ohm) (ho2 : ohm ≤ 10 ^ 8) :
    StrictMono (calculate ohm) := by
  refine strictMono_nat_of_lt_succ fun raw => ?_
  obtain ⟨h1, h2⟩ := C86_thermistor_index raw
  have hlt := table_lt ho ho2 h1 (Nat.lt_succ_self _) (by omega)
  rw [calculate_eq, calculate_eq]
  by_cases h : index (raw + 1) = index raw
  · rw [h]
    push_cast
    linarith
  · have h3 : index (raw + 1) = index raw + 1 ∧ raw + 1 = 128 * (index raw + 1) := by
      unfold index at *; omega
    have h4 : (raw : ℝ) = 128 * index raw + 127 := by
      have : raw = 128 * index raw + 127 := by omega
      exact_mod_cast this
    rw [h3.1]
    push_cast
    rw [h4]
    linarith

/-- **C86.** Between counts 128 and 3968 the reading is wrong by less than the difference
of two neighbouring entries of the table. -/
theorem C86_thermistor_error {ohm T : ℝ} {raw : ℕ} (ho : 0 < ohm) (ho2 : ohm ≤ 10 ^ 8) (hT : 0 < T)
    (hr : 128 ≤ raw) (hr2 : raw < 3968) (hc : ⌊Spec.count ohm T⌋₊ = raw) :
    |calculate ohm raw - (T - 27315 / 100)| < table ohm (index raw + 1) - table ohm (index raw) := by
  obtain ⟨h1, h2⟩ := C86_thermistor_index raw
  have hb : 128 * index raw ≤ raw ∧ raw < 128 * (index raw + 1) := by unfold index; omega
  have hlt := table_lt ho ho2 h1 (Nat.lt_succ_self _) (by omega)
  rw [← C86_thermistor_table ho hT]
  have hR : 0 < Spec.resistance ohm T := mul_pos ho (Real.exp_pos _)
  have hcnt : 0 < Spec.count ohm T := div_pos (by norm_num) (by linarith)
  obtain ⟨g1, g2⟩ := (Nat.floor_eq_iff hcnt.le).1 hc
  have b1 : (128 : ℝ) * index raw ≤ raw := by exact_mod_cast hb.1
  have b2 : (raw : ℝ) + 1 ≤ 128 * index raw + 128 := by exact_mod_cast (by omega)
  have i1 : (1 : ℝ) ≤ index raw := by exact_mod_cast h1
  have i2 : (index raw : ℝ) ≤ 30 := by exact_mod_cast (by omega)
  have t : ∀ k : ℕ, table ohm k = tableValue ohm (128 * k) := by
    intro k
    unfold table
    rw [show k * 4096 / 32 = 128 * k by omega]
    push_cast; rfl
  have l1 : table ohm (index raw) ≤ tableValue ohm (Spec.count ohm T) := by
    rw [t]
    rcases (b1.trans g1).eq_or_lt with h | h
    · rw [h]
    · exact (tableValue_lt ho ho2 (by linarith) h (by linarith)).le
  have l2 : tableValue ohm (Spec.count ohm T) < table ohm (index raw + 1) := by
    rw [t]
    push_cast
    exact tableValue_lt ho ho2 hcnt (by linarith) (by linarith)
  rw [calculate_eq]
  generalize table ohm (index raw) = u at *
  generalize table ohm (index raw + 1) = w at *
  have m1 : 0 ≤ (w - u) * ((raw : ℝ) - 128 * index raw) := mul_nonneg (by linarith) (by linarith)
  have m2 : (w - u) * ((raw : ℝ) - 128 * index raw) ≤ (w - u) * 127 :=
    mul_le_mul_of_nonneg_left (by linarith) (by linarith)
  rw [abs_lt]
  constructor <;> linarith

/-- A thermistor of 10 kΩ at 25 °C. -/
example : |calculate 10000 2048 - (29815 / 100 - 27315 / 100)| <
    table 10000 (index 2048 + 1) - table 10000 (index 2048) := by
  refine C86_thermistor_error (by norm_num) (by norm_num) (by norm_num) (by norm_num) (by norm_num) ?_
  rw [show Spec.count 10000 (29815 / 100) = (2048 : ℕ) by norm_num [Spec.count, Spec.resistance]]
  exact Nat.floor_natCast _

/-- **C86.** Above 3968 counts, the last line is extended: no reading reaches
twice the last entry minus the one before it. -/
theorem C86_thermistor_top {ohm : ℝ} (ho : 0 < ohm) (ho2 : ohm ≤ 10 ^ 8) {raw : ℕ} (hr : raw ≤ 4095) :
    calculate ohm raw < 2 * table ohm 31 - table ohm 30 := by
  have h := (C86_thermistor_increases ho ho2).monotone hr
  refine h.trans_lt ?_
  rw [calculate_eq, show index 4095 = 30 by decide]
  have := table_lt ho ho2 (i := 30) (j := 31) (by omega) (by omega) le_rfl
  push_cast
  linarith

theorem log_le_of_pow {x : ℝ} {n m : ℕ} (hx : 0 < x) (h : x ^ n ≤ 2 ^ m) :
    n * Real.log x ≤ m * Real.log 2 := by
  have := Real.log_le_log (pow_pos hx n) h
  rwa [Real.log_pow, Real.log_pow] at this

theorem le_log_of_pow {x : ℝ} {n m : ℕ} (h : 2 ^ m ≤ x ^ n) : m * Real.log 2 ≤ n * Real.log x := by
  have := Real.log_le_log (by positivity) h
  rwa [Real.log_pow, Real.log_pow] at this

/-- A motor thermistor of 1 kΩ: at 93 °C the count is 4064, but no count gives a reading
of 72 °C. -/
theorem C86_thermistor_1k_refuted :
    (∃ T : ℝ, 93 ≤ T - 27315 / 100 ∧ Spec.count 1000 T = 4064) ∧
    ∀ raw ≤ 4095, calculate 1000 raw < 72 := by
  have l2 := Real.log_two_lt_d9
  have g2 := Real.log_two_gt_d9
  constructor
  · have h1 := le_log_of_pow (x := 127 / 10) (n := 3) (m := 11) (by norm_num)
    push_cast at h1
    have h2 := log_le_of_pow (x := 127 / 10) (n := 1) (m := 4) (by norm_num) (by norm_num)
    push_cast at h2
    have hd : 0 < 1 / (29815 / 100 : ℝ) - 1 / 4050 * Real.log (127 / 10) := by norm_num; linarith
    refine ⟨1 / (1 / (29815 / 100) - 1 / 4050 * Real.log (127 / 10)), ?_, ?_⟩
    · rw [le_sub_iff_add_le, le_div_iff₀ hd]
      norm_num
      linarith
    · unfold Spec.count Spec.resistance
      rw [one_div_one_div]
      have : (4050 : ℝ) * (1 / (29815 / 100) - 1 / 4050 * Real.log (127 / 10) - 1 / (29815 / 100)) =
          -Real.log (127 / 10) := by ring
      rw [this, Real.exp_neg, Real.exp_log (by norm_num)]
      norm_num
  · intro raw hr
    refine (C86_thermistor_top (by norm_num) (by norm_num) hr).trans ?_
    have h1 := log_le_of_pow (x := 31 / 10) (n := 3) (m := 5) (by norm_num) (by norm_num)
    have h2 := le_log_of_pow (x := 3 / 2) (n := 12) (m := 7) (by norm_num)
    have h3 := log_le_of_pow (x := 3 / 2) (n := 1) (m := 1) (by norm_num) (by norm_num)
    push_cast at h1 h2 h3
    have a1 : table 1000 31 ≤ 529 / 10 := by
      unfold table tableValue
      norm_num
      rw [show (10 / 31 : ℝ) = (31 / 10)⁻¹ by norm_num, Real.log_inv]
      rw [inv_le_comm₀ (by linarith) (by norm_num)]
      linarith
    have a2 : 34 ≤ table 1000 30 := by
      unfold table tableValue
      norm_num
      rw [show (2 / 3 : ℝ) = (3 / 2)⁻¹ by norm_num, Real.log_inv]
      rw [le_sub_iff_add_le, le_inv_comm₀ (by norm_num) (by linarith)]
      linarith
    linarith

end Verif.Fw.Measure
