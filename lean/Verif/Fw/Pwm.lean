import Verif.Fw.TrajLimits

/-!
# Duty cycles

Model of the duty cycle computation of `fw/bldc_servo.cc`: `RateConfig`,
`LimitPwm`, `ISR_DoPwmControl`, `ISR_DoBalancedVoltageControl`.

Property C40.
-/

namespace Verif.Fw

open Verif.Float

/-! ## Model -/

/-- `RateConfig` (`fw/bldc_servo.cc` 104-155), the members used here. -/
structure RateConfig where
  pwmRateHz : ℤ
  minPwm : Fl
  maxPwm : Fl
  maxVoltageRatio : Fl

/-- The PWM rate (lines 117-126): `smallBoard` is hardware family 0, revision 2. -/
def pwmRate (smallBoard : Bool) (pwmRateIn : ℤ) : ℤ :=
  max (if smallBoard then 60000 else 15000) (min 60000 pwmRateIn) / 2 * 2

/-- Lines 141-143; `kCurrentSampleTime` is line 101. -/
def rateConfig (A : Ar) (smallBoard : Bool) (pwmRateIn : ℤ) : RateConfig :=
  let pwmRateHz := pwmRate smallBoard pwmRateIn
  let minPwm := A.div (A.lit (103 / 100000000)) (A.div (A.lit (1 / 2)) (A.lit pwmRateHz))
  let maxPwm := A.sub (.fin 1) minPwm
  { pwmRateHz
    minPwm
    maxPwm
    maxVoltageRatio := A.mul (A.sub maxPwm (A.lit (1 / 2))) (.fin 2) }

/-- `Vec3`. -/
structure Vec3 where
  a : Fl
  b : Fl
  c : Fl
deriving DecidableEq

/-- `LimitPwm` (`fw/bldc_servo.cc` 2381-2385). -/
def limitPwm (rc : RateConfig) (x : Fl) : Fl := Fl.limit x rc.minPwm rc.maxPwm

/-- `static_cast<uint16_t>(float)`: `VCVT.U32.F32` saturates at zero and maps NaN
to zero, the result is cut to 16 bits. -/
def toU16 : Fl → ℤ
  | .nan => 0
  | .inf true => 0
  | .inf false => 65535
  | .fin q => max 0 (min 4294967295 (truncQ q)) % 65536

/-- What `ISR_DoPwmControl` leaves behind: `control_.pwm` and the three compare
registers. -/
structure PwmOut where
  duty : Vec3
  ccr1 : ℤ
  ccr2 : ℤ
  ccr3 : ℤ
deriving DecidableEq

/-- `ISR_DoPwmControl` (`fw/bldc_servo.cc` 1654-1678); it also turns the power
stage on. -/
def pwmControl (A : Ar) (rc : RateConfig) (counts : ℤ) (phaseInvert : Bool) (pwm : Vec3) : PwmOut :=
  let duty : Vec3 := ⟨limitPwm rc pwm.a, limitPwm rc pwm.b, limitPwm rc pwm.c⟩
  let pwm1 := toU16 (A.mul duty.a (A.lit counts))
  let pwm2 := toU16 (A.mul duty.b (A.lit counts))
  let pwm3 := toU16 (A.mul duty.c (A.lit counts))
  if !phaseInvert then ⟨duty, pwm1, pwm3, pwm2⟩ else ⟨duty, pwm1, pwm2, pwm3⟩

/-- The shift of `ISR_DoBalancedVoltageControl` (lines 1690-1697). -/
def balanceOffset (A : Ar) (p : Vec3) : Fl :=
  let pwmmin := Fl.min p.a (Fl.min p.b p.c)
  let pwmmax := Fl.max p.a (Fl.max p.b p.c)
  A.sub (A.mul (A.lit (1 / 2)) (A.add pwmmin pwmmax)) (A.lit (1 / 2))

/-- `ISR_DoBalancedVoltageControl` (`fw/bldc_servo.cc` 1682-1700): the duty
cycles it asks for. -/
def balanced (A : Ar) (busV : Fl) (voltage : Vec3) : Vec3 :=
  let p : Vec3 := ⟨A.div voltage.a busV, A.div voltage.b busV, A.div voltage.c busV⟩
  let offset := balanceOffset A p
  ⟨A.sub p.a offset, A.sub p.b offset, A.sub p.c offset⟩

/-! ## The band -/

variable {A : Ar}

theorem pwmRate_range (b : Bool) (n : ℤ) :
    15000 ≤ pwmRate b n ∧ pwmRate b n ≤ 60000 ∧ pwmRate b n % 2 = 0 := by
  unfold pwmRate
  cases b
  all_goals simp
  all_goals omega

/-- Arithmetics for which the band has been evaluated at its two ends. -/
structure Band (A : Ar) : Prop where
  law : A.Law2
  ends : ∃ s hr lr lo hi : ℚ, A.lit (103 / 100000000) = .fin s ∧ 0 < s ∧
    A.lit (1 / 2) = .fin (1 / 2) ∧
    A.rnd (1 / 2 / 15000) = .fin hr ∧ A.rnd (1 / 2 / 60000) = .fin lr ∧ 0 < lr ∧
    A.rnd (s / hr) = .fin lo ∧ A.rnd (s / lr) = .fin hi ∧ 3 / 100 < lo ∧ hi < 1 / 8

theorem band_exact : Band .exact where
  law := Ar.exact_law2
  ends := ⟨103 / 100000000, 1 / 2 / 15000, 1 / 2 / 60000, 103 / 100000000 / (1 / 2 / 15000),
    103 / 100000000 / (1 / 2 / 60000), Ar.exact_rnd _, by norm_num, Ar.exact_rnd _, Ar.exact_rnd _,
    Ar.exact_rnd _, by norm_num, Ar.exact_rnd _, Ar.exact_rnd _, by norm_num, by norm_num⟩

theorem band_single : Band .single where
  law := Ar.single_law2
  ends := ⟨b32.roundQ (103 / 100000000), b32.roundQ (1 / 2 / 15000), b32.roundQ (1 / 2 / 60000),
    b32.roundQ (b32.roundQ (103 / 100000000) / b32.roundQ (1 / 2 / 15000)),
    b32.roundQ (b32.roundQ (103 / 100000000) / b32.roundQ (1 / 2 / 60000)),
    by decide +kernel, by decide +kernel, by decide +kernel, by decide +kernel, by decide +kernel,
    by decide +kernel, by decide +kernel, by decide +kernel, by decide +kernel, by decide +kernel⟩

theorem lit_int (hA : A.Law2) {n : ℤ} (h : |n| ≤ 2 ^ 24) : A.lit n = .fin n := (hA.rep_int h).rnd

theorem lit_one (hA : A.Law2) : A.Rep 1 := by simpa using hA.rep_int (n := 1) (by norm_num)

theorem rnd_between (hA : A.Law2) {x lo hi : ℚ} (rl : A.Rep lo) (rh : A.Rep hi) (h1 : lo ≤ x)
    (h2 : x ≤ hi) : ∃ q, A.rnd x = .fin q ∧ A.Rep q ∧ lo ≤ q ∧ q ≤ hi := by
  have e1 := hA.toLaw.le_rnd rl h1
  have e2 := hA.toLaw.rnd_le rh h2
  have : ∀ w, A.rnd x = w → ∃ q, w = .fin q ∧ A.Rep q ∧ lo ≤ q ∧ q ≤ hi := by
    intro w hw
    rw [hw] at e1 e2
    rcases w with _ | ⟨_ | _⟩ | q
    · exact absurd e1 (by simp [Fl.Le])
    · exact absurd e2 (by simp [Fl.Le, Fl.ble])
    · exact absurd e1 (by simp [Fl.Le, Fl.ble])
    · rw [Fl.Le_fin] at e1 e2
      exact ⟨q, rfl, hA.rep_of_rnd hw, e1, e2⟩
  exact this _ rfl

theorem rnd_mono_between (hA : A.Law2) {x y z p r : ℚ} (h1 : x ≤ y) (h2 : y ≤ z)
    (hx : A.rnd x = .fin p) (hz : A.rnd z = .fin r) :
    ∃ q, A.rnd y = .fin q ∧ A.Rep q ∧ p ≤ q ∧ q ≤ r := by
  have e1 := hA.toLaw.rnd_mono h1
  have e2 := hA.toLaw.rnd_mono h2
  rw [hx] at e1
  rw [hz] at e2
  have : ∀ w, A.rnd y = w → ∃ q, w = .fin q ∧ A.Rep q ∧ p ≤ q ∧ q ≤ r := by
    intro w hw
    rw [hw] at e1 e2
    rcases w with _ | ⟨_ | _⟩ | q
    · exact absurd e1 (by simp [Fl.Le])
    · exact absurd e2 (by simp [Fl.Le, Fl.ble])
    · exact absurd e1 (by simp [Fl.Le, Fl.ble])
    · rw [Fl.Le_fin] at e1 e2
      exact ⟨q, rfl, hA.rep_of_rnd hw, e1, e2⟩
  exact this _ rfl

/-- For every configured rate and board the band is proper: the minimum is
between 3 % and 12.5 %, the maximum between 87.5 % and 97 % (and equals one minus
the minimum up to rounding). -/
theorem C40_band_proper (hB : Band A) (b : Bool) (n : ℤ) :
    ∃ lo hi : ℚ, (rateConfig A b n).minPwm = .fin lo ∧ (rateConfig A b n).maxPwm = .fin hi ∧
      A.Rep lo ∧ A.Rep hi ∧ 3 / 100 < lo ∧ lo < 1 / 8 ∧ 7 / 8 ≤ hi ∧ hi < 1 ∧
      A.rnd (1 - lo) = .fin hi := by
  obtain ⟨s, hr, lr, lo, hi, es, hs, eh, ehr, elr, hlr, elo, ehi, hlo, hhi⟩ := hB.ends
  have hA := hB.law
  obtain ⟨r1, r2, -⟩ := pwmRate_range b n
  have q1 : (15000 : ℚ) ≤ pwmRate b n := by exact_mod_cast r1
  have q2 : (pwmRate b n : ℚ) ≤ 60000 := by exact_mod_cast r2
  have e1 : A.lit (pwmRate b n) = .fin (pwmRate b n) := lit_int hA (by rw [abs_le]; omega)
  obtain ⟨h, e2, -, g1, g2⟩ := rnd_mono_between hA (x := 1 / 2 / 60000) (y := 1 / 2 / pwmRate b n)
    (z := 1 / 2 / 15000) (div_le_div_of_nonneg_left (by norm_num) (by linarith) q2)
    (div_le_div_of_nonneg_left (by norm_num) (by norm_num) q1) elr ehr
  have hp : 0 < h := by linarith
  obtain ⟨m, e3, rm, g3, g4⟩ := rnd_mono_between hA (x := s / hr) (y := s / h) (z := s / lr)
    (div_le_div_of_nonneg_left hs.le hp g2) (div_le_div_of_nonneg_left hs.le hlr g1) elo ehi
  have em : (rateConfig A b n).minPwm = .fin m := by
    show A.div (A.lit (103 / 100000000)) (A.div (A.lit (1 / 2)) (A.lit (pwmRate b n))) = _
    rw [es, eh, e1, div_fin _ (by linarith), e2, div_fin _ hp.ne', e3]
  have r78 : A.Rep (7 / 8) := by
    have := hA.unscale (n := 7) (k := -3) (by norm_num) (by norm_num) (by norm_num)
    have e : pow2 (-3) = 1 / 8 := by decide +kernel
    rw [e] at this
    have e2 : ((7 : ℤ) : ℚ) * (1 / 8) = 7 / 8 := by norm_num
    rwa [e2] at this
  have r1m : A.Rep (63 / 64) := by
    have := hA.unscale (n := 63) (k := -6) (by norm_num) (by norm_num) (by norm_num)
    have e : pow2 (-6) = 1 / 64 := by decide +kernel
    rw [e] at this
    have e2 : ((63 : ℤ) : ℚ) * (1 / 64) = 63 / 64 := by norm_num
    rwa [e2] at this
  obtain ⟨M, e4, rM, g5, g6⟩ := rnd_between hA (x := 1 - m) r78 r1m (by linarith) (by linarith)
  refine ⟨m, M, em, ?_, rm, rM, by linarith, by linarith, g5, by linarith, e4⟩
  show A.sub (.fin 1) (rateConfig A b n).minPwm = _
  rw [em, ← e4]
  simp [Ar.sub, Fl.neg, Ar.add, sub_eq_add_neg]

/-- A duty cycle inside of the band of `rc`. -/
def InBand (rc : RateConfig) (x : Fl) : Prop := rc.minPwm.Le x ∧ x.Le rc.maxPwm

/-- C40, band.  Whatever duty cycles are asked for, those applied lie inside of
the band, except that NaN stays NaN (`C40_nan_refuted`). -/
theorem C40_band_partial (hB : Band A) (b : Bool) (n : ℤ) (counts : ℤ) (inv : Bool) (pwm : Vec3) :
    let rc := rateConfig A b n
    let out := (pwmControl A rc counts inv pwm).duty
    (pwm.a ≠ .nan → InBand rc out.a) ∧ (pwm.b ≠ .nan → InBand rc out.b) ∧
      (pwm.c ≠ .nan → InBand rc out.c) := by
  obtain ⟨lo, hi, e1, e2, -, -, h1, h2, h3, h4, -⟩ := C40_band_proper hB b n
  have hle : (rateConfig A b n).minPwm.Le (rateConfig A b n).maxPwm := by
    rw [e1, e2, Fl.Le_fin]; linarith
  have key : ∀ x : Fl, x ≠ .nan → InBand (rateConfig A b n) (limitPwm (rateConfig A b n) x) :=
    fun x hx => Fl.limit_mem hle hx
  have hd : (pwmControl A (rateConfig A b n) counts inv pwm).duty =
      ⟨limitPwm (rateConfig A b n) pwm.a, limitPwm (rateConfig A b n) pwm.b,
        limitPwm (rateConfig A b n) pwm.c⟩ := by
    unfold pwmControl
    cases inv <;> rfl
  dsimp only
  rw [hd]
  exact ⟨key _, key _, key _⟩

theorem truncQ_nonneg {q : ℚ} (h : 0 ≤ q) : truncQ q = q.floor := by unfold truncQ; rw [if_pos h]

/-- C40, registers.  The compare register of a phase is the duty cycle times the
timer period, rounded down, and lies between those of the minimum and the maximum;
it is never above the period. -/
theorem C40_registers (hB : Band A) (b : Bool) (n counts : ℤ) (hc : 0 < counts)
    (hc2 : counts ≤ 65535) (inv : Bool) (pwm : Vec3) (ha : pwm.a ≠ .nan) (hb : pwm.b ≠ .nan)
    (hcc : pwm.c ≠ .nan) :
    let rc := rateConfig A b n
    let out := pwmControl A rc counts inv pwm
    let lo := toU16 (A.mul rc.minPwm (A.lit counts))
    let hi := toU16 (A.mul rc.maxPwm (A.lit counts))
    (lo ≤ out.ccr1 ∧ out.ccr1 ≤ hi) ∧ (lo ≤ out.ccr2 ∧ out.ccr2 ≤ hi) ∧
      (lo ≤ out.ccr3 ∧ out.ccr3 ≤ hi) ∧ 0 ≤ lo ∧ hi ≤ counts := by
  obtain ⟨lo, hi, e1, e2, rlo, rhi, h1, h2, h3, h4, -⟩ := C40_band_proper hB b n
  have hA := hB.law
  have rc : A.Rep (counts : ℚ) := hA.rep_int (by rw [abs_le]; omega)
  have hq : (0 : ℚ) < counts := by exact_mod_cast hc
  have hq2 : (counts : ℚ) ≤ 65535 := by exact_mod_cast hc2
  have ec : A.lit counts = .fin counts := rc.rnd
  have r0 := hA.toLaw.rep_zero
  -- value of the register for a duty cycle inside of [0, 1]
  have reg : ∀ q : ℚ, 0 ≤ q → q ≤ 1 → ∃ p, A.rnd (q * counts) = .fin p ∧ 0 ≤ p ∧ p ≤ counts ∧
      toU16 (A.mul (.fin q) (A.lit counts)) = p.floor := by
    intro q g1 g2
    obtain ⟨p, ep, -, k1, k2⟩ := rnd_between hA (x := q * counts) r0 rc (by positivity) (by
      have := mul_le_mul_of_nonneg_right g2 hq.le
      linarith)
    refine ⟨p, ep, k1, k2, ?_⟩
    rw [ec]
    show toU16 (A.rnd (q * counts)) = _
    rw [ep]
    show max 0 (min 4294967295 (truncQ p)) % 65536 = _
    rw [truncQ_nonneg k1]
    have f0 : 0 ≤ p.floor := by rw [Rat.le_floor_iff (x := 0) (a := p)]; exact_mod_cast k1
    have f1 : (p.floor : ℚ) ≤ p := floor_le' p
    have f2 : p.floor ≤ 65535 := by
      have : (p.floor : ℚ) ≤ 65535 := by linarith
      exact_mod_cast this
    omega
  have mono : ∀ q q' : ℚ, 0 ≤ q → q ≤ q' → q' ≤ 1 →
      toU16 (A.mul (.fin q) (A.lit counts)) ≤ toU16 (A.mul (.fin q') (A.lit counts)) := by
    intro q q' g1 g2 g3
    obtain ⟨p, ep, k1, k2, k3⟩ := reg q g1 (by linarith)
    obtain ⟨p', ep', k1', k2', k3'⟩ := reg q' (by linarith) g3
    rw [k3, k3', Rat.le_floor_iff (x := p.floor) (a := p')]
    have := hA.toLaw.rnd_mono (mul_le_mul_of_nonneg_right g2 hq.le)
    rw [ep, ep', Fl.Le_fin] at this
    exact (floor_le' p).trans this
  have ph : ∀ x : Fl, x ≠ .nan →
      toU16 (A.mul (rateConfig A b n).minPwm (A.lit counts)) ≤
        toU16 (A.mul (limitPwm (rateConfig A b n) x) (A.lit counts)) ∧
      toU16 (A.mul (limitPwm (rateConfig A b n) x) (A.lit counts)) ≤
        toU16 (A.mul (rateConfig A b n).maxPwm (A.lit counts)) := by
    intro x hx
    have hle : (rateConfig A b n).minPwm.Le (rateConfig A b n).maxPwm := by
      rw [e1, e2, Fl.Le_fin]; linarith
    have hm := Fl.limit_mem hle hx
    unfold limitPwm
    generalize Fl.limit x (rateConfig A b n).minPwm (rateConfig A b n).maxPwm = y at *
    rw [e1, e2] at hm ⊢
    rcases y with _ | ⟨_ | _⟩ | q
    · exact absurd hm.1 (by simp [Fl.Le])
    · exact absurd hm.2 (by simp [Fl.Le, Fl.ble])
    · exact absurd hm.1 (by simp [Fl.Le, Fl.ble])
    · rw [Fl.Le_fin, Fl.Le_fin] at hm
      exact ⟨mono _ _ (by linarith) hm.1 (by linarith), mono _ _ (by linarith) hm.2 (by linarith)⟩
  have hl : 0 ≤ toU16 (A.mul (rateConfig A b n).minPwm (A.lit counts)) := by
    rw [e1]
    obtain ⟨p, -, k1, -, k3⟩ := reg lo (by linarith) (by linarith)
    rw [k3, Rat.le_floor_iff (x := 0) (a := p)]
    exact_mod_cast k1
  have hh : toU16 (A.mul (rateConfig A b n).maxPwm (A.lit counts)) ≤ counts := by
    rw [e2]
    obtain ⟨p, -, -, k2, k3⟩ := reg hi (by linarith) (by linarith)
    rw [k3]
    have := floor_le' p
    have : (p.floor : ℚ) ≤ counts := by linarith
    exact_mod_cast this
  dsimp only
  unfold pwmControl
  cases inv
  · exact ⟨ph _ ha, ph _ hcc, ph _ hb, hl, hh⟩
  · exact ⟨ph _ ha, ph _ hb, ph _ hcc, hl, hh⟩

/-- C40: the registers carry the phases: register 1 phase a, and registers 2 and 3
phases c and b, or b and c with inverted phases. -/
theorem C40_phase_order (rc : RateConfig) (counts : ℤ) (pwm : Vec3) :
    let f := fun x => toU16 (A.mul (limitPwm rc x) (A.lit counts))
    let n := pwmControl A rc counts false pwm
    let i := pwmControl A rc counts true pwm
    n.ccr1 = f pwm.a ∧ n.ccr2 = f pwm.c ∧ n.ccr3 = f pwm.b ∧
    i.ccr1 = f pwm.a ∧ i.ccr2 = f pwm.b ∧ i.ccr3 = f pwm.c := ⟨rfl, rfl, rfl, rfl, rfl, rfl⟩

/-! ## Balanced voltages -/

theorem Fl_min_fin (x y : ℚ) : Fl.min (.fin x) (.fin y) = .fin (min x y) := by
  unfold Fl.min
  rw [Fl.blt_fin]
  by_cases h : y < x
  · rw [decide_eq_true h, if_pos rfl, min_eq_right h.le]
  · rw [decide_eq_false h, if_neg Bool.false_ne_true, min_eq_left (not_lt.mp h)]

theorem Fl_max_fin (x y : ℚ) : Fl.max (.fin x) (.fin y) = .fin (max x y) := by
  unfold Fl.max
  rw [Fl.blt_fin]
  by_cases h : x < y
  · rw [decide_eq_true h, if_pos rfl, max_eq_right h.le]
  · rw [decide_eq_false h, if_neg Bool.false_ne_true, max_eq_left (not_lt.mp h)]

theorem sub_fin (x y : ℚ) : A.sub (.fin x) (.fin y) = A.rnd (x - y) := by
  simp [Ar.sub, Fl.neg, Ar.add, sub_eq_add_neg]

/-- The duty cycles asked for, in exact arithmetic: the voltages divided by the bus
voltage, all shifted by the same amount, such that lowest and highest are at equal
distances from one half. -/
theorem balanced_exact {a b c V : ℚ} (hV : 0 < V) :
    ∃ o : ℚ, balanced .exact (.fin V) ⟨.fin a, .fin b, .fin c⟩ =
        ⟨.fin (a / V - o), .fin (b / V - o), .fin (c / V - o)⟩ ∧
      (min (a / V) (min (b / V) (c / V)) - o) + (max (a / V) (max (b / V) (c / V)) - o) = 1 := by
  refine ⟨1 / 2 * (min (a / V) (min (b / V) (c / V)) + max (a / V) (max (b / V) (c / V))) - 1 / 2,
    ?_, by ring⟩
  unfold balanced balanceOffset
  dsimp only
  rw [div_fin _ hV.ne', div_fin _ hV.ne', div_fin _ hV.ne']
  simp only [Ar.exact_rnd, Fl_min_fin, Fl_max_fin, sub_fin, Ar.lit, Ar.add, Ar.mul]

/-- C40, balanced voltages, in exact arithmetic.  When the line to line voltages
are within `max_voltage_ratio` times the bus voltage nothing is limited, and the
duty cycles of the three phases differ exactly by the voltage differences divided
by the bus voltage. -/
theorem C40_balanced (bd : Bool) (n counts : ℤ) (inv : Bool) {a b c V ρ : ℚ} (hV : 0 < V)
    (hρ : (rateConfig .exact bd n).maxVoltageRatio = .fin ρ)
    (hab : |a - b| ≤ ρ * V) (hbc : |b - c| ≤ ρ * V) (hac : |a - c| ≤ ρ * V) :
    let out := (pwmControl .exact (rateConfig .exact bd n) counts inv
      (balanced .exact (.fin V) ⟨.fin a, .fin b, .fin c⟩)).duty
    ∃ x y z : ℚ, out = ⟨.fin x, .fin y, .fin z⟩ ∧ x - y = (a - b) / V ∧ y - z = (b - c) / V ∧
      x - z = (a - c) / V ∧
      out = balanced .exact (.fin V) ⟨.fin a, .fin b, .fin c⟩ := by
  obtain ⟨o, e, hbal⟩ := balanced_exact (a := a) (b := b) (c := c) hV
  obtain ⟨lo, hi, e1, e2, -, -, h1, h2, h3, h4, e5⟩ := C40_band_proper band_exact bd n
  rw [Ar.exact_rnd] at e5
  injection e5 with e5
  have hr : ρ = (hi - 1 / 2) * 2 := by
    have : (rateConfig .exact bd n).maxVoltageRatio =
      Ar.exact.mul (Ar.exact.sub (rateConfig .exact bd n).maxPwm (Ar.exact.lit (1 / 2))) (.fin 2) := rfl
    rw [this, e2] at hρ
    simp only [Ar.lit, Ar.exact_rnd, sub_fin, Ar.mul] at hρ
    injection hρ with hρ
    exact hρ.symm
  -- spread of the scaled voltages
  have sp : ∀ u v : ℚ, |u - v| ≤ ρ * V → |u / V - v / V| ≤ ρ := by
    intro u v h
    rw [← sub_div, abs_div, abs_of_pos hV, div_le_iff₀ hV]
    exact h
  have s1 := abs_le.mp (sp a b hab)
  have s2 := abs_le.mp (sp b c hbc)
  have s3 := abs_le.mp (sp a c hac)
  generalize hA : a / V = p at *
  generalize hB : b / V = q at *
  generalize hC : c / V = r at *
  have mm : max p (max q r) - min p (min q r) ≤ ρ := by
    rcases le_total q r with g1 | g1
    · rw [max_eq_right g1, min_eq_left g1]
      rcases le_total p r with g2 | g2
      · rw [max_eq_right g2]
        rcases le_total p q with g3 | g3
        · rw [min_eq_left g3]; linarith
        · rw [min_eq_right g3]; linarith
      · rw [max_eq_left g2, min_eq_right (g1.trans g2)]; linarith
    · rw [max_eq_left g1, min_eq_right g1]
      rcases le_total p q with g2 | g2
      · rw [max_eq_right g2]
        rcases le_total p r with g3 | g3
        · rw [min_eq_left g3]; linarith
        · rw [min_eq_right g3]; linarith
      · rw [max_eq_left g2, min_eq_right (g1.trans g2)]; linarith
  have lim : ∀ u : ℚ, min p (min q r) ≤ u → u ≤ max p (max q r) →
      limitPwm (rateConfig .exact bd n) (.fin (u - o)) = .fin (u - o) := by
    intro u g1 g2
    unfold limitPwm Fl.limit
    rw [e1, e2, Fl.blt_fin, Fl.blt_fin, decide_eq_false (by linarith), decide_eq_false (by linarith)]
    rfl
  have la := lim p (min_le_left _ _) (le_max_left _ _)
  have lb := lim q ((min_le_right _ _).trans (min_le_left _ _)) (le_max_of_le_right (le_max_left _ _))
  have lc := lim r ((min_le_right _ _).trans (min_le_right _ _)) (le_max_of_le_right (le_max_right _ _))
  have hd : (pwmControl .exact (rateConfig .exact bd n) counts inv
      ⟨.fin (p - o), .fin (q - o), .fin (r - o)⟩).duty =
      ⟨.fin (p - o), .fin (q - o), .fin (r - o)⟩ := by
    unfold pwmControl
    cases inv <;> (dsimp only; rw [la, lb, lc]; rfl)
  dsimp only
  rw [e, hd]
  refine ⟨p - o, q - o, r - o, rfl, ?_, ?_, ?_, rfl⟩
  · rw [sub_div, hA, hB]; ring
  · rw [sub_div, hB, hC]; ring
  · rw [sub_div, hA, hC]; ring

/-- Rounding error for values up to one. -/
theorem rq_error (hA : A.Law2) {x : ℚ} (h : |x| ≤ 1) : |A.rq x - x| ≤ 1 / 33554432 := by
  have f1 := floor_le' (x * 16777216 + 1 / 2)
  have f2 := lt_floor_succ' (x * 16777216 + 1 / 2)
  rw [abs_le] at h
  generalize hn : (x * 16777216 + 1 / 2).floor = n at *
  have b1 : n ≤ 2 ^ 24 := by
    have : (n : ℚ) < 16777217 := by linarith
    have : n < 16777217 := by exact_mod_cast this
    omega
  have b2 : -(2 ^ 24) ≤ n := by
    have : (-16777217 : ℚ) < n := by linarith
    have : (-16777217 : ℤ) < n := by exact_mod_cast this
    omega
  have r := hA.unscale (n := n) (k := -24) (abs_le.mpr ⟨b2, b1⟩) (by norm_num) (by norm_num)
  have e : pow2 (-24) = 1 / 16777216 := by decide +kernel
  rw [e] at r
  refine (hA.nearest r x).trans ?_
  rw [abs_le]
  constructor <;> linarith

theorem rnd_unit (hA : A.Law2) {x : ℚ} (h : |x| ≤ 1) :
    ∃ q, A.rnd x = .fin q ∧ |q - x| ≤ 1 / 33554432 ∧ |q| ≤ 1 := by
  obtain ⟨q, e, -, h1, h2⟩ := rnd_between hA (hA.rep_neg (lit_one hA)) (lit_one hA)
    (abs_le.mp h).1 (abs_le.mp h).2
  refine ⟨q, e, ?_, abs_le.mpr ⟨h1, h2⟩⟩
  have : A.rq x = q := by
    unfold Ar.rnd at e
    split at e
    · cases e
    · injection e
  rw [← this]
  exact rq_error hA h

/-- C40, balanced voltages, in any arithmetic (binary32 in particular).  Two phases
whose duty cycles were not limited differ by their voltage difference divided by
the bus voltage, up to 2^-23. -/
theorem C40_balanced_rounded (hB : Band A) (bd : Bool) (n counts : ℤ) (inv : Bool) {a b c V : ℚ}
    (hV : 0 < V) (ha : |a| ≤ V) (hb : |b| ≤ V) {x y : ℚ}
    (hx : (balanced A (.fin V) ⟨.fin a, .fin b, .fin c⟩).a = .fin x)
    (hy : (balanced A (.fin V) ⟨.fin a, .fin b, .fin c⟩).b = .fin y)
    (bx : InBand (rateConfig A bd n) (.fin x)) (hby : InBand (rateConfig A bd n) (.fin y)) :
    let out := (pwmControl A (rateConfig A bd n) counts inv
      (balanced A (.fin V) ⟨.fin a, .fin b, .fin c⟩)).duty
    out.a = .fin x ∧ out.b = .fin y ∧ |(x - y) - (a - b) / V| ≤ 1 / 8388608 := by
  obtain ⟨lo, hi, e1, e2, -, -, h1, h2, h3, h4, -⟩ := C40_band_proper hB bd n
  have hA := hB.law
  have un : ∀ u : ℚ, |u| ≤ V → |u / V| ≤ 1 := by
    intro u h
    rw [abs_div, abs_of_pos hV]
    exact (div_le_one hV).mpr h
  obtain ⟨p, ep, hp, -⟩ := rnd_unit hA (un a ha)
  obtain ⟨q, eq, hq, -⟩ := rnd_unit hA (un b hb)
  unfold InBand at bx hby
  rw [e1, e2, Fl.Le_fin, Fl.Le_fin] at bx hby
  have lim : ∀ u : ℚ, lo ≤ u ∧ u ≤ hi → limitPwm (rateConfig A bd n) (.fin u) = .fin u := by
    intro u g
    unfold limitPwm Fl.limit
    rw [e1, e2, Fl.blt_fin, Fl.blt_fin, decide_eq_false (by linarith), decide_eq_false (by linarith)]
    rfl
  have oa : (pwmControl A (rateConfig A bd n) counts inv
      (balanced A (.fin V) ⟨.fin a, .fin b, .fin c⟩)).duty.a = .fin x := by
    unfold pwmControl
    cases inv <;> (dsimp only; rw [hx]; exact lim x bx)
  have ob : (pwmControl A (rateConfig A bd n) counts inv
      (balanced A (.fin V) ⟨.fin a, .fin b, .fin c⟩)).duty.b = .fin y := by
    unfold pwmControl
    cases inv <;> (dsimp only; rw [hy]; exact lim y hby)
  dsimp only
  refine ⟨oa, ob, ?_⟩
  unfold balanced at hx hy
  dsimp only at hx hy
  rw [div_fin _ hV.ne', div_fin _ hV.ne', div_fin _ hV.ne'] at hx hy
  rw [ep, eq] at hx hy
  generalize balanceOffset A ⟨.fin p, .fin q, A.rnd (c / V)⟩ = o at hx hy
  -- the offset is finite
  have fin_of : ∀ o : Fl, ∀ p x : ℚ, A.sub (.fin p) o = .fin x → ∃ z, o = .fin z := by
    intro o p x h
    rcases o with _ | s | z
    · exact absurd h (by simp [Ar.sub, Fl.neg, Ar.add])
    · exact absurd h (by simp [Ar.sub, Fl.neg, Ar.add])
    · exact ⟨z, rfl⟩
  obtain ⟨z, rfl⟩ := fin_of o p x hx
  rw [sub_fin] at hx hy
  have inside : ∀ u w : ℚ, A.rnd u = .fin w → lo ≤ w → w ≤ hi → |u| ≤ 1 := by
    intro u w e g1 g2
    rw [abs_le]
    constructor
    · by_contra g
      have := hA.toLaw.rnd_le hA.toLaw.rep_zero (x := u) (by linarith)
      rw [e, Fl.Le_fin] at this
      linarith
    · by_contra g
      have := hA.toLaw.le_rnd (lit_one hA) (x := u) (by linarith)
      rw [e, Fl.Le_fin] at this
      linarith
  obtain ⟨x', ex, hx', -⟩ := rnd_unit hA (inside _ _ hx bx.1 bx.2)
  obtain ⟨y', ey, hy', -⟩ := rnd_unit hA (inside _ _ hy hby.1 hby.2)
  rw [hx] at ex
  rw [hy] at ey
  injection ex with ex
  injection ey with ey
  subst ex ey
  rw [sub_div]
  rw [abs_le] at hp hq hx' hy' ⊢
  constructor <;> linarith

/-! ## Witnesses -/

/-- C40 fails for a duty cycle of NaN: it passes `Limit`, and the compare register
becomes zero, below the minimum. -/
theorem C40_nan_refuted :
    let rc := rateConfig .single false 30000
    let out := pwmControl .single rc 5666 false ⟨.nan, .fin (1 / 2), .fin (1 / 2)⟩
    out.duty.a = .nan ∧ out.ccr1 = 0 ∧
      toU16 (Ar.single.mul rc.minPwm (Ar.single.lit 5666)) = 350 := by
  decide +kernel

/-- A voltage of zero at a bus voltage of zero is such a case. -/
theorem C40_zero_bus_refuted :
    (pwmControl .single (rateConfig .single false 30000) 5666 false
      (balanced .single (.fin 0) ⟨.fin 0, .fin 0, .fin 0⟩)).ccr1 = 0 := by
  decide +kernel

/-- The hypotheses of the balanced theorems are met by 3, −2 and −1 V at 24 V. -/
example :
    let d := balanced .single (.fin 24) ⟨.fin 3, .fin (-2), .fin (-1)⟩
    let rc := rateConfig .single false 30000
    rc.minPwm.ble d.a = true ∧ d.a.ble rc.maxPwm = true ∧ rc.minPwm.ble d.b = true ∧
      d.b.ble rc.maxPwm = true := by
  decide +kernel

example : ∃ ρ : ℚ, (rateConfig .exact false 30000).maxVoltageRatio = .fin ρ ∧
    |(3 : ℚ) - (-2)| ≤ ρ * 24 :=
  ⟨2191 / 2500, by decide +kernel, by decide +kernel⟩

end Verif.Fw
