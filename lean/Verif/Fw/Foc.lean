import Verif.Float.Approx
import Verif.Fw.Pwm
import Mathlib.Analysis.SpecialFunctions.Trigonometric.Basic
import Mathlib.Analysis.Real.Sqrt
import Mathlib.Tactic.NormNum.RealSqrt

/-!
# Field oriented control: the transforms

Model of `DqTransform` and `InverseDqTransform` (`fw/foc.h`) and of the two places
of `fw/bldc_servo.cc` that use them for every control cycle:
`ISR_CalculateCurrentState` (measured phase currents to d and q) and
`ISR_CalculatePhaseVoltage` (d and q to phase voltages), together with the order
in which the phases meet the terminals of the motor.

The specification is in terms of real angles: phase k of a vector (d, q) turned
by θ is `d cos (θ - 2πk/3) - q sin (θ - 2πk/3)`.

Property C82.
-/

namespace Verif.Fw.Foc

open Verif.Float Verif.Fw

/-! ## Model -/

/-- `SinCos` (`fw/foc.h` 29-32). -/
structure SinCos where
  s : Fl
  c : Fl

/-- `kSqrt3_4` (`fw/math.h` 26). -/
def sqrt34 (A : Ar) : Fl := A.lit (86602540378 / 100000000000)

/-- `0.5f`. -/
def half (A : Ar) : Fl := A.lit (1 / 2)

/-- `2.0f / 3.0f`. -/
def twoThirds (A : Ar) : Fl := A.div (.fin 2) (.fin 3)

/-- `DqTransform::d` (`fw/foc.h` 80-83). -/
def dqD (A : Ar) (sc : SinCos) (a b c : Fl) : Fl :=
  A.mul (twoThirds A)
    (A.add
      (A.add (A.mul a sc.c)
        (A.mul (A.sub (A.mul (sqrt34 A) sc.s) (A.mul (half A) sc.c)) b))
      (A.mul (A.sub (A.mul (sqrt34 A).neg sc.s) (A.mul (half A) sc.c)) c))

/-- `DqTransform::q` (`fw/foc.h` 84-87). -/
def dqQ (A : Ar) (sc : SinCos) (a b c : Fl) : Fl :=
  A.mul (twoThirds A)
    (A.sub
      (A.sub (A.mul sc.s.neg a)
        (A.mul (A.sub (A.mul (sqrt34 A).neg sc.c) (A.mul (half A) sc.s)) b))
      (A.mul (A.sub (A.mul (sqrt34 A) sc.c) (A.mul (half A) sc.s)) c))

/-- `InverseDqTransform` (`fw/foc.h` 94-97). -/
def inverseDq (A : Ar) (sc : SinCos) (d q : Fl) : Vec3 where
  a := A.sub (A.mul sc.c d) (A.mul sc.s q)
  b := A.sub (A.mul (A.sub (A.mul (sqrt34 A) sc.s) (A.mul (half A) sc.c)) d)
    (A.mul (A.sub (A.mul (sqrt34 A).neg sc.c) (A.mul (half A) sc.s)) q)
  c := A.sub (A.mul (A.sub (A.mul (sqrt34 A).neg sc.s) (A.mul (half A) sc.c)) d)
    (A.mul (A.sub (A.mul (sqrt34 A) sc.c) (A.mul (half A) sc.s)) q)

/-- `motor_position_config()->output.sign` times a value: the sign is the integer
1 or -1 (`fw/motor_position.h`), so that the product is exact. -/
def signed (positive : Bool) (x : Fl) : Fl := if positive then x else x.neg

/-- The currents of the three terminals of the motor. -/
structure Currents where
  i1 : Fl
  i2 : Fl
  i3 : Fl

/-- `ISR_CalculateCurrentState` (`fw/bldc_servo.cc` 1132-1151): `status_.d_A` and
`status_.q_A` from the currents measured at the three terminals. -/
def currentState (A : Ar) (sc : SinCos) (phaseInvert positive : Bool) (i : Currents) : Fl × Fl :=
  let cur2 := if phaseInvert then i.i3 else i.i2
  let cur3 := if phaseInvert then i.i2 else i.i3
  (dqD A sc i.i1 cur3 cur2, signed positive (dqQ A sc i.i1 cur3 cur2))

/-- `ISR_CalculatePhaseVoltage` (`fw/bldc_servo.cc` 1898-1920) with an unchanged
configuration epoch. -/
def phaseVoltage (A : Ar) (sc : SinCos) (positive : Bool) (d q : Fl) : Vec3 :=
  inverseDq A sc d (signed positive q)

/-! ## Specification -/

/-- The angle of phase `k` (0, 1, 2) behind the angle of the rotor. -/
noncomputable def phaseAngle (θ : ℝ) (k : ℤ) : ℝ := θ - k * (2 * Real.pi / 3)

/-- What phase `k` carries when the vector (d, q) is turned by θ. -/
noncomputable def onPhase (θ d q : ℝ) (k : ℤ) : ℝ :=
  d * Real.cos (phaseAngle θ k) - q * Real.sin (phaseAngle θ k)

/-- The components of three phases along and across the rotor. -/
noncomputable def along (θ : ℝ) (x : ℤ → ℝ) : ℝ :=
  2 / 3 * (x 0 * Real.cos (phaseAngle θ 0) + x 1 * Real.cos (phaseAngle θ 1) +
    x 2 * Real.cos (phaseAngle θ 2))

noncomputable def across (θ : ℝ) (x : ℤ → ℝ) : ℝ :=
  -(2 / 3) * (x 0 * Real.sin (phaseAngle θ 0) + x 1 * Real.sin (phaseAngle θ 1) +
    x 2 * Real.sin (phaseAngle θ 2))

/-- The sine and cosine of the model are within `ε` of those of θ. -/
def Turned (θ ε : ℝ) (sc : SinCos) : Prop :=
  ∃ s c : ℚ, sc = ⟨.fin s, .fin c⟩ ∧ |s| ≤ 1 ∧ |c| ≤ 1 ∧
    |(s : ℝ) - Real.sin θ| ≤ ε ∧ |(c : ℝ) - Real.cos θ| ≤ ε

/-! ## Trigonometry -/

theorem sqrt3_bounds : (17320508075 : ℝ) / 10000000000 ≤ Real.sqrt 3 ∧
    Real.sqrt 3 ≤ 17320508076 / 10000000000 := by
  constructor
  · apply Real.le_sqrt_of_sq_le; norm_num
  · rw [Real.sqrt_le_left (by norm_num)]; norm_num

theorem angle0 (θ : ℝ) : phaseAngle θ 0 = θ := by simp [phaseAngle]

theorem cos_third : Real.cos (2 * Real.pi / 3) = -(1 / 2) := by
  rw [show 2 * Real.pi / 3 = Real.pi - Real.pi / 3 by ring, Real.cos_pi_sub, Real.cos_pi_div_three]

theorem sin_third : Real.sin (2 * Real.pi / 3) = Real.sqrt 3 / 2 := by
  rw [show 2 * Real.pi / 3 = Real.pi - Real.pi / 3 by ring, Real.sin_pi_sub, Real.sin_pi_div_three]

theorem cos1 (θ : ℝ) : Real.cos (phaseAngle θ 1) =
    Real.sqrt 3 / 2 * Real.sin θ - 1 / 2 * Real.cos θ := by
  unfold phaseAngle
  rw [Int.cast_one, one_mul, Real.cos_sub, cos_third, sin_third]
  ring

theorem sin1 (θ : ℝ) : Real.sin (phaseAngle θ 1) =
    -(Real.sqrt 3 / 2) * Real.cos θ - 1 / 2 * Real.sin θ := by
  unfold phaseAngle
  rw [Int.cast_one, one_mul, Real.sin_sub, cos_third, sin_third]
  ring

theorem angle2 (θ : ℝ) : phaseAngle θ 2 = θ + 2 * Real.pi / 3 - 2 * Real.pi := by
  unfold phaseAngle
  push_cast
  ring

theorem cos2 (θ : ℝ) : Real.cos (phaseAngle θ 2) =
    -(Real.sqrt 3 / 2) * Real.sin θ - 1 / 2 * Real.cos θ := by
  rw [angle2, Real.cos_sub_two_pi, Real.cos_add, cos_third, sin_third]
  ring

theorem sin2 (θ : ℝ) : Real.sin (phaseAngle θ 2) =
    Real.sqrt 3 / 2 * Real.cos θ - 1 / 2 * Real.sin θ := by
  rw [angle2, Real.sin_sub_two_pi, Real.sin_add, cos_third, sin_third]
  ring

/-- The specification is consistent: the components of a turned vector. -/
theorem along_onPhase (θ d q : ℝ) : along θ (onPhase θ d q) = d := by
  unfold along onPhase
  rw [angle0, cos1, cos2, sin1, sin2]
  have h3 : Real.sqrt 3 * Real.sqrt 3 = 3 := Real.mul_self_sqrt (by norm_num)
  have h1 := Real.sin_sq_add_cos_sq θ
  linear_combination (d * Real.sin θ ^ 2 / 3 + q * Real.sin θ * Real.cos θ / 3) * h3 + d * h1

theorem across_onPhase (θ d q : ℝ) : across θ (onPhase θ d q) = q := by
  unfold across onPhase
  rw [angle0, cos1, cos2, sin1, sin2]
  have h3 : Real.sqrt 3 * Real.sqrt 3 = 3 := Real.mul_self_sqrt (by norm_num)
  have h1 := Real.sin_sq_add_cos_sq θ
  linear_combination (q * Real.cos θ ^ 2 / 3 + d * Real.sin θ * Real.cos θ / 3) * h3 + q * h1

/-- The phases of a vector add up to nothing. -/
theorem onPhase_sum (θ d q : ℝ) : onPhase θ d q 0 + onPhase θ d q 1 + onPhase θ d q 2 = 0 := by
  unfold onPhase
  rw [angle0, cos1, cos2, sin1, sin2]
  ring

/-- The power of the three phases is 3/2 of the product of the vectors: this is
the equation behind `status_.power_W` (`fw/bldc_servo.cc` 1875). -/
theorem power (θ d q : ℝ) (i : ℤ → ℝ) :
    onPhase θ d q 0 * i 0 + onPhase θ d q 1 * i 1 + onPhase θ d q 2 * i 2 =
      3 / 2 * (d * along θ i + q * across θ i) := by
  unfold onPhase along across
  ring

/-- No phase exceeds the length of the vector. -/
theorem onPhase_sq (θ d q : ℝ) (k : ℤ) : onPhase θ d q k ^ 2 ≤ d ^ 2 + q ^ 2 := by
  unfold onPhase
  have h1 := Real.sin_sq_add_cos_sq (phaseAngle θ k)
  nlinarith [sq_nonneg (d * Real.sin (phaseAngle θ k) + q * Real.cos (phaseAngle θ k))]

/-! ## Rounding -/

section
variable {A : Ar}

/-- 2^-24. -/
local notation "u" => (1 / 16777216 : ℝ)

theorem tiny : (1 : ℝ) / 2 ^ 98 ≤ u / 1000000 := by norm_num

theorem apx_sqrt34 (hA : A.Law3) : Apx (sqrt34 A) (Real.sqrt 3 / 2) (2 * u) 1 := by
  have h := sqrt3_bounds
  refine Apx.rnd hA (e := 1 / 10000000000) (M := 1) ?_ ?_ (by norm_num) (by norm_num) le_rfl
  · push_cast
    rw [abs_le]
    constructor <;> linarith [h.1, h.2]
  · rw [abs_le]
    constructor <;> linarith [h.1, h.2]

theorem half_eq (hA : A.Law3) : half A = .fin (1 / 2) := by
  have := (hA.toLaw2.unscale (n := 1) (k := -1) (by norm_num) (by norm_num) (by norm_num)).rnd
  have e : pow2 (-1) = 1 / 2 := by decide +kernel
  rw [e] at this
  simpa [half, Ar.lit] using this

theorem apx_half (hA : A.Law3) : Apx (half A) (1 / 2) 0 (1 / 2) := by
  rw [half_eq hA]
  exact ⟨1 / 2, rfl, by norm_num, by norm_num⟩

theorem apx_twoThirds (hA : A.Law3) : Apx (twoThirds A) (2 / 3) (1 * u) (2 / 3) := by
  have e : twoThirds A = A.rnd (2 / 3) := by
    unfold twoThirds Ar.div
    simp
  rw [e]
  exact Apx.rnd hA (e := 0) (M := 2 / 3) (by norm_num) (by norm_num) (by norm_num) (by norm_num)
    le_rfl

/-- A coefficient `k x - y / 2`. -/
theorem apx_coef (hA : A.Law3) {k x y : Fl} {kr xr yr : ℝ} (hk : Apx k kr (2 * u) 1)
    (hx : Apx x xr 0 1) (hy : Apx y yr 0 1) :
    Apx (A.sub (A.mul k x) (A.mul (half A) y)) (kr * xr - 1 / 2 * yr) (7 * u) (3 / 2) := by
  have h1 := Apx.mul hA hk hx (g := 4 * u) (P := 1) (by norm_num) (by norm_num) (by norm_num)
  have h2 := Apx.mul hA (apx_half hA) hy (g := 1 * u) (P := 1 / 2) (by norm_num) (by norm_num)
    (by norm_num)
  exact Apx.sub hA h1 h2 (by norm_num) (by norm_num) (by norm_num)

/-- A coefficient times a value. -/
theorem apx_term (hA : A.Law3) {k x : Fl} {kr xr X : ℝ} (h1 : 1 ≤ X) (h2 : X ≤ 2 ^ 100)
    (hk : Apx k kr (7 * u) (3 / 2)) (hx : Apx x xr 0 X) :
    Apx (A.mul k x) (kr * xr) (9 * u * X) (3 / 2 * X) := by
  norm_num at h2
  refine Apx.mul hA hk hx ?_ ?_ le_rfl
  · norm_num; linarith
  · norm_num; linarith

/-- A sine or cosine times a value. -/
theorem apx_plain (hA : A.Law3) {k x : Fl} {kr xr X : ℝ} (h1 : 1 ≤ X) (h2 : X ≤ 2 ^ 100)
    (hk : Apx k kr 0 1) (hx : Apx x xr 0 X) :
    Apx (A.mul k x) (kr * xr) (2 * u * X) X := by
  norm_num at h2
  refine Apx.mul hA hk hx ?_ ?_ ?_
  · norm_num; linarith
  · norm_num; linarith
  · linarith

theorem apx_three (hA : A.Law3) {x y z : Fl} {xr yr zr X : ℝ} (h1 : 1 ≤ X) (h2 : X ≤ 2 ^ 100)
    (hx : Apx x xr (2 * u * X) X) (hy : Apx y yr (9 * u * X) (3 / 2 * X))
    (hz : Apx z zr (9 * u * X) (3 / 2 * X)) :
    Apx (A.mul (twoThirds A) (A.add (A.add x y) z)) (2 / 3 * (xr + yr + zr)) (1 / 2 ^ 19 * X)
      (8 / 3 * X) := by
  norm_num at h2
  have s1 := Apx.add hA hx hy (g := 14 * u * X) (P := 5 / 2 * X) (by norm_num; linarith)
    (by norm_num; linarith) (by linarith)
  have s2 := Apx.add hA s1 hz (g := 28 * u * X) (P := 4 * X) (by norm_num; linarith)
    (by norm_num; linarith) (by linarith)
  exact Apx.mul hA (apx_twoThirds hA) s2 (by norm_num; linarith) (by norm_num; linarith)
    (by linarith)

/-- The three terms of the transforms in exact form. -/
theorem apx_dqD (hA : A.Law3) {s c a b e : ℚ} {X : ℝ} (h1 : 1 ≤ X) (h2 : X ≤ 2 ^ 100)
    (hs : |s| ≤ 1) (hc : |c| ≤ 1) (ha : |(a : ℝ)| ≤ X) (hb : |(b : ℝ)| ≤ X) (he : |(e : ℝ)| ≤ X) :
    Apx (dqD A ⟨.fin s, .fin c⟩ (.fin a) (.fin b) (.fin e))
      (2 / 3 * ((c : ℝ) * a + (Real.sqrt 3 / 2 * s - 1 / 2 * c) * b +
        (-(Real.sqrt 3 / 2) * s - 1 / 2 * c) * e)) (1 / 2 ^ 19 * X) (8 / 3 * X) := by
  have fs : Apx (.fin s) (s : ℝ) 0 1 := Apx.fin_self (by exact_mod_cast hs)
  have fc : Apx (.fin c) (c : ℝ) 0 1 := Apx.fin_self (by exact_mod_cast hc)
  have k := apx_sqrt34 hA
  have t0 := apx_plain hA h1 h2 fc (Apx.fin_self ha)
  have t1 := apx_term hA h1 h2 (apx_coef hA k fs fc) (Apx.fin_self hb)
  have t2 := apx_term hA h1 h2 (apx_coef hA k.neg fs fc) (Apx.fin_self he)
  have comm : A.mul (.fin a) (.fin c) = A.mul (.fin c) (.fin a) := by
    show A.rnd (a * c) = A.rnd (c * a)
    rw [mul_comm]
  have := apx_three hA h1 h2 t0 t1 t2
  unfold dqD
  dsimp only
  rw [comm]
  exact this

theorem apx_dqQ (hA : A.Law3) {s c a b e : ℚ} {X : ℝ} (h1 : 1 ≤ X) (h2 : X ≤ 2 ^ 100)
    (hs : |s| ≤ 1) (hc : |c| ≤ 1) (ha : |(a : ℝ)| ≤ X) (hb : |(b : ℝ)| ≤ X) (he : |(e : ℝ)| ≤ X) :
    Apx (dqQ A ⟨.fin s, .fin c⟩ (.fin a) (.fin b) (.fin e))
      (2 / 3 * (-(s : ℝ) * a + -((-(Real.sqrt 3 / 2) * c - 1 / 2 * s) * b) +
        -((Real.sqrt 3 / 2 * c - 1 / 2 * s) * e))) (1 / 2 ^ 19 * X) (8 / 3 * X) := by
  have fs : Apx (.fin s) (s : ℝ) 0 1 := Apx.fin_self (by exact_mod_cast hs)
  have fc : Apx (.fin c) (c : ℝ) 0 1 := Apx.fin_self (by exact_mod_cast hc)
  have k := apx_sqrt34 hA
  have t0 := apx_plain hA h1 h2 fs.neg (Apx.fin_self ha)
  have t1 := apx_term hA h1 h2 (apx_coef hA k.neg fc fs) (Apx.fin_self hb)
  have t2 := apx_term hA h1 h2 (apx_coef hA k fc fs) (Apx.fin_self he)
  exact apx_three hA h1 h2 t0 t1.neg t2.neg

theorem apx_two (hA : A.Law3) {x y : Fl} {xr yr X : ℝ} (h1 : 1 ≤ X) (h2 : X ≤ 2 ^ 100)
    (hx : Apx x xr (9 * u * X) (3 / 2 * X)) (hy : Apx y yr (9 * u * X) (3 / 2 * X)) :
    Apx (A.sub x y) (xr - yr) (1 / 2 ^ 19 * X) (3 * X) := by
  norm_num at h2
  exact Apx.sub hA hx hy (by norm_num; linarith) (by norm_num; linarith) (by linarith)

theorem apx_inverse (hA : A.Law3) {s c d q : ℚ} {X : ℝ} (h1 : 1 ≤ X) (h2 : X ≤ 2 ^ 100)
    (hs : |s| ≤ 1) (hc : |c| ≤ 1) (hd : |(d : ℝ)| ≤ X) (hq : |(q : ℝ)| ≤ X) :
    let v := inverseDq A ⟨.fin s, .fin c⟩ (.fin d) (.fin q)
    Apx v.a ((c : ℝ) * d - s * q) (1 / 2 ^ 19 * X) (3 * X) ∧
    Apx v.b ((Real.sqrt 3 / 2 * s - 1 / 2 * c) * d - (-(Real.sqrt 3 / 2) * c - 1 / 2 * s) * q)
      (1 / 2 ^ 19 * X) (3 * X) ∧
    Apx v.c ((-(Real.sqrt 3 / 2) * s - 1 / 2 * c) * d - (Real.sqrt 3 / 2 * c - 1 / 2 * s) * q)
      (1 / 2 ^ 19 * X) (3 * X) := by
  have fs : Apx (.fin s) (s : ℝ) 0 1 := Apx.fin_self (by exact_mod_cast hs)
  have fc : Apx (.fin c) (c : ℝ) 0 1 := Apx.fin_self (by exact_mod_cast hc)
  have k := apx_sqrt34 hA
  have fd : Apx (.fin d) (d : ℝ) 0 X := Apx.fin_self hd
  have fq : Apx (.fin q) (q : ℝ) 0 X := Apx.fin_self hq
  refine ⟨?_, ?_, ?_⟩
  · refine apx_two hA h1 h2 ((apx_plain hA h1 h2 fc fd).weaken ?_ ?_)
      ((apx_plain hA h1 h2 fs fq).weaken ?_ ?_) <;> linarith
  · exact apx_two hA h1 h2 (apx_term hA h1 h2 (apx_coef hA k fs fc) fd)
      (apx_term hA h1 h2 (apx_coef hA k.neg fc fs) fq)
  · exact apx_two hA h1 h2 (apx_term hA h1 h2 (apx_coef hA k.neg fs fc) fd)
      (apx_term hA h1 h2 (apx_coef hA k fc fs) fq)

/-! ## Sine and cosine -/

/-- The coefficients of the phases when sine and cosine are off by `ε`. -/
theorem coef_dev {s c S C ε h : ℝ} (hs : |s - S| ≤ ε) (hc : |c - C| ≤ ε)
    (hh : |h| ≤ 8661 / 10000) :
    |(h * s - 1 / 2 * c) - (h * S - 1 / 2 * C)| ≤ 13661 / 10000 * ε := by
  have e : (h * s - 1 / 2 * c) - (h * S - 1 / 2 * C) = h * (s - S) + -(1 / 2) * (c - C) := by ring
  rw [e]
  refine (abs_add_le _ _).trans ?_
  rw [abs_mul, abs_mul]
  have h1 : |h| * |s - S| ≤ 8661 / 10000 * ε := mul_le_mul hh hs (abs_nonneg _) (by norm_num)
  have h2 : |(-(1 / 2) : ℝ)| = 1 / 2 := by norm_num
  rw [h2]
  linarith

theorem term_dev {p r d ε X : ℝ} (h : |p - r| ≤ ε) (hd : |d| ≤ X) :
    |p * d - r * d| ≤ ε * X := by
  rw [← sub_mul, abs_mul]
  exact mul_le_mul h hd (abs_nonneg _) ((abs_nonneg _).trans h)

theorem two_dev {p r p' r' x y ε X : ℝ} (h1 : |p - p'| ≤ ε) (h2 : |r - r'| ≤ ε) (hx : |x| ≤ X)
    (hy : |y| ≤ X) : |(p * x - r * y) - (p' * x - r' * y)| ≤ 2 * ε * X := by
  have a := term_dev h1 hx
  have b := term_dev h2 hy
  rw [abs_le] at *
  constructor <;> linarith [a.1, a.2, b.1, b.2]

theorem h_abs : |Real.sqrt 3 / 2| ≤ 8661 / 10000 := by
  have h := sqrt3_bounds
  rw [abs_le]
  constructor <;> linarith [h.1, h.2]

theorem abs_tri {x y z e f : ℝ} (h1 : |x - y| ≤ e) (h2 : |y - z| ≤ f) : |x - z| ≤ e + f := by
  have := abs_add_le (x - y) (y - z)
  rw [show x - y + (y - z) = x - z by ring] at this
  linarith

/-- C82, driving: in binary32 the three phase voltages computed for a command of at
most `X` follow the vector (d, q) turned by the angle, each phase a third of a turn
after the previous one, up to 2^-19 of `X` and three times the error of sine and
cosine. -/
theorem C82_phases (hA : A.Law3) {θ ε X : ℝ} {sc : SinCos} {d q : ℚ} (ht : Turned θ ε sc)
    (h1 : 1 ≤ X) (h2 : X ≤ 2 ^ 100) (hd : |(d : ℝ)| ≤ X) (hq : |(q : ℝ)| ≤ X) :
    ∃ a b c : ℚ, inverseDq A sc (.fin d) (.fin q) = ⟨.fin a, .fin b, .fin c⟩ ∧
      |(a : ℝ) - onPhase θ d q 0| ≤ (1 / 2 ^ 19 + 3 * ε) * X ∧
      |(b : ℝ) - onPhase θ d q 1| ≤ (1 / 2 ^ 19 + 3 * ε) * X ∧
      |(c : ℝ) - onPhase θ d q 2| ≤ (1 / 2 ^ 19 + 3 * ε) * X := by
  obtain ⟨s, co, rfl, hs, hc, es, ec⟩ := ht
  have hε : 0 ≤ ε := (abs_nonneg _).trans es
  obtain ⟨⟨a, ea, xa, -⟩, ⟨b, eb, xb, -⟩, ⟨c, e2, xc, -⟩⟩ :=
    apx_inverse hA h1 h2 hs hc hd hq
  have hn : |-(Real.sqrt 3 / 2)| ≤ 8661 / 10000 := by rw [abs_neg]; exact h_abs
  have hp : 0 ≤ ε * X := mul_nonneg hε (by linarith)
  refine ⟨a, b, c, by rw [← ea, ← eb, ← e2], ?_, ?_, ?_⟩
  · have k := two_dev ec es hd hq
    have := abs_tri xa k
    unfold onPhase
    rw [angle0, mul_comm (d : ℝ), mul_comm (q : ℝ)]
    linarith
  · have k := two_dev (coef_dev es ec h_abs) (coef_dev ec es hn) hd hq
    have := abs_tri xb k
    unfold onPhase
    rw [cos1, sin1, mul_comm (d : ℝ), mul_comm (q : ℝ)]
    linarith
  · have k := two_dev (coef_dev es ec hn) (coef_dev ec es h_abs) hd hq
    have := abs_tri xc k
    unfold onPhase
    rw [cos2, sin2, mul_comm (d : ℝ), mul_comm (q : ℝ)]
    linarith

/-- Three values as a function of the phase. -/
def three (a b c : ℝ) (k : ℤ) : ℝ := if k = 0 then a else if k = 1 then b else c

/-- C82, measuring: in binary32 the components computed from three currents of at
most `X` are the projections of the currents on the axes of the rotor, up to 2^-19
of `X` and three times the error of sine and cosine. -/
theorem C82_components (hA : A.Law3) {θ ε X : ℝ} {sc : SinCos} {a b c : ℚ} (ht : Turned θ ε sc)
    (h1 : 1 ≤ X) (h2 : X ≤ 2 ^ 100) (ha : |(a : ℝ)| ≤ X) (hb : |(b : ℝ)| ≤ X)
    (hc : |(c : ℝ)| ≤ X) :
    ∃ d q : ℚ, dqD A sc (.fin a) (.fin b) (.fin c) = .fin d ∧
      dqQ A sc (.fin a) (.fin b) (.fin c) = .fin q ∧
      |(d : ℝ) - along θ (three a b c)| ≤ (1 / 2 ^ 19 + 3 * ε) * X ∧
      |(q : ℝ) - across θ (three a b c)| ≤ (1 / 2 ^ 19 + 3 * ε) * X := by
  obtain ⟨s, co, rfl, hs, hco, es, ec⟩ := ht
  have hε : 0 ≤ ε := (abs_nonneg _).trans es
  obtain ⟨d, ed, xd, -⟩ := apx_dqD hA h1 h2 hs hco ha hb hc
  obtain ⟨q, eq, xq, -⟩ := apx_dqQ hA h1 h2 hs hco ha hb hc
  have hn : |-(Real.sqrt 3 / 2)| ≤ 8661 / 10000 := by rw [abs_neg]; exact h_abs
  have hp : 0 ≤ ε * X := mul_nonneg hε (by linarith)
  have es' : |-(s : ℝ) - -Real.sin θ| ≤ ε := by
    rw [← abs_neg]
    convert es using 2
    ring
  refine ⟨d, q, ed, eq, ?_, ?_⟩
  · have k0 := term_dev ec ha
    have k1 := term_dev (coef_dev es ec h_abs) hb
    have k2 := term_dev (coef_dev es ec hn) hc
    unfold along three
    rw [angle0, cos1, cos2]
    norm_num
    norm_num at xd k1 k2
    rw [abs_le] at *
    constructor <;> linarith [k0.1, k0.2, k1.1, k1.2, k2.1, k2.2, xd.1, xd.2]
  · have k0 := term_dev es' ha
    have k1 := term_dev (coef_dev ec es hn) hb
    have k2 := term_dev (coef_dev ec es h_abs) hc
    unfold across three
    rw [angle0, sin1, sin2]
    norm_num
    norm_num at xq k1 k2 k0
    rw [abs_le] at *
    constructor <;> linarith [k0.1, k0.2, k1.1, k1.2, k2.1, k2.2, xq.1, xq.2]

/-- The projections depend on the phases by at most twice their error. -/
theorem along_dev {θ e : ℝ} {x y : ℤ → ℝ} (h0 : |x 0 - y 0| ≤ e) (h1 : |x 1 - y 1| ≤ e)
    (h2 : |x 2 - y 2| ≤ e) : |along θ x - along θ y| ≤ 2 * e := by
  have t : ∀ k : ℤ, |x k - y k| ≤ e →
      |x k * Real.cos (phaseAngle θ k) - y k * Real.cos (phaseAngle θ k)| ≤ e * 1 := fun k h =>
    term_dev h (Real.abs_cos_le_one _)
  have t0 := t 0 h0
  have t1 := t 1 h1
  have t2 := t 2 h2
  unfold along
  rw [abs_le] at *
  constructor <;> linarith [t0.1, t0.2, t1.1, t1.2, t2.1, t2.2]

theorem across_dev {θ e : ℝ} {x y : ℤ → ℝ} (h0 : |x 0 - y 0| ≤ e) (h1 : |x 1 - y 1| ≤ e)
    (h2 : |x 2 - y 2| ≤ e) : |across θ x - across θ y| ≤ 2 * e := by
  have t : ∀ k : ℤ, |x k - y k| ≤ e →
      |x k * Real.sin (phaseAngle θ k) - y k * Real.sin (phaseAngle θ k)| ≤ e * 1 := fun k h =>
    term_dev h (Real.abs_sin_le_one _)
  have t0 := t 0 h0
  have t1 := t 1 h1
  have t2 := t 2 h2
  unfold across
  rw [abs_le] at *
  constructor <;> linarith [t0.1, t0.2, t1.1, t1.2, t2.1, t2.2]

theorem along_scale (θ G : ℝ) (x : ℤ → ℝ) : along θ (fun k => G * x k) = G * along θ x := by
  unfold along
  ring

theorem across_scale (θ G : ℝ) (x : ℤ → ℝ) : across θ (fun k => G * x k) = G * across θ x := by
  unfold across
  ring

/-! ## Terminals -/

/-- The phase whose duty cycle appears at terminal `t` (1, 2, 3): phase 0 at
terminal 1, and phases 1 and 2 at terminals 3 and 2, or at 2 and 3 when the
configuration inverts them. -/
def phaseOf (phaseInvert : Bool) (t : ℤ) : ℤ :=
  if t = 1 then 0 else if phaseInvert then t - 1 else 4 - t

/-- The phase a duty cycle belongs to. -/
def Vec3.at (v : Vec3) (k : ℤ) : Fl := if k = 0 then v.a else if k = 1 then v.b else v.c

/-- C82, terminals: the compare register of terminal `t` holds the duty cycle of
phase `phaseOf t`. -/
theorem C82_terminals (rc : RateConfig) (counts : ℤ) (inv : Bool) (pwm : Vec3) :
    let o := pwmControl A rc counts inv pwm
    let reg := fun k => toU16 (A.mul (limitPwm rc (Vec3.at pwm k)) (A.lit counts))
    o.ccr1 = reg (phaseOf inv 1) ∧ o.ccr2 = reg (phaseOf inv 2) ∧ o.ccr3 = reg (phaseOf inv 3) := by
  cases inv <;> simp [pwmControl, phaseOf, Vec3.at]

/-- C82, the loop: let the current of every terminal be `G` times the voltage that
the phase driving it carries (a balanced resistive load), up to `η`.  Then the
reported `d_A` and `q_A` are `G` times the commanded `d_V` and `q_V`, for either
order of the phases and either sign of the output. -/
theorem C82_measured (hA : A.Law3) {θ ε X G η d q : ℝ} {sc : SinCos} {inv pos : Bool}
    {i1 i2 i3 : ℚ} (ht : Turned θ ε sc) (h1 : 1 ≤ X) (h2 : X ≤ 2 ^ 100)
    (b1 : |(i1 : ℝ)| ≤ X) (b2 : |(i2 : ℝ)| ≤ X) (b3 : |(i3 : ℝ)| ≤ X)
    (l1 : |(i1 : ℝ) - G * onPhase θ d (if pos then q else -q) (phaseOf inv 1)| ≤ η)
    (l2 : |(i2 : ℝ) - G * onPhase θ d (if pos then q else -q) (phaseOf inv 2)| ≤ η)
    (l3 : |(i3 : ℝ) - G * onPhase θ d (if pos then q else -q) (phaseOf inv 3)| ≤ η) :
    ∃ dA qA : ℚ, currentState A sc inv pos ⟨.fin i1, .fin i2, .fin i3⟩ = (.fin dA, .fin qA) ∧
      |(dA : ℝ) - G * d| ≤ (1 / 2 ^ 19 + 3 * ε) * X + 2 * η ∧
      |(qA : ℝ) - G * q| ≤ (1 / 2 ^ 19 + 3 * ε) * X + 2 * η := by
  -- the currents in the order of the phases
  obtain ⟨jb, jc, hj, bb, bc, lb, lc⟩ : ∃ jb jc : ℚ,
      (currentState A sc inv pos ⟨.fin i1, .fin i2, .fin i3⟩ =
        (dqD A sc (.fin i1) (.fin jb) (.fin jc),
          signed pos (dqQ A sc (.fin i1) (.fin jb) (.fin jc)))) ∧
      |(jb : ℝ)| ≤ X ∧ |(jc : ℝ)| ≤ X ∧
      |(jb : ℝ) - G * onPhase θ d (if pos then q else -q) 1| ≤ η ∧
      |(jc : ℝ) - G * onPhase θ d (if pos then q else -q) 2| ≤ η := by
    cases inv
    · exact ⟨i3, i2, rfl, b3, b2, l3, l2⟩
    · exact ⟨i2, i3, rfl, b2, b3, l2, l3⟩
  have l0 : |(i1 : ℝ) - G * onPhase θ d (if pos then q else -q) 0| ≤ η := by
    simpa [phaseOf] using l1
  obtain ⟨dA, qA, e1, e2, c1, c2⟩ := C82_components hA ht h1 h2 b1 bb bc
  set x := three i1 jb jc with hx
  set y : ℤ → ℝ := fun k => G * onPhase θ d (if pos then q else -q) k with hy
  have a1 : |along θ x - along θ y| ≤ 2 * η := along_dev (by simpa [hx, hy, three] using l0)
    (by simpa [hx, hy, three] using lb) (by simpa [hx, hy, three] using lc)
  have a2 : |across θ x - across θ y| ≤ 2 * η := across_dev (by simpa [hx, hy, three] using l0)
    (by simpa [hx, hy, three] using lb) (by simpa [hx, hy, three] using lc)
  rw [hy, along_scale, along_onPhase] at a1
  rw [hy, across_scale, across_onPhase] at a2
  have r1 := abs_tri c1 a1
  have r2 := abs_tri c2 a2
  rw [hj, e1, e2]
  cases pos
  · refine ⟨dA, -qA, rfl, r1, ?_⟩
    rw [← abs_neg]
    push_cast
    convert r2 using 2
    simp
    ring
  · exact ⟨dA, qA, rfl, r1, by simpa using r2⟩

/-- C82, round trip: measuring the phases that were computed for (d, q) gives back
(d, q). -/
theorem C82_round_trip (hA : A.Law3) {θ ε X : ℝ} {sc : SinCos} {d q : ℚ} (ht : Turned θ ε sc)
    (hε : ε ≤ 1 / 8) (h1 : 1 ≤ X) (h2 : X ≤ 2 ^ 99) (hd : |(d : ℝ)| ≤ X) (hq : |(q : ℝ)| ≤ X) :
    let v := inverseDq A sc (.fin d) (.fin q)
    ∃ d' q' : ℚ, dqD A sc v.a v.b v.c = .fin d' ∧ dqQ A sc v.a v.b v.c = .fin q' ∧
      |(d' : ℝ) - d| ≤ (1 / 2 ^ 17 + 12 * ε) * X ∧ |(q' : ℝ) - q| ≤ (1 / 2 ^ 17 + 12 * ε) * X := by
  have hε0 : 0 ≤ ε := by
    obtain ⟨s, co, -, -, -, es, -⟩ := ht
    exact (abs_nonneg _).trans es
  have h2' : X ≤ 2 ^ 100 := h2.trans (by norm_num)
  obtain ⟨a, b, c, ev, xa, xb, xc⟩ := C82_phases hA ht h1 h2' hd hq
  dsimp only
  rw [ev]
  dsimp only
  -- the phases are within 2 X
  have big : ∀ k, |onPhase θ d q k| ≤ 3 / 2 * X := by
    intro k
    have h := onPhase_sq θ d q k
    have d2 : (d : ℝ) ^ 2 ≤ X ^ 2 := sq_le_sq' (by linarith [(abs_le.mp hd).1]) (abs_le.mp hd).2
    have q2 : (q : ℝ) ^ 2 ≤ X ^ 2 := sq_le_sq' (by linarith [(abs_le.mp hq).1]) (abs_le.mp hq).2
    apply abs_le_of_sq_le_sq _ (by linarith)
    nlinarith
  have hεX : ε * X ≤ 1 / 8 * X := mul_le_mul_of_nonneg_right hε (by linarith)
  have two : ∀ {z : ℚ} {k}, |(z : ℝ) - onPhase θ d q k| ≤ (1 / 2 ^ 19 + 3 * ε) * X →
      |(z : ℝ)| ≤ 2 * X := by
    intro z k h
    have := big k
    norm_num at h
    rw [abs_le] at *
    constructor <;> linarith [h.1, h.2, this.1, this.2]
  have h3 : 2 * X ≤ 2 ^ 100 := by norm_num at h2 ⊢; linarith
  obtain ⟨d', q', e1, e2, c1, c2⟩ := C82_components hA ht (X := 2 * X) (by linarith) h3 (two xa)
    (two xb) (two xc)
  have a1 : |along θ (three a b c) - along θ (onPhase θ d q)| ≤ _ :=
    along_dev (e := (1 / 2 ^ 19 + 3 * ε) * X) (by simpa [three] using xa) (by simpa [three] using xb)
      (by simpa [three] using xc)
  have a2 : |across θ (three a b c) - across θ (onPhase θ d q)| ≤ _ :=
    across_dev (e := (1 / 2 ^ 19 + 3 * ε) * X) (by simpa [three] using xa)
      (by simpa [three] using xb) (by simpa [three] using xc)
  rw [along_onPhase] at a1
  rw [across_onPhase] at a2
  refine ⟨d', q', e1, e2, (abs_tri c1 a1).trans ?_, (abs_tri c2 a2).trans ?_⟩ <;>
  · norm_num
    linarith

end

end Verif.Fw.Foc
