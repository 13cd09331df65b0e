import Verif.Fw.CurrentLimits
import Verif.Fw.Pid

/-!
# Voltage of the current control

The rest of `ISR_DoCurrent` (`fw/bldc_servo.cc` 1832-1889): the PI controllers, the
limit of the voltage vector and of the integrals.

Property C83.
-/

namespace Verif.Fw.Current

open Verif.Float Verif.Fw Verif.Fw.Foc

/-! ## Model -/

/-- The members of `config_` and `motor_` that the voltages depend on. -/
structure Motor where
  voltageMode : Bool
  resistance : Fl
  currentFeedforward : Fl
  bemfFeedforward : Fl
  vPerHz : Fl
  pidD : PiConfig
  pidQ : PiConfig
  rateHz : ℤ

/-- `control_` and the states of the controllers after a cycle. -/
structure Result where
  iD : Fl
  iQ : Fl
  dV : Fl
  qV : Fl
  piD : PiState
  piQ : PiState

/-- `ISR_DoCurrent` (`fw/bldc_servo.cc` 1711-1890) for a configured motor and a valid
angle, up to the call of `ISR_DoVoltageDQ`; `dA` and `qA` are the measured currents,
`velocity` is `feedforward_velocity_rotor`.  `status_.power_W` is left out. -/
def doCurrent (A : Ar) (sqrtf : Fl → Fl) (cfg : Config) (mo : Motor) (maxV : Fl) (m : Meas)
    (ignoreBounds : Bool) (dA qA velocity : Fl) (piD piQ : PiState) (d q : Fl) : Result :=
  let i := currents A cfg m ignoreBounds d q
  let bemf := A.mul (A.mul velocity mo.bemfFeedforward) mo.vPerHz
  if !mo.voltageMode then
    let piD := piApply A mo.pidD piD dA i.1 mo.rateHz
    let piQ := piApply A mo.pidQ piQ qA i.2 mo.rateHz
    let denormD := A.add piD.command (A.mul (A.mul i.1 mo.currentFeedforward) mo.resistance)
    let denormQ :=
      A.add (A.add piQ.command (A.mul (A.mul i.2 mo.currentFeedforward) mo.resistance)) bemf
    let v := limitVoltage A sqrtf maxV denormD denormQ
    ⟨i.1, i.2, v.1, v.2,
      { piD with integral := Fl.limit piD.integral maxV.neg maxV },
      { piQ with integral := Fl.limit piQ.integral maxV.neg maxV }⟩
  else
    let v := limitVoltage A sqrtf maxV (A.mul i.1 mo.resistance)
      (A.add (A.mul i.2 mo.resistance) bemf)
    ⟨i.1, i.2, v.1, v.2, piD, piQ⟩

/-! ## Specification of the square root -/

/-- What is assumed of `sqrtf`: a finite, non negative result whose square is the
argument up to 2^-22 (a correctly rounded root is closer). -/
def SqrtOk (sqrtf : Fl → Fl) : Prop :=
  ∀ x : ℚ, pow2 (-100) ≤ x → ∃ s : ℚ, sqrtf (.fin x) = .fin s ∧ 0 ≤ s ∧
    |s ^ 2 - x| ≤ x * (1 / 4194304)

variable {A : Ar}

/-! ## Length of the voltage vector -/

local notation "E" => (1 / 16777216 : ℚ)
local notation "τ" => (1 / 2 ^ 98 : ℚ)

theorem sum_sq {d q dd qq len : ℚ} (h1 : |dd - d ^ 2| ≤ d ^ 2 * E + τ)
    (h2 : |qq - q ^ 2| ≤ q ^ 2 * E + τ) (h3 : |len - (dd + qq)| ≤ |dd + qq| * E + τ)
    (g1 : 0 ≤ dd) (g2 : 0 ≤ qq) :
    (d ^ 2 + q ^ 2) * (1 - 3 * E) - 4 * τ ≤ len ∧ len ≤ (d ^ 2 + q ^ 2) * (1 + 3 * E) + 4 * τ := by
  rw [abs_of_nonneg (add_nonneg g1 g2)] at h3
  have p1 := sq_nonneg d
  have p2 := sq_nonneg q
  rw [abs_le] at *
  norm_num at *
  constructor <;> linarith [h1.1, h1.2, h2.1, h2.2, h3.1, h3.2]

/-- The scaled vector, over the rationals. -/
theorem scaled_len {m M s len R σ d q d' q' : ℚ} (hm : 1 / 10 ≤ m) (hm2 : m ≤ 2 ^ 21)
    (hs : s = d ^ 2 + q ^ 2)
    (hM : M ≤ m ^ 2 * (1 + 2 * E)) (hM0 : 0 < M)
    (hl : s * (1 - 3 * E) - 4 * τ ≤ len) (hlM : M ≤ len) (hMl : m ^ 2 * (1 - 2 * E) ≤ M)
    (hR : R ≤ M / len * (1 + 2 * E))
    (hσ : σ ^ 2 ≤ R * (1 + 4 * E)) (hs1 : len ≤ s * (1 + 3 * E) + 4 * τ)
    (hd : |d' - d * σ| ≤ |d * σ| * E + τ) (hq : |q' - q * σ| ≤ |q * σ| * E + τ) :
    d' ^ 2 + q' ^ 2 ≤ (m * (1 + 1 / 2 ^ 18)) ^ 2 := by
  have hm0 : 0 < m := by linarith
  have hmm : 1 / 100 ≤ m ^ 2 := by nlinarith
  have hl0 : 0 < len := by linarith
  have hslow : 1 / 200 ≤ s := by norm_num at *; linarith
  -- s σ² ≤ m² (1 + 20 E)
  have h1 : s * (1 - 4 * E) ≤ len := by norm_num at *; linarith
  have h2 : R * len ≤ M * (1 + 2 * E) := by
    have := mul_le_mul_of_nonneg_right hR hl0.le
    have e : M / len * (1 + 2 * E) * len = M * (1 + 2 * E) := by field_simp
    linarith
  have h3 : σ ^ 2 * len ≤ M * (1 + 7 * E) := by
    have := mul_le_mul_of_nonneg_right hσ hl0.le
    have e : R * (1 + 4 * E) * len = (R * len) * (1 + 4 * E) := by ring
    rw [e] at this
    have := this.trans (mul_le_mul_of_nonneg_right h2 (by norm_num))
    refine this.trans ?_
    norm_num
    linarith
  have h4 : s * σ ^ 2 * (1 - 4 * E) ≤ m ^ 2 * (1 + 10 * E) := by
    have a1 := mul_le_mul_of_nonneg_left h1 (sq_nonneg σ)
    have a2 : M * (1 + 7 * E) ≤ m ^ 2 * (1 + 2 * E) * (1 + 7 * E) :=
      mul_le_mul_of_nonneg_right hM (by norm_num)
    norm_num at *
    linarith
  have h5 : s * σ ^ 2 ≤ m ^ 2 * (1 + 16 * E) := by norm_num at *; linarith
  have bound : ∀ x : ℚ, x ^ 2 ≤ s → |x * σ| ≤ m * 2 := by
    intro x hx
    apply abs_le_of_sq_le_sq _ (by linarith)
    rw [mul_pow]
    have := mul_le_mul_of_nonneg_right hx (sq_nonneg σ)
    norm_num at *
    nlinarith
  have hdb := bound d (by rw [hs]; nlinarith [sq_nonneg q])
  have hqb := bound q (by rw [hs]; nlinarith [sq_nonneg d])
  have grow : ∀ x x' : ℚ, |x' - x * σ| ≤ |x * σ| * E + τ → |x * σ| ≤ m * 2 →
      x' ^ 2 ≤ (x * σ) ^ 2 * (1 + 3 * E) + 1 / 2 ^ 70 := by
    intro x x' h g
    have h6 : |x'| ≤ |x * σ| * (1 + E) + τ := by
      have := abs_add_le (x' - x * σ) (x * σ)
      rw [sub_add_cancel] at this
      linarith
    rw [← sq_abs x', ← sq_abs (x * σ)]
    have h7 := pow_le_pow_left₀ (abs_nonneg x') h6 2
    refine h7.trans ?_
    have p := abs_nonneg (x * σ)
    have g2 : |x * σ| ≤ 2 ^ 22 := g.trans (by norm_num at hm2 ⊢; linarith)
    generalize |x * σ| = y at *
    have e : (y * (1 + E) + τ) ^ 2 = y ^ 2 * (1 + E) ^ 2 + y * (2 * (1 + E) * τ) + τ ^ 2 := by ring
    rw [e]
    have y2 := sq_nonneg y
    norm_num at *
    linarith
  have k1 := grow d d' hd hdb
  have k2 := grow q q' hq hqb
  have e : (d * σ) ^ 2 + (q * σ) ^ 2 = s * σ ^ 2 := by rw [hs]; ring
  rw [mul_pow]
  norm_num at *
  linarith

theorem rq_close (hA : A.Law3) (z : ℚ) : |A.rq z - z| ≤ |z| * E + τ := Apx.rq_err hA z

theorem rnd_bounded (hA : A.Law3) {z : ℚ} (h : |z| ≤ 2 ^ 120) : A.rnd z = .fin (A.rq z) := by
  refine hA.toLaw2.rnd_fin (h.trans ?_)
  decide +kernel

/-- C83, voltage: on a bus of ordinary voltage the vector of the current control is
never longer than `max_V` by more than 2^-18, and the limit keeps its direction: both
components are multiplied by the same number, which is 1 when the vector is short
enough. -/
theorem C83_voltage (hA : A.Law3) {sqrtf : Fl → Fl} (hS : SqrtOk sqrtf) {m d q : ℚ}
    (hm : 1 / 10 ≤ m) (hm2 : m ≤ 2 ^ 21) (hd : |d| ≤ 2 ^ 40) (hq : |q| ≤ 2 ^ 40) :
    ∃ d' q' σ : ℚ, limitVoltage A sqrtf (.fin m) (.fin d) (.fin q) = (.fin d', .fin q') ∧
      d' ^ 2 + q' ^ 2 ≤ (m * (1 + 1 / 2 ^ 18)) ^ 2 ∧ 0 ≤ σ ∧ σ ≤ 1 + 1 / 2 ^ 18 ∧
      |d' - d * σ| ≤ |d * σ| * E + τ ∧ |q' - q * σ| ≤ |q * σ| * E + τ ∧
      ((d ^ 2 + q ^ 2) * (1 + 1 / 2 ^ 20) ≤ m ^ 2 → d' = d ∧ q' = q) := by
  have hm0 : 0 < m := by linarith
  have hmm : 1 / 100 ≤ m ^ 2 := by nlinarith
  have sqb : ∀ x : ℚ, |x| ≤ 2 ^ 40 → x ^ 2 ≤ 2 ^ 80 := by
    intro x h
    rw [← sq_abs]
    have := pow_le_pow_left₀ (abs_nonneg x) h 2
    norm_num at this ⊢
    exact this
  have d2 := sqb d hd
  have q2 := sqb q hq
  have m2 : m ^ 2 ≤ 2 ^ 42 := by
    have := pow_le_pow_left₀ hm0.le hm2 2
    norm_num at this ⊢
    exact this
  -- the products
  have big : ∀ x : ℚ, 0 ≤ x ^ 2 → x ^ 2 ≤ 2 ^ 80 →
      A.mul (.fin x) (.fin x) = .fin (A.rq (x ^ 2)) ∧ |A.rq (x ^ 2) - x ^ 2| ≤ x ^ 2 * E + τ ∧
        0 ≤ A.rq (x ^ 2) ∧ A.rq (x ^ 2) ≤ 2 ^ 81 := by
    intro x h0 h
    have h1 := rq_close hA (x ^ 2)
    rw [abs_of_nonneg h0] at h1
    refine ⟨?_, h1, hA.toLaw.nonneg h0, ?_⟩
    · show A.rnd (x * x) = _
      rw [← sq]
      refine rnd_bounded hA ?_
      rw [abs_of_nonneg h0]
      refine h.trans ?_
      norm_num
    · rw [abs_le] at h1
      norm_num at *
      linarith [h1.2]
  obtain ⟨eM, cM, M0, -⟩ := big m (sq_nonneg _) (m2.trans (by norm_num))
  obtain ⟨eD, cD, D0, D1⟩ := big d (sq_nonneg _) d2
  obtain ⟨eQ, cQ, Q0, Q1⟩ := big q (sq_nonneg _) q2
  set M := A.rq (m ^ 2)
  set dd := A.rq (d ^ 2)
  set qq := A.rq (q ^ 2)
  have eL : A.add (.fin dd) (.fin qq) = .fin (A.rq (dd + qq)) := by
    rw [Ar.add_fin]
    refine rnd_bounded hA ?_
    rw [abs_of_nonneg (add_nonneg D0 Q0)]
    norm_num at *
    linarith
  have cL := rq_close hA (dd + qq)
  set len := A.rq (dd + qq)
  obtain ⟨l1, l2⟩ := sum_sq cD cQ cL D0 Q0
  have hMhi : M ≤ m ^ 2 * (1 + 2 * E) := by
    rw [abs_le] at cM
    norm_num at *
    linarith [cM.2]
  have hMlo : m ^ 2 * (1 - 2 * E) ≤ M := by
    rw [abs_le] at cM
    norm_num at *
    linarith [cM.1]
  have p2 := add_nonneg (sq_nonneg d) (sq_nonneg q)
  unfold limitVoltage
  dsimp only
  rw [eM, eD, eQ, eL, Fl.blt_fin]
  by_cases hlt : len < M
  · rw [decide_eq_true hlt, if_pos rfl]
    refine ⟨d, q, 1, rfl, ?_, by norm_num, by norm_num, ?_, ?_, fun _ => ⟨rfl, rfl⟩⟩
    · rw [mul_pow]
      norm_num at *
      linarith
    · rw [_root_.mul_one, sub_self, abs_zero]
      positivity
    · rw [_root_.mul_one, sub_self, abs_zero]
      positivity
  · rw [decide_eq_false hlt, if_neg (by simp)]
    have hge : M ≤ len := not_lt.mp hlt
    have hMp : 1 / 200 ≤ M := by norm_num at *; linarith
    have hl0 : 0 < len := by linarith
    have hlb : len ≤ 2 ^ 82 := by norm_num at *; linarith
    rw [div_fin _ hl0.ne']
    have r1 : M / len ≤ 1 := (div_le_one hl0).mpr hge
    have r0 : 1 / 2 ^ 90 ≤ M / len := by
      rw [le_div_iff₀ hl0]
      norm_num at *
      linarith
    have eR : A.rnd (M / len) = .fin (A.rq (M / len)) := by
      refine rnd_bounded hA ?_
      rw [abs_of_nonneg (by linarith [(by positivity : (0 : ℚ) ≤ 1 / 2 ^ 90)])]
      exact r1.trans (by norm_num)
    have cR := hA.rel (x := M / len) (by
      have e : pow2 (-100) = 1 / 2 ^ 100 := by decide +kernel
      rw [e, abs_of_nonneg (by linarith [(by positivity : (0 : ℚ) ≤ 1 / 2 ^ 90)])]
      exact le_trans (by norm_num) r0)
    have r00 : 0 < M / len := div_pos (by linarith) hl0
    rw [abs_of_pos r00, show pow2 (-24) = E from by decide +kernel, abs_le] at cR
    rw [eR]
    have cR1 := cR.1
    have cR2 := cR.2
    generalize A.rq (M / len) = R at *
    obtain ⟨σ, eσ, σ0, cσ⟩ := hS R (by
      have e : pow2 (-100) = 1 / 2 ^ 100 := by decide +kernel
      rw [e]
      have : M / len * (1 - E) ≤ R := by linarith
      refine le_trans ?_ this
      refine le_trans ?_ (mul_le_mul_of_nonneg_right r0 (by norm_num))
      norm_num)
    rw [eσ]
    rw [abs_le] at cσ
    have hσ2 : σ ^ 2 ≤ R * (1 + 4 * E) := by norm_num at *; linarith [cσ.2]
    have hR1 : R ≤ 1 + E := by linarith
    have hσ1 : σ ≤ 1 + 1 / 2 ^ 18 := by
      refine le_of_abs_le (abs_le_of_sq_le_sq ?_ (by norm_num))
      refine hσ2.trans ?_
      norm_num at *
      linarith
    have fin : ∀ x : ℚ, |x| ≤ 2 ^ 40 → A.mul (.fin x) (.fin σ) = .fin (A.rq (x * σ)) := by
      intro x hx
      refine rnd_bounded hA ?_
      rw [abs_mul, abs_of_nonneg σ0]
      refine (mul_le_mul hx hσ1 σ0 (by norm_num)).trans ?_
      norm_num
    rw [fin d hd, fin q hq]
    refine ⟨_, _, σ, rfl, ?_, σ0, hσ1, rq_close hA _, rq_close hA _, fun h => ?_⟩
    · exact scaled_len hm hm2 rfl hMhi (by linarith) l1 hge hMlo (by linarith) hσ2 l2
        (rq_close hA _) (rq_close hA _)
    · exfalso
      norm_num at *
      linarith

/-- `max_V` on a bus of 1 V to 2^20 V. -/
theorem maxV_range (hA : A.Law3) (hB : Band A) (bd : Bool) (n : ℤ) {V m : ℚ} (hV : 1 ≤ V)
    (hV2 : V ≤ 2 ^ 20) (hm : maxV A (rateConfig A bd n) (.fin V) = .fin m) :
    1 / 10 ≤ m ∧ m ≤ 2 ^ 21 := by
  obtain ⟨lo, hi, -, e2, -, -, -, -, b3, b4, -⟩ := C40_band_proper hB bd n
  obtain ⟨w, ew, xw, -⟩ := apx_maxV hA bd n hV hV2 e2 b3 b4
  rw [hm] at ew
  injection ew with ew
  subst ew
  rw [abs_le] at xw
  have r1 : (1 : ℝ) ≤ V := castLe hV (by norm_num)
  have r2 : (V : ℝ) ≤ 1048576 := by
    have : (V : ℝ) ≤ ((2 ^ 20 : ℚ) : ℝ) := by exact_mod_cast hV2
    push_cast at this
    norm_num at this
    exact this
  have r3 : (7 / 8 : ℝ) ≤ hi := castLe b3 (by norm_num)
  have r4 : (hi : ℝ) ≤ 1 := by exact_mod_cast b4.le
  push_cast at xw
  have x1 : (2 * (hi : ℝ) - 1) * (11547 / 20000) * V ≥ 3 / 4 * (11547 / 20000) * V := by
    have := mul_le_mul_of_nonneg_right
      (show (3 / 4 * (11547 / 20000) : ℝ) ≤ (2 * hi - 1) * (11547 / 20000) by linarith)
      (show (0 : ℝ) ≤ V by linarith)
    linarith
  have x2 : (2 * (hi : ℝ) - 1) * (11547 / 20000) * V ≤ 1 * V :=
    mul_le_mul_of_nonneg_right (by linarith) (by linarith)
  generalize (2 * (hi : ℝ) - 1) * (11547 / 20000) * V = z at *
  constructor
  · have : ((1 / 10 : ℚ) : ℝ) ≤ m := by
      push_cast
      linarith [xw.1]
    exact_mod_cast this
  · have : (m : ℝ) ≤ ((2 ^ 21 : ℚ) : ℝ) := by
      push_cast
      norm_num
      linarith [xw.2]
    exact_mod_cast this

/-- C83, the motor: the voltages computed for finite inputs of up to 2^40 V are
scaled to a vector that the duty cycles of the phases then represent, on a bus of 1 V
to 2^20 V: current control never asks for more than the PWM can do, so the saturation
of the duty cycles does not bend the vector. -/
theorem C83_reaches_motor (hA : A.Law3) (hB : Band A) {sqrtf : Fl → Fl} (hS : SqrtOk sqrtf)
    (bd : Bool) (n counts : ℤ) (inv pos : Bool) {θ ε : ℝ} {sc : SinCos} {V d q m : ℚ}
    (ht : Turned θ ε sc) (hε : ε ≤ 1 / 8) (hV : 1 ≤ V) (hV2 : V ≤ 2 ^ 20)
    (hm : maxV A (rateConfig A bd n) (.fin V) = .fin m) (hd : |d| ≤ 2 ^ 40) (hq : |q| ≤ 2 ^ 40) :
    let v := limitVoltage A sqrtf (.fin m) (.fin d) (.fin q)
    let out := (voltageDQ A (rateConfig A bd n) counts inv pos (.fin V) sc v.1 v.2).duty
    ∃ d' q' σ x y z : ℚ, v = (.fin d', .fin q') ∧ out = ⟨.fin x, .fin y, .fin z⟩ ∧
      0 ≤ σ ∧ σ ≤ 1 + 1 / 2 ^ 18 ∧ |d' - d * σ| ≤ |d * σ| * E + τ ∧
      |q' - q * σ| ≤ |q * σ| * E + τ ∧
      let phase := onPhase θ d' (if pos then q' else -q')
      |((x : ℝ) - y) - (phase 0 - phase 1) / V| ≤ 1 / 2 ^ 15 + 12 * ε ∧
      |((y : ℝ) - z) - (phase 1 - phase 2) / V| ≤ 1 / 2 ^ 15 + 12 * ε ∧
      |((x : ℝ) - z) - (phase 0 - phase 2) / V| ≤ 1 / 2 ^ 15 + 12 * ε := by
  obtain ⟨m1, m2⟩ := maxV_range hA hB bd n hV hV2 hm
  obtain ⟨d', q', σ, e, hlen, s0, s1, c1, c2, -⟩ := C83_voltage hA hS m1 m2 hd hq
  dsimp only
  rw [e]
  obtain ⟨x, y, z, eo, h1, h2, h3⟩ :=
    C82_line_voltage hA hB bd n counts inv pos ht hε hV hV2 hm hlen
  exact ⟨d', q', σ, x, y, z, rfl, eo, s0, s1, c1, c2, h1, h2, h3⟩

/-! ## The square root exists -/

/-- A square root as `SqrtOk` asks for, from that of the integers. -/
def sqrtRef : Fl → Fl
  | .fin x => if x < 0 then .nan else .fin ((Nat.sqrt ⌊x * 2 ^ 200⌋.toNat : ℕ) / 2 ^ 100)
  | .inf false => .inf false
  | _ => .nan

theorem sqrtRef_ok : SqrtOk sqrtRef := by
  intro x hx
  have e : pow2 (-100) = 1 / 2 ^ 100 := by decide +kernel
  rw [e] at hx
  have x0 : 0 < x := lt_of_lt_of_le (by positivity) hx
  refine ⟨_, if_neg (not_lt.mpr x0.le), by positivity, ?_⟩
  set N := ⌊x * 2 ^ 200⌋.toNat with hN
  have f0 : 0 ≤ ⌊x * 2 ^ 200⌋ := Int.floor_nonneg.mpr (by positivity)
  have n1 : ((N : ℕ) : ℚ) = (⌊x * 2 ^ 200⌋ : ℚ) := by
    have : ((N : ℕ) : ℤ) = ⌊x * 2 ^ 200⌋ := Int.toNat_of_nonneg f0
    exact_mod_cast this
  have n2 : (N : ℚ) ≤ x * 2 ^ 200 := by rw [n1]; exact Int.floor_le _
  have n3 : x * 2 ^ 200 < N + 1 := by rw [n1]; exact Int.lt_floor_add_one _
  have s1 := Nat.sqrt_le' N
  have s2 := Nat.lt_succ_sqrt' N
  set r := Nat.sqrt N
  have q1 : (r : ℚ) ^ 2 ≤ N := by exact_mod_cast s1
  have q2 : (N : ℚ) < ((r : ℚ) + 1) ^ 2 := by exact_mod_cast s2
  have big : (2 ^ 49 : ℚ) ≤ r := by
    have h1 : (2 ^ 98 : ℚ) ≤ N := by
      have h := mul_le_mul_of_nonneg_right hx (show (0 : ℚ) ≤ 2 ^ 200 by positivity)
      have h3 : (1 / 2 ^ 100 * 2 ^ 200 : ℚ) = 2 ^ 98 + 3 * 2 ^ 98 := by norm_num
      have h4 : (1 : ℚ) ≤ 3 * 2 ^ 98 := by norm_num
      linarith
    have h2 : (2 ^ 98 : ℕ) ≤ N := by exact_mod_cast h1
    have : 2 ^ 49 ≤ r := Nat.le_sqrt'.mpr (le_trans (by norm_num) h2)
    exact_mod_cast this
  have e2 : ((r : ℚ) / 2 ^ 100) ^ 2 = r ^ 2 / 2 ^ 200 := by ring
  rw [e2]
  have key : (2 : ℚ) * r + 2 ≤ r ^ 2 * (1 / 4194304) := by
    have := mul_le_mul_of_nonneg_left big (show (0 : ℚ) ≤ r by positivity)
    norm_num at *
    linarith
  have q3 : x * 2 ^ 200 - r ^ 2 ≤ 2 * r + 2 := by nlinarith
  have q4 : 0 ≤ x * 2 ^ 200 - (r : ℚ) ^ 2 := by linarith
  rw [abs_le]
  generalize (r : ℚ) ^ 2 = R at *
  constructor <;> norm_num at * <;> linarith

/-! ## Integrals -/

/-- C83, integrals: with current control neither integral is outside of plus or
minus `max_V` after a cycle, unless it is NaN. -/
theorem C83_integral {sqrtf : Fl → Fl} {cfg : Config} {mo : Motor} {maxV : Fl} {m : Meas} {b : Bool}
    {dA qA vel d q : Fl} {piD piQ : PiState} (hmo : mo.voltageMode = false)
    (hm : (Fl.fin 0).Le maxV) :
    let r := doCurrent A sqrtf cfg mo maxV m b dA qA vel piD piQ d q
    (r.piD.integral ≠ .nan → r.piD.integral.abs.Le maxV) ∧
      (r.piQ.integral ≠ .nan → r.piQ.integral.abs.Le maxV) := by
  have key : ∀ x : Fl, Fl.limit x maxV.neg maxV ≠ .nan → (Fl.limit x maxV.neg maxV).abs.Le maxV := by
    intro x h
    have hx : x ≠ .nan := by
      rintro rfl
      exact h (Fl.limit_nan _ _)
    have hn : maxV.abs = maxV := by
      rcases maxV with _ | ⟨_ | _⟩ | v <;> simp_all [Fl.abs, Fl.Le, Fl.ble]
    have := (Fl.abs_Le_iff (x := Fl.limit x maxV.neg maxV) (y := maxV)).mpr
    rw [hn] at this
    exact this (Fl.limit_mem (neg_le_self hm) hx)
  unfold doCurrent
  simp only [hmo, Bool.not_false, if_true]
  exact ⟨key _, key _⟩

/-! ## NaN stays -/

theorem mul_nan_left (x : Fl) : A.mul .nan x = .nan := by cases x <;> rfl
theorem mul_nan_right (x : Fl) : A.mul x .nan = .nan := by rcases x with _ | _ | _ <;> rfl
theorem add_nan_left (x : Fl) : A.add .nan x = .nan := by cases x <;> rfl
theorem add_nan_right (x : Fl) : A.add x .nan = .nan := by rcases x with _ | _ | _ <;> rfl
theorem div_nan_left (x : Fl) : A.div .nan x = .nan := by cases x <;> rfl
theorem div_nan_right (x : Fl) : A.div x .nan = .nan := by rcases x with _ | _ | _ <;> rfl

/-- One NaN voltage in the last cycle makes both currents NaN. -/
theorem currents_nan {cfg : Config} {m : Meas} {b : Bool} {d q : Fl}
    (h : m.oldD = .nan ∨ m.oldQ = .nan) : currents A cfg m b d q = (.nan, .nan) := by
  unfold currents powerLimit usedPower
  rcases h with h | h <;>
    simp [h, mul_nan_left, mul_nan_right, add_nan_left, add_nan_right, div_nan_left, div_nan_right,
      Fl.abs]

theorem doCurrent_nan {sqrtf : Fl → Fl} {cfg : Config} {mo : Motor} {maxV : Fl} {m : Meas} {b : Bool}
    {dA qA vel d q : Fl} {piD piQ : PiState} (h : m.oldD = .nan ∨ m.oldQ = .nan) :
    let r := doCurrent A sqrtf cfg mo maxV m b dA qA vel piD piQ d q
    r.dV = .nan ∧ r.qV = .nan ∧ r.iD = .nan ∧ r.iQ = .nan := by
  unfold doCurrent limitVoltage
  rw [currents_nan h]
  simp only [mul_nan_left, add_nan_left, add_nan_right, Fl.blt_nan_left, Bool.false_eq_true, if_false]
  split <;> exact ⟨rfl, rfl, rfl, rfl⟩

/-- What a cycle of current control takes from outside: everything but the voltages
of the cycle before and the states of the controllers. -/
structure Inputs where
  cfg : Config
  mo : Motor
  maxV : Fl
  meas : Meas
  ignoreBounds : Bool
  dA : Fl
  qA : Fl
  velocity : Fl
  d : Fl
  q : Fl

/-- Cycles of current control one after the other: `old_d_V` and `old_q_V` are the
voltages of the cycle before (`fw/bldc_servo.cc` 1463-1464, 1911-1912). -/
def cycles (A : Ar) (sqrtf : Fl → Fl) (r : Result) : List Inputs → List Result
  | [] => []
  | i :: rest =>
    let r' := doCurrent A sqrtf i.cfg i.mo i.maxV { i.meas with oldD := r.dV, oldQ := r.qV }
      i.ignoreBounds i.dA i.qA i.velocity r.piD r.piQ i.d i.q
    r' :: cycles A sqrtf r' rest

/-- C83 fails for good: once a voltage is NaN, every later cycle of current control
has NaN currents and voltages, whatever is commanded, measured and configured, with
and without `voltage_mode_control`. -/
theorem C83_nan_stays_refuted (sqrtf : Fl → Fl) {r : Result} (h : r.dV = .nan ∨ r.qV = .nan)
    (is : List Inputs) : ∀ r' ∈ cycles A sqrtf r is,
      r'.dV = .nan ∧ r'.qV = .nan ∧ r'.iD = .nan ∧ r'.iQ = .nan := by
  induction is generalizing r with
  | nil => simp [cycles]
  | cons i rest ih =>
    intro r' hr
    unfold cycles at hr
    have k := doCurrent_nan (A := A) (sqrtf := sqrtf) (cfg := i.cfg) (mo := i.mo) (maxV := i.maxV)
      (m := { i.meas with oldD := r.dV, oldQ := r.qV }) (b := i.ignoreBounds) (dA := i.dA)
      (qA := i.qA) (vel := i.velocity) (d := i.d) (q := i.q) (piD := r.piD) (piQ := r.piQ) h
    rcases List.mem_cons.mp hr with rfl | hr
    · exact k
    · exact ih (.inl k.1) r' hr

/-! ## Witnesses -/

def sampleMotor : Motor where
  voltageMode := true
  resistance := .fin (1 / 2)
  currentFeedforward := .fin 1
  bemfFeedforward := .fin 1
  vPerHz := .fin (1 / 8)
  pidD := ⟨.fin (1 / 4), .fin 64, .fin 0⟩
  pidQ := ⟨.fin (1 / 4), .fin 64, .fin 0⟩
  rateHz := 30000

def sampleInputs (q : ℚ) : Inputs where
  cfg := sampleConfig
  mo := sampleMotor
  maxV := .fin 12
  meas := { sampleMeas with maxPower := .fin 10 }
  ignoreBounds := false
  dA := .fin 0
  qA := .fin 0
  velocity := .fin 0
  d := .fin 0
  q := .fin q

/-- C83 fails in three cycles of `voltage_mode_control`: 6 A command a voltage of
3 V; in the next cycle they exceed the power limit of 10 W and both voltages are NaN,
because the voltage of the d axis is 0; a command of 0 A afterwards does not help. -/
theorem C83_voltage_mode_refuted :
    (cycles .single sqrtRef ⟨.fin 0, .fin 0, .fin 0, .fin 0, .clear, .clear⟩
      [sampleInputs 6, sampleInputs 6, sampleInputs 0]).map (fun r => (r.dV, r.qV)) =
      [(.fin 0, .fin 3), (.nan, .nan), (.nan, .nan)] := by
  decide +kernel

/-- Hypotheses of `C83_voltage`, limited and not. -/
example : SqrtOk sqrtRef ∧ Ar.single.Law3 ∧ (1 / 10 : ℚ) ≤ 12 ∧ |(16 : ℚ)| ≤ 2 ^ 40 ∧
    limitVoltage .single sqrtRef (.fin 12) (.fin 3) (.fin 4) = (.fin 3, .fin 4) ∧
    limitVoltage .single sqrtRef (.fin 12) (.fin 0) (.fin 24) = (.fin 0, .fin 12) :=
  ⟨sqrtRef_ok, Ar.single_law3, by norm_num, by norm_num [abs_of_pos], by decide +kernel,
    by decide +kernel⟩

/-- Hypotheses of `C83_reaches_motor`: 24 V, a vector of 16 V and 16 V. -/
example : Turned 0 0 ⟨.fin 0, .fin 1⟩ ∧ |(16 : ℚ)| ≤ 2 ^ 40 ∧
    ∃ m : ℚ, maxV .exact (rateConfig .exact false 30000) (.fin 24) = .fin m ∧
      m ^ 2 < (16 : ℚ) ^ 2 + 16 ^ 2 := by
  refine ⟨⟨0, 1, rfl, by simp, by simp, by simp, by simp⟩, by norm_num [abs_of_pos],
    75898431 / 6250000, by decide +kernel, by norm_num⟩

/-- The voltages that current control asks for before the limit: the controllers of
both axes, the resistance times the current, and on the second axis the voltage that the
motor induces; in voltage mode without the controllers. -/
def asked (A : Ar) (cfg : Config) (mo : Motor) (m : Meas) (b : Bool) (dA qA velocity : Fl)
    (piD piQ : PiState) (d q : Fl) : Fl × Fl :=
  let i := currents A cfg m b d q
  let e := A.mul (A.mul velocity mo.bemfFeedforward) mo.vPerHz
  if mo.voltageMode then (A.mul i.1 mo.resistance, A.add (A.mul i.2 mo.resistance) e)
  else
    (A.add (piApply A mo.pidD piD dA i.1 mo.rateHz).command
        (A.mul (A.mul i.1 mo.currentFeedforward) mo.resistance),
      A.add (A.add (piApply A mo.pidQ piQ qA i.2 mo.rateHz).command
        (A.mul (A.mul i.2 mo.currentFeedforward) mo.resistance)) e)

/-- C83, what is applied: in both ways of current control the vector that is applied is
not longer than `max_V` by more than 2^-18 and points where the one that is asked for
points. -/
theorem C83_applied (hA : A.Law3) {sqrtf : Fl → Fl} (hS : SqrtOk sqrtf) {cfg : Config} {mo : Motor}
    {m : Meas} {b : Bool} {dA qA velocity : Fl} {piD piQ : PiState} {d q : Fl} {M u w : ℚ}
    (hm : 1 / 10 ≤ M) (hm2 : M ≤ 2 ^ 21)
    (hask : asked A cfg mo m b dA qA velocity piD piQ d q = (.fin u, .fin w))
    (hu : |u| ≤ 2 ^ 40) (hw : |w| ≤ 2 ^ 40) :
    let r := doCurrent A sqrtf cfg mo (.fin M) m b dA qA velocity piD piQ d q
    ∃ d' q' σ : ℚ, r.dV = .fin d' ∧ r.qV = .fin q' ∧
      d' ^ 2 + q' ^ 2 ≤ (M * (1 + 1 / 2 ^ 18)) ^ 2 ∧ 0 ≤ σ ∧ σ ≤ 1 + 1 / 2 ^ 18 ∧
      |d' - u * σ| ≤ |u * σ| * E + τ ∧ |q' - w * σ| ≤ |w * σ| * E + τ ∧
      ((u ^ 2 + w ^ 2) * (1 + 1 / 2 ^ 20) ≤ M ^ 2 → d' = u ∧ q' = w) := by
  intro r
  obtain ⟨d', q', σ, e, rest⟩ := C83_voltage hA hS hm hm2 hu hw
  have key : (r.dV, r.qV) = limitVoltage A sqrtf (.fin M) (.fin u) (.fin w) := by
    have h1 := congrArg Prod.fst hask
    have h2 := congrArg Prod.snd hask
    simp only [asked] at h1 h2
    cases hv : mo.voltageMode
    · simp only [hv, Bool.false_eq_true, if_false] at h1 h2
      simp only [r, doCurrent, hv, Bool.not_false, if_true]
      rw [h1, h2]
    · simp only [hv, if_true] at h1 h2
      simp only [r, doCurrent, hv, Bool.not_true, Bool.false_eq_true, if_false]
      rw [h1, h2]
  rw [e] at key
  injection key with k1 k2
  exact ⟨d', q', σ, k1, k2, rest⟩

/-- Hypotheses of `C83_applied`: 6 A in voltage mode ask for 3 V, and with the
controllers for 4.5 V. -/
example : let i := sampleInputs 6
    let meas := { i.meas with oldD := .fin 0, oldQ := .fin 0 }
    asked .single i.cfg i.mo meas false i.dA i.qA i.velocity .clear .clear i.d i.q = (.fin 0, .fin 3) ∧
    (∃ w : ℚ, asked .single i.cfg { i.mo with voltageMode := false, pidQ := ⟨.fin (1 / 4), .fin 0, .fin 0⟩ } meas false
      i.dA i.qA i.velocity .clear .clear i.d i.q = (.fin 0, .fin w) ∧ 3 < w ∧ |w| ≤ 2 ^ 40) ∧ |(3 : ℚ)| ≤ 2 ^ 40 := by
  refine ⟨by decide +kernel, ⟨9 / 2, by decide +kernel, by norm_num, ?_⟩, ?_⟩ <;>
    norm_num [abs_of_pos]

end Verif.Fw.Current
