import Verif.Fw.FocPwm
import Verif.Fw.CommutationAngle
import Mathlib.Analysis.Real.Pi.Bounds

/-!
# The angle given to the CORDIC unit

Model of `RadiansToQ31` (`fw/math.h` 47-56): an angle in radians becomes a signed
32 bit number, 2^32 to the turn.

Property C82.
-/

namespace Verif.Fw.Foc

open Verif.Float Verif.Fw

variable {A : Ar}

/-! ## Model -/

/-- The number that the last conversion of `RadiansToQ31` converts: `scaled`, `i`
and `mod` are the names of the source. -/
def toConvert (A : Ar) (x : Fl) : Fl :=
  let scaled := A.div x (.fin twoPi)
  let i := toI32 scaled
  let mod := A.sub scaled (A.lit i)
  let mod := if Fl.blt mod (.fin 0) then A.add mod (.fin 1) else mod
  A.mul (if Fl.blt (half A) mod then A.sub mod (.fin 1) else mod) (.fin 4294967296)

/-- `RadiansToQ31` (`fw/math.h` 47-56).  The conversion to `int32_t` saturates, as
the instruction of the controller does; the C++ standard leaves a value that does
not fit undefined (`C82_half_turn_refuted`). -/
def radiansToQ31 (A : Ar) (x : Fl) : ℤ := toI32 (toConvert A x)

/-! ## Proof -/

local notation "u" => (1 / 16777216 : ℝ)

theorem twoPi_near : |(twoPi : ℝ) - 2 * Real.pi| ≤ 4 * u := by
  have h1 := Real.pi_gt_d20
  have h2 := Real.pi_lt_d20
  norm_num at h1 h2
  unfold twoPi
  rw [abs_le]
  constructor
  · push_cast; norm_num; linarith
  · push_cast; norm_num; linarith

theorem rnd_mid (hA : A.Law3) {z lo hi B : ℚ} (rl : A.Rep lo) (rh : A.Rep hi) (h1 : lo ≤ z)
    (h2 : z ≤ hi) (hB : |z| ≤ B) :
    ∃ q, A.rnd z = .fin q ∧ lo ≤ q ∧ q ≤ hi ∧ |q - z| ≤ B * (1 / 16777216) + 1 / 2 ^ 98 := by
  obtain ⟨q, e, -, g1, g2⟩ := rnd_between hA.toLaw2 rl rh h1 h2
  refine ⟨q, e, g1, g2, ?_⟩
  have : A.rq z = q := by
    unfold Ar.rnd at e
    split at e
    · cases e
    · injection e
  have k := Apx.rq_err hA z
  rw [this] at k
  linarith

theorem rep_one (hA : A.Law3) : A.Rep 1 := lit_one hA.toLaw2

theorem rep_half (hA : A.Law3) : A.Rep (1 / 2) := hA.toLaw.rep_of_rnd (half_eq hA)

theorem rep_quarter_range (hA : A.Law3) : A.Rep 2147483648 := by
  have := hA.toLaw2.scale (x := 1) (k := 31) (rep_one hA) (by norm_num) (by decide +kernel)
  have e : pow2 31 = 2147483648 := by decide +kernel
  rw [e, one_mul] at this
  exact this

/-- The fraction of a turn that is converted. -/
theorem fraction (hA : A.Law3) {x : ℚ} (hx : |x| ≤ 2 ^ 20) :
    ∃ (w : ℚ) (n : ℤ), toConvert A (.fin x) = A.rnd (w * 4294967296) ∧ -(1 / 2) ≤ w ∧ w ≤ 1 / 2 ∧
      |(w : ℝ) - ((x : ℝ) / (2 * Real.pi) - n)| ≤ |(x : ℝ)| * (u / 2) + 7 * u := by
  have hp := twoPi_near
  have hpi := Real.pi_gt_d6
  norm_num at hpi
  have rx : |(x : ℝ)| ≤ 1048576 := by
    have : ((|x| : ℚ) : ℝ) ≤ ((2 ^ 20 : ℚ) : ℝ) := by exact_mod_cast hx
    push_cast at this
    norm_num at this
    exact this
  have htp : (twoPi : ℝ) ≥ 6 := by unfold twoPi; push_cast; norm_num
  have htq : twoPi ≠ 0 := by decide +kernel
  -- turns
  obtain ⟨σ, eσ, xσ, mσ⟩ : Apx (A.div (.fin x) (.fin twoPi)) ((x : ℝ) / (2 * Real.pi))
      (|(x : ℝ)| * (u / 2) + u / 1000) (|(x : ℝ)| / 6) := by
    rw [div_fin _ htq]
    have hM : |(x : ℝ) / (2 * Real.pi)| ≤ |(x : ℝ)| / 6 := by
      rw [abs_div, abs_of_pos (by linarith : (0 : ℝ) < 2 * Real.pi)]
      exact div_le_div_of_nonneg_left (abs_nonneg _) (by norm_num) (by linarith)
    refine Apx.rnd hA (e := |(x : ℝ)| * (u / 9)) (M := |(x : ℝ)| / 6) ?_ hM ?_ ?_ le_rfl
    · push_cast
      have e1 : (x : ℝ) / twoPi - (x : ℝ) / (2 * Real.pi) =
          x * ((2 * Real.pi - twoPi) / (twoPi * (2 * Real.pi))) := by
        have : (twoPi : ℝ) ≠ 0 := by linarith
        have : Real.pi ≠ 0 := by linarith
        field_simp
      rw [e1, abs_mul]
      refine mul_le_mul_of_nonneg_left ?_ (abs_nonneg _)
      have h36 : (36 : ℝ) ≤ twoPi * (2 * Real.pi) := by nlinarith
      rw [abs_div, abs_of_pos (by linarith : (0 : ℝ) < twoPi * (2 * Real.pi)), abs_sub_comm,
        div_le_iff₀ (by linarith)]
      linarith
    · norm_num; linarith
    · norm_num; linarith [abs_nonneg (x : ℝ)]
  have bσr : |(σ : ℝ)| ≤ 262144 := by
    have := abs_nonneg (x : ℝ)
    rw [abs_le] at xσ mσ ⊢
    constructor <;> linarith [xσ.1, xσ.2, mσ.1, mσ.2]
  have bσ : |σ| ≤ 262144 := by exact_mod_cast bσr
  obtain ⟨t1, t2, t3⟩ := truncQ_spec σ
  have f := truncQ_floor (q := σ)
  have bi : |truncQ σ| ≤ 262145 := by
    have h1 : |((truncQ σ : ℤ) : ℚ)| ≤ 262145 := by
      rw [abs_lt] at t1
      rw [abs_le] at bσ ⊢
      constructor <;> linarith [t1.1, t1.2, bσ.1, bσ.2]
    exact_mod_cast h1
  have ei : toI32 (.fin σ) = truncQ σ := by
    show max (-2147483648) (min 2147483647 (truncQ σ)) = _
    rw [abs_le] at bi
    omega
  have el : A.lit ((truncQ σ : ℤ) : ℚ) = .fin (truncQ σ : ℤ) :=
    lit_int hA.toLaw2 (bi.trans (by norm_num))
  generalize hi : truncQ σ = i at *
  have z0 := hA.toLaw.rep_zero
  have o1 := rep_one hA
  -- the fraction, from 0 to 1
  obtain ⟨μ, n1, eμ, l1, l2, xμ⟩ : ∃ (μ : ℚ) (n : ℤ),
      (if Fl.blt (A.sub (.fin σ) (.fin i)) (.fin 0) then A.add (A.sub (.fin σ) (.fin i)) (.fin 1)
        else A.sub (.fin σ) (.fin i)) = .fin μ ∧ 0 ≤ μ ∧ μ ≤ 1 ∧
      |μ - (σ - n)| ≤ 4 * (1 / 16777216) := by
    rw [sub_fin]
    rw [abs_lt] at t1
    obtain ⟨μ0, e0, g1, g2, k0⟩ := rnd_mid hA (z := σ - i) (B := 1) (hA.toLaw.rep_neg o1) o1
      (by linarith) (by linarith) (by rw [abs_le]; constructor <;> linarith)
    rw [e0, Fl.blt_fin]
    by_cases hneg : μ0 < 0
    · rw [decide_eq_true hneg, if_pos rfl, Ar.add_fin]
      obtain ⟨μ, e1, g3, g4, k1⟩ := rnd_mid hA (z := μ0 + 1) (B := 1) z0 o1
        (by linarith) (by linarith) (by rw [abs_le]; constructor <;> linarith)
      refine ⟨μ, i - 1, e1, g3, g4, ?_⟩
      push_cast
      norm_num at k0 k1
      rw [abs_le] at *
      constructor <;> linarith [k0.1, k0.2, k1.1, k1.2]
    · rw [decide_eq_false hneg, if_neg (by simp)]
      refine ⟨μ0, i, rfl, not_lt.mp hneg, g2, ?_⟩
      norm_num at k0
      rw [abs_le] at *
      constructor <;> linarith [k0.1, k0.2]
  -- from -1/2 to 1/2
  obtain ⟨w, n2, ew, l3, l4, xw⟩ : ∃ (w : ℚ) (n : ℤ),
      (if Fl.blt (half A) (.fin μ) then A.sub (.fin μ) (.fin 1) else .fin μ) = .fin w ∧
      -(1 / 2) ≤ w ∧ w ≤ 1 / 2 ∧ |w - (μ - n)| ≤ 2 * (1 / 16777216) := by
    rw [half_eq hA, Fl.blt_fin, sub_fin]
    by_cases hb : 1 / 2 < μ
    · rw [decide_eq_true hb, if_pos rfl]
      obtain ⟨w, e1, g3, g4, k1⟩ := rnd_mid hA (z := μ - 1) (B := 1)
        (hA.toLaw.rep_neg (rep_half hA)) z0
        (by linarith) (by linarith) (by rw [abs_le]; constructor <;> linarith)
      refine ⟨w, 1, e1, g3, by linarith, ?_⟩
      push_cast
      norm_num at k1
      rw [abs_le] at *
      constructor <;> linarith [k1.1, k1.2]
    · rw [decide_eq_false hb, if_neg (by simp)]
      exact ⟨μ, 0, rfl, by linarith, not_lt.mp hb, by simp⟩
  refine ⟨w, n1 + n2, ?_, l3, l4, ?_⟩
  · unfold toConvert
    dsimp only
    rw [eσ, ei, el, eμ, ew]
    rfl
  · have r1 : |(μ : ℝ) - (σ - n1)| ≤ 4 * u := by
      have : ((|μ - (σ - n1)| : ℚ) : ℝ) ≤ ((4 * (1 / 16777216) : ℚ) : ℝ) := by exact_mod_cast xμ
      push_cast at this
      exact this
    have r2 : |(w : ℝ) - (μ - n2)| ≤ 2 * u := by
      have : ((|w - (μ - n2)| : ℚ) : ℝ) ≤ ((2 * (1 / 16777216) : ℚ) : ℝ) := by exact_mod_cast xw
      push_cast at this
      exact this
    push_cast
    rw [abs_le] at r1 r2 xσ ⊢
    constructor <;> linarith [r1.1, r1.2, r2.1, r2.2, xσ.1, xσ.2]

/-- C82, angle: the number given to the CORDIC unit for an angle of up to 2^20
radians is that angle, up to whole turns and (|x| + 16) / 2^24 of a turn. -/
theorem C82_angle (hA : A.Law3) {x : ℚ} (hx : |x| ≤ 2 ^ 20) :
    let r := radiansToQ31 A (.fin x)
    r ≤ 2147483647 ∧ -2147483648 ≤ r ∧
      ∃ n : ℤ, |(r : ℝ) / 4294967296 - ((x : ℝ) / (2 * Real.pi) - n)| ≤
        (|(x : ℝ)| + 16) / 16777216 := by
  obtain ⟨w, n, ew, l1, l2, xw⟩ := fraction hA hx
  have rr := rep_quarter_range hA
  obtain ⟨ω, eω, g1, g2, k⟩ := rnd_mid hA (z := w * 4294967296) (B := 2147483648)
    (hA.toLaw.rep_neg rr) rr (by linarith) (by linarith)
    (by rw [abs_le]; constructor <;> linarith)
  obtain ⟨t1, -, -⟩ := truncQ_spec ω
  rw [abs_lt] at t1
  have er : radiansToQ31 A (.fin x) = max (-2147483648) (min 2147483647 (truncQ ω)) := by
    unfold radiansToQ31
    rw [ew, eω]
    rfl
  dsimp only
  rw [er]
  refine ⟨by omega, by omega, n, ?_⟩
  have q1 : truncQ ω < 2147483650 := by
    have : ((truncQ ω : ℤ) : ℚ) < 2147483650 := by linarith
    exact_mod_cast this
  have q2 : -2147483650 < truncQ ω := by
    have : (-2147483650 : ℚ) < ((truncQ ω : ℤ) : ℚ) := by linarith
    exact_mod_cast this
  have q3 : |max (-2147483648) (min 2147483647 (truncQ ω)) - truncQ ω| ≤ 3 := by
    rw [abs_le]; omega
  generalize max (-2147483648) (min 2147483647 (truncQ ω)) = r at *
  have q4 : |(r : ℝ) - (truncQ ω : ℤ)| ≤ 3 := by exact_mod_cast q3
  have q5 : |((truncQ ω : ℤ) : ℝ) - ω| ≤ 1 := by
    have : |((truncQ ω : ℤ) : ℚ) - ω| ≤ 1 := by rw [abs_le]; constructor <;> linarith
    exact_mod_cast this
  have q6 : |(ω : ℝ) - w * 4294967296| ≤ 129 := by
    have h : |ω - w * 4294967296| ≤ 129 := by
      refine k.trans ?_
      norm_num
    exact_mod_cast h
  have hx0 := abs_nonneg (x : ℝ)
  rw [abs_le] at *
  constructor <;> linarith [q4.1, q4.2, q5.1, q5.2, q6.1, q6.2, xw.1, xw.2]

/-- C82, conversion: the value that `RadiansToQ31` converts to `int32_t` is finite
and between -2^31 and 2^31.  Only 2^31 does not fit. -/
theorem C82_fits_partial (hA : A.Law3) {x : ℚ} (hx : |x| ≤ 2 ^ 20) :
    ∃ w : ℚ, toConvert A (.fin x) = .fin w ∧ -2147483648 ≤ w ∧ w ≤ 2147483648 := by
  obtain ⟨w, n, ew, l1, l2, -⟩ := fraction hA hx
  have rr := rep_quarter_range hA
  obtain ⟨ω, eω, g1, g2, -⟩ := rnd_mid hA (z := w * 4294967296) (B := 2147483648)
    (hA.toLaw.rep_neg rr) rr (by linarith) (by linarith)
    (by rw [abs_le]; constructor <;> linarith)
  exact ⟨ω, ew.trans eω, g1, g2⟩

/-- At `kPi` (`fw/math.h` 25), half of `k2Pi`, the value is 2^31 and does not fit:
the conversion is undefined. -/
theorem C82_half_turn_refuted : toConvert .single (.fin (twoPi / 2)) = .fin 2147483648 := by
  decide +kernel

/-- Hypotheses of the angle theorems. -/
example : |(7 : ℚ)| ≤ 2 ^ 20 ∧ toConvert .single (.fin 7) = .fin 489989632 := by decide +kernel

end Verif.Fw.Foc
