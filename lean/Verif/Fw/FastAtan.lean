import Verif.Float.Poly
import Mathlib.Analysis.SpecialFunctions.Trigonometric.ArctanDeriv
import Mathlib.Analysis.Calculus.MeanValue
import Mathlib.Analysis.Calculus.Deriv.Pow

/-!
# The polynomial of `FastAtan2` and the arc tangent
-/

namespace Verif.Fw.Sc

open Real Verif.Poly

/-- The Chebyshev polynomial of degree 8 on `[0, 1]`. -/
noncomputable def cheb (s : ℝ) : ℝ :=
  2 * (2 * (2 * (2 * s - 1) ^ 2 - 1) ^ 2 - 1) ^ 2 - 1

theorem cheb_abs {s : ℝ} (h0 : 0 ≤ s) (h1 : s ≤ 1) : |cheb s| ≤ 1 := by
  have step : ∀ x : ℝ, |x| ≤ 1 → |2 * x ^ 2 - 1| ≤ 1 := by
    intro x hx
    rw [abs_le] at *
    constructor <;> nlinarith [hx.1, hx.2]
  unfold cheb
  refine step _ (step _ (step _ ?_))
  rw [abs_le]
  constructor <;> linarith

/-- A polynomial near the arc tangent: the integral of `dq`. -/
noncomputable def qpoly (a : ℝ) : ℝ :=
  (665856 * a - 665728 / 3 * a ^ 3 + 663040 / 5 * a ^ 5 - 641536 / 7 * a ^ 7 +
    557056 / 9 * a ^ 9 - 376832 / 11 * a ^ 11 + 163840 / 13 * a ^ 13 - 32768 / 15 * a ^ 15) / 665857

noncomputable def dq (a : ℝ) : ℝ :=
  (665856 - 665728 * a ^ 2 + 663040 * a ^ 4 - 641536 * a ^ 6 +
    557056 * a ^ 8 - 376832 * a ^ 10 + 163840 * a ^ 12 - 32768 * a ^ 14) / 665857

theorem qpoly_deriv (a : ℝ) : HasDerivAt qpoly (dq a) a := by
  have hp : ∀ n : ℕ, HasDerivAt (fun x : ℝ => x ^ n) (n * a ^ (n - 1)) a := fun n => hasDerivAt_pow n a
  have h1 : HasDerivAt (fun x : ℝ => x) 1 a := hasDerivAt_id a
  have := ((((((((h1.const_mul 665856).sub ((hp 3).const_mul (665728 / 3))).add
    ((hp 5).const_mul (663040 / 5))).sub ((hp 7).const_mul (641536 / 7))).add
    ((hp 9).const_mul (557056 / 9))).sub ((hp 11).const_mul (376832 / 11))).add
    ((hp 13).const_mul (163840 / 13))).sub ((hp 15).const_mul (32768 / 15))).div_const 665857
  refine (this.congr_deriv ?_)
  unfold dq
  norm_num
  ring

theorem dq_eq (a : ℝ) : dq a * (1 + a ^ 2) = 1 - cheb (a ^ 2) / 665857 := by
  unfold dq cheb
  ring

theorem qpoly_arctan {a : ℝ} (h0 : 0 ≤ a) (h1 : a ≤ 1) : |qpoly a - arctan a| ≤ 1 / 665857 := by
  have hd : ∀ x ∈ Set.Icc (0 : ℝ) 1,
      HasDerivWithinAt (fun x => qpoly x - arctan x) (dq x - 1 / (1 + x ^ 2)) (Set.Icc 0 1) x :=
    fun x _ => ((qpoly_deriv x).sub (hasDerivAt_arctan x)).hasDerivWithinAt
  have hb : ∀ x ∈ Set.Icc (0 : ℝ) 1, ‖dq x - 1 / (1 + x ^ 2)‖ ≤ 1 / 665857 := by
    intro x hx
    have hpos : (1 : ℝ) ≤ 1 + x ^ 2 := by nlinarith [sq_nonneg x]
    have e : dq x - 1 / (1 + x ^ 2) = -(cheb (x ^ 2) / 665857) / (1 + x ^ 2) := by
      rw [eq_div_iff (by linarith), sub_mul, dq_eq, one_div, inv_mul_cancel₀ (by linarith)]
      ring
    rw [e, Real.norm_eq_abs, abs_div, abs_neg, abs_div, abs_of_pos (by linarith : (0 : ℝ) < 1 + x ^ 2)]
    have hc := cheb_abs (sq_nonneg x) (by nlinarith [hx.1, hx.2] : x ^ 2 ≤ 1)
    rw [abs_of_pos (by norm_num : (0 : ℝ) < 665857), div_div, div_le_div_iff₀ (by positivity) (by norm_num)]
    nlinarith [abs_nonneg (cheb (x ^ 2))]
  have := Convex.norm_image_sub_le_of_norm_hasDerivWithin_le hd hb (convex_Icc 0 1)
    (Set.left_mem_Icc.2 zero_le_one) (Set.mem_Icc.2 ⟨h0, h1⟩)
  simp only [arctan_zero, sub_zero] at this
  have hq : qpoly 0 = 0 := by simp [qpoly]
  rw [hq, sub_zero, Real.norm_eq_abs, Real.norm_eq_abs, abs_of_nonneg h0] at this
  nlinarith

/-- The polynomial of `FastAtan2` over the reals (fw/math.h:133-135). -/
noncomputable def poly (a : ℝ) : ℝ :=
  ((-0.0464964749 * (a * a) + 0.15931422) * (a * a) - 0.327622764) * (a * a) * a + a

/-- Coefficients of `0.000206 + σ (qpoly - poly)`. -/
def diffUp : List ℚ :=
  [206 / 1000000, 665856 / 665857 - 1, 0, -665728 / (3 * 665857) + 327622764 / 1000000000, 0,
    663040 / (5 * 665857) - 15931422 / 100000000, 0,
    -641536 / (7 * 665857) + 464964749 / 10000000000, 0, 557056 / (9 * 665857), 0,
    -376832 / (11 * 665857), 0, 163840 / (13 * 665857), 0, -32768 / (15 * 665857)]

def diffDown : List ℚ :=
  [206 / 1000000, -665856 / 665857 + 1, 0, 665728 / (3 * 665857) - 327622764 / 1000000000, 0,
    -663040 / (5 * 665857) + 15931422 / 100000000, 0,
    641536 / (7 * 665857) - 464964749 / 10000000000, 0, -557056 / (9 * 665857), 0,
    376832 / (11 * 665857), 0, -163840 / (13 * 665857), 0, 32768 / (15 * 665857)]

theorem up_ok : nonneg diffUp 0 (1 / 64) 64 = true := by decide +kernel
theorem down_ok : nonneg diffDown 0 (1 / 64) 64 = true := by decide +kernel

theorem poly_arctan {a : ℝ} (h0 : 0 ≤ a) (h1 : a ≤ 1) : |poly a - arctan a| ≤ 0.000208 := by
  have hu := nonneg_sound diffUp (1 / 64) (by norm_num) 64 0 up_ok a (by simpa using h0)
    (by norm_num; exact h1) (by norm_num)
  have hd := nonneg_sound diffDown (1 / 64) (by norm_num) 64 0 down_ok a (by simpa using h0)
    (by norm_num; exact h1) (by norm_num)
  have eu : eval diffUp a = 0.000206 + (qpoly a - poly a) := by
    simp only [diffUp, eval, qpoly, poly]
    push_cast
    ring
  have ed : eval diffDown a = 0.000206 - (qpoly a - poly a) := by
    simp only [diffDown, eval, qpoly, poly]
    push_cast
    ring
  rw [eu] at hu
  rw [ed] at hd
  have hq := qpoly_arctan h0 h1
  rw [abs_le] at *
  constructor <;> norm_num at * <;> linarith [hq.1, hq.2]

end Verif.Fw.Sc
