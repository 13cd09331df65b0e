import Verif.Float.Ieee
import Mathlib.Analysis.SpecialFunctions.Log.Base

/-!
# Torque model

Model of `TorqueModel` (`fw/torque_model.h`) and of the approximations
`log2f_approx` and `pow2f_approx` (`fw/math.h`), in exact arithmetic: the
polynomials have the decimal coefficients of the source, and no operation is
rounded.

Property C42.  It holds for the exact logarithm (`C42_ideal_partial`).  With the
approximations of the code the forward direction is odd and strictly increasing
but jumps at the cutoff, and the way back is neither increasing nor the inverse;
it is within 0.1 percent of the inverse.
-/

namespace Verif.Fw.Torque

open Verif.Float

section Model

variable {K : Type} [Field K] [LinearOrder K] [IsStrictOrderedRing K]

/-- The members of `TorqueModel` (`fw/torque_model.h` 69-72). -/
structure Model (K : Type) where
  constant : K
  cutoff : K
  currentScale : K
  torqueScale : K

/-- `std::copysign(x, s)`. -/
def copysign (x s : K) : K := if s < 0 then -|x| else |x|

/-- `current_to_torque` (`fw/torque_model.h` 36-54), with the logarithm as a
parameter. -/
def toTorque (lg : K → K) (m : Model K) (current : K) : K :=
  let extra := m.torqueScale * lg (1 + max 0 (|current| - m.cutoff) * m.currentScale)
  if |current| < m.cutoff then current * m.constant
  else copysign (m.cutoff * m.constant + extra) current

/-- `torque_to_current` (`fw/torque_model.h` 56-67), with the power as a
parameter. -/
def toCurrent (pw : K → K) (m : Model K) (torque : K) : K :=
  let a := (|torque| - m.cutoff * m.constant) / m.torqueScale
  let extra := (pw a - 1) / m.currentScale
  if |torque| < m.cutoff * m.constant then torque / m.constant
  else copysign (m.cutoff + extra) torque

/-- Sensible parameters. -/
def Model.Pos (m : Model K) : Prop :=
  0 < m.constant ∧ 0 < m.cutoff ∧ 0 < m.currentScale ∧ 0 < m.torqueScale

/-- The branch for currents from zero up. -/
def up (lg : K → K) (m : Model K) (i : K) : K :=
  if i < m.cutoff then i * m.constant
  else m.cutoff * m.constant + m.torqueScale * lg (1 + (i - m.cutoff) * m.currentScale)

variable {lg pw : K → K} {m : Model K}

omit [IsStrictOrderedRing K] in
theorem lg_nonneg (h1 : lg 1 = 0) (hlg : StrictMonoOn lg (Set.Ici 1)) {x : K} (hx : 1 ≤ x) :
    0 ≤ lg x := by
  rw [← h1]; exact hlg.monotoneOn (Set.mem_Ici.mpr le_rfl) (Set.mem_Ici.mpr hx) hx

theorem up_nonneg (hm : m.Pos) (h1 : lg 1 = 0) (hlg : StrictMonoOn lg (Set.Ici 1)) {i : K}
    (hi : 0 ≤ i) : 0 ≤ up lg m i := by
  obtain ⟨k1, k2, k3, k4⟩ := hm
  unfold up
  split
  · positivity
  · rename_i h
    have hx : 1 ≤ 1 + (i - m.cutoff) * m.currentScale := by
      have := mul_nonneg (sub_nonneg.mpr (not_lt.mp h)) k3.le
      linarith
    have := lg_nonneg h1 hlg hx
    positivity

theorem toTorque_nonneg (hm : m.Pos) (h1 : lg 1 = 0) (hlg : StrictMonoOn lg (Set.Ici 1)) {i : K}
    (hi : 0 ≤ i) : toTorque lg m i = up lg m i := by
  have hn := up_nonneg hm h1 hlg hi
  unfold up at hn ⊢
  unfold toTorque
  dsimp only
  rw [abs_of_nonneg hi]
  split
  · rfl
  · rename_i h
    rw [if_neg h] at hn
    have h0 : 0 ≤ i - m.cutoff := sub_nonneg.mpr (not_lt.mp h)
    rw [max_eq_right h0, copysign, if_neg (not_lt.mpr hi), abs_of_nonneg hn]

/-- C42: the forward conversion is odd, for any logarithm function. -/
theorem C42_odd (lg : K → K) (m : Model K) (i : K) (hm : 0 < m.cutoff) :
    toTorque lg m (-i) = -toTorque lg m i := by
  unfold toTorque
  simp only [abs_neg]
  split
  · ring
  · rename_i h
    have h0 : i ≠ 0 := by rintro rfl; rw [abs_zero] at h; exact h hm
    unfold copysign
    rcases lt_or_gt_of_ne h0 with hl | hg
    · simp [hl, hl.le]
    · simp [hg, hg.le]

theorem up_strict (hm : m.Pos) (h1 : lg 1 = 0) (hlg : StrictMonoOn lg (Set.Ici 1)) {i j : K}
    (hij : i < j) : up lg m i < up lg m j := by
  obtain ⟨k1, k2, k3, k4⟩ := hm
  unfold up
  have hx : ∀ i, ¬ i < m.cutoff → 1 ≤ 1 + (i - m.cutoff) * m.currentScale := by
    intro i h
    have := mul_nonneg (sub_nonneg.mpr (not_lt.mp h)) k3.le
    linarith
  split
  · rename_i h
    split
    · exact mul_lt_mul_of_pos_right hij k1
    · rename_i h2
      have := lg_nonneg h1 hlg (hx j h2)
      have h3 : i * m.constant < m.cutoff * m.constant := mul_lt_mul_of_pos_right h k1
      have h4 : 0 ≤ m.torqueScale * lg (1 + (j - m.cutoff) * m.currentScale) := by positivity
      linarith
  · rename_i h
    have h2 : ¬ j < m.cutoff := fun h3 => h (hij.trans h3)
    rw [if_neg h2]
    have h3 : 1 + (i - m.cutoff) * m.currentScale < 1 + (j - m.cutoff) * m.currentScale := by
      have := mul_lt_mul_of_pos_right (sub_lt_sub_right hij m.cutoff) k3
      linarith
    have h4 := hlg (Set.mem_Ici.mpr (hx i h)) (Set.mem_Ici.mpr (hx j h2)) h3
    have := mul_lt_mul_of_pos_left h4 k4
    linarith

/-- C42: the forward conversion is strictly increasing, for every logarithm
function that is strictly increasing from zero at one. -/
theorem toTorque_strict (hm : m.Pos) (h1 : lg 1 = 0) (hlg : StrictMonoOn lg (Set.Ici 1)) :
    StrictMono (toTorque lg m) := by
  have hc := hm.2.1
  intro i j hij
  rcases le_or_gt 0 i with hi | hi
  · rw [toTorque_nonneg hm h1 hlg hi, toTorque_nonneg hm h1 hlg (hi.trans hij.le)]
    exact up_strict hm h1 hlg hij
  · have ei : toTorque lg m i = -up lg m (-i) := by
      rw [← toTorque_nonneg hm h1 hlg (by linarith), C42_odd lg m i hc, neg_neg]
    rcases le_or_gt 0 j with hj | hj
    · rw [ei, toTorque_nonneg hm h1 hlg hj]
      have p1 : 0 < up lg m (-i) := by
        have := up_strict hm h1 hlg (show (0 : K) < -i by linarith)
        have h0 : up lg m 0 = 0 := by simp [up, hc]
        linarith
      have p2 := up_nonneg hm h1 hlg hj
      linarith
    · have ej : toTorque lg m j = -up lg m (-j) := by
        rw [← toTorque_nonneg hm h1 hlg (by linarith), C42_odd lg m j hc, neg_neg]
      rw [ei, ej]
      have := up_strict hm h1 hlg (show -j < -i by linarith)
      linarith

/-- The way back, for torques from zero up. -/
theorem toCurrent_up (hm : m.Pos) (h1 : lg 1 = 0) (hlg : StrictMonoOn lg (Set.Ici 1)) {i : K}
    (hi : 0 ≤ i) :
    toCurrent pw m (up lg m i) = if i < m.cutoff then i else
      |m.cutoff + (pw (lg (1 + (i - m.cutoff) * m.currentScale)) - 1) / m.currentScale| := by
  have hn := up_nonneg hm h1 hlg hi
  obtain ⟨k1, k2, k3, k4⟩ := hm
  unfold toCurrent
  dsimp only
  rw [abs_of_nonneg hn]
  by_cases h : i < m.cutoff
  · have hu : up lg m i = i * m.constant := by simp [up, h]
    rw [if_pos h, hu, if_pos (mul_lt_mul_of_pos_right h k1)]
    field_simp
  · have hx : 1 ≤ 1 + (i - m.cutoff) * m.currentScale := by
      have := mul_nonneg (sub_nonneg.mpr (not_lt.mp h)) k3.le
      linarith
    have hl := lg_nonneg h1 hlg hx
    have hu : up lg m i = m.cutoff * m.constant +
      m.torqueScale * lg (1 + (i - m.cutoff) * m.currentScale) := by simp [up, h]
    have h2 : ¬ up lg m i < m.cutoff * m.constant := by
      rw [hu, not_lt]
      have : 0 ≤ m.torqueScale * lg (1 + (i - m.cutoff) * m.currentScale) := by positivity
      linarith
    rw [if_neg h, if_neg h2, copysign, if_neg (not_lt.mpr hn)]
    have : (up lg m i - m.cutoff * m.constant) / m.torqueScale =
        lg (1 + (i - m.cutoff) * m.currentScale) := by
      rw [hu]; field_simp; ring
    rw [this]

theorem toCurrent_odd (pw : K → K) (hm : m.Pos) (t : K) :
    toCurrent pw m (-t) = -toCurrent pw m t := by
  have hc : 0 < m.cutoff * m.constant := mul_pos hm.2.1 hm.1
  unfold toCurrent
  simp only [abs_neg]
  split
  · ring
  · rename_i h
    have h0 : t ≠ 0 := by rintro rfl; rw [abs_zero] at h; exact h hc
    unfold copysign
    rcases lt_or_gt_of_ne h0 with hl | hg
    · simp [hl, hl.le]
    · simp [hg, hg.le]

/-- Round trip, when the power undoes the logarithm. -/
theorem toCurrent_toTorque (hm : m.Pos) (h1 : lg 1 = 0) (hlg : StrictMonoOn lg (Set.Ici 1))
    (hinv : ∀ x, 1 ≤ x → pw (lg x) = x) (i : K) : toCurrent pw m (toTorque lg m i) = i := by
  have pos : ∀ i : K, 0 ≤ i → toCurrent pw m (toTorque lg m i) = i := by
    intro i hi
    rw [toTorque_nonneg hm h1 hlg hi, toCurrent_up hm h1 hlg hi]
    split
    · rfl
    · rename_i h
      have k3 := hm.2.2.1
      have hx : 1 ≤ 1 + (i - m.cutoff) * m.currentScale := by
        have := mul_nonneg (sub_nonneg.mpr (not_lt.mp h)) k3.le
        linarith
      rw [hinv _ hx]
      have : m.cutoff + (1 + (i - m.cutoff) * m.currentScale - 1) / m.currentScale = i := by
        field_simp; ring
      rw [this, abs_of_nonneg hi]
  rcases le_or_gt 0 i with hi | hi
  · exact pos i hi
  · have := pos (-i) (by linarith)
    rw [C42_odd lg m i hm.2.1, toCurrent_odd pw hm] at this
    linarith

/-- Round trip the other way. -/
theorem toTorque_toCurrent (hm : m.Pos) (h1 : lg 1 = 0) (hlg : StrictMonoOn lg (Set.Ici 1))
    (hinv : ∀ a, 0 ≤ a → lg (pw a) = a) (hge : ∀ a, 0 ≤ a → 1 ≤ pw a) (t : K) :
    toTorque lg m (toCurrent pw m t) = t := by
  have pos : ∀ t : K, 0 ≤ t → toTorque lg m (toCurrent pw m t) = t := by
    intro t ht
    obtain ⟨k1, k2, k3, k4⟩ := id hm
    by_cases h : t < m.cutoff * m.constant
    · have hc : toCurrent pw m t = t / m.constant := by
        unfold toCurrent; dsimp only; rw [abs_of_nonneg ht, if_pos h]
      have h2 : 0 ≤ t / m.constant := by positivity
      have h3 : t / m.constant < m.cutoff := by rw [div_lt_iff₀ k1]; exact h
      rw [hc, toTorque_nonneg hm h1 hlg h2, up, if_pos h3]
      field_simp
    · have ha : 0 ≤ (t - m.cutoff * m.constant) / m.torqueScale :=
        div_nonneg (sub_nonneg.mpr (not_lt.mp h)) k4.le
      set a := (t - m.cutoff * m.constant) / m.torqueScale with hA
      have hp := hge a ha
      have h4 : 0 ≤ (pw a - 1) / m.currentScale := div_nonneg (by linarith) k3.le
      have hc : toCurrent pw m t = m.cutoff + (pw a - 1) / m.currentScale := by
        unfold toCurrent; dsimp only
        rw [abs_of_nonneg ht, if_neg h, copysign, if_neg (not_lt.mpr ht), ← hA,
          abs_of_nonneg (by linarith)]
      have h5 : ¬ m.cutoff + (pw a - 1) / m.currentScale < m.cutoff := by linarith
      rw [hc, toTorque_nonneg hm h1 hlg (by linarith), up, if_neg h5]
      have : 1 + (m.cutoff + (pw a - 1) / m.currentScale - m.cutoff) * m.currentScale = pw a := by
        field_simp; ring
      rw [this, hinv a ha, hA]
      field_simp
      ring
  rcases le_or_gt 0 t with ht | ht
  · exact pos t ht
  · have := pos (-t) (by linarith)
    rw [toCurrent_odd pw hm, C42_odd lg m _ hm.2.1] at this
    linarith

end Model

/-! ## With the exact logarithm -/

theorem logb_strict : StrictMonoOn (Real.logb 2) (Set.Ici 1) := by
  intro x hx y _ h
  exact Real.logb_lt_logb (by norm_num) (by have := Set.mem_Ici.mp hx; linarith) h

/-- The forward conversion as a sum of continuous functions. -/
theorem toTorque_split (m : Model ℝ) (hm : m.Pos) (i : ℝ) :
    toTorque (Real.logb 2) m i =
      (min (max 0 i) m.cutoff * m.constant + m.torqueScale *
        Real.logb 2 (1 + max 0 (max 0 i - m.cutoff) * m.currentScale)) -
      (min (max 0 (-i)) m.cutoff * m.constant + m.torqueScale *
        Real.logb 2 (1 + max 0 (max 0 (-i) - m.cutoff) * m.currentScale)) := by
  have hc := hm.2.1
  have h1 : Real.logb 2 1 = 0 := Real.logb_one
  have key : ∀ x : ℝ, 0 ≤ x → up (Real.logb 2) m x = min x m.cutoff * m.constant + m.torqueScale *
      Real.logb 2 (1 + max 0 (x - m.cutoff) * m.currentScale) := by
    intro x hx
    unfold up
    split
    · rename_i h
      rw [min_eq_left h.le, max_eq_left (by linarith)]
      simp
    · rename_i h
      rw [min_eq_right (not_lt.mp h), max_eq_right (by linarith [not_lt.mp h])]
  have zero : min (0 : ℝ) m.cutoff * m.constant + m.torqueScale *
      Real.logb 2 (1 + max 0 (0 - m.cutoff) * m.currentScale) = 0 := by
    rw [← key 0 le_rfl]; simp [up, hc]
  rcases le_or_gt 0 i with hi | hi
  · rw [max_eq_right hi, max_eq_left (by linarith : -i ≤ 0), zero, sub_zero, ← key i hi]
    exact toTorque_nonneg hm h1 logb_strict hi
  · rw [max_eq_left hi.le, max_eq_right (by linarith : 0 ≤ -i), zero, zero_sub, ← key _ (by linarith),
      ← toTorque_nonneg hm h1 logb_strict (by linarith), C42_odd _ m i hc, neg_neg]

/-- C42 with the exact logarithm and power in place of the approximations: the
conversion is odd, strictly increasing and continuous, and the conversion back
is its inverse on both sides. -/
theorem C42_ideal_partial (m : Model ℝ) (hm : m.Pos) :
    (∀ i, toTorque (Real.logb 2) m (-i) = -toTorque (Real.logb 2) m i) ∧
    StrictMono (toTorque (Real.logb 2) m) ∧ Continuous (toTorque (Real.logb 2) m) ∧
    (∀ i, toCurrent (fun a => 2 ^ a) m (toTorque (Real.logb 2) m i) = i) ∧
    (∀ t, toTorque (Real.logb 2) m (toCurrent (fun a => 2 ^ a) m t) = t) := by
  have h1 : Real.logb 2 1 = 0 := Real.logb_one
  refine ⟨fun i => C42_odd _ m i hm.2.1, toTorque_strict hm h1 logb_strict, ?_, ?_, ?_⟩
  · have e : toTorque (Real.logb 2) m = fun i =>
      (min (max 0 i) m.cutoff * m.constant + m.torqueScale *
        Real.logb 2 (1 + max 0 (max 0 i - m.cutoff) * m.currentScale)) -
      (min (max 0 (-i)) m.cutoff * m.constant + m.torqueScale *
        Real.logb 2 (1 + max 0 (max 0 (-i) - m.cutoff) * m.currentScale)) :=
      funext (toTorque_split m hm)
    rw [e]
    have ne : ∀ x : ℝ, 1 + max 0 x * m.currentScale ≠ 0 := by
      intro x
      have := mul_nonneg (le_max_left 0 x) hm.2.2.1.le
      positivity
    unfold Real.logb
    refine Continuous.sub ?_ ?_
    · refine Continuous.add (by fun_prop) (Continuous.mul continuous_const (Continuous.div_const ?_ _))
      exact Continuous.log (by fun_prop) (fun i => ne _)
    · refine Continuous.add (by fun_prop) (Continuous.mul continuous_const (Continuous.div_const ?_ _))
      exact Continuous.log (by fun_prop) (fun i => ne _)
  · refine toCurrent_toTorque hm h1 logb_strict ?_
    intro x hx
    exact Real.rpow_logb (by norm_num) (by norm_num) (by linarith)
  · refine toTorque_toCurrent hm h1 logb_strict ?_ ?_
    · intro a _
      exact Real.logb_rpow (by norm_num) (by norm_num)
    · intro a ha
      exact Real.one_le_rpow (by norm_num) ha

/-! ## With the approximations of the code -/

/-- The polynomial of `log2f_approx` (`fw/math.h` 90-96). -/
def lgPoly (f : ℚ) : ℚ :=
  ((123149591368684 / 100000000000000 * f + -411852516267426 / 100000000000000) * f +
    602197014179219 / 100000000000000) * f + -313396450166353 / 100000000000000

/-- `log2f_approx` (`fw/math.h` 85-99) for positive arguments: `my_frexpf` gives
`x = f * 2^e` with `1/2 ≤ f < 1`. -/
def lgApprox (x : ℚ) : ℚ :=
  let e := ilog2 x + 1
  if x = 1 then 0 else lgPoly (x / pow2 e) + e

/-- The polynomial of `pow2f_approx` (`fw/math.h` 115-119). -/
def pwPoly (f : ℚ) : ℚ :=
  ((79204240219773237 / 1000000000000000000 * f + 22433836478672357 / 100000000000000000) * f +
    69645739499350319 / 100000000000000000) * f + 99989296565051542 / 100000000000000000

/-- `pow2f_approx` (`fw/math.h` 103-122) for arguments from zero up to 127 (where
the exponent field does not overflow): truncation is the floor. -/
def pwApprox (a : ℚ) : ℚ := pow2 a.floor * pwPoly (a - a.floor)

theorem lgPoly_strict {a b : ℚ} (h : a < b) : lgPoly a < lgPoly b := by
  have h1 : lgPoly b - lgPoly a = (b - a) * (123149591368684 / 100000000000000 * (a ^ 2 + a * b + b ^ 2)
      - 411852516267426 / 100000000000000 * (a + b) + 602197014179219 / 100000000000000) := by
    unfold lgPoly; ring
  have h2 : 0 < 123149591368684 / 100000000000000 * (a ^ 2 + a * b + b ^ 2)
      - 411852516267426 / 100000000000000 * (a + b) + 602197014179219 / 100000000000000 := by
    nlinarith [sq_nonneg (a - b), sq_nonneg (a + b - 223 / 100)]
  have := mul_pos (sub_pos.mpr h) h2
  linarith

/-- Mantissa and exponent of an argument from one up. -/
theorem frexp_spec {x : ℚ} (hx : 0 < x) :
    1 / 2 ≤ x / pow2 (ilog2 x + 1) ∧ x / pow2 (ilog2 x + 1) < 1 := by
  obtain ⟨h1, h2⟩ := ilog2_spec hx
  have hp := pow2_pos (ilog2 x + 1)
  constructor
  · rw [le_div_iff₀ hp]
    have : pow2 (ilog2 x + 1) = 2 * pow2 (ilog2 x) := by
      rw [pow2_eq, pow2_eq, zpow_add₀ (by norm_num)]; ring
    rw [this]; linarith
  · rw [div_lt_one hp]; exact h2

theorem ilog2_nonneg {x : ℚ} (hx : 1 ≤ x) : 0 ≤ ilog2 x := by
  by_contra h
  have h2 := (ilog2_spec (show 0 < x by linarith)).2
  have : pow2 (ilog2 x + 1) ≤ pow2 0 := pow2_le (by omega)
  have h0 : pow2 0 = 1 := by decide +kernel
  linarith

theorem lgPoly_half : lgPoly (1 / 2) + 1 = 132626777485500 / 100000000000000000 := by
  norm_num [lgPoly]

theorem lgPoly_one : lgPoly 1 = 97639114124000 / 100000000000000000 := by
  norm_num [lgPoly]

/-- Above one the approximation starts with a jump. -/
theorem lgApprox_gt {x : ℚ} (hx : 1 < x) : 132626777485500 / 100000000000000000 ≤ lgApprox x := by
  have hf := frexp_spec (show 0 < x by linarith)
  have he := ilog2_nonneg hx.le
  unfold lgApprox
  dsimp only
  rw [if_neg hx.ne']
  have h1 : lgPoly (1 / 2) ≤ lgPoly (x / pow2 (ilog2 x + 1)) := by
    rcases eq_or_lt_of_le hf.1 with h | h
    · rw [← h]
    · exact (lgPoly_strict h).le
  have h2 : (1 : ℚ) ≤ ((ilog2 x + 1 : ℤ) : ℚ) := by exact_mod_cast (by omega : (1 : ℤ) ≤ ilog2 x + 1)
  have := lgPoly_half
  linarith

theorem lgApprox_strict : StrictMonoOn lgApprox (Set.Ici 1) := by
  intro x hx y hy h
  have hx1 := Set.mem_Ici.mp hx
  rcases eq_or_lt_of_le hx1 with e | hx'
  · rw [← e] at h ⊢
    have h1 : lgApprox 1 = 0 := by simp [lgApprox]
    rw [h1]
    have := lgApprox_gt h
    linarith
  · have hxp : 0 < x := by linarith
    have hyp : 0 < y := by linarith
    have fx := frexp_spec hxp
    have fy := frexp_spec hyp
    unfold lgApprox
    dsimp only
    rw [if_neg hx'.ne', if_neg (by linarith)]
    rcases lt_trichotomy (ilog2 x) (ilog2 y) with hl | he | hg
    · have h1 := lgPoly_strict fx.2
      have h2 : lgPoly (1 / 2) ≤ lgPoly (y / pow2 (ilog2 y + 1)) := by
        rcases eq_or_lt_of_le fy.1 with h | h
        · rw [← h]
        · exact (lgPoly_strict h).le
      have h3 : ((ilog2 x + 1 : ℤ) : ℚ) + 1 ≤ ((ilog2 y + 1 : ℤ) : ℚ) := by
        exact_mod_cast (by omega : ilog2 x + 1 + 1 ≤ ilog2 y + 1)
      have := lgPoly_half
      have := lgPoly_one
      linarith
    · rw [he]
      have hp := pow2_pos (ilog2 y + 1)
      have := lgPoly_strict (div_lt_div_of_pos_right h hp)
      linarith
    · exfalso
      have h1 := (ilog2_spec hxp).1
      have h2 := (ilog2_spec hyp).2
      have : pow2 (ilog2 y + 1) ≤ pow2 (ilog2 x) := pow2_le (by omega)
      linarith

/-- C42: with the approximation of the code, the forward conversion is strictly
increasing. -/
theorem C42_strictly_increasing (m : Model ℚ) (hm : m.Pos) : StrictMono (toTorque lgApprox m) :=
  toTorque_strict hm (by simp [lgApprox]) lgApprox_strict

/-- C42 fails: the forward conversion is not continuous at the cutoff.  For all
currents above the cutoff the torque is larger than at the cutoff by more than
`0.0013 * torque_scale`. -/
theorem C42_continuous_refuted (m : Model ℚ) (hm : m.Pos) (i : ℚ) (hi : m.cutoff < i) :
    toTorque lgApprox m m.cutoff + 13 / 10000 * m.torqueScale < toTorque lgApprox m i := by
  have h1 : lgApprox 1 = 0 := by simp [lgApprox]
  obtain ⟨k1, k2, k3, k4⟩ := id hm
  rw [toTorque_nonneg hm h1 lgApprox_strict k2.le,
    toTorque_nonneg hm h1 lgApprox_strict (by linarith)]
  unfold up
  rw [if_neg (lt_irrefl _), if_neg (by linarith : ¬ i < m.cutoff)]
  simp only [sub_self, zero_mul, add_zero, h1, mul_zero]
  have hx : 1 < 1 + (i - m.cutoff) * m.currentScale := by
    have := mul_pos (sub_pos.mpr hi) k3
    linarith
  have := lgApprox_gt hx
  have := mul_le_mul_of_nonneg_left this k4.le
  nlinarith

/-- The parameters of the counterexamples. -/
def m1 : Model ℚ := ⟨1, 10, 1, 1⟩

/-- C42 fails: the way back is not increasing, both at the cutoff and inside of
the logarithmic region. -/
theorem C42_back_not_increasing_refuted :
    toCurrent pwApprox m1 10 < toCurrent pwApprox m1 (10 - 1 / 100000) ∧
    toCurrent pwApprox m1 11 < toCurrent pwApprox m1 (11 - 1 / 100000) := by decide +kernel

/-- C42 fails: the way back is not the inverse. -/
theorem C42_inverse_refuted :
    toCurrent pwApprox m1 (toTorque lgApprox m1 12) ≠ 12 ∧
    toTorque lgApprox m1 (toCurrent pwApprox m1 12) ≠ 12 := by decide +kernel

/-! ### How far the way back is from the inverse -/

/-- A polynomial as the list of its coefficients, lowest first. -/
def ev : List ℚ → ℚ → ℚ
  | [], _ => 0
  | c :: cs, x => c + x * ev cs x

def padd : List ℚ → List ℚ → List ℚ
  | [], b => b
  | a, [] => a
  | a :: as, b :: bs => (a + b) :: padd as bs

def pscale (k : ℚ) : List ℚ → List ℚ
  | [] => []
  | c :: cs => k * c :: pscale k cs

def pmul : List ℚ → List ℚ → List ℚ
  | [], _ => []
  | a :: as, b => padd (pscale a b) (0 :: pmul as b)

/-- `p(c + x)` as a polynomial in `x`. -/
def shift (c : ℚ) : List ℚ → List ℚ
  | [] => []
  | a :: as => padd [a] (pmul [c, 1] (shift c as))

/-- Bound of the magnitude for `|x| ≤ r`. -/
def bound (r : ℚ) : List ℚ → ℚ
  | [] => 0
  | c :: cs => |c| + r * bound r cs

theorem ev_padd (a b : List ℚ) (x : ℚ) : ev (padd a b) x = ev a x + ev b x := by
  induction a generalizing b with
  | nil => simp [padd, ev]
  | cons a as ih =>
    cases b with
    | nil => simp [padd, ev]
    | cons b bs => simp only [padd, ev, ih]; ring

theorem ev_pscale (k : ℚ) (a : List ℚ) (x : ℚ) : ev (pscale k a) x = k * ev a x := by
  induction a with
  | nil => simp [pscale, ev]
  | cons a as ih => simp only [pscale, ev, ih]; ring

theorem ev_pmul (a b : List ℚ) (x : ℚ) : ev (pmul a b) x = ev a x * ev b x := by
  induction a with
  | nil => simp [pmul, ev]
  | cons a as ih => simp only [pmul, ev, ev_padd, ev_pscale, ih]; ring

theorem ev_shift (c : ℚ) (a : List ℚ) (x : ℚ) : ev (shift c a) x = ev a (c + x) := by
  induction a with
  | nil => rfl
  | cons a as ih => simp only [shift, ev_padd, ev_pmul, ih, ev]; ring

theorem bound_nonneg {r : ℚ} (hr : 0 ≤ r) (a : List ℚ) : 0 ≤ bound r a := by
  induction a with
  | nil => exact le_rfl
  | cons a as ih => simp only [bound]; positivity

theorem ev_bound {r x : ℚ} (hr : 0 ≤ r) (hx : |x| ≤ r) (a : List ℚ) : |ev a x| ≤ bound r a := by
  induction a with
  | nil => simp [ev, bound]
  | cons a as ih =>
    simp only [ev, bound]
    refine (abs_add_le _ _).trans ?_
    rw [abs_mul]
    have := mul_le_mul hx ih (abs_nonneg _) hr
    linarith

/-- The difference of the composition to the identity: `pw (lg f + 1) - 2 f`. -/
def lgL : List ℚ :=
  [-313396450166353 / 100000000000000, 602197014179219 / 100000000000000,
    -411852516267426 / 100000000000000, 123149591368684 / 100000000000000]

def pwL (y : List ℚ) : List ℚ :=
  padd (pmul (padd (pmul (padd (pscale (79204240219773237 / 1000000000000000000) y)
    [22433836478672357 / 100000000000000000]) y) [69645739499350319 / 100000000000000000]) y)
    [99989296565051542 / 100000000000000000]

def diffL : List ℚ := padd (pwL (padd lgL [1])) [0, -2]

theorem ev_lgL (f : ℚ) : ev lgL f = lgPoly f := by simp only [lgL, ev, lgPoly]; ring

theorem ev_pwL (y : List ℚ) (x : ℚ) : ev (pwL y) x = pwPoly (ev y x) := by
  simp only [pwL, ev_padd, ev_pmul, ev_pscale, pwPoly, ev]; ring

theorem ev_diffL (f : ℚ) : ev diffL f = pwPoly (lgPoly f + 1) - 2 * f := by
  simp only [diffL, ev_padd, ev_pwL, ev_lgL, ev]; ring_nf

/-- The 64 pieces of `[1/2, 1]`, by their midpoints. -/
def mid (k : ℕ) : ℚ := 1 / 2 + (2 * k + 1) / 256

theorem pieces : ∀ k ∈ List.range 64, bound (1 / 256) (shift (mid k) diffL) ≤ 1 / 1000 * (2 * (mid k - 1 / 256)) := by
  decide +kernel

theorem diff_bound {f : ℚ} (h1 : 1 / 2 ≤ f) (h2 : f < 1) :
    |pwPoly (lgPoly f + 1) - 2 * f| ≤ 1 / 1000 * (2 * f) := by
  set k := ((f - 1 / 2) * 128).floor.toNat with hk
  have hnn : 0 ≤ ((f - 1 / 2) * 128).floor := by
    rw [Rat.le_floor_iff]; push_cast; linarith
  have hkz : ((k : ℤ) : ℚ) = (((f - 1 / 2) * 128).floor : ℚ) := by
    rw [hk, Int.toNat_of_nonneg hnn]
  have l1 : (((f - 1 / 2) * 128).floor : ℚ) ≤ (f - 1 / 2) * 128 := by
    have := Rat.le_floor_iff (x := ((f - 1 / 2) * 128).floor) (a := (f - 1 / 2) * 128)
    exact this.mp le_rfl
  have l2 : (f - 1 / 2) * 128 < (((f - 1 / 2) * 128).floor : ℚ) + 1 := by
    by_contra hc
    have := (Rat.le_floor_iff (x := ((f - 1 / 2) * 128).floor + 1) (a := (f - 1 / 2) * 128)).mpr
      (by push_cast; linarith)
    omega
  have hklt : k < 64 := by
    have : ((k : ℤ) : ℚ) < 64 := by rw [hkz]; linarith
    exact_mod_cast this
  have hp := pieces k (List.mem_range.mpr hklt)
  have hkq : (k : ℚ) = (((f - 1 / 2) * 128).floor : ℚ) := by rw [← hkz]; simp
  have hmid : mid k = 1 / 2 + (2 * (((f - 1 / 2) * 128).floor : ℚ) + 1) / 256 := by
    unfold mid; rw [hkq]
  have hx : |f - mid k| ≤ 1 / 256 := by
    rw [hmid, abs_le]; constructor <;> linarith
  have hb := ev_bound (by norm_num) hx (shift (mid k) diffL)
  rw [ev_shift, show mid k + (f - mid k) = f by ring, ev_diffL] at hb
  have : mid k - 1 / 256 ≤ f := by
    have := (abs_le.mp hx).1; linarith
  linarith

/-- Near the upper end the logarithm of the mantissa is already positive. -/
theorem diff_bound_top {f : ℚ} (h1 : 1 / 2 ≤ f) (h2 : f < 1) (h3 : 0 ≤ lgPoly f) :
    |pwPoly (lgPoly f) - f| ≤ 1 / 1000 * f := by
  have hu : lgPoly f < 97639114124000 / 100000000000000000 := by
    rw [← lgPoly_one]; exact lgPoly_strict h2
  have hf : 999 / 1000 ≤ f := by
    by_contra hc
    have := lgPoly_strict (not_le.mp hc)
    have h9 : lgPoly (999 / 1000) < 0 := by norm_num [lgPoly]
    linarith
  set y := lgPoly f with hy
  have hq : pwPoly y - 99989296565051542 / 100000000000000000 =
      y * (69645739499350319 / 100000000000000000 + y * (22433836478672357 / 100000000000000000 +
        79204240219773237 / 1000000000000000000 * y)) := by unfold pwPoly; ring
  have h4 : 0 ≤ pwPoly y - 99989296565051542 / 100000000000000000 := by
    rw [hq]; positivity
  have h5 : pwPoly y - 99989296565051542 / 100000000000000000 ≤ y * 1 := by
    rw [hq]
    refine mul_le_mul_of_nonneg_left ?_ h3
    nlinarith
  -- the logarithm is below `1 - f` plus its value at one
  have h6 : y ≤ lgPoly 1 - (1 - f) := by
    have : lgPoly 1 - lgPoly f = (1 - f) * (123149591368684 / 100000000000000 * (f ^ 2 + f * 1 + 1 ^ 2)
      - 411852516267426 / 100000000000000 * (f + 1) + 602197014179219 / 100000000000000) := by
      unfold lgPoly; ring
    have h7 : 1 ≤ 123149591368684 / 100000000000000 * (f ^ 2 + f * 1 + 1 ^ 2)
      - 411852516267426 / 100000000000000 * (f + 1) + 602197014179219 / 100000000000000 := by
      nlinarith
    have := mul_le_mul_of_nonneg_left h7 (show 0 ≤ 1 - f by linarith)
    linarith
  have := lgPoly_one
  rw [abs_le]
  constructor <;> linarith

/-- Approximate power of the approximate logarithm. -/
theorem pw_lg {x : ℚ} (hx : 1 ≤ x) : |pwApprox (lgApprox x) - x| ≤ 1 / 1000 * x := by
  rcases eq_or_lt_of_le hx with e | hx'
  · rw [← e]; decide +kernel
  have hxp : 0 < x := by linarith
  obtain ⟨f1, f2⟩ := frexp_spec hxp
  have he := ilog2_nonneg hx
  have hl : lgApprox x = lgPoly (x / pow2 (ilog2 x + 1)) + ((ilog2 x + 1 : ℤ) : ℚ) := by
    unfold lgApprox; dsimp only; rw [if_neg hx'.ne']
  set f := x / pow2 (ilog2 x + 1) with hf
  set E : ℤ := ilog2 x + 1 with hE
  have hp := pow2_pos E
  have hxf : x = f * pow2 E := by rw [hf]; field_simp
  have hlo : -1 ≤ lgPoly f := by
    have : lgPoly (1 / 2) ≤ lgPoly f := by
      rcases eq_or_lt_of_le f1 with h | h
      · rw [← h]
      · exact (lgPoly_strict h).le
    have := lgPoly_half
    linarith
  have hhi : lgPoly f < 1 := by
    have := lgPoly_strict f2
    have := lgPoly_one
    linarith
  have flo : ∀ (q : ℚ) (n : ℤ), (n : ℚ) ≤ q → q < n + 1 → q.floor = n := by
    intro q n a b
    have h1 : n ≤ q.floor := Rat.le_floor_iff.mpr a
    have h2 : ¬ n + 1 ≤ q.floor := fun h => by
      have := Rat.le_floor_iff.mp h
      push_cast at this; linarith
    omega
  rcases lt_or_ge (lgPoly f) 0 with h0 | h0
  · have hfl : (lgApprox x).floor = E - 1 := flo _ _ (by rw [hl]; push_cast; linarith)
      (by rw [hl]; push_cast; linarith)
    have hpw : pow2 E = 2 * pow2 (E - 1) := by
      rw [pow2_eq, pow2_eq, ← zpow_one_add₀ (by norm_num : (2 : ℚ) ≠ 0)]; congr 1; ring
    have hq := pow2_pos (E - 1)
    have e1 : lgApprox x - ((E - 1 : ℤ) : ℚ) = lgPoly f + 1 := by rw [hl]; push_cast; ring
    unfold pwApprox
    rw [hfl, e1]
    conv_lhs => rw [hxf, hpw]
    rw [hxf, hpw]
    have := diff_bound f1 f2
    rw [show pow2 (E - 1) * pwPoly (lgPoly f + 1) - f * (2 * pow2 (E - 1)) =
      pow2 (E - 1) * (pwPoly (lgPoly f + 1) - 2 * f) by ring, abs_mul, abs_of_pos hq]
    have := mul_le_mul_of_nonneg_left this hq.le
    linarith
  · have hfl : (lgApprox x).floor = E := flo _ _ (by rw [hl]; linarith) (by rw [hl]; linarith)
    have e1 : lgApprox x - (E : ℚ) = lgPoly f := by rw [hl]; ring
    unfold pwApprox
    rw [hfl, e1]
    conv_lhs => rw [hxf]
    rw [hxf]
    have := diff_bound_top f1 f2 h0
    rw [show pow2 E * pwPoly (lgPoly f) - f * pow2 E = pow2 E * (pwPoly (lgPoly f) - f) by ring,
      abs_mul, abs_of_pos hp]
    have := mul_le_mul_of_nonneg_left this hp.le
    linarith

/-- C42: the way back is the inverse exactly below the cutoff, and above it up
to a relative error of 0.1 percent in `1 + (|i| - cutoff) * current_scale`. -/
theorem C42_round_trip (m : Model ℚ) (hm : m.Pos) (i : ℚ) :
    (|i| < m.cutoff → toCurrent pwApprox m (toTorque lgApprox m i) = i) ∧
    (m.cutoff ≤ |i| → |toCurrent pwApprox m (toTorque lgApprox m i) - i| ≤
      1 / 1000 * (1 / m.currentScale + (|i| - m.cutoff))) := by
  have h1 : lgApprox 1 = 0 := by simp [lgApprox]
  have k3 := hm.2.2.1
  have pos : ∀ i : ℚ, 0 ≤ i → (i < m.cutoff → toCurrent pwApprox m (toTorque lgApprox m i) = i) ∧
      (m.cutoff ≤ i → |toCurrent pwApprox m (toTorque lgApprox m i) - i| ≤
        1 / 1000 * (1 / m.currentScale + (i - m.cutoff))) := by
    intro i hi
    rw [toTorque_nonneg hm h1 lgApprox_strict hi, toCurrent_up hm h1 lgApprox_strict hi]
    constructor
    · intro h; rw [if_pos h]
    · intro h
      rw [if_neg (not_lt.mpr h)]
      set X := 1 + (i - m.cutoff) * m.currentScale with hX
      have hx : 1 ≤ X := by
        have := mul_nonneg (sub_nonneg.mpr h) k3.le
        linarith
      have hb := pw_lg hx
      have e1 : m.cutoff + (pwApprox (lgApprox X) - 1) / m.currentScale - i =
          (pwApprox (lgApprox X) - X) / m.currentScale := by rw [hX]; field_simp; ring
      have e2 : |m.cutoff + (pwApprox (lgApprox X) - 1) / m.currentScale - i| ≤
          1 / 1000 * (1 / m.currentScale + (i - m.cutoff)) := by
        rw [e1, abs_div, abs_of_pos k3, div_le_iff₀ k3]
        refine hb.trans (le_of_eq ?_)
        rw [hX]; field_simp
      have e3 := abs_abs_sub_abs_le (m.cutoff + (pwApprox (lgApprox X) - 1) / m.currentScale) i
      rw [abs_of_nonneg hi] at e3
      exact e3.trans e2
  rcases le_or_gt 0 i with hi | hi
  · rw [abs_of_nonneg hi]; exact pos i hi
  · have := pos (-i) (by linarith)
    rw [C42_odd lgApprox m i hm.2.1, toCurrent_odd pwApprox hm] at this
    rw [abs_of_neg hi]
    constructor
    · intro h; have := this.1 h; linarith
    · intro h
      have := this.2 h
      rwa [show -toCurrent pwApprox m (toTorque lgApprox m i) - -i =
        -(toCurrent pwApprox m (toTorque lgApprox m i) - i) by ring, abs_neg] at this

/-- The default parameters of the controller with a real cutoff are sensible. -/
example : (Model.mk (1 / 10 : ℚ) 20 (5 / 100) (147 / 10)).Pos := by
  unfold Model.Pos; norm_num

end Verif.Fw.Torque
