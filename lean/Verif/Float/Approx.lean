import Verif.Float.Rel
import Mathlib.Data.Real.Basic
import Mathlib.Tactic.Linarith
import Mathlib.Tactic.Positivity

/-!
# Error propagation

`Apx v x e M` says that the floating point value `v` is finite, is within `e` of
the real number `x`, and that `x` is at most `M` in magnitude.  The lemmas carry
this through additions, subtractions and multiplications of an arithmetic whose
relative error is at most 2^-24.
-/

namespace Verif.Float

/-- `v` is finite, within `e` of `x`, and `|x| ≤ M`. -/
def Apx (v : Fl) (x e M : ℝ) : Prop :=
  ∃ q : ℚ, v = .fin q ∧ |(q : ℝ) - x| ≤ e ∧ |x| ≤ M

namespace Apx

variable {A : Ar} {v w : Fl} {x y e f g M N P : ℝ}

theorem fin_self {q : ℚ} (h : |(q : ℝ)| ≤ M) : Apx (.fin q) q 0 M :=
  ⟨q, rfl, by simp, h⟩

theorem weaken (h : Apx v x e M) (h1 : e ≤ g) (h2 : M ≤ P) : Apx v x g P := by
  obtain ⟨q, e1, e2, e3⟩ := h
  exact ⟨q, e1, e2.trans h1, e3.trans h2⟩

/-- Move the centre. -/
theorem recentre (h : Apx v x e M) (hxy : |x - y| ≤ f) (hy : |y| ≤ P) : Apx v y (e + f) P := by
  obtain ⟨q, e1, e2, -⟩ := h
  refine ⟨q, e1, ?_, hy⟩
  rw [abs_le] at *
  constructor <;> linarith [e2.1, e2.2, hxy.1, hxy.2]

theorem neg (h : Apx v x e M) : Apx v.neg (-x) e M := by
  obtain ⟨q, rfl, e2, e3⟩ := h
  refine ⟨-q, rfl, ?_, by rwa [abs_neg]⟩
  push_cast
  rw [← abs_neg]
  convert e2 using 2
  ring

/-- Rounding moves a value by at most 2^-24 of its magnitude, plus 2^-98. -/
theorem rq_err (hA : A.Law3) (z : ℚ) :
    |A.rq z - z| ≤ |z| * (1 / 16777216) + 1 / 2 ^ 98 := by
  have e24 : pow2 (-24) = 1 / 16777216 := by decide +kernel
  have e100 : pow2 (-100) = 1 / 2 ^ 100 := by decide +kernel
  rcases le_or_gt (pow2 (-100)) |z| with h | h
  · have := hA.rel h
    rw [e24] at this
    have h2 : (0 : ℚ) ≤ 1 / 2 ^ 98 := by positivity
    linarith
  · have h0 := abs_nonneg z
    have u := hA.rq_le (x := z) (y := pow2 (-100)) ((le_abs_self z).trans h.le) le_rfl
    have l := hA.rq_le (x := -z) (y := pow2 (-100)) ((neg_le_abs z).trans h.le) le_rfl
    rw [hA.odd] at l
    rw [e100] at u l h
    rw [abs_lt] at h
    rw [abs_le]
    have h3 : (0 : ℚ) ≤ |z| * (1 / 16777216) := by positivity
    generalize |z| * (1 / 16777216) = t at *
    constructor
    · norm_num at u l h ⊢; linarith [h.1, h.2]
    · norm_num at u l h ⊢; linarith [h.1, h.2]

/-- Rounding of an exact result. -/
theorem rnd (hA : A.Law3) {z : ℚ} (hz : |(z : ℝ) - x| ≤ e) (hx : |x| ≤ M)
    (hs : M + e ≤ 2 ^ 126) (hg : e + (M + e) * (1 / 16777216) + 1 / 2 ^ 98 ≤ g) (hM : M ≤ P) :
    Apx (A.rnd z) x g P := by
  have hzr : |(z : ℝ)| ≤ M + e := by
    rw [abs_le] at *
    constructor <;> linarith [hz.1, hz.2, hx.1, hx.2]
  have hzq : |z| ≤ pow2 127 := by
    have e1 : pow2 127 = 2 ^ 127 := by decide +kernel
    rw [e1]
    have : ((|z| : ℚ) : ℝ) ≤ ((2 ^ 127 : ℚ) : ℝ) := by
      push_cast
      refine hzr.trans (hs.trans ?_)
      norm_num
    exact_mod_cast this
  refine ⟨A.rq z, hA.toLaw2.rnd_fin hzq, ?_, hx.trans hM⟩
  have h1 : ((|A.rq z - z| : ℚ) : ℝ) ≤ ((|z| * (1 / 16777216) + 1 / 2 ^ 98 : ℚ) : ℝ) := by
    exact_mod_cast rq_err hA z
  push_cast at h1
  have h2 : |(A.rq z : ℝ) - x| ≤ |(A.rq z : ℝ) - z| + |(z : ℝ) - x| := by
    have h4 : (A.rq z : ℝ) - x = ((A.rq z : ℝ) - z) + ((z : ℝ) - x) := by ring
    rw [h4]
    exact abs_add_le _ _
  have h3 : |(z : ℝ)| * (1 / 16777216) ≤ (M + e) * (1 / 16777216) :=
    mul_le_mul_of_nonneg_right hzr (by norm_num)
  linarith

theorem add (hA : A.Law3) (h1 : Apx v x e M) (h2 : Apx w y f N)
    (hs : M + N + (e + f) ≤ 2 ^ 126)
    (hg : e + f + (M + N + (e + f)) * (1 / 16777216) + 1 / 2 ^ 98 ≤ g) (hP : M + N ≤ P) :
    Apx (A.add v w) (x + y) g P := by
  obtain ⟨p, rfl, e1, m1⟩ := h1
  obtain ⟨q, rfl, e2, m2⟩ := h2
  rw [Ar.add_fin]
  refine rnd hA (e := e + f) (M := M + N) ?_ ((abs_add_le _ _).trans (add_le_add m1 m2)) hs hg hP
  push_cast
  rw [abs_le] at *
  constructor <;> linarith [e1.1, e1.2, e2.1, e2.2]

theorem sub (hA : A.Law3) (h1 : Apx v x e M) (h2 : Apx w y f N)
    (hs : M + N + (e + f) ≤ 2 ^ 126)
    (hg : e + f + (M + N + (e + f)) * (1 / 16777216) + 1 / 2 ^ 98 ≤ g) (hP : M + N ≤ P) :
    Apx (A.sub v w) (x - y) g P := by
  rw [sub_eq_add_neg]
  exact add hA h1 h2.neg hs hg hP

theorem mul (hA : A.Law3) (h1 : Apx v x e M) (h2 : Apx w y f N)
    (hs : M * N + (e * (N + f) + M * f) ≤ 2 ^ 126)
    (hg : e * (N + f) + M * f + (M * N + (e * (N + f) + M * f)) * (1 / 16777216) + 1 / 2 ^ 98 ≤ g)
    (hP : M * N ≤ P) :
    Apx (A.mul v w) (x * y) g P := by
  obtain ⟨p, rfl, e1, m1⟩ := h1
  obtain ⟨q, rfl, e2, m2⟩ := h2
  have hM : 0 ≤ M := (abs_nonneg _).trans m1
  have he : 0 ≤ e := (abs_nonneg _).trans e1
  show Apx (A.rnd (p * q)) _ _ _
  refine rnd hA (e := e * (N + f) + M * f) (M := M * N) ?_ ?_ hs hg hP
  · have hq : |(q : ℝ)| ≤ N + f := by
      have := abs_add_le y ((q : ℝ) - y)
      rw [show y + ((q : ℝ) - y) = q by ring] at this
      linarith
    have h3 : ((p * q : ℚ) : ℝ) - x * y = ((p : ℝ) - x) * q + x * ((q : ℝ) - y) := by
      push_cast
      ring
    rw [h3]
    refine (abs_add_le _ _).trans ?_
    rw [abs_mul, abs_mul]
    exact add_le_add (mul_le_mul e1 hq (abs_nonneg _) he) (mul_le_mul m1 e2 (abs_nonneg _) hM)
  · rw [abs_mul]
    exact mul_le_mul m1 m2 (abs_nonneg _) hM

end Apx

end Verif.Float
