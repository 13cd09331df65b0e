import Verif.Float.Near

/-! # Relative rounding error, for any arithmetic -/

namespace Verif.Float.Ar

/-- The laws with the bound on the relative error. -/
structure Law3 (A : Ar) : Prop extends Law2 A where
  rel : ∀ {x : ℚ}, pow2 (-100) ≤ |x| → |A.rq x - x| ≤ |x| * pow2 (-24)

theorem exact_law3 : Law3 exact where
  toLaw2 := exact_law2
  rel := fun {x} _ => by
    simp only [exact, id, sub_self, abs_zero]
    exact mul_nonneg (abs_nonneg _) (pow2_pos _).le

theorem single_law3 : Law3 single where
  toLaw2 := single_law2
  rel := fun {x} h => roundQ_rel_err (f := b32) (le_trans (by decide +kernel) h)

variable {A : Ar}

theorem Law2.rnd_fin (hA : Law2 A) {x : ℚ} (h : |x| ≤ pow2 127) : A.rnd x = .fin (A.rq x) := by
  unfold rnd
  rw [hA.small h]
  rfl

theorem Law2.lit_int (hA : Law2 A) {n : ℤ} (h : |n| ≤ 2 ^ 24) : A.lit (n : ℚ) = .fin n :=
  (hA.rep_int h).rnd

theorem Law2.lit_nat (hA : Law2 A) {n : ℕ} (h : n ≤ 2 ^ 24) : A.lit (n : ℚ) = .fin n := by
  have := hA.lit_int (n := (n : ℤ)) (by rw [abs_of_nonneg (by omega)]; exact_mod_cast h)
  simpa using this

/-- Upper bound of a rounded non-negative number. -/
theorem Law3.rq_le (hA : Law3 A) {x y : ℚ} (h : x ≤ y) (hy : pow2 (-100) ≤ y) :
    A.rq x ≤ y * (1 + 1 / 16777216) := by
  have hpos : 0 < y := (pow2_pos _).trans_le hy
  have h1 := hA.mono h
  have h2 := hA.rel (x := y) (by rwa [abs_of_pos hpos])
  rw [abs_of_pos hpos, show pow2 (-24) = 1 / 16777216 from by decide +kernel, abs_le] at h2
  linarith [h2.2]

/-- Lower bound of a rounded positive number. -/
theorem Law3.le_rq (hA : Law3 A) {x y : ℚ} (h : y ≤ x) (hy : pow2 (-100) ≤ y) :
    y * (1 - 1 / 16777216) ≤ A.rq x := by
  have hpos : 0 < y := (pow2_pos _).trans_le hy
  have h1 := hA.mono h
  have h2 := hA.rel (x := y) (by rwa [abs_of_pos hpos])
  rw [abs_of_pos hpos, show pow2 (-24) = 1 / 16777216 from by decide +kernel, abs_le] at h2
  linarith [h2.1]

end Verif.Float.Ar
