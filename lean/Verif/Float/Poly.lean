import Mathlib.Data.Real.Basic
import Mathlib.Algebra.Order.Field.Rat
import Mathlib.Tactic.Linarith
import Mathlib.Tactic.Positivity
import Mathlib.Tactic.NormNum
import Mathlib.Tactic.Ring

/-!
# Lower bounds of polynomials on an interval

`nonneg p u h n` checks that a polynomial with rational coefficients is not
negative on `[u, u + n * h]`, piece by piece of length `h`.  The check is sound
for every real number of the interval (`nonneg_sound`).
-/

namespace Verif.Poly

/-- The value of the polynomial with these coefficients, lowest first. -/
def eval : List ℚ → ℝ → ℝ
  | [], _ => 0
  | c :: cs, x => c + x * eval cs x

def addc (c : ℚ) : List ℚ → List ℚ
  | [] => [c]
  | d :: ds => (c + d) :: ds

def add : List ℚ → List ℚ → List ℚ
  | [], m => m
  | l, [] => l
  | a :: l, b :: m => (a + b) :: add l m

def smul (u : ℚ) (l : List ℚ) : List ℚ := l.map (u * ·)

/-- The coefficients in terms of `x - u`. -/
def shift (u : ℚ) : List ℚ → List ℚ
  | [] => []
  | c :: cs => addc c (add (0 :: shift u cs) (smul u (shift u cs)))

/-- A lower bound on `[0, h]`. -/
def low (h : ℚ) : List ℚ → ℚ
  | [] => 0
  | c :: cs => c + min 0 (h * low h cs)

/-- Whether the bound is not negative on `n` pieces of length `h` from `u` on. -/
def nonneg (p : List ℚ) (u h : ℚ) : ℕ → Bool
  | 0 => true
  | n + 1 => decide (0 ≤ low h (shift u p)) && nonneg p (u + h) h n

theorem eval_addc (c : ℚ) (l : List ℚ) (x : ℝ) : eval (addc c l) x = c + eval l x := by
  cases l with
  | nil => simp [addc, eval]
  | cons d ds => simp [addc, eval]; ring

theorem eval_add (l m : List ℚ) (x : ℝ) : eval (add l m) x = eval l x + eval m x := by
  induction l generalizing m with
  | nil => simp [add, eval]
  | cons a l ih =>
    cases m with
    | nil => simp [add, eval]
    | cons b m => simp [add, eval, ih]; ring

theorem eval_smul (u : ℚ) (l : List ℚ) (x : ℝ) : eval (smul u l) x = u * eval l x := by
  induction l with
  | nil => simp [smul, eval]
  | cons a l ih =>
    have ih : eval (l.map (u * ·)) x = u * eval l x := ih
    simp only [smul, List.map_cons, eval, ih]
    push_cast
    ring

theorem eval_shift (u : ℚ) (l : List ℚ) (t : ℝ) : eval (shift u l) t = eval l (u + t) := by
  induction l with
  | nil => simp [shift, eval]
  | cons c cs ih =>
    simp only [shift, eval_addc, eval_add, eval_smul, eval, ih]
    push_cast
    ring

theorem low_le (h : ℚ) (l : List ℚ) {t : ℝ} (h0 : 0 ≤ t) (h1 : t ≤ h) :
    (low h l : ℝ) ≤ eval l t := by
  induction l with
  | nil => simp [low, eval]
  | cons c cs ih =>
    simp only [low, eval]
    push_cast
    have : min 0 ((h : ℝ) * low h cs) ≤ t * eval cs t := by
      rcases le_or_gt 0 (low h cs : ℝ) with hp | hn
      · exact (min_le_left _ _).trans (mul_nonneg h0 (hp.trans ih))
      · refine (min_le_right _ _).trans ?_
        have a : (h : ℝ) * low h cs ≤ t * low h cs := mul_le_mul_of_nonpos_right h1 hn.le
        exact a.trans (mul_le_mul_of_nonneg_left ih h0)
    linarith

theorem nonneg_sound (p : List ℚ) (h : ℚ) (hh : 0 < h) (n : ℕ) : ∀ u : ℚ, nonneg p u h n = true →
    ∀ x : ℝ, (u : ℝ) ≤ x → x ≤ u + n * h → 0 < n → 0 ≤ eval p x := by
  induction n with
  | zero => intro u _ x _ _ h0; exact absurd h0 (by simp)
  | succ n ih =>
    intro u hc x h1 h2 _
    simp only [nonneg, Bool.and_eq_true, decide_eq_true_eq] at hc
    have hr : (0 : ℝ) < h := by exact_mod_cast hh
    push_cast at h2
    rcases le_or_gt x (u + h) with hx | hx
    · have := low_le h (shift u p) (t := x - u) (by linarith) (by linarith)
      rw [eval_shift] at this
      have h0 : (0 : ℝ) ≤ low h (shift u p) := by exact_mod_cast hc.1
      have e : (u : ℝ) + (x - u) = x := by ring
      rw [e] at this
      linarith
    · refine ih (u + h) hc.2 x (by push_cast; exact hx.le) (by push_cast; linarith) ?_
      rcases Nat.eq_zero_or_pos n with rfl | hn
      · simp at h2; linarith
      · exact hn

end Verif.Poly
