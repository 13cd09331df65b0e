import Mathlib.Tactic.Ring
import Mathlib.Algebra.Order.Group.Int
import Mathlib.Algebra.Order.Group.Abs

/-!
# Oscillator trim

Model of `ClockManager` (`fw/clock_manager.h`).  Property C43.
-/

namespace Verif.Fw.Clock

/-- Signed 32 bit wrap of an `int32_t` sum (`fw/clock_manager.h` 46; in C++ the
overflow is undefined, the processor wraps). -/
def wrap32 (x : ℤ) : ℤ := (x + 2 ^ 31) % 2 ^ 32 - 2 ^ 31

/-- `ClockManager` and the register it drives: `clock_.hsitrim`, `extra_trim_`
and `RCC->ICSCR`. -/
structure St where
  hsitrim : ℤ
  extra : ℤ
  icscr : ℕ
deriving DecidableEq

/-- `kMaxExtraTrim` (`fw/clock_manager.h` 29). -/
def maxExtra : ℤ := 8

/-- The trim of `UpdateConfig` (`fw/clock_manager.h` 44-46). -/
def trimOf (hsitrim extra : ℤ) : ℤ := max 0 (min 127 (wrap32 (hsitrim + extra)))

/-- `UpdateConfig` (`fw/clock_manager.h` 43-48). -/
def updateConfig (s : St) : St :=
  { s with icscr := (s.icscr &&& 0x00ffffff) ||| ((trimOf s.hsitrim s.extra).toNat <<< 24) }

/-- `SetTrim` (`fw/clock_manager.h` 50-53). -/
def setTrim (s : St) (e : ℤ) : St :=
  updateConfig { s with extra := max (-maxExtra) (min maxExtra e) }

/-- The configuration `clock.hsitrim` is changed and applied
(`fw/clock_manager.h` 35-37). -/
def configure (s : St) (h : ℤ) : St := updateConfig { s with hsitrim := h }

/-- Anything that can happen to the clock manager. -/
inductive Op
  | trim (e : ℤ)
  | config (h : ℤ)

def step (s : St) : Op → St
  | .trim e => setTrim s e
  | .config h => configure s h

def run (s : St) (ops : List Op) : St := ops.foldl step s

/-- The calibration field of the register: bits 24 to 31. -/
def field (s : St) : ℕ := s.icscr / 2 ^ 24

/-- The other bits. -/
def rest (s : St) : ℕ := s.icscr % 2 ^ 24

theorem trimOf_range (h e : ℤ) : 0 ≤ trimOf h e ∧ trimOf h e ≤ 127 := by
  unfold trimOf; omega

theorem icscr_update (x t : ℕ) : (x &&& 0x00ffffff) ||| (t <<< 24) = t * 2 ^ 24 + x % 2 ^ 24 := by
  have h1 : x &&& 0x00ffffff = x % 2 ^ 24 := Nat.and_two_pow_sub_one_eq_mod x 24
  have h2 : x % 2 ^ 24 < 2 ^ 24 := Nat.mod_lt _ (by decide)
  rw [h1, Nat.or_comm, ← Nat.shiftLeft_add_eq_or_of_lt h2, Nat.shiftLeft_eq]

theorem update_spec (s : St) :
    field (updateConfig s) = (trimOf s.hsitrim s.extra).toNat ∧ rest (updateConfig s) = rest s := by
  unfold field rest updateConfig
  simp only [icscr_update]
  constructor <;> omega

/-- State that has been applied to the register. -/
def Applied (s : St) : Prop :=
  -8 ≤ s.extra ∧ s.extra ≤ 8 ∧ field s = (trimOf s.hsitrim s.extra).toNat

theorem step_applied (s : St) (o : Op) (he : -8 ≤ s.extra ∧ s.extra ≤ 8) : Applied (step s o) := by
  cases o with
  | trim e =>
    refine ⟨?_, ?_, ?_⟩
    · simp only [step, setTrim, updateConfig, maxExtra]; omega
    · simp only [step, setTrim, updateConfig, maxExtra]; omega
    · exact (update_spec _).1
  | config h => exact ⟨he.1, he.2, (update_spec _).1⟩

theorem run_extra (s : St) (ops : List Op) (he : -8 ≤ s.extra ∧ s.extra ≤ 8) :
    -8 ≤ (run s ops).extra ∧ (run s ops).extra ≤ 8 := by
  induction ops generalizing s with
  | nil => exact he
  | cons o os ih =>
    have := step_applied s o he
    exact ih (step s o) ⟨this.1, this.2.1⟩

theorem run_rest (s : St) (ops : List Op) : rest (run s ops) = rest s := by
  induction ops generalizing s with
  | nil => rfl
  | cons o os ih =>
    have : rest (step s o) = rest s := by
      cases o with
      | trim e => exact (update_spec _).2
      | config h => exact (update_spec _).2
    rw [← this]; exact ih (step s o)

theorem run_snoc (s : St) (ops : List Op) (o : Op) : run s (ops ++ [o]) = step (run s ops) o := by
  simp [run, List.foldl_append]

/-- C43.  After any sequence of trims and configuration changes that ends with
one of them, the calibration field is in its legal range 0 to 127, the other
bits of the register are untouched, and the field is at most 8 steps away from
the configured factory value when that is legal. -/
theorem C43_bounded (s : St) (hs : s.extra = 0) (ops : List Op) (o : Op) :
    field (run s (ops ++ [o])) ≤ 127 ∧ rest (run s (ops ++ [o])) = rest s ∧
    (0 ≤ (run s (ops ++ [o])).hsitrim → (run s (ops ++ [o])).hsitrim ≤ 127 →
      |(field (run s (ops ++ [o])) : ℤ) - (run s (ops ++ [o])).hsitrim| ≤ 8) := by
  have he := run_extra s ops (by omega)
  have ha := step_applied (run s ops) o he
  rw [← run_snoc] at ha
  obtain ⟨h1, h2, h3⟩ := ha
  have hr := trimOf_range (run s (ops ++ [o])).hsitrim (run s (ops ++ [o])).extra
  refine ⟨by omega, run_rest _ _, ?_⟩
  intro l u
  rw [h3, Int.toNat_of_nonneg hr.1]
  unfold trimOf wrap32
  rw [abs_le]
  constructor <;> omega

/-- C43.  Writing zero restores the register to the value that the
configuration alone gives, whatever trims were written before. -/
theorem C43_zero_restores (s : St) (hs : s.extra = 0) (trims : List ℤ) :
    (run (updateConfig s) (trims.map .trim ++ [.trim 0])).icscr = (updateConfig s).icscr ∧
    (0 ≤ s.hsitrim → s.hsitrim ≤ 127 →
      (field (run (updateConfig s) (trims.map .trim ++ [.trim 0])) : ℤ) = s.hsitrim) := by
  have hh : ∀ (l : List ℤ) (t : St), (run t (l.map .trim)).hsitrim = t.hsitrim := by
    intro l
    induction l with
    | nil => intro t; rfl
    | cons e es ih => intro t; exact ih (step t (.trim e))
  set e := run (updateConfig s) (trims.map .trim ++ [.trim 0]) with hE
  have hsn : e = setTrim (run (updateConfig s) (trims.map .trim)) 0 := by rw [hE, run_snoc]; rfl
  have h1 : field e = (trimOf s.hsitrim 0).toNat := by
    rw [hsn, setTrim, (update_spec _).1]
    simp only [hh]
    rfl
  have h2 : rest e = rest (updateConfig s) := run_rest _ _
  have h3 : field (updateConfig s) = (trimOf s.hsitrim 0).toNat := by rw [(update_spec _).1, hs]
  constructor
  · have d1 := Nat.div_add_mod e.icscr (2 ^ 24)
    have d2 := Nat.div_add_mod (updateConfig s).icscr (2 ^ 24)
    unfold field at h1 h3
    unfold rest at h2
    rw [← d1, ← d2, h1, h2, h3]
  · intro l u
    rw [h1, Int.toNat_of_nonneg (trimOf_range _ _).1]
    unfold trimOf wrap32
    omega

/-- C43.  Between the limits a trim is applied exactly. -/
theorem C43_exact (s : St) (e : ℤ) (h1 : -8 ≤ e) (h2 : e ≤ 8) (h3 : 8 ≤ s.hsitrim)
    (h4 : s.hsitrim ≤ 119) :
    (field (setTrim s e) : ℤ) = s.hsitrim + e ∧ (setTrim s e).extra = e := by
  constructor
  · rw [setTrim, (update_spec _).1, Int.toNat_of_nonneg (trimOf_range _ _).1]
    simp only [trimOf, wrap32, maxExtra]
    omega
  · simp only [setTrim, updateConfig, maxExtra]; omega

/-- With a configured value near the top of `int32_t` the sum overflows: a trim
of +8 then selects the lowest instead of the highest frequency. -/
theorem C43_overflow_refuted :
    field (setTrim ⟨2147483647, 0, 0⟩ 0) = 127 ∧ field (setTrim ⟨2147483647, 0, 0⟩ 8) = 0 := by
  decide

/-- A non-trivial case: default factory value 64, several trims. -/
example : (run ⟨64, 0, 0x40001234⟩ [.trim 5, .trim 100, .config 66, .trim (-3)]) =
    ⟨66, -3, 0x3f001234⟩ := by decide

end Verif.Fw.Clock
