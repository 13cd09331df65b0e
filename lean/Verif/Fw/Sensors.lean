import Verif.Fw.Source
import Mathlib.Tactic.IntervalCases

/-!
# Quadrature and hall sensor inputs

Model of the sampling of quadrature encoders (`fw/aux_mbed.h` 200-272) and
hall sensors (`fw/aux_port.h` 185-215), and the counts that a position source
makes of them.

Simplifications: an edge of a pin is one call of the interrupt handler, which
reads both pins at one instant; a table index out of bounds is `none`.

Properties C63 (absolute encoders), C64 (quadrature) and C65 (hall).
-/

namespace Verif.Fw

open Verif.Float

/-! ## Model -/

/-- `Quadrature::Status` (`fw/aux_common.h` 146-150) without `active`. -/
structure QuadStatus where
  pins : ℕ
  value : ℕ
  error : ℕ
deriving DecidableEq

/-- `kQuadUpdate` (`fw/aux_mbed.h` 224-241) -/
def quadUpdateTable : List ℤ := [0, 1, -1, 0, -1, 0, 0, 1, 1, 0, 0, -1, 0, -1, 1, 0]

/-- `kQuadError` (`fw/aux_mbed.h` 242-259) -/
def quadErrorTable : List ℕ := [0, 0, 0, 1, 0, 0, 1, 0, 0, 1, 0, 0, 1, 0, 0, 0]

/-- The two pins as a number (`fw/aux_mbed.h` 261-263). -/
def pinBits (p : Bool × Bool) : ℕ := (if p.1 then 1 else 0) ||| (if p.2 then 2 else 0)

/-- `Stm32Quadrature::ISR_Callback` (`fw/aux_mbed.h` 223-271); `cpr` is that of
the port. -/
def quadCallback (cpr : ℕ) (s : QuadStatus) (p : Bool × Bool) : Option QuadStatus :=
  let update := ((s.pins <<< 2) ||| pinBits p) % 256
  match quadUpdateTable[update]?, quadErrorTable[update]? with
  | some d, some e =>
    some ⟨pinBits p, toU32 ((s.value : ℤ) + d + cpr) % cpr, (s.error + e) % 65536⟩
  | _, _ => none

/-- The interrupts between two control cycles. -/
def quadRun (cpr : ℕ) (s : QuadStatus) (l : List (Bool × Bool)) : Option QuadStatus :=
  l.foldlM (quadCallback cpr) s

/-- The hardware counter: `value` and `old_timer_cnt_`. -/
structure QuadTimer where
  value : ℕ
  old : ℕ
deriving DecidableEq

/-- `Stm32Quadrature::ISR_Update` with a timer (`fw/aux_mbed.h` 200-217); the
counter of the timer has 16 bits (line 179). -/
def quadTimer (cpr : ℕ) (s : QuadTimer) (cnt : ℕ) : QuadTimer :=
  let delta := Int.bmod ((cnt : ℤ) - s.old) 65536
  ⟨toU32 ((s.value : ℤ) + delta + cpr) % cpr, cnt⟩

/-- `Hall::Status` (`fw/aux_common.h` 174-178) without `active`. -/
structure HallStatus where
  bits : ℕ
  count : ℕ
  error : ℕ
deriving DecidableEq

/-- `kHallMapping` (`fw/aux_port.h` 202-211) -/
def hallMapping : List ℕ := [0, 0, 2, 1, 4, 5, 3, 0]

/-- `numbits_changed` (`fw/aux_port.h` 193-196).  `?:` binds weaker than `+`,
so the expression is `(delta & 1) ? 1 : (0 + (delta & 2)) ? 1 : (0 + (delta & 4)) ? 1 : 0`. -/
def bitsChanged (delta : ℕ) : ℕ :=
  if delta &&& 1 ≠ 0 then 1
  else if 0 + (delta &&& 2) ≠ 0 then 1
  else if 0 + (delta &&& 4) ≠ 0 then 1
  else 0

/-- The sampling of the hall sensors (`fw/aux_port.h` 185-215). -/
def hallSample (polarity : ℕ) (s : HallStatus) (bits : ℕ) : Option HallStatus :=
  let error := if 1 < bitsChanged (bits ^^^ s.bits) then (s.error + 1) % 65536 else s.error
  match hallMapping[bits ^^^ polarity]? with
  | some count => some ⟨bits, count, error⟩
  | none => none

/-- The update of one source with a list of readings, one per control cycle. -/
def runSource (A : Ar) (c : SourceConfig) (poles : ℕ) (dt : Fl) (s : SourceStatus)
    (l : List Reading) : Option SourceStatus :=
  l.foldlM (fun s r => (updateSource A c poles dt r s).map SourceStep.status) s

/-! ## Specification -/

namespace Spec

/-- The outputs A and B of a quadrature encoder at a position in counts. -/
def quadPins (p : ℤ) : Bool × Bool :=
  (decide (p % 4 = 1 ∨ p % 4 = 2), decide (p % 4 = 2 ∨ p % 4 = 3))

/-- Three hall sensors 120 degrees apart, at a position in sixths of an
electrical turn. -/
def hallBits (p : ℤ) : ℕ :=
  if p % 6 = 0 then 1 else if p % 6 = 1 then 3 else if p % 6 = 2 then 2
  else if p % 6 = 3 then 6 else if p % 6 = 4 then 4 else 5

/-- Consecutive positions differ by at most `n`. -/
def Moves (n : ℤ) : ℤ → List ℤ → Prop
  | _, [] => True
  | p, q :: l => |q - p| ≤ n ∧ Moves n q l

end Spec

open Spec

/-! ## Integers -/

theorem toU32_of {n : ℤ} (h0 : 0 ≤ n) (h1 : n < 4294967296) : (toU32 n : ℤ) = n := by
  unfold toU32
  rw [Int.emod_eq_of_lt h0 h1]
  omega

theorem toU32_emod {n : ℤ} {m : ℕ} (h0 : 0 ≤ n) (h1 : n < 4294967296) :
    ((toU32 n % m : ℕ) : ℤ) = n % m := by
  rw [Int.natCast_mod, toU32_of h0 h1]

theorem wrapI32_of {n : ℤ} (h0 : -2147483648 ≤ n) (h1 : n < 2147483648) : wrapI32 n = n := by
  unfold wrapI32; omega

theorem wrapIntCpr_of {v : ℤ} {cpr : ℕ} (h0 : -(cpr : ℤ) ≤ v) (h1 : v + cpr < 4294967296) :
    ((wrapIntCpr v cpr : ℕ) : ℤ) = v % cpr := by
  unfold wrapIntCpr
  rw [toU32_emod (by omega) h1, Int.add_emod_right]

theorem wrapIntCpr_dvd {v : ℤ} {cpr : ℕ} (h : cpr ∣ 4294967296) :
    ((wrapIntCpr v cpr : ℕ) : ℤ) = v % cpr := by
  unfold wrapIntCpr toU32
  have h2 : (cpr : ℤ) ∣ 4294967296 := by exact_mod_cast h
  rw [Int.natCast_mod, Int.toNat_of_nonneg (Int.emod_nonneg _ (by norm_num)),
    Int.emod_emod_of_dvd _ h2, Int.add_emod_right]

end Verif.Fw
