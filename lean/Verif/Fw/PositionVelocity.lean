import Verif.Fw.PositionFollow
import Verif.Fw.PositionNearest

/-! # Property C38: reported velocity and loss of the output source -/

namespace Verif.Fw

open Verif.Float

theorem reference_velocity (A : Ar) (c : OutputConfig) (src ref : SourceStatus) (o : OutputStatus) :
    (reference A c src ref o).velocity = o.velocity := by
  unfold reference
  split
  · rfl
  · cases c.reference with
    | none => rfl
    | some cpr =>
      dsimp only
      split
      · split <;> rfl
      · rfl

/-- C38: the reported velocity is that of the source, in turns of the output and in
its direction: `ρ v / cpr`, with the sign of the output. -/
theorem C38_velocity {A : Ar} (hA : Ar.Law3 A) {c : OutputConfig} {ρ : ℚ} (hc : Geared A c ρ)
    (src ref : SourceStatus) (o : OutputStatus) {v V : ℚ} (hact : src.activeVelocity = true)
    (hv : src.velocity = .fin v) (hV : |v| ≤ V * c.cpr) (hV0 : 1 ≤ V * ρ) (hV1 : V ≤ 1073741824) :
    ∃ q, (updateOutput A c src ref o).velocity = .fin q ∧
      |q - (if c.forward then ρ * v / c.cpr else -(ρ * v / c.cpr))| ≤ V * ρ / 2097152 := by
  have hC := hc.C_pos
  have hρ := hc.ρ_pos
  have hS := sc_bounds hA hc
  set R := A.rq (ρ / c.cpr) with hR
  have hq : |R - ρ / c.cpr| ≤ ρ / c.cpr / 16777216 := by
    rw [abs_le]
    constructor <;> linarith [hS.1, hS.2]
  have hVp : 0 < V := by
    by_contra hn
    have : V * ρ ≤ 0 := mul_nonpos_of_nonpos_of_nonneg (not_lt.mp hn) hρ.le
    linarith
  have hsign : |c.sign| = 1 := by
    unfold OutputConfig.sign
    split <;> simp
  have e1 : |v * (c.sign * R) - c.sign * (ρ * v / c.cpr)| ≤ V * ρ / 16777216 := by
    rw [show v * (c.sign * R) - c.sign * (ρ * v / c.cpr) = c.sign * (v * (R - ρ / c.cpr)) by ring,
      abs_mul, hsign, one_mul, abs_mul]
    calc |v| * |R - ρ / c.cpr| ≤ (V * c.cpr) * (ρ / c.cpr / 16777216) :=
          mul_le_mul hV hq (abs_nonneg _) (mul_nonneg hVp.le hC.le)
      _ = V * ρ / 16777216 := by field_simp
  have e2 : |c.sign * (ρ * v / c.cpr)| ≤ V * ρ := by
    rw [abs_mul, hsign, one_mul, abs_div, abs_mul, abs_of_pos hρ, abs_of_pos hC, div_le_iff₀ hC]
    nlinarith
  have e3 : |v * (c.sign * R)| ≤ 2 * (V * ρ) := by
    rw [abs_le] at e1 e2 ⊢
    constructor <;> linarith [e1.1, e1.2, e2.1, e2.2]
  have hhigh : V * ρ ≤ 1073741824 * 64 := mul_le_mul hV1 hc.high hρ.le (by norm_num)
  obtain ⟨y, ey, hy⟩ := op (Law3_fine hA) (x := v * (c.sign * R)) (2 * (V * ρ)) e3 (by linarith)
    (by linarith)
  refine ⟨y, ?_, ?_⟩
  · unfold updateOutput
    rw [if_pos hact, reference_velocity]
    show A.mul src.velocity (c.cprScale A) = .fin y
    rw [hv, cprScale_eq hA hc, mul_fin, ey]
  · have hs : (if c.forward then ρ * v / c.cpr else -(ρ * v / c.cpr)) = c.sign * (ρ * v / c.cpr) := by
      unfold OutputConfig.sign
      split <;> ring
    rw [hs]
    rw [abs_le] at e1 hy ⊢
    constructor <;> linarith [e1.1, e1.2, hy.1, hy.2]

example : Geared Ar.single (rotorEncoder false 1) 1 ∧ |(-50000 : ℚ)| ≤ 100 * (rotorEncoder false 1).cpr := by
  refine ⟨rotor_geared false ?_ (by norm_num) (by norm_num), ?_⟩
  · have := Ar.single_law3.rep_int (n := 1) (by norm_num)
    simpa using this
  · show |(-50000 : ℚ)| ≤ 100 * ((16384 : ℕ) : ℚ)
    norm_num

/-- C38: when the output source is lost, the position is no longer reported as valid
and the homing is forgotten; the position itself is not touched, and it counts again
from where it was when the source is back. -/
theorem C38_lost (A : Ar) (c : OutputConfig) (src ref : SourceStatus) (o : OutputStatus)
    (hv : src.activeVelocity = false) (ht : src.activeTheta = false) :
    (updateOutput A c src ref o).relativeValid = false ∧
    (updateOutput A c src ref o).thetaValid = false ∧
    (updateOutput A c src ref o).homed = .relative ∧
    (updateOutput A c src ref o).raw = o.raw ∧
    (updateOutput A c src ref o).relativeRaw = o.relativeRaw ∧
    (updateOutput A c src ref o).modulo = o.modulo ∧
    (updateOutput A c src ref o).everValid = o.everValid := by
  have h : updateOutput A c src ref o =
      { o with relativeValid := false, thetaValid := false, homed := .relative } := by
    unfold updateOutput
    rw [hv, if_neg (by simp)]
    unfold reference
    rw [if_pos ⟨hv, ht⟩]
  rw [h]
  exact ⟨rfl, rfl, rfl, rfl, rfl, rfl, rfl⟩

example : SourceStatus.init.activeVelocity = false ∧ SourceStatus.init.activeTheta = false := by decide

end Verif.Fw
