import Verif.Fw.Commutation
import Verif.Fw.PositionNearest
import Verif.Fw.Pll
import Mathlib.Tactic.LinearCombination

/-!
# The commutation angle follows the rotor

C68, the value of the angle: electrical turns of the rotor plus the calibrated
phase, interpolated; continuous, also where the encoder wraps around.
-/

namespace Verif.Fw

open Verif.Float

/-! ## Specification -/

namespace Spec

/-- The calibrated phase at the grid point `i`; the table is closed to a circle. -/
def knot (t : ℕ → ℚ) (i : ℤ) : ℚ := t (i % 64).toNat

/-- The calibrated phase at a position `x` in turns: straight lines between the
64 grid points. -/
def curve (t : ℕ → ℚ) (x : ℚ) : ℚ :=
  knot t ⌊64 * x⌋ * (1 - (64 * x - ⌊64 * x⌋)) + knot t (⌊64 * x⌋ + 1) * (64 * x - ⌊64 * x⌋)

/-- The electrical angle at a position `x` of the encoder in turns, where the
encoder makes `s` turns per turn of the rotor. -/
def electrical (poles : ℕ) (s : ℚ) (t : ℕ → ℚ) (x : ℚ) : ℚ :=
  x * (poles / 2 * twoPi) / s + curve t x

/-- A usable configuration: the numbers are finite, the phases are at most `T`
and change by at most `D` from entry to entry, and the angle before wrapping is
at most `W`. -/
structure Calibrated (A : Ar) (c : PosConfig) (t : ℕ → ℚ) (s T D W : ℚ) : Prop where
  cpr_pos : 0 < (c.sources c.comm).cpr
  cpr_le : (c.sources c.comm).cpr ≤ 2 ^ 24
  poles_pos : 0 < c.poles
  poles_le : c.poles ≤ 255
  scale : c.rotorScale = .fin s
  scale_pos : 0 < s
  phase : ∀ i < 64, c.phase i = .fin (t i)
  rep : ∀ i < 64, A.Rep (t i)
  bound : ∀ i < 64, |t i| ≤ T
  change : ∀ i < 64, |t ((i + 1) % 64) - t i| ≤ D
  range : c.poles / 2 * twoPi / s + T ≤ W
  low : 7 ≤ W
  high : W ≤ 16384

end Spec

open Spec

/-! ## The curve -/

theorem knot_step {t : ℕ → ℚ} {D : ℚ} (h : ∀ i < 64, |t ((i + 1) % 64) - t i| ≤ D) (i : ℤ) :
    |knot t (i + 1) - knot t i| ≤ D := by
  have h1 := h (i % 64).toNat (by omega)
  have e : ((i % 64).toNat + 1) % 64 = ((i + 1) % 64).toNat := by omega
  rw [e] at h1
  exact h1

theorem knot_span {t : ℕ → ℚ} {D : ℚ} (h : ∀ i < 64, |t ((i + 1) % 64) - t i| ≤ D) (i : ℤ) (n : ℕ) :
    |knot t (i + n) - knot t i| ≤ D * n := by
  induction n with
  | zero => simp
  | succ n ih =>
    have h1 := knot_step h (i + n)
    have e : knot t (i + (n + 1 : ℕ)) - knot t i =
        (knot t (i + n + 1) - knot t (i + n)) + (knot t (i + n) - knot t i) := by
      push_cast
      rw [add_assoc]
      ring
    rw [e]
    refine (abs_add_le _ _).trans ?_
    push_cast
    linarith

theorem floor_parts (x : ℚ) : (⌊x⌋ : ℚ) ≤ x ∧ x < ⌊x⌋ + 1 := ⟨Int.floor_le x, Int.lt_floor_add_one x⟩

/-- The curve is as steep as its steepest piece. -/
theorem curve_lipschitz {t : ℕ → ℚ} {D : ℚ} (h : ∀ i < 64, |t ((i + 1) % 64) - t i| ≤ D) (x y : ℚ) :
    |curve t x - curve t y| ≤ 64 * D * |x - y| := by
  wlog hxy : y ≤ x generalizing x y with H
  · have := H y x (le_of_lt (not_le.mp hxy))
    rwa [abs_sub_comm, abs_sub_comm y x] at this
  have hD : 0 ≤ D := (abs_nonneg _).trans (h 0 (by norm_num))
  rw [abs_of_nonneg (show 0 ≤ x - y by linarith)]
  unfold curve
  have hx := floor_parts (64 * x)
  have hy := floor_parts (64 * y)
  have hm : ⌊64 * y⌋ ≤ ⌊64 * x⌋ := Int.floor_le_floor (by linarith)
  have kx := knot_step h ⌊64 * x⌋
  have ky := knot_step h ⌊64 * y⌋
  generalize ⌊64 * x⌋ = m at *
  generalize ⌊64 * y⌋ = n at *
  set u := 64 * x - m with hu
  set v := 64 * y - n with hv
  have e : 64 * D * (x - y) = D * (m - n + u - v) := by rw [hu, hv]; ring
  rw [e]
  rcases hm.eq_or_lt with heq | hlt
  · subst heq
    have e2 : knot t n * (1 - u) + knot t (n + 1) * u - (knot t n * (1 - v) + knot t (n + 1) * v) =
        (knot t (n + 1) - knot t n) * (u - v) := by ring
    have huv : 0 ≤ u - v := by rw [hu, hv]; linarith
    rw [e2, abs_mul, abs_of_nonneg huv]
    have := mul_le_mul_of_nonneg_right ky huv
    calc _ ≤ D * (u - v) := this
      _ = _ := by ring
  · obtain ⟨k, hk⟩ : ∃ k : ℕ, m = n + 1 + k := ⟨(m - n - 1).toNat, by omega⟩
    have ks := knot_span h (n + 1) k
    rw [← hk] at ks
    have e2 : knot t m * (1 - u) + knot t (m + 1) * u - (knot t n * (1 - v) + knot t (n + 1) * v) =
        (knot t (m + 1) - knot t m) * u + (knot t m - knot t (n + 1)) +
          (knot t (n + 1) - knot t n) * (1 - v) := by ring
    have hu0 : 0 ≤ u := by rw [hu]; linarith
    have hv1 : 0 ≤ 1 - v := by rw [hv]; linarith
    rw [e2]
    have a1 : |(knot t (m + 1) - knot t m) * u| ≤ D * u := by
      rw [abs_mul, abs_of_nonneg hu0]
      exact mul_le_mul_of_nonneg_right kx hu0
    have a2 : |(knot t (n + 1) - knot t n) * (1 - v)| ≤ D * (1 - v) := by
      rw [abs_mul, abs_of_nonneg hv1]
      exact mul_le_mul_of_nonneg_right ky hv1
    have hmk : (m : ℚ) = n + 1 + k := by exact_mod_cast hk
    have a3 := abs_add_le ((knot t (m + 1) - knot t m) * u + (knot t m - knot t (n + 1)))
      ((knot t (n + 1) - knot t n) * (1 - v))
    have a4 := abs_add_le ((knot t (m + 1) - knot t m) * u) (knot t m - knot t (n + 1))
    rw [hmk]
    linarith

/-- The curve is that of a full turn. -/
theorem curve_turn (t : ℕ → ℚ) (x : ℚ) (n : ℤ) : curve t (x + n) = curve t x := by
  have e : ⌊64 * (x + n)⌋ = ⌊64 * x⌋ + 64 * n := by
    rw [show 64 * (x + n) = 64 * x + ((64 * n : ℤ) : ℚ) by push_cast; ring, Int.floor_add_intCast]
  unfold curve knot
  rw [e]
  rw [show (⌊64 * x⌋ + 64 * n) % 64 = ⌊64 * x⌋ % 64 by omega,
    show (⌊64 * x⌋ + 64 * n + 1) % 64 = (⌊64 * x⌋ + 1) % 64 by omega]
  push_cast
  ring

/-- At the grid points the curve is the table. -/
theorem curve_grid (t : ℕ → ℚ) (i : ℕ) (hi : i < 64) : curve t (i / 64) = t i := by
  unfold curve knot
  rw [show (64 : ℚ) * (i / 64) = ((i : ℤ) : ℚ) by push_cast; ring, Int.floor_intCast]
  rw [show ((i : ℤ) % 64).toNat = i by omega]
  ring

/-- Between two neighbouring grid points the curve stays between their values. -/
theorem curve_between (t : ℕ → ℚ) (x lo hi : ℚ) (h1 : lo ≤ knot t ⌊64 * x⌋ ∧ knot t ⌊64 * x⌋ ≤ hi)
    (h2 : lo ≤ knot t (⌊64 * x⌋ + 1) ∧ knot t (⌊64 * x⌋ + 1) ≤ hi) : lo ≤ curve t x ∧ curve t x ≤ hi := by
  unfold curve
  have hx := floor_parts (64 * x)
  generalize knot t ⌊64 * x⌋ = a at *
  generalize knot t (⌊64 * x⌋ + 1) = b at *
  have hu : 0 ≤ 64 * x - (⌊64 * x⌋ : ℚ) ∧ 0 ≤ 1 - (64 * x - (⌊64 * x⌋ : ℚ)) := by
    constructor <;> linarith
  generalize (64 * x - (⌊64 * x⌋ : ℚ)) = u at *
  constructor
  · nlinarith [mul_nonneg hu.1 (sub_nonneg.mpr h2.1), mul_nonneg hu.2 (sub_nonneg.mpr h1.1)]
  · nlinarith [mul_nonneg hu.1 (sub_nonneg.mpr h2.2), mul_nonneg hu.2 (sub_nonneg.mpr h1.2)]

/-- The piece that `lerp` selects. -/
theorem curve_piece {t : ℕ → ℚ} {r : ℚ} (h0 : 0 ≤ r) (h1 : r ≤ 1) {l : ℕ}
    (hl : (l : ℤ) = min 63 ⌊64 * r⌋) :
    l < 64 ∧ 0 ≤ 64 * r - l ∧ 64 * r - l ≤ 1 ∧
    curve t r = t l * (1 - (64 * r - l)) + t ((l + 1) % 64) * (64 * r - l) := by
  have hf := floor_parts (64 * r)
  by_cases hr : r = 1
  · subst hr
    rw [show (64 : ℚ) * 1 = ((64 : ℤ) : ℚ) by norm_num, Int.floor_intCast] at hl
    have hl' : l = 63 := by omega
    subst hl'
    have e : curve t 1 = t 0 := by
      have h2 := curve_turn t 0 1
      have h3 := curve_grid t 0 (by norm_num)
      simp only [Nat.cast_zero, zero_div] at h3
      rw [h3] at h2
      simpa using h2
    rw [e]
    norm_num
  · have hr' : r < 1 := lt_of_le_of_ne h1 hr
    have hb : ⌊64 * r⌋ < 64 := by
      rw [Int.floor_lt]; push_cast; linarith
    have hn : 0 ≤ ⌊64 * r⌋ := Int.floor_nonneg.mpr (by linarith)
    have e : (l : ℤ) = ⌊64 * r⌋ := by omega
    have e' : (l : ℚ) = ⌊64 * r⌋ := by exact_mod_cast e
    refine ⟨by omega, by rw [e']; linarith, by rw [e']; linarith, ?_⟩
    unfold curve knot
    rw [← e, show ((l : ℤ) % 64).toNat = l by omega, show (((l : ℤ) + 1) % 64).toNat = (l + 1) % 64 by omega]
    push_cast
    rfl

/-! ## The arithmetic -/

section

variable {A : Ar} {κ : ℚ} (hA : Fine A κ)

include hA in
theorem unit_round {x : ℚ} (h0 : 0 ≤ x) (h1 : x ≤ 1) :
    ∃ y, A.rnd x = .fin y ∧ |y - x| ≤ κ ∧ 0 ≤ y ∧ y ≤ 1 ∧ A.Rep y := by
  have hx : |x| ≤ 1 := abs_le.mpr ⟨by linarith, h1⟩
  have e := hA.rnd_fin (hx.trans (by decide +kernel : (1 : ℚ) ≤ pow2 127))
  have h2 := hA.near hx (by norm_num)
  have r1 : A.Rep 1 := by simpa using hA.rep_int (n := 1) (by norm_num)
  have r0 : A.Rep 0 := hA.rep_zero
  refine ⟨_, e, by linarith, ?_, ?_, hA.rep_of_rnd e⟩
  · have := hA.mono h0
    rwa [r0.1] at this
  · have := hA.mono h1
    rwa [r1.1] at this

theorem truncQ_nonneg_floor {q : ℚ} (h : 0 ≤ q) : truncQ q = ⌊q⌋ := by
  have := truncQ_floor (q := q) |>.1 h
  symm
  rw [Int.floor_eq_iff]
  constructor <;> linarith

include hA in
/-- `lerp` on the calibrated phases, at a position that is a number of the
arithmetic. -/
theorem lerp_near {c : PosConfig} {t : ℕ → ℚ} {T W : ℚ} (ht : ∀ i < 64, c.phase i = .fin (t i))
    (hrep : ∀ i < 64, A.Rep (t i)) (hT : ∀ i < 64, |t i| ≤ T) (hTW : T ≤ W) (hW : 1 ≤ W) (hW' : W ≤ 16384)
    {r : ℚ} (hr : A.Rep r) (h0 : 0 ≤ r) (h1 : r ≤ 1) :
    ∃ y, lerp A c.phase 64 (.fin 1) (.fin r) = .fin y ∧ |y - curve t r| ≤ 8 * (W * κ) := by
  have hk0 := hA.nonneg'
  have hk1 := hA.le'
  have hWk : 0 ≤ W * κ := mul_nonneg (by linarith) hk0
  have hWk1 : W * κ ≤ W * (1 / 8388608) := mul_le_mul_of_nonneg_left hk1 (by linarith)
  have lit64 : A.lit (64 : ℕ) = .fin 64 := by simpa using hA.lit_nat (n := 64) (by norm_num)
  have lit1 : A.lit 1 = .fin 1 := by simpa using hA.lit_nat (n := 1) (by norm_num)
  have p6 : pow2 6 = 64 := by decide +kernel
  have m64 : A.mul (.fin r) (A.lit (64 : ℕ)) = .fin (64 * r) := by
    have := (hA.scale (k := 6) hr (by norm_num) (by
      rw [p6, abs_of_nonneg (by linarith)]
      exact le_trans (by linarith : r * 64 ≤ 64) (by decide +kernel))).rnd
    rw [p6] at this
    rw [lit64, mul_fin, this, mul_comm]
  have hi : toI32 (.fin (64 * r)) = ⌊64 * r⌋ := by
    rw [(toI32_small (q := 64 * r) (by rw [abs_of_nonneg (by linarith)]; linarith)).1,
      truncQ_nonneg_floor (by linarith)]
  have hfn : 0 ≤ ⌊64 * r⌋ := Int.floor_nonneg.mpr (by linarith)
  obtain ⟨l, hl⟩ : ∃ l : ℕ, (l : ℤ) = min 63 ⌊64 * r⌋ := ⟨(min 63 ⌊64 * r⌋).toNat, by omega⟩
  obtain ⟨l64, u0, u1, hc⟩ := curve_piece (t := t) h0 h1 hl
  have el : (min (((64 : ℕ) : ℤ) - 1) (toI32 (A.mul (.fin r) (A.lit (64 : ℕ))))).toNat = l := by
    rw [m64, hi]; omega
  unfold lerp
  simp only
  rw [el]
  have litl : A.lit l = .fin l := hA.lit_nat (by omega)
  have d64 : A.div (A.lit l) (A.lit (64 : ℕ)) = .fin (l / 64) := by
    rw [litl, lit64]
    simp only [Ar.div]
    rw [if_neg (by norm_num)]
    have := (hA.unscale (n := l) (k := -6) (by
      rw [abs_of_nonneg (by omega)]; norm_num; omega) (by norm_num) (by norm_num)).rnd
    rw [show pow2 (-6) = 1 / 64 from by decide +kernel] at this
    rw [show (l : ℚ) / 64 = ((l : ℤ) : ℚ) * (1 / 64) by push_cast; ring]
    exact this
  -- the fraction
  have hd0 : 0 ≤ r - l / 64 := by linarith
  have hd1 : r - l / 64 ≤ 1 / 64 := by linarith
  obtain ⟨d, ed, hd⟩ := op hA (x := r - l / 64) (1 / 64) (abs_le.mpr ⟨by linarith, hd1⟩) (by norm_num)
    (by norm_num)
  have drep : A.Rep d := hA.rep_of_rnd ed
  have hd' : 0 ≤ d ∧ d ≤ 1 / 64 := by
    have r1 : A.Rep (1 / 64) := by
      have := hA.unscale (n := 1) (k := -6) (by norm_num) (by norm_num) (by norm_num)
      rwa [show pow2 (-6) = 1 / 64 from by decide +kernel, Int.cast_one, one_mul] at this
    have e2 := hA.le_rnd hA.rep_zero hd0
    have e3 := hA.rnd_le r1 hd1
    rw [ed] at e2 e3
    exact ⟨by simpa using e2, by simpa using e3⟩
  rw [d64, sub_fin, ed]
  have m2 : A.mul (.fin d) (A.lit (64 : ℕ)) = .fin (64 * d) := by
    have := (hA.scale (k := 6) drep (by norm_num) (by
      rw [p6, abs_of_nonneg (by linarith)]
      exact le_trans (by linarith : d * 64 ≤ 64) (by decide +kernel))).rnd
    rw [p6] at this
    rw [lit64, mul_fin, this, mul_comm]
  rw [m2]
  obtain ⟨g, eg, hg, hg0, hg1, -⟩ := unit_round hA (x := 1 - 64 * d) (by linarith) (by linarith)
  have hr64 : (l + 1) % 64 < 64 := Nat.mod_lt _ (by norm_num)
  rw [ht l l64, ht _ hr64, lit1, sub_fin, eg]
  have one : ∀ i < 64, A.mul (.fin (t i)) (.fin 1) = .fin (t i) := by
    intro i hi
    rw [mul_fin, mul_one, (hrep i hi).rnd]
  rw [one l l64, one _ hr64, mul_fin, mul_fin]
  have b1 := hT l l64
  have b2 := hT _ hr64
  generalize t l = a at *
  generalize t ((l + 1) % 64) = b at *
  have hT0 : 0 ≤ T := (abs_nonneg _).trans b1
  have c1 : |a * g| ≤ W := by
    rw [abs_mul, abs_of_nonneg hg0]
    nlinarith [abs_nonneg a]
  have c2 : |b * (64 * d)| ≤ W := by
    rw [abs_mul, abs_of_nonneg (show 0 ≤ 64 * d by linarith)]
    nlinarith [abs_nonneg b]
  obtain ⟨x1, ex1, hx1⟩ := op hA W c1 (by linarith) (by linarith)
  obtain ⟨x2, ex2, hx2⟩ := op hA W c2 (by linarith) (by linarith)
  rw [ex1, ex2, add_fin]
  have c3 : |x1 + x2| ≤ 3 * W := by
    rw [abs_le] at c1 c2 hx1 hx2 ⊢
    constructor <;> linarith
  obtain ⟨y, ey, hy⟩ := op hA (3 * W) c3 (by linarith) (by linarith)
  refine ⟨y, ey, ?_⟩
  rw [hc]
  have hTk : T * κ ≤ W * κ := mul_le_mul_of_nonneg_right hTW hk0
  have f1 : |64 * d - (64 * r - l)| ≤ κ := by
    have : 64 * d - (64 * r - l) = 64 * (d - (r - l / 64)) := by ring
    rw [this, abs_mul, abs_of_pos (by norm_num : (0 : ℚ) < 64)]
    linarith
  have f2 : |g - (1 - (64 * r - l))| ≤ 2 * κ := by
    have := abs_add_le (g - (1 - 64 * d)) (-(64 * d - (64 * r - l)))
    rw [abs_neg] at this
    rw [show g - (1 - (64 * r - l)) = g - (1 - 64 * d) + -(64 * d - (64 * r - l)) by ring]
    linarith
  have g1 : |a * (g - (1 - (64 * r - l)))| ≤ 2 * (T * κ) := by
    rw [abs_mul]
    have := mul_le_mul b1 f2 (abs_nonneg _) hT0
    linarith
  have g2 : |b * (64 * d - (64 * r - l))| ≤ T * κ := by
    rw [abs_mul]
    exact mul_le_mul b2 f1 (abs_nonneg _) hT0
  have e : y - (a * (1 - (64 * r - l)) + b * (64 * r - l)) =
      (y - (x1 + x2)) + (x1 - a * g) + (x2 - b * (64 * d)) + a * (g - (1 - (64 * r - l))) +
        b * (64 * d - (64 * r - l)) := by ring
  rw [e]
  rw [abs_le] at *
  constructor <;> linarith

/-- `WrapZeroToTwoPi` does the same as `WrapCpr`. -/
theorem wrapZeroToTwoPi_eq (x : Fl) : wrapZeroToTwoPi A x = wrapCpr A x (.fin twoPi) := rfl

theorem twoPi_bounds : (6 : ℚ) < twoPi ∧ twoPi < 7 := by unfold twoPi; constructor <;> norm_num

include hA in
theorem twoPi_rep : A.Rep twoPi := by
  have := hA.unscale (n := 13176795) (k := -21) (by norm_num) (by norm_num) (by norm_num)
  rwa [show ((13176795 : ℤ) : ℚ) * pow2 (-21) = twoPi from by decide +kernel] at this

/-- **C68, the angle.** In any arithmetic with relative error `κ` (0 without
rounding, 2^-23 for `float`): the angle reported for a filtered value `f` of the
commutation source is, up to full turns and rounding, the electrical angle of the
rotor at the position `f / cpr`, and it is in the range from 0 to 2 pi. -/
theorem C68_angle {A : Ar} {κ : ℚ} (hA : Fine A κ) {c : PosConfig} {t : ℕ → ℚ} {s T D W : ℚ}
    (hc : Calibrated A c t s T D W) {f : ℚ} (hf0 : 0 ≤ f) (hf1 : f ≤ (c.sources c.comm).cpr) :
    ∃ (θ : ℚ) (n : ℤ), angle A c (.fin f) = .fin θ ∧
      |θ - (electrical c.poles s t (f / (c.sources c.comm).cpr) + n * twoPi)| ≤ (27 * W + 64 * D) * κ ∧
      -(14 * (W * κ)) ≤ θ ∧ θ ≤ twoPi + 14 * (W * κ) := by
  have hk0 := hA.nonneg'
  have hk1 := hA.le'
  obtain ⟨tp6, tp7⟩ := twoPi_bounds
  have hW7 := hc.low
  have hW : 1 ≤ W := by linarith
  have hW' := hc.high
  have hWk : 0 ≤ W * κ := mul_nonneg (by linarith) hk0
  have hWk1 : W * κ ≤ W * (1 / 8388608) := mul_le_mul_of_nonneg_left hk1 (by linarith)
  have hT0 : 0 ≤ T := (abs_nonneg _).trans (hc.bound 0 (by norm_num))
  have hcq : (0 : ℚ) < (c.sources c.comm).cpr := by exact_mod_cast hc.cpr_pos
  have hs := hc.scale_pos
  have hp1 : (1 : ℚ) ≤ c.poles := by exact_mod_cast hc.poles_pos
  have hp2 : (c.poles : ℚ) ≤ 255 := by exact_mod_cast hc.poles_le
  have hrange := hc.range
  set P : ℚ := c.poles / 2 * twoPi with hP
  have hP0 : 3 ≤ P := by rw [hP]; nlinarith
  have hP1 : P ≤ 1000 := by rw [hP]; nlinarith
  have hPs : 0 ≤ P / s := div_nonneg (by linarith) hs.le
  have hPsW : P / s ≤ W := by linarith
  have hTW : T ≤ W := by linarith
  unfold angle
  simp only
  rw [hA.lit_nat hc.cpr_le, hc.scale]
  generalize ((c.sources c.comm).cpr : ℚ) = cpr at *
  set x := f / cpr with hx
  have hx0 : 0 ≤ x := div_nonneg hf0 hcq.le
  have hx1 : x ≤ 1 := by rw [hx, div_le_one hcq]; exact hf1
  obtain ⟨r, er, hr, hr0, hr1, rrep⟩ := unit_round hA hx0 hx1
  have e1 : A.div (.fin f) (.fin cpr) = .fin r := by
    simp only [Ar.div]
    rw [if_neg hcq.ne', er]
  rw [e1]
  -- the pole scale
  have hh : A.mul (A.lit c.poles) (.fin (1 / 2)) = .fin (c.poles / 2) := by
    rw [hA.lit_nat (by have := hc.poles_le; omega), mul_fin]
    have := (hA.unscale (n := c.poles) (k := -1) (by
      have := hc.poles_le
      rw [abs_of_nonneg (by omega)]; norm_num; omega) (by norm_num) (by norm_num)).rnd
    rw [show pow2 (-1) = 1 / 2 from by decide +kernel] at this
    rw [show (c.poles : ℚ) / 2 = ((c.poles : ℤ) : ℚ) * (1 / 2) by push_cast; ring]
    exact_mod_cast this
  obtain ⟨p, ep, hpb⟩ := op hA (x := P) P (by rw [abs_of_nonneg]; linarith) (by linarith) (by linarith)
  have hp : c.poleScale A = .fin p := by
    unfold PosConfig.poleScale
    rw [hh, mul_fin, ← hP, ep]
  rw [hp, mul_fin]
  have hPk : 0 ≤ P * κ := mul_nonneg (by linarith) hk0
  have hPk1 : P * κ ≤ P * (1 / 8388608) := mul_le_mul_of_nonneg_left hk1 (by linarith)
  rw [abs_le] at hpb
  have hp0 : 0 ≤ p := by linarith
  have hrp : |r * p| ≤ 2 * P := by
    rw [abs_of_nonneg (mul_nonneg hr0 hp0)]
    nlinarith
  obtain ⟨a, ea, ha⟩ := op hA (2 * P) hrp (by linarith) (by linarith)
  rw [ea]
  have ha2 : |a - x * P| ≤ 4 * (P * κ) := by
    have z1 : |r * (p - P)| ≤ P * κ := by
      rw [abs_mul, abs_of_nonneg hr0]
      have : |p - P| ≤ P * κ := abs_le.mpr hpb
      nlinarith [abs_nonneg (p - P)]
    have z2 : |P * (r - x)| ≤ P * κ := by
      rw [abs_mul, abs_of_nonneg (by linarith : (0 : ℚ) ≤ P)]
      exact mul_le_mul_of_nonneg_left hr (by linarith)
    rw [show a - x * P = (a - r * p) + r * (p - P) + P * (r - x) by ring]
    rw [abs_le] at *
    constructor <;> linarith
  have ha3 : |a / s - x * P / s| ≤ 4 * (W * κ) := by
    rw [← sub_div, abs_div, abs_of_pos hs, div_le_iff₀ hs]
    have : P ≤ W * s := by rwa [div_le_iff₀ hs] at hPsW
    nlinarith
  have hxP : 0 ≤ x * P / s ∧ x * P / s ≤ W := by
    have : x * P / s = x * (P / s) := by ring
    rw [this]
    exact ⟨mul_nonneg hx0 hPs, by nlinarith⟩
  have hq1 : |a / s| ≤ 2 * W := by
    rw [abs_le] at ha3 ⊢
    constructor <;> linarith
  obtain ⟨q, eq, hq⟩ := op hA (2 * W) hq1 (by linarith) (by linarith)
  have e2 : A.div (.fin a) (.fin s) = .fin q := by
    simp only [Ar.div]
    rw [if_neg hs.ne', eq]
  rw [e2]
  obtain ⟨l, el, hl⟩ := lerp_near hA hc.phase hc.rep hc.bound hTW hW hW' rrep hr0 hr1
  rw [el, add_fin]
  have hcb : |curve t r| ≤ W := by
    have hb : ∀ i : ℤ, -T ≤ knot t i ∧ knot t i ≤ T := fun i => abs_le.mp (hc.bound _ (by omega))
    have := curve_between t r (-T) T (hb _) (hb _)
    rw [abs_le]
    constructor <;> linarith
  have hy1 : |q + l| ≤ 3 * W := by
    rw [abs_le] at *
    constructor <;> linarith
  obtain ⟨y, ey, hy⟩ := op hA (3 * W) hy1 (by linarith) (by linarith)
  rw [ey, wrapZeroToTwoPi_eq]
  have hy4 : |y| ≤ 4 * W := by
    rw [abs_le] at *
    constructor <;> linarith
  obtain ⟨θ, n, eθ, h1, h2, h3⟩ := wrapCpr_near hA
    ⟨twoPi_rep hA, by linarith, by linarith, by linarith, hW'⟩ hy4
  refine ⟨θ, n, eθ, ?_, h2, h3⟩
  have hcl := curve_lipschitz hc.change r x
  have hD : 0 ≤ D := (abs_nonneg _).trans (hc.change 0 (by norm_num))
  have hcl2 : |curve t r - curve t x| ≤ 64 * D * κ :=
    hcl.trans (mul_le_mul_of_nonneg_left hr (by linarith))
  have e3 : θ - (electrical c.poles s t x + n * twoPi) =
      (θ - (y + n * twoPi)) + (y - (q + l)) + (q - a / s) + (a / s - x * P / s) + (l - curve t r) +
        (curve t r - curve t x) := by
    unfold electrical
    ring
  rw [e3]
  have e4 : (27 * W + 64 * D) * κ = 27 * (W * κ) + 64 * D * κ := by ring
  rw [e4]
  rw [abs_le] at *
  constructor <;> linarith

/-- Without rounding: the angle is the electrical angle up to full turns, and in
the range from 0 to 2 pi. -/
theorem C68_angle_exact {c : PosConfig} {t : ℕ → ℚ} {s T D W : ℚ} (hc : Calibrated .exact c t s T D W)
    {f : ℚ} (hf0 : 0 ≤ f) (hf1 : f ≤ (c.sources c.comm).cpr) :
    ∃ (θ : ℚ) (n : ℤ), angle .exact c (.fin f) = .fin θ ∧
      θ = electrical c.poles s t (f / (c.sources c.comm).cpr) + n * twoPi ∧ 0 ≤ θ ∧ θ ≤ twoPi := by
  obtain ⟨θ, n, h1, h2, h3, h4⟩ := C68_angle exact_fine hc hf0 hf1
  rw [mul_zero] at h2 h3 h4
  refine ⟨θ, n, h1, ?_, by linarith, by linarith⟩
  have := abs_nonpos_iff.mp h2
  linarith

/-- The electrical angle at positions that differ by turns of the encoder. -/
theorem electrical_turn (poles : ℕ) (s : ℚ) (t : ℕ → ℚ) (x : ℚ) (n : ℤ) :
    electrical poles s t (x + n) = electrical poles s t x + n * (poles / 2 * twoPi / s) := by
  unfold electrical
  rw [curve_turn]
  ring

/-- **C68, continuity.** Let the encoder be at the unwrapped positions `X` and
`X'` (in turns), and let the inverse of the ratio be within `ε` of an integer
`k`.  With an even number of poles the angle changes, up to full turns, by no
more than the motion allows, also where the encoder wraps around: there is no
jump at the seam but that of an inexact ratio. -/
theorem C68_continuous {A : Ar} {κ : ℚ} (hA : Fine A κ) {c : PosConfig} {t : ℕ → ℚ} {s T D W : ℚ}
    (hc : Calibrated A c t s T D W) (heven : c.poles % 2 = 0) {k : ℤ} {ε : ℚ} (hk : |1 / s - k| ≤ ε)
    {X X' θ θ' : ℚ}
    (h : angle A c (.fin ((X - ⌊X⌋) * (c.sources c.comm).cpr)) = .fin θ)
    (h' : angle A c (.fin ((X' - ⌊X'⌋) * (c.sources c.comm).cpr)) = .fin θ') :
    ∃ m : ℤ, |θ' - θ - m * twoPi| ≤ (c.poles / 2 * twoPi / s + 64 * D) * |X' - X| +
      c.poles / 2 * twoPi * ε * |(⌊X'⌋ - ⌊X⌋ : ℚ)| + 2 * ((27 * W + 64 * D) * κ) := by
  obtain ⟨tp6, -⟩ := twoPi_bounds
  have hcq : (0 : ℚ) < (c.sources c.comm).cpr := by exact_mod_cast hc.cpr_pos
  have use : ∀ {Y θ : ℚ}, angle A c (.fin ((Y - ⌊Y⌋) * (c.sources c.comm).cpr)) = .fin θ →
      ∃ n : ℤ, |θ - (electrical c.poles s t (Y - ⌊Y⌋) + n * twoPi)| ≤ (27 * W + 64 * D) * κ := by
    intro Y θ hY
    have hp := floor_parts Y
    obtain ⟨θ₁, n, h1, h2, -⟩ := C68_angle hA hc (f := (Y - ⌊Y⌋) * (c.sources c.comm).cpr)
      (mul_nonneg (by linarith) hcq.le) (by nlinarith)
    rw [hY, Fl.fin.injEq] at h1
    rw [mul_div_cancel_right₀ _ hcq.ne', ← h1] at h2
    exact ⟨n, h2⟩
  obtain ⟨n, hn⟩ := use h
  obtain ⟨n', hn'⟩ := use h'
  obtain ⟨j, hj⟩ : ∃ j, c.poles = 2 * j := ⟨c.poles / 2, by omega⟩
  have hjq : (c.poles : ℚ) / 2 = j := by rw [hj]; push_cast; ring
  have eX := electrical_turn c.poles s t (X - ⌊X⌋) ⌊X⌋
  have eX' := electrical_turn c.poles s t (X' - ⌊X'⌋) ⌊X'⌋
  rw [sub_add_cancel] at eX eX'
  have hcl := curve_lipschitz hc.change X' X
  have hs := hc.scale_pos
  have hdiff : |electrical c.poles s t X' - electrical c.poles s t X| ≤
      (c.poles / 2 * twoPi / s + 64 * D) * |X' - X| := by
    have e : electrical c.poles s t X' - electrical c.poles s t X =
        (c.poles / 2 * twoPi / s) * (X' - X) + (curve t X' - curve t X) := by
      unfold electrical; ring
    rw [e]
    refine (abs_add_le _ _).trans ?_
    rw [abs_mul, abs_of_nonneg (show 0 ≤ c.poles / 2 * twoPi / s by
      exact div_nonneg (mul_nonneg (by positivity) (by linarith)) hs.le)]
    linarith
  refine ⟨n' - n - j * k * (⌊X'⌋ - ⌊X⌋), ?_⟩
  have hseam : |c.poles / 2 * twoPi * (1 / s - k) * (⌊X'⌋ - ⌊X⌋)| ≤
      c.poles / 2 * twoPi * ε * |(⌊X'⌋ - ⌊X⌋ : ℚ)| := by
    rw [abs_mul, abs_mul, abs_of_nonneg (show 0 ≤ (c.poles : ℚ) / 2 * twoPi by
      exact mul_nonneg (by positivity) (by linarith))]
    refine mul_le_mul_of_nonneg_right (mul_le_mul_of_nonneg_left hk ?_) (abs_nonneg _)
    exact mul_nonneg (by positivity) (by linarith)
  have e : θ' - θ - ((n' - n - j * k * (⌊X'⌋ - ⌊X⌋) : ℤ) : ℚ) * twoPi =
      (θ' - (electrical c.poles s t (X' - ⌊X'⌋) + n' * twoPi)) -
      (θ - (electrical c.poles s t (X - ⌊X⌋) + n * twoPi)) +
      (electrical c.poles s t X' - electrical c.poles s t X) -
      c.poles / 2 * twoPi * (1 / s - k) * (⌊X'⌋ - ⌊X⌋) := by
    rw [eX, eX', hjq]
    push_cast
    ring
  rw [e]
  generalize electrical c.poles s t X' - electrical c.poles s t X = E at *
  generalize c.poles / 2 * twoPi * (1 / s - k) * (⌊X'⌋ - ⌊X⌋ : ℚ) = F at *
  generalize θ' - (electrical c.poles s t (X' - ⌊X'⌋) + n' * twoPi) = G at *
  generalize θ - (electrical c.poles s t (X - ⌊X⌋) + n * twoPi) = H at *
  rw [abs_le] at *
  constructor <;> linarith

/-- The hypotheses hold for 14 poles and the default configuration, in `float`. -/
example : Calibrated .single twoEncoders (fun _ => 0) 1 0 0 64 where
  cpr_pos := by decide
  cpr_le := by decide
  poles_pos := by decide
  poles_le := by decide
  scale := rfl
  scale_pos := by norm_num
  phase := fun _ _ => rfl
  rep := fun _ _ => single_fine.rep_zero
  bound := fun _ _ => by simp
  change := fun _ _ => by simp
  range := by unfold twoPi twoEncoders; norm_num
  low := by norm_num
  high := by norm_num

example : twoEncoders.poles % 2 = 0 ∧ |1 / 1 - ((1 : ℤ) : ℚ)| ≤ 0 ∧
    ∃ θ, angle .single twoEncoders (.fin ((5 / 4 - ⌊(5 / 4 : ℚ)⌋) * 16384)) = .fin θ := by
  refine ⟨rfl, by norm_num, ?_⟩
  rw [show ⌊(5 / 4 : ℚ)⌋ = 1 by rw [Int.floor_eq_iff]; norm_num]
  have : ∃ q : ℚ, angle .single twoEncoders (.fin ((5 / 4 - 1) * 16384)) = .fin q := by
    have e : (angle .single twoEncoders (.fin ((5 / 4 - 1) * 16384))).isFinite = true := by decide +kernel
    cases h : angle .single twoEncoders (.fin ((5 / 4 - 1) * 16384)) with
    | fin q => exact ⟨q, rfl⟩
    | nan => rw [h] at e; cases e
    | inf b => rw [h] at e; cases e
  simpa using this

end

end Verif.Fw
