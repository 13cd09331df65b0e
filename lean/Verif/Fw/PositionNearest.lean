import Verif.Fw.Position
import Verif.Float.Rel
import Verif.Fw.TrajBounds

/-!
# Property C39: setting the output to the nearest position

The results hold for any arithmetic whose rounding has relative error at most
`κ`; with `κ = 0` they are exact, with `κ = 2^-23` they are about `float`.
-/

namespace Verif.Fw

open Verif.Float

/-- Rounding moves a number of magnitude at most `B` by at most `B κ`. -/
structure Fine (A : Ar) (κ : ℚ) : Prop extends Ar.Law2 A where
  nonneg' : 0 ≤ κ
  le' : κ ≤ 1 / 8388608
  near : ∀ {x B : ℚ}, |x| ≤ B → 1 / 4096 ≤ B → |A.rq x - x| ≤ B * κ
  rel' : ∀ {x : ℚ}, 1 / 1099511627776 ≤ |x| → |A.rq x - x| ≤ |x| * κ

theorem exact_fine : Fine Ar.exact 0 where
  toLaw2 := Ar.exact_law2
  nonneg' := le_rfl
  le' := by norm_num
  near := fun _ _ => by simp [Ar.exact]
  rel' := fun _ => by simp [Ar.exact]

theorem Law3_fine {A : Ar} (hA : Ar.Law3 A) : Fine A (1 / 8388608) where
  toLaw2 := hA.toLaw2
  nonneg' := by norm_num
  le' := le_rfl
  near := fun {x B} h hB => by
    by_cases hx : pow2 (-100) ≤ |x|
    · have := hA.rel hx
      rw [show pow2 (-24) = 1 / 16777216 from by decide +kernel] at this
      have := abs_nonneg x
      linarith
    · have hr : A.rq (pow2 (-100)) = pow2 (-100) := by
        have := (hA.unscale (n := 1) (k := -100) (by norm_num) (by norm_num) (by norm_num)).1
        simpa using this
      have h1 := (not_le.mp hx).le
      rw [abs_le] at h1
      have u := hA.mono h1.2
      have l := hA.mono h1.1
      rw [hA.odd] at l
      rw [hr] at u l
      have ht : pow2 (-100) ≤ 1 / 1125899906842624 := by decide +kernel
      rw [abs_le]
      constructor <;> linarith

  rel' := fun {x} hx => by
    have h1 : pow2 (-100) ≤ 1 / 1099511627776 := by decide +kernel
    have := hA.rel (h1.trans hx)
    rw [show pow2 (-24) = 1 / 16777216 from by decide +kernel] at this
    have := abs_nonneg x
    linarith

theorem single_fine : Fine Ar.single (1 / 8388608) := Law3_fine Ar.single_law3

theorem add_fin (A : Ar) (a b : ℚ) : A.add (.fin a) (.fin b) = A.rnd (a + b) := rfl
theorem mul_fin (A : Ar) (a b : ℚ) : A.mul (.fin a) (.fin b) = A.rnd (a * b) := rfl
theorem sub_fin (A : Ar) (a b : ℚ) : A.sub (.fin a) (.fin b) = A.rnd (a - b) := by
  rw [sub_eq_add_neg]; rfl

section

variable {A : Ar} {κ : ℚ} (hA : Fine A κ)

include hA in
theorem op {x : ℚ} (B : ℚ) (h : |x| ≤ B) (hB : 1 / 4096 ≤ B) (hB' : B ≤ 1152921504606846976) :
    ∃ y, A.rnd x = .fin y ∧ |y - x| ≤ B * κ :=
  ⟨_, hA.rnd_fin (h.trans (hB'.trans (by decide +kernel))), hA.near h hB⟩

/-- The magnitudes considered: the scale `s` is at least 1/4096, everything is
at most a multiple of `W`, which is at most 2^19 times the scale. -/
structure Sized (A : Ar) (s W : ℚ) : Prop where
  rep : A.Rep s
  low : 1 / 4096 ≤ s
  le : s ≤ W
  ratio : W ≤ 524288 * s
  high : W ≤ 16384

theorem scale_div {s W m : ℚ} (hs : 0 < s) (h : W ≤ 524288 * s) (hm : 0 ≤ m) : m * W / s ≤ m * 524288 := by
  rw [div_le_iff₀ hs]
  nlinarith

include hA in
/-- A quotient by the scale. -/
theorem quot {s W d : ℚ} (hs : Sized A s W) (m : ℚ) (hm1 : 1 ≤ m) (hm : m ≤ 8) (hd : |d| ≤ m * W) :
    ∃ q, A.div (.fin d) (.fin s) = .fin q ∧ |q * s - d| ≤ m * W * κ ∧ |q| ≤ 8388608 := by
  have hp : 0 < s := lt_of_lt_of_le (by norm_num) hs.low
  have h0 := hA.nonneg'
  have h1 := hA.le'
  have hb : |d / s| ≤ m * W / s := by
    rw [abs_div, abs_of_pos hp]
    exact div_le_div_of_nonneg_right hd hp.le
  have hlow : 1 / 4096 ≤ m * W / s := by
    rw [le_div_iff₀ hp]
    nlinarith [hs.le]
  have hup := scale_div hp hs.ratio (show 0 ≤ m by linarith)
  obtain ⟨q, e, hq⟩ := op hA (m * W / s) hb hlow (by linarith)
  refine ⟨q, ?_, ?_, ?_⟩
  · simp only [Ar.div]
    rw [if_neg hp.ne', e]
  · have : q * s - d = (q - d / s) * s := by field_simp
    rw [this, abs_mul, abs_of_pos hp]
    calc |q - d / s| * s ≤ m * W / s * κ * s := mul_le_mul_of_nonneg_right hq hp.le
      _ = m * W * κ := by field_simp
  · have h2 : |q| ≤ |q - d / s| + |d / s| := by
      have := abs_add_le (q - d / s) (d / s)
      rwa [sub_add_cancel] at this
    have h3 : m * W / s * κ ≤ m * W / s * (1 / 8388608) :=
      mul_le_mul_of_nonneg_left h1 (by linarith)
    have h4 : m * W / s ≤ 4194304 := hup.trans (by linarith)
    linarith

theorem toI32_small {q : ℚ} (h : |q| ≤ 8388608) : toI32 (.fin q) = truncQ q ∧ |truncQ q| ≤ 2 ^ 24 := by
  have h1 := (truncQ_spec q).1
  have h2 : |(truncQ q : ℚ)| ≤ 8388609 := by
    have := abs_add_le ((truncQ q : ℚ) - q) q
    rw [sub_add_cancel] at this
    linarith
  have h3 : |truncQ q| ≤ 8388609 := by exact_mod_cast h2
  rw [abs_le] at h3
  simp only [toI32]
  constructor
  · omega
  · rw [abs_le]; constructor <;> norm_num <;> omega

include hA in
/-- `WrapCpr` finds the rest of the division. -/
theorem wrapCpr_near {s W y : ℚ} (hs : Sized A s W) (hy : |y| ≤ 4 * W) :
    ∃ (r : ℚ) (n : ℤ), wrapCpr A (.fin y) (.fin s) = .fin r ∧ |r - (y + n * s)| ≤ 10 * (W * κ) ∧
      -(14 * (W * κ)) ≤ r ∧ r ≤ s + 14 * (W * κ) := by
  have hp : 0 < s := lt_of_lt_of_le (by norm_num) hs.low
  have hW : 1 / 4096 ≤ W := hs.low.trans hs.le
  have hsW := hs.le
  have hWh := hs.high
  have hk0 := hA.nonneg'
  have hk1 : W * κ ≤ W * (1 / 8388608) := mul_le_mul_of_nonneg_left hA.le' (by linarith)
  have hk2 : 0 ≤ W * κ := mul_nonneg (by linarith) hk0
  obtain ⟨q, eq, hq, hqb⟩ := quot hA hs 4 (by norm_num) (by norm_num) hy
  obtain ⟨t1, t2⟩ := toI32_small hqb
  have tr := (truncQ_spec q).1
  generalize truncQ q = D at t1 t2 tr
  have trs : |D * s - q * s| ≤ s := by
    rw [← sub_mul, abs_mul, abs_of_pos hp]
    nlinarith
  rw [abs_le] at trs hq hy
  obtain ⟨p, ep, hpb⟩ := op hA (x := D * s) (6 * W) (by rw [abs_le]; constructor <;> linarith)
    (by linarith) (by linarith)
  rw [abs_le] at hpb
  obtain ⟨m, em, hm⟩ := op hA (x := y - p) (2 * W) (by rw [abs_le]; constructor <;> linarith)
    (by linarith) (by linarith)
  rw [abs_le] at hm
  have e0 : wrapCpr A (.fin y) (.fin s) = if 0 ≤ m then .fin m else A.rnd (m + s) := by
    unfold wrapCpr
    rw [eq, t1]
    simp only [hA.lit_int t2, mul_fin, ep, sub_fin, em, add_fin, Fl.ble_fin, decide_eq_true_eq]
  rw [e0]
  by_cases h0 : 0 ≤ m
  · rw [if_pos h0]
    refine ⟨m, -D, rfl, ?_, by linarith, by linarith⟩
    push_cast
    rw [abs_le]
    constructor <;> linarith
  · rw [if_neg h0]
    have h0' := not_le.mp h0
    obtain ⟨r, er, hr⟩ := op hA (x := m + s) (2 * W) (by rw [abs_le]; constructor <;> linarith)
      (by linarith) (by linarith)
    rw [abs_le] at hr
    refine ⟨r, 1 - D, er, ?_, by linarith, by linarith⟩
    push_cast
    rw [abs_le]
    constructor <;> linarith

include hA in
theorem lit_half : A.lit (1 / 2) = .fin (1 / 2) := by
  have := (hA.unscale (n := 1) (k := -1) (by norm_num) (by norm_num) (by norm_num)).rnd
  rw [show ((1 : ℤ) : ℚ) * pow2 (-1) = 1 / 2 from by decide +kernel] at this
  exact this

include hA in
theorem lit_threeHalves : A.lit (3 / 2) = .fin (3 / 2) := by
  have := (hA.unscale (n := 3) (k := -1) (by norm_num) (by norm_num) (by norm_num)).rnd
  rw [show ((3 : ℤ) : ℚ) * pow2 (-1) = 3 / 2 from by decide +kernel] at this
  exact this

include hA in
theorem wrapBalanced_near {s W x : ℚ} (hs : Sized A s W) (hx : |x| ≤ 9 / 4 * W) :
    ∃ (r : ℚ) (n : ℤ), wrapBalancedCpr A (.fin x) (.fin s) = .fin r ∧ |r - (x + n * s)| ≤ 19 * (W * κ) ∧
      |r| ≤ s / 2 + 17 * (W * κ) := by
  have hp : 0 < s := lt_of_lt_of_le (by norm_num) hs.low
  have hW : 1 / 4096 ≤ W := hs.low.trans hs.le
  have hsW := hs.le
  have hWh := hs.high
  have hk1 : W * κ ≤ W * (1 / 8388608) := mul_le_mul_of_nonneg_left hA.le' (by linarith)
  have hk2 : 0 ≤ W * κ := mul_nonneg (by linarith) hA.nonneg'
  rw [abs_le] at hx
  obtain ⟨h, eh, hh⟩ := op hA (x := 3 / 2 * s) (2 * W) (by rw [abs_of_pos (by linarith)]; linarith)
    (by linarith) (by linarith)
  rw [abs_le] at hh
  obtain ⟨y, ey, hy⟩ := op hA (x := x + h) (4 * W) (by rw [abs_le]; constructor <;> linarith)
    (by linarith) (by linarith)
  rw [abs_le] at hy
  obtain ⟨r, n, er, h1, h2, h3⟩ := wrapCpr_near hA hs (y := y) (by rw [abs_le]; constructor <;> linarith)
  rw [abs_le] at h1
  obtain ⟨g, eg, hg⟩ := op hA (x := 1 / 2 * s) W (by rw [abs_of_pos (by linarith)]; linarith)
    (by linarith) (by linarith)
  rw [abs_le] at hg
  obtain ⟨o, eo, ho⟩ := op hA (x := r - g) (2 * W) (by rw [abs_le]; constructor <;> linarith)
    (by linarith) (by linarith)
  rw [abs_le] at ho
  refine ⟨o, n + 1, ?_, ?_, ?_⟩
  · unfold wrapBalancedCpr
    rw [lit_half hA, lit_threeHalves hA]
    simp only [Ar.mul]
    rw [eh, eg]
    simp only [Ar.add, Ar.sub]
    rw [ey, er]
    simp only [Fl.neg]
    rw [← sub_eq_add_neg, eo]
  · push_cast
    rw [abs_le]
    constructor <;> linarith
  · rw [abs_le]
    constructor <;> linarith

/-! ## Specification -/

/-- The measured output angle of a source that reads `f` of `cpr` counts, in
output turns: it is known up to a multiple of the scale. -/
def measured (c : OutputConfig) (cpr : ℕ) (s f offset : ℚ) : ℚ := (f / cpr * s + offset) * c.sign

include hA in
theorem measure_near {s W f offset : ℚ} (c : OutputConfig) {cpr : ℕ} (hcpr : 0 < cpr) (hcpr' : cpr ≤ 2 ^ 24)
    (hs : Sized A s W) (hf0 : 0 ≤ f) (hf1 : f ≤ cpr) (ho : |offset| ≤ W) :
    ∃ (r : ℚ) (n : ℤ), wrapBalancedCpr A (A.mul (A.add (A.mul (A.div (.fin f) (A.lit cpr)) (.fin s))
        (.fin offset)) (.fin c.sign)) (.fin s) = .fin r ∧
      |r - (measured c cpr s f offset + n * s)| ≤ 28 * (W * κ) ∧ |r| ≤ s / 2 + 17 * (W * κ) := by
  have hp : 0 < s := lt_of_lt_of_le (by norm_num) hs.low
  have hW : 1 / 4096 ≤ W := hs.low.trans hs.le
  have hsW := hs.le
  have hWh := hs.high
  have hk1 : W * κ ≤ W * (1 / 8388608) := mul_le_mul_of_nonneg_left hA.le' (by linarith)
  have hk2 : 0 ≤ W * κ := mul_nonneg (by linarith) hA.nonneg'
  have hC : (0 : ℚ) < cpr := by exact_mod_cast hcpr
  have g0 : 0 ≤ f / cpr := div_nonneg hf0 hC.le
  have g1 : f / cpr ≤ 1 := by rwa [div_le_one hC]
  rw [abs_le] at ho
  obtain ⟨g, eg, hg⟩ := op hA (x := f / cpr) 1 (by rw [abs_of_nonneg g0]; exact g1) (by norm_num) (by norm_num)
  have hgs : |g * s - f / cpr * s| ≤ W * κ := by
    rw [← sub_mul, abs_mul, abs_of_pos hp]
    have : |g - f / cpr| * s ≤ (1 * κ) * s := mul_le_mul_of_nonneg_right hg hp.le
    have : κ * s ≤ κ * W := mul_le_mul_of_nonneg_left hsW hA.nonneg'
    linarith
  have q0 : 0 ≤ f / cpr * s := mul_nonneg g0 hp.le
  have q1 : f / cpr * s ≤ s := by nlinarith
  rw [abs_le] at hgs
  obtain ⟨h, eh, hh⟩ := op hA (x := g * s) (2 * W) (by rw [abs_le]; constructor <;> linarith)
    (by linarith) (by linarith)
  rw [abs_le] at hh
  obtain ⟨i, ei, hi⟩ := op hA (x := h + offset) (3 * W) (by rw [abs_le]; constructor <;> linarith)
    (by linarith) (by linarith)
  have hsign : c.sign = 1 ∨ c.sign = -1 := by
    unfold OutputConfig.sign; split <;> simp
  rw [abs_le] at hi
  obtain ⟨j, ej, hj⟩ := op hA (x := i * c.sign) (3 * W) (by
    rcases hsign with h | h <;> rw [h, abs_le] <;> constructor <;> linarith) (by linarith) (by linarith)
  rw [abs_le] at hj
  have hjm : |j - measured c cpr s f offset| ≤ 9 * (W * κ) := by
    unfold measured
    rcases hsign with h | h <;> rw [h] at hj ⊢ <;> rw [abs_le] <;> constructor <;> linarith
  have hjb : |j| ≤ 9 / 4 * W := by
    rcases hsign with h | h <;> rw [h] at hj <;> rw [abs_le] <;> constructor <;> linarith
  obtain ⟨r, n, er, h1, h2⟩ := wrapBalanced_near hA hs hjb
  refine ⟨r, n, ?_, ?_, h2⟩
  · rw [hA.lit_nat hcpr']
    simp only [Ar.div]
    rw [if_neg hC.ne', eg]
    simp only [Ar.mul]
    rw [eh]
    simp only [Ar.add]
    rw [ei]
    simp only [ej, er]
  · rw [abs_le] at h1 hjm ⊢
    constructor <;> linarith

theorem roundAway_near (q : ℚ) : |(roundAway q : ℚ) - q| ≤ 1 / 2 := by
  unfold roundAway
  split
  · have h1 := floor_le' (q + 1 / 2)
    have h2 := lt_floor_succ' (q + 1 / 2)
    rw [abs_le]; constructor <;> linarith
  · have h1 := floor_le' (-q + 1 / 2)
    have h2 := lt_floor_succ' (-q + 1 / 2)
    push_cast
    rw [abs_le]; constructor <;> linarith

theorem small_int {q : ℚ} {n : ℤ} (h : |q| ≤ 8388608) (hn : |(n : ℚ) - q| ≤ 1) : |n| ≤ 2 ^ 24 := by
  have := abs_add_le ((n : ℚ) - q) q
  rw [sub_add_cancel] at this
  have h1 : |(n : ℚ)| ≤ 8388609 := by linarith
  have h2 : |n| ≤ 8388609 := by exact_mod_cast h1
  exact h2.trans (by norm_num)

include hA in
theorem nearestPlain_near {s W v out : ℚ} (hs : Sized A s W) (hv : |v| ≤ W)
    (hout : |out| ≤ s / 2 + 17 * (W * κ)) :
    ∃ (f : ℚ) (n : ℤ), nearestPlain A (.fin s) (.fin v) (.fin out) = .fin f ∧
      |f - (out + n * s)| ≤ 5 * (W * κ) ∧ |out + n * s - v| ≤ s / 2 + 5 * (W * κ) := by
  have hp : 0 < s := lt_of_lt_of_le (by norm_num) hs.low
  have hW : 1 / 4096 ≤ W := hs.low.trans hs.le
  have hsW := hs.le
  have hWh := hs.high
  have hk1 : W * κ ≤ W * (1 / 8388608) := mul_le_mul_of_nonneg_left hA.le' (by linarith)
  have hk2 : 0 ≤ W * κ := mul_nonneg (by linarith) hA.nonneg'
  rw [abs_le] at hv hout
  obtain ⟨d, ed, hd⟩ := op hA (x := v - out) (2 * W) (by rw [abs_le]; constructor <;> linarith)
    (by linarith) (by linarith)
  rw [abs_le] at hd
  obtain ⟨q, eq, hq, hqb⟩ := quot hA hs (d := d) 3 (by norm_num) (by norm_num)
    (by rw [abs_le]; constructor <;> linarith)
  have hR := roundAway_near q
  have hlit := hA.lit_int (small_int hqb (hR.trans (by norm_num)))
  generalize hRd : roundAway q = R at hR hlit
  have hRs : |R * s - q * s| ≤ s / 2 := by
    rw [← sub_mul, abs_mul, abs_of_pos hp]
    nlinarith
  rw [abs_le] at hRs hq
  obtain ⟨p, ep, hpp⟩ := op hA (x := R * s) (3 * W) (by rw [abs_le]; constructor <;> linarith)
    (by linarith) (by linarith)
  rw [abs_le] at hpp
  obtain ⟨f, ef, hf⟩ := op hA (x := out + p) (2 * W) (by rw [abs_le]; constructor <;> linarith)
    (by linarith) (by linarith)
  rw [abs_le] at hf
  refine ⟨f, R, ?_, ?_, ?_⟩
  · unfold nearestPlain
    simp only [Ar.sub, Fl.neg, Ar.add]
    rw [← sub_eq_add_neg, ed, eq]
    simp only [flRound]
    rw [hRd, hlit]
    simp only [Ar.mul]
    rw [ep]
    exact ef
  · rw [abs_le]; constructor <;> linarith
  · rw [abs_le]; constructor <;> linarith

include hA in
theorem nearestReduced_near {s W out rv : ℚ} (hs : Sized A s W) (hs1 : s < 1) (hW1 : 1 ≤ W)
    (hout : |out| ≤ s / 2 + 17 * (W * κ)) (hrv : |rv| ≤ 1 / 2 + 17 * (W * κ)) :
    ∃ n : ℤ, |out + n * s - rv| ≤ s / 2 + 38 * (W * κ) ∧
      ∀ v : ℚ, |v| ≤ W → ∃ (f : ℚ) (m : ℤ),
        nearestReduced A (.fin s) (.fin v) (.fin out) (.fin rv) = .fin f ∧
        |f - (out + n * s + m)| ≤ 10 * (W * κ) ∧ |out + n * s + m - v| ≤ 1 / 2 + 10 * (W * κ) := by
  have hp : 0 < s := lt_of_lt_of_le (by norm_num) hs.low
  have hsW := hs.le
  have hWh := hs.high
  have hk1 : W * κ ≤ W * (1 / 8388608) := mul_le_mul_of_nonneg_left hA.le' (by linarith)
  have hk2 : 0 ≤ W * κ := mul_nonneg (by linarith) hA.nonneg'
  rw [abs_le] at hout hrv
  obtain ⟨q, eq, hq, hqb⟩ := quot hA hs (d := rv) 1 (by norm_num) (by norm_num)
    (by rw [abs_le]; constructor <;> linarith)
  have l1 := floor_le' q
  have l2 := lt_floor_succ' q
  have hL := small_int (n := q.floor) hqb (by rw [abs_le]; constructor <;> linarith)
  have hU := small_int (n := q.floor + 1) hqb (by push_cast; rw [abs_le]; constructor <;> linarith)
  generalize hLd : q.floor = L at l1 l2 hL hU
  have ls1 : L * s ≤ q * s := mul_le_mul_of_nonneg_right l1 hp.le
  have ls2 : q * s ≤ (L + 1) * s := mul_le_mul_of_nonneg_right l2.le hp.le
  rw [abs_le] at hq
  obtain ⟨a, ea, ha⟩ := op hA (x := L * s) (2 * W) (by rw [abs_le]; constructor <;> linarith)
    (by linarith) (by linarith)
  rw [abs_le] at ha
  obtain ⟨lv, elv, hlv⟩ := op hA (x := a + out) (3 * W) (by rw [abs_le]; constructor <;> linarith)
    (by linarith) (by linarith)
  rw [abs_le] at hlv
  obtain ⟨b, eb, hb⟩ := op hA (x := ((L + 1 : ℤ) : ℚ) * s) (2 * W)
    (by push_cast; rw [abs_le]; constructor <;> linarith) (by linarith) (by linarith)
  push_cast at hb
  rw [abs_le] at hb
  obtain ⟨uv, euv, huv⟩ := op hA (x := b + out) (3 * W) (by rw [abs_le]; constructor <;> linarith)
    (by linarith) (by linarith)
  rw [abs_le] at huv
  obtain ⟨dl, edl, hdl⟩ := op hA (x := lv - rv) (4 * W) (by rw [abs_le]; constructor <;> linarith)
    (by linarith) (by linarith)
  obtain ⟨du, edu, hdu⟩ := op hA (x := uv - rv) (4 * W) (by rw [abs_le]; constructor <;> linarith)
    (by linarith) (by linarith)
  have e1 : A.lit (1 : ℚ) = .fin 1 := by
    have := hA.lit_nat (n := 1) (by norm_num)
    simpa using this
  have e2 : A.rnd ((L : ℚ) + 1) = .fin ((L + 1 : ℤ) : ℚ) := by
    have := (hA.rep_int hU).rnd
    push_cast at this ⊢
    exact this
  -- the candidate chosen
  obtain ⟨fst, n, hfst, hn, hclose⟩ : ∃ (fst : ℚ) (n : ℤ),
      (if |dl| < |du| then lv else uv) = fst ∧ |fst - (out + n * s)| ≤ 5 * (W * κ) ∧
        |out + n * s - rv| ≤ s / 2 + 38 * (W * κ) := by
    have tl : |(|dl| - |lv - rv|)| ≤ 4 * W * κ := (abs_abs_sub_abs_le dl (lv - rv)).trans hdl
    have tu : |(|du| - |uv - rv|)| ≤ 4 * W * κ := (abs_abs_sub_abs_le du (uv - rv)).trans hdu
    rw [abs_le] at tl tu
    by_cases hc : |dl| < |du|
    · rw [if_pos hc]
      refine ⟨lv, L, rfl, by rw [abs_le]; constructor <;> linarith, ?_⟩
      have k1 : |lv - rv| ≤ |uv - rv| + 8 * (W * κ) := by linarith
      rcases abs_cases (lv - rv) with ⟨c1, c2⟩ | ⟨c1, c2⟩ <;> rcases abs_cases (uv - rv) with ⟨d1, d2⟩ | ⟨d1, d2⟩ <;>
        rw [abs_le] <;> constructor <;> linarith
    · rw [if_neg hc]
      refine ⟨uv, L + 1, rfl, by push_cast; rw [abs_le]; constructor <;> linarith, ?_⟩
      have k1 : |uv - rv| ≤ |lv - rv| + 8 * (W * κ) := by linarith [not_lt.mp hc]
      push_cast
      rcases abs_cases (lv - rv) with ⟨c1, c2⟩ | ⟨c1, c2⟩ <;> rcases abs_cases (uv - rv) with ⟨d1, d2⟩ | ⟨d1, d2⟩ <;>
        rw [abs_le] <;> constructor <;> linarith
  have hn' := abs_le.mp hn
  have hclose' := abs_le.mp hclose
  refine ⟨n, hclose, fun v hv => ?_⟩
  rw [abs_le] at hv
  obtain ⟨w, ew, hw⟩ := op hA (x := v - fst) (4 * W) (by rw [abs_le]; constructor <;> linarith)
    (by linarith) (by linarith)
  rw [abs_le] at hw
  have hR := roundAway_near w
  have hlit := hA.lit_int (small_int (q := w) (by rw [abs_le]; constructor <;> linarith) (hR.trans (by norm_num)))
  generalize hRd : roundAway w = R at hR hlit
  rw [abs_le] at hR
  obtain ⟨f, ef, hf⟩ := op hA (x := fst + R) (2 * W) (by rw [abs_le]; constructor <;> linarith)
    (by linarith) (by linarith)
  rw [abs_le] at hf
  refine ⟨f, R, ?_, by rw [abs_le]; constructor <;> linarith, by rw [abs_le]; constructor <;> linarith⟩
  unfold nearestReduced
  rw [eq, e1]
  simp only [flFloor, hLd, hA.lit_int hL, add_fin, e2, mul_fin, ea, eb, elv, euv, sub_fin, edl, edu,
    Fl.abs, Fl.blt_fin, decide_eq_true_eq]
  rw [show (if |dl| < |du| then Fl.fin lv else Fl.fin uv) = Fl.fin fst by rw [← hfst]; split <;> rfl]
  simp only [sub_fin, ew, flRound, hRd, hlit, add_fin, ef]

include hA in
/-- What is kept of a position: 16 bits of the fraction, rounded towards zero;
and what is reported. -/
theorem kept_near {W f : ℚ} (hW : 1 / 4096 ≤ W) (hW' : W ≤ 16384) (hf : |f| ≤ 7 / 4 * W) :
    |((floatToInt A (.fin f) : ℤ) : ℚ) / 2 ^ 48 - f| ≤ 1 / 65536 + 2 * (W * κ) ∧
    ∃ p, intToFloat A (floatToInt A (.fin f)) = .fin p ∧ |p - f| ≤ 1 / 65536 + 8 * (W * κ) := by
  have hk1 : W * κ ≤ W * (1 / 8388608) := mul_le_mul_of_nonneg_left hA.le' (by linarith)
  have hk2 : 0 ≤ W * κ := mul_nonneg (by linarith) hA.nonneg'
  have e1 : A.lit (65536 : ℚ) = .fin 65536 := by
    have := hA.lit_nat (n := 65536) (by norm_num)
    simpa using this
  rw [abs_le] at hf
  obtain ⟨g, eg, hg⟩ := op hA (x := 65536 * f) (131072 * W) (by rw [abs_le]; constructor <;> linarith)
    (by linarith) (by linarith)
  have ht := (truncQ_spec g).1
  rw [abs_le] at hg
  rw [abs_lt] at ht
  have b1 : (truncQ g : ℚ) ≤ 2147483647 := by linarith
  have b2 : (-2147483648 : ℚ) ≤ truncQ g := by linarith
  have b1' : truncQ g ≤ 2147483647 := by exact_mod_cast b1
  have b2' : -2147483648 ≤ truncQ g := by exact_mod_cast b2
  have e2 : floatToInt A (.fin f) = 4294967296 * truncQ g := by
    unfold floatToInt
    rw [e1]
    simp only [Ar.mul]
    rw [eg]
    simp only [toI32]
    rw [min_eq_right b1', max_eq_right b2']
  rw [e2]
  constructor
  · push_cast
    rw [abs_le]
    constructor <;> linarith
  · have e3 : wrapI32 (4294967296 * truncQ g / 4294967296) = truncQ g := by
      unfold wrapI32; omega
    have hW2 : 1 ≤ 131072 * W := by linarith
    obtain ⟨l, el, hl⟩ := op hA (x := (truncQ g : ℚ)) (131072 * W + 1)
      (by rw [abs_le]; constructor <;> linarith) (by linarith) (by linarith)
    rw [abs_le] at hl
    have hk : κ ≤ 131072 * W * κ := by
      have := mul_le_mul_of_nonneg_right hW2 hA.nonneg'
      linarith
    obtain ⟨p, ep, hp⟩ := op hA (x := l / 65536) (2 * W)
      (by rw [abs_le]; constructor <;> linarith) (by linarith) (by linarith)
    rw [abs_le] at hp
    refine ⟨p, ?_, by rw [abs_le]; constructor <;> linarith⟩
    unfold intToFloat
    rw [e3, e1]
    simp only [Ar.lit] at el ⊢
    rw [el]
    simp only [Ar.div]
    rw [if_neg (by norm_num), ep]

end

/-- Among points spaced by `s`, one within half a space plus `e` is the nearest
up to `2 e`. -/
theorem nearest_of_half {x v s e : ℚ} (hs : 0 < s) (h : |x - v| ≤ s / 2 + e) (he : 0 ≤ e) (j : ℤ) :
    |x - v| ≤ |x + j * s - v| + 2 * e := by
  by_cases hj : j = 0
  · subst hj; simp; linarith
  · have h1 : s ≤ |(j : ℚ) * s| := by
      rw [abs_mul, abs_of_pos hs]
      have : (1 : ℚ) ≤ |(j : ℚ)| := by exact_mod_cast Int.one_le_abs hj
      nlinarith
    have h2 : |(j : ℚ) * s| ≤ |x + j * s - v| + |x - v| := by
      have := abs_sub (x + j * s - v) (x - v)
      rwa [show x + j * s - v - (x - v) = j * s by ring] at this
    linarith

/-! ## The requests -/

/-- A configuration, a reading and the sizes of the numbers in them. -/
structure Readable (A : Ar) (c : OutputConfig) (src : SourceStatus) (s W f offset : ℚ) : Prop where
  cpr_pos : 0 < c.cpr
  cpr_le : c.cpr ≤ 2 ^ 24
  scale : c.scale = .fin s
  sized : Sized A s W
  offset_eq : c.offset = .fin offset
  offset_le : |offset| ≤ W
  reading : src.filtered = .fin f
  nonneg : 0 ≤ f
  le : f ≤ c.cpr

/-- C39, no reference in use: the new position is the measured angle plus a
multiple of the scale, and no other such position is nearer to the request.
With exact arithmetic (`κ = 0`) the only error left is the resolution of
2^-16 turns. -/
theorem C39_nearest_partial {A : Ar} {κ : ℚ} (hA : Fine A κ) (c : OutputConfig) (src ref : SourceStatus)
    (o : OutputStatus) {s W f offset : ℚ} (hc : Readable A c src s W f offset)
    (habs : src.activeAbsolute = true) (href : c.reference = none ∨ ref.activeAbsolute = false ∨ 1 ≤ s)
    (v : ℚ) (hv : |v| ≤ W) :
    ∃ n : ℤ,
      (∀ m : ℤ, |measured c c.cpr s f offset + n * s - v| ≤
        |measured c c.cpr s f offset + m * s - v| + 66 * (W * κ)) ∧
      |((setNearest A c src ref (.fin v) o).raw : ℚ) / 2 ^ 48 - (measured c c.cpr s f offset + n * s)| ≤
        1 / 65536 + 35 * (W * κ) ∧
      (∃ p, (setNearest A c src ref (.fin v) o).position = .fin p ∧
        |p - (measured c c.cpr s f offset + n * s)| ≤ 1 / 65536 + 41 * (W * κ)) ∧
      (setNearest A c src ref (.fin v) o).homed = .output ∧
      (setNearest A c src ref (.fin v) o).relativeRaw = o.relativeRaw := by
  have hs := hc.sized
  have hp : 0 < s := lt_of_lt_of_le (by norm_num) hs.low
  have hW : 1 / 4096 ≤ W := hs.low.trans hs.le
  have hsW := hs.le
  have hk1 : W * κ ≤ W * (1 / 8388608) := mul_le_mul_of_nonneg_left hA.le' (by linarith)
  have hk2 : 0 ≤ W * κ := mul_nonneg (by linarith) hA.nonneg'
  obtain ⟨out, n, eo, h1, h2⟩ := measure_near hA c hc.cpr_pos hc.cpr_le hs hc.nonneg hc.le hc.offset_le
  obtain ⟨g, j, eg, g1, g2⟩ := nearestPlain_near hA hs hv h2
  rw [abs_le] at h1 g1 g2 hv
  have hgb : |g| ≤ 7 / 4 * W := by rw [abs_le]; constructor <;> linarith
  obtain ⟨k1, p, ep, k2⟩ := kept_near hA hW hs.high hgb
  have hraw : setNearest A c src ref (.fin v) o =
      { o with raw := floatToInt A (.fin g), position := intToFloat A (floatToInt A (.fin g)), homed := .output } := by
    have hout : outputValue A c src = .fin out := by
      unfold outputValue
      rw [hc.reading, hc.scale, hc.offset_eq]
      exact eo
    unfold setNearest
    rw [if_neg (by simp [habs])]
    unfold setNearestHelper
    rw [hout, hc.scale]
    cases hr : c.reference with
    | none => simp only [eg]
    | some cpr =>
      have hcond : ¬ (src.activeAbsolute = true ∧ ref.activeAbsolute = true ∧
          Fl.blt (.fin s) (A.lit 1) = true) := by
        rintro ⟨_, r1, r2⟩
        have e1 : A.lit (1 : ℚ) = .fin 1 := by
          have := hA.lit_nat (n := 1) (by norm_num)
          simpa using this
        rw [e1, Fl.blt_fin, decide_eq_true_eq] at r2
        rcases href with h | h | h
        · rw [hr] at h; cases h
        · rw [h] at r1; cases r1
        · linarith
      dsimp only
      rw [if_neg hcond, if_neg (by simp [habs]), eg]
  rw [hraw]
  rw [abs_le] at k1 k2
  refine ⟨n + j, ?_, ?_, ⟨p, ep, ?_⟩, rfl, rfl⟩
  · intro m
    have hh := nearest_of_half (x := measured c c.cpr s f offset + ((n + j : ℤ) : ℚ) * s) (v := v) (s := s)
      (e := 33 * (W * κ)) hp (by push_cast; rw [abs_le]; constructor <;> linarith) (by linarith) (m - (n + j))
    refine hh.trans (le_of_eq ?_)
    push_cast
    congr 1
    · congr 1; ring
    · ring
  · push_cast
    rw [abs_le]
    constructor <;> linarith
  · push_cast
    rw [abs_le]
    constructor <;> linarith

/-- C39 with a reduction and an absolute reference on the output: among the
positions compatible with the output source, one nearest to the reference is
taken (`n`, which does not depend on the request), and then the nearest to the
request that differs by whole output turns. -/
theorem C39_reference_partial {A : Ar} {κ : ℚ} (hA : Fine A κ) (c : OutputConfig) (src ref : SourceStatus)
    (o : OutputStatus) {s W f offset g : ℚ} (hc : Readable A c src s W f offset) (hs1 : s < 1) (hW1 : 1 ≤ W)
    {cpr : ℕ} (href : c.reference = some cpr) (hcpr : 0 < cpr) (hcpr' : cpr ≤ 2 ^ 24)
    (hg : ref.filtered = .fin g) (hg0 : 0 ≤ g) (hg1 : g ≤ cpr)
    (habs : src.activeAbsolute = true) (habsr : ref.activeAbsolute = true) :
    ∃ n k : ℤ,
      (∀ m : ℤ, |measured c c.cpr s f offset + n * s - (measured c cpr 1 g offset + k)| ≤
        |measured c c.cpr s f offset + m * s - (measured c cpr 1 g offset + k)| + 188 * (W * κ)) ∧
      |measured c cpr 1 g offset + k| ≤ 1 / 2 + 45 * (W * κ) ∧
      ∀ v : ℚ, |v| ≤ W → ∃ m : ℤ,
        (∀ m' : ℤ, |measured c c.cpr s f offset + n * s + m - v| ≤
          |measured c c.cpr s f offset + n * s + m' - v| + 76 * (W * κ)) ∧
        |((setNearest A c src ref (.fin v) o).raw : ℚ) / 2 ^ 48 -
          (measured c c.cpr s f offset + n * s + m)| ≤ 1 / 65536 + 40 * (W * κ) ∧
        (∃ p, (setNearest A c src ref (.fin v) o).position = .fin p ∧
          |p - (measured c c.cpr s f offset + n * s + m)| ≤ 1 / 65536 + 46 * (W * κ)) ∧
        (setNearest A c src ref (.fin v) o).homed = .output := by
  have hs := hc.sized
  have hp : 0 < s := lt_of_lt_of_le (by norm_num) hs.low
  have hsW := hs.le
  have hWh := hs.high
  have hk1 : W * κ ≤ W * (1 / 8388608) := mul_le_mul_of_nonneg_left hA.le' (by linarith)
  have hk2 : 0 ≤ W * κ := mul_nonneg (by linarith) hA.nonneg'
  have rep1 : A.Rep 1 := by
    have := hA.rep_int (n := 1) (by norm_num)
    simpa using this
  have hsz1 : Sized A 1 W := ⟨rep1, by norm_num, hW1, by linarith, hWh⟩
  have e1 : A.lit (1 : ℚ) = .fin 1 := rep1.rnd
  obtain ⟨out, n, eo, h1, h2⟩ := measure_near hA c hc.cpr_pos hc.cpr_le hs hc.nonneg hc.le hc.offset_le
  obtain ⟨rv, k, er, r1, r2⟩ := measure_near hA c hcpr hcpr' hsz1 hg0 hg1 hc.offset_le
  obtain ⟨i, i1, i2⟩ := nearestReduced_near hA hs hs1 hW1 h2 r2
  have hout : outputValue A c src = .fin out := by
    unfold outputValue
    rw [hc.reading, hc.scale, hc.offset_eq]
    exact eo
  have hrv : referenceValue A c cpr ref = .fin rv := by
    have hd : ∃ q, A.div (.fin g) (A.lit (cpr : ℚ)) = .fin q ∧ A.Rep q := by
      have hC : (0 : ℚ) < cpr := by exact_mod_cast hcpr
      have hb : |g / (cpr : ℚ)| ≤ pow2 127 := by
        rw [abs_of_nonneg (div_nonneg hg0 hC.le)]
        have : g / (cpr : ℚ) ≤ 1 := by rwa [div_le_one hC]
        exact this.trans (by decide +kernel)
      refine ⟨A.rq (g / cpr), ?_, hA.idem _, ?_⟩
      · rw [hA.lit_nat hcpr']
        simp only [Ar.div]
        rw [if_neg hC.ne', hA.rnd_fin hb]
      · exact hA.small hb
    obtain ⟨q, eq, hq⟩ := hd
    rw [eq, mul_fin, mul_one, hq.rnd] at er
    unfold referenceValue
    rw [hg, hc.offset_eq, eq, e1]
    exact er
  rw [abs_le] at h1 r1 i1 r2 h2
  refine ⟨n + i, k, ?_, ?_, ?_⟩
  · intro m
    have hh := nearest_of_half (x := measured c c.cpr s f offset + ((n + i : ℤ) : ℚ) * s)
      (v := measured c cpr 1 g offset + k) (s := s)
      (e := 94 * (W * κ)) hp (by push_cast; rw [abs_le]; constructor <;> linarith) (by linarith) (m - (n + i))
    refine hh.trans (le_of_eq ?_)
    push_cast
    congr 1
    · congr 1; ring
    · ring
  · rw [abs_le]; constructor <;> linarith
  · intro v hv
    obtain ⟨x, m, ex, x1, x2⟩ := i2 v hv
    rw [abs_le] at x1 x2 hv
    have hxb : |x| ≤ 7 / 4 * W := by rw [abs_le]; constructor <;> linarith
    obtain ⟨k1, p, ep, k2⟩ := kept_near hA (by linarith) hWh hxb
    rw [abs_le] at k1 k2
    have hraw : setNearest A c src ref (.fin v) o =
        { o with raw := floatToInt A (.fin x), position := intToFloat A (floatToInt A (.fin x)),
                 homed := .output } := by
      unfold setNearest
      rw [if_neg (by simp [habs])]
      unfold setNearestHelper
      rw [hout, hc.scale, href]
      dsimp only
      rw [hrv, e1, if_pos ⟨habs, habsr, by rw [Fl.blt_fin]; exact decide_eq_true hs1⟩, ex]
    rw [hraw]
    refine ⟨m, ?_, ?_, ⟨p, ep, ?_⟩, rfl⟩
    · intro m'
      have hh := nearest_of_half (x := measured c c.cpr s f offset + ((n + i : ℤ) : ℚ) * s + m) (v := v)
        (s := 1) (e := 38 * (W * κ)) one_pos (by push_cast; rw [abs_le]; constructor <;> linarith)
        (by linarith) (m' - m)
      refine hh.trans (le_of_eq ?_)
      push_cast
      congr 1
      · congr 1; ring
      · ring
    · push_cast
      rw [abs_le]
      constructor <;> linarith
    · push_cast
      rw [abs_le]
      constructor <;> linarith

/-! ## The position before the request -/

/-- When an absolute source becomes active, the position becomes the measured
angle, up to a multiple of the scale. -/
theorem C39_before_request_partial {A : Ar} {κ : ℚ} (hA : Fine A κ) (c : OutputConfig) (src : SourceStatus)
    (o : OutputStatus) {s W f offset : ℚ} (hc : Readable A c src s W f offset) (hs64 : s ≤ 64)
    (hW64 : W ≤ 4096) (habs : src.activeAbsolute = true) (hrel : o.homed = .relative) :
    ∃ n : ℤ, |((follow A c src o).raw : ℚ) / 2 ^ 48 - (measured c c.cpr s f offset + n * s)| ≤
      1 / 16777216 + 34 * (W * κ) := by
  have hs := hc.sized
  have hp : 0 < s := lt_of_lt_of_le (by norm_num) hs.low
  have hW : 1 / 4096 ≤ W := hs.low.trans hs.le
  have hsW := hs.le
  have hk1 : W * κ ≤ W * (1 / 8388608) := mul_le_mul_of_nonneg_left hA.le' (by linarith)
  have hk2 : 0 ≤ W * κ := mul_nonneg (by linarith) hA.nonneg'
  have hC : (0 : ℚ) < c.cpr := by exact_mod_cast hc.cpr_pos
  have hCl : (c.cpr : ℚ) ≤ 16777216 := by exact_mod_cast hc.cpr_le
  have hsC : 1 / 68719476736 ≤ s / c.cpr := by
    rw [le_div_iff₀ hC]
    have := hs.low
    linarith
  have hsC' : s / c.cpr ≤ 64 := by
    rw [div_le_iff₀ hC]
    have : (1 : ℚ) ≤ c.cpr := by exact_mod_cast hc.cpr_pos
    nlinarith
  have hrelsc := hA.rel' (x := s / c.cpr) (by rw [abs_of_pos (by linarith)]; linarith)
  rw [abs_of_pos (show 0 < s / c.cpr by linarith)] at hrelsc
  have hscale : c.cprScale A = .fin (c.sign * A.rq (s / c.cpr)) := by
    have hq : |s / (c.cpr : ℚ)| ≤ pow2 127 := by
      rw [abs_of_pos (by linarith)]
      exact le_trans hsC' (by decide +kernel)
    unfold OutputConfig.cprScale
    rw [hc.scale, hA.lit_nat hc.cpr_le]
    simp only [OutputConfig.sign]
    cases c.forward with
    | true =>
      simp only [if_true, Ar.mul, one_mul, hs.rep.rnd, Ar.div]
      rw [if_neg (ne_of_gt hC), hA.rnd_fin hq]
    | false =>
      simp only [Bool.false_eq_true, if_false, Ar.mul]
      rw [show (-1 : ℚ) * s = -s by ring, (hA.rep_neg hs.rep).rnd]
      simp only [Ar.div]
      rw [if_neg (ne_of_gt hC), neg_div, hA.rnd_fin (by rwa [abs_neg]), hA.odd]
      congr 1
      ring
  have hscn : 0 ≤ A.rq (s / c.cpr) := hA.nonneg (by linarith)
  generalize A.rq (s / c.cpr) = sc at hrelsc hscale hscn
  have hf0 := hc.nonneg
  have hf1 := hc.le
  have mulsc : ∀ u : ℚ, 0 ≤ u → u ≤ c.cpr → |u * sc - u / c.cpr * s| ≤ W * κ := by
    intro u u0 u1
    have : u * sc - u / c.cpr * s = u * (sc - s / c.cpr) := by field_simp
    rw [this, abs_mul, abs_of_nonneg u0]
    calc u * |sc - s / c.cpr| ≤ u * (s / c.cpr * κ) := mul_le_mul_of_nonneg_left hrelsc u0
      _ ≤ c.cpr * (s / c.cpr * κ) := mul_le_mul_of_nonneg_right u1
          (mul_nonneg (by linarith) hA.nonneg')
      _ = s * κ := by field_simp
      _ ≤ W * κ := mul_le_mul_of_nonneg_right hsW hA.nonneg'
  have frac : 0 ≤ f / c.cpr * s ∧ f / c.cpr * s ≤ s := by
    have g0 : 0 ≤ f / c.cpr := div_nonneg hf0 hC.le
    have g1 : f / c.cpr ≤ 1 := by rwa [div_le_one hC]
    exact ⟨mul_nonneg g0 hp.le, by nlinarith⟩
  -- the scaled reading
  obtain ⟨sr, esr, hsr⟩ : ∃ sr, scaledRatio A c src.filtered = .fin sr ∧
      |sr - (if c.forward then f / c.cpr * s else s - f / c.cpr * s)| ≤ 6 * (W * κ) := by
    unfold scaledRatio
    rw [hscale, hc.reading]
    simp only [OutputConfig.sign]
    cases c.forward
    · simp only [Bool.false_eq_true, if_false]
      rw [hA.lit_nat hc.cpr_le, sub_fin]
      obtain ⟨u, eu, hu, hu0, hu1⟩ : ∃ u, A.rnd (c.cpr - f) = .fin u ∧ |u - (c.cpr - f)| ≤ c.cpr * κ ∧
          0 ≤ u ∧ u ≤ c.cpr := by
        have hb : |(c.cpr : ℚ) - f| ≤ c.cpr := by rw [abs_of_nonneg (by linarith)]; linarith
        refine ⟨A.rq (c.cpr - f), hA.rnd_fin (hb.trans (hCl.trans (by decide +kernel))), ?_,
          hA.nonneg (by linarith), ?_⟩
        · refine hA.near hb ?_
          have : (1 : ℚ) ≤ c.cpr := by exact_mod_cast hc.cpr_pos
          linarith
        · have h := hA.mono (show (c.cpr : ℚ) - f ≤ c.cpr by linarith)
          have hr := (hA.rep_int (n := (c.cpr : ℤ)) (by
            rw [abs_of_nonneg (by omega)]; exact_mod_cast hc.cpr_le)).1
          push_cast at hr
          rwa [hr] at h
      rw [eu]
      simp only [Fl.abs, neg_mul, one_mul, abs_neg, abs_of_nonneg hscn, mul_fin]
      have h1 := mulsc u hu0 hu1
      have h2 : |u / c.cpr * s - (s - f / c.cpr * s)| ≤ W * κ := by
        have : u / c.cpr * s - (s - f / c.cpr * s) = (u - (c.cpr - f)) * (s / c.cpr) := by
          field_simp
        rw [this, abs_mul, abs_of_pos (show 0 < s / c.cpr by linarith)]
        calc |u - (c.cpr - f)| * (s / c.cpr) ≤ c.cpr * κ * (s / c.cpr) :=
              mul_le_mul_of_nonneg_right hu (by linarith)
          _ = s * κ := by field_simp
          _ ≤ W * κ := mul_le_mul_of_nonneg_right hsW hA.nonneg'
      rw [abs_le] at h1 h2
      obtain ⟨t, et, ht⟩ := op hA (x := u * sc) (2 * W) (by rw [abs_le]; constructor <;> linarith)
        (by linarith) (by linarith)
      rw [abs_le] at ht
      exact ⟨t, et, by rw [abs_le]; constructor <;> linarith⟩
    · simp only [if_true, one_mul, mul_fin]
      have h1 := mulsc f hf0 hf1
      rw [abs_le] at h1
      obtain ⟨t, et, ht⟩ := op hA (x := f * sc) (2 * W) (by rw [abs_le]; constructor <;> linarith)
        (by linarith) (by linarith)
      rw [abs_le] at ht
      exact ⟨t, et, by rw [abs_le]; constructor <;> linarith⟩
  have ho := hc.offset_le
  rw [abs_le] at ho
  have hsign : (c.forward = true ∧ c.sign = 1) ∨ (c.forward = false ∧ c.sign = -1) := by
    unfold OutputConfig.sign; cases c.forward <;> simp
  obtain ⟨os, eos, hos⟩ := op hA (x := offset * c.sign) W (by
    rcases hsign with ⟨_, h⟩ | ⟨_, h⟩ <;> rw [h, abs_le] <;> constructor <;> linarith) (by linarith) (by linarith)
  rw [abs_le] at hos
  obtain ⟨x, ex, hx, hxb⟩ : ∃ x, A.rnd (sr + os) = .fin x ∧
      (∃ j : ℤ, |x - (measured c c.cpr s f offset + j * s)| ≤ 10 * (W * κ)) ∧ |x| ≤ 9 / 4 * W := by
    rcases hsign with ⟨h1, h2⟩ | ⟨h1, h2⟩
    · rw [h1] at hsr
      simp only [if_true] at hsr
      rw [abs_le] at hsr
      rw [h2] at hos
      obtain ⟨x, ex, hx⟩ := op hA (x := sr + os) (3 * W) (by rw [abs_le]; constructor <;> linarith)
        (by linarith) (by linarith)
      rw [abs_le] at hx
      refine ⟨x, ex, ⟨0, ?_⟩, by rw [abs_le]; constructor <;> linarith⟩
      unfold measured
      rw [h2, abs_le]
      push_cast
      constructor <;> linarith
    · rw [h1] at hsr
      simp only [Bool.false_eq_true, if_false] at hsr
      rw [abs_le] at hsr
      rw [h2] at hos
      obtain ⟨x, ex, hx⟩ := op hA (x := sr + os) (3 * W) (by rw [abs_le]; constructor <;> linarith)
        (by linarith) (by linarith)
      rw [abs_le] at hx
      refine ⟨x, ex, ⟨1, ?_⟩, by rw [abs_le]; constructor <;> linarith⟩
      unfold measured
      rw [h2, abs_le]
      push_cast
      constructor <;> linarith
  obtain ⟨j, hj⟩ := hx
  obtain ⟨r, n, er, r1, r2⟩ := wrapBalanced_near hA hs hxb
  have hraw : (follow A c src o).raw = fixed A (.fin r) := by
    unfold follow
    simp only [habs, hrel, and_self, if_true]
    rw [esr, hc.offset_eq, hc.scale, mul_fin, eos, add_fin, ex, er]
  rw [hraw]
  have e24 : A.lit (16777216 : ℚ) = .fin 16777216 := by
    have := hA.lit_nat (n := 16777216) (by norm_num)
    simpa using this
  rw [abs_le] at r1 r2 hj
  obtain ⟨t, et, ht⟩ := op hA (x := 16777216 * r) (16777216 * (5 * W)) (by
    rw [abs_le]; constructor <;> linarith) (by linarith) (by linarith)
  rw [abs_le] at ht
  have tr := (truncQ_spec t).1
  rw [abs_lt] at tr
  have b1 : (truncQ t : ℚ) ≤ 2147483647 := by linarith
  have b2 : (-2147483648 : ℚ) ≤ truncQ t := by linarith
  have b1' : truncQ t ≤ 2147483647 := by exact_mod_cast b1
  have b2' : -2147483648 ≤ truncQ t := by exact_mod_cast b2
  refine ⟨n + j, ?_⟩
  unfold fixed
  rw [e24, mul_fin, et]
  simp only [toI32]
  rw [min_eq_right b1', max_eq_right b2']
  push_cast
  rw [abs_le]
  constructor <;> linarith

/-- C39: from the position taken when the absolute source became active, the
request moves the position by a multiple of the scale (whole output turns
when the source is on the output). -/
theorem C39_moves_by_turns_partial {A : Ar} {κ : ℚ} (hA : Fine A κ) (c : OutputConfig)
    (src ref : SourceStatus) (o : OutputStatus) {s W f offset : ℚ} (hc : Readable A c src s W f offset)
    (hs64 : s ≤ 64) (hW64 : W ≤ 4096) (habs : src.activeAbsolute = true) (hrel : o.homed = .relative)
    (href : c.reference = none ∨ ref.activeAbsolute = false ∨ 1 ≤ s) (v : ℚ) (hv : |v| ≤ W) :
    ∃ n : ℤ, |(((setNearest A c src ref (.fin v) (follow A c src o)).raw : ℚ) - (follow A c src o).raw)
      / 2 ^ 48 - n * s| ≤ 1 / 65536 + 1 / 16777216 + 69 * (W * κ) := by
  obtain ⟨n, h⟩ := C39_before_request_partial hA c src o hc hs64 hW64 habs hrel
  obtain ⟨m, _, h2, _⟩ := C39_nearest_partial hA c src ref (follow A c src o) hc habs href v hv
  refine ⟨m - n, ?_⟩
  rw [abs_le] at h h2 ⊢
  push_cast
  constructor <;> linarith [h.1, h.2, h2.1, h2.2]

/-! ## Examples and disagreements -/

/-- An absolute reading. -/
def absolute (f : ℚ) : SourceStatus :=
  { SourceStatus.init with activeVelocity := true, activeAbsolute := true, filtered := .fin f }

/-- An encoder of 16384 counts on the output with an offset of 0.25 turns. -/
def outputEncoder (forward : Bool) (reference : Option ℕ) : OutputConfig :=
  ⟨16384, false, .fin (1 / 4), forward, .fin (1 / 8), reference⟩

/-- The hypotheses of `C39_nearest_partial` are met. -/
example (forward : Bool) :
    Readable Ar.single (outputEncoder forward none) (absolute 5000) 1 100 5000 (1 / 4) := by
  refine ⟨show 0 < 16384 by decide, show 16384 ≤ 2 ^ 24 by decide, rfl, ?_, rfl, ?_, rfl, by norm_num,
    show (5000 : ℚ) ≤ 16384 by norm_num⟩
  · refine ⟨?_, by norm_num, by norm_num, by norm_num, by norm_num⟩
    have := Ar.single_law2.rep_int (n := 1) (by norm_num)
    simpa using this
  · rw [abs_of_pos (by norm_num)]; norm_num

/-- The hypotheses of `C39_reference_partial` are met: an encoder on the rotor
behind a reduction of 1/8 and one on the output. -/
example (forward : Bool) :
    Readable Ar.single ⟨16384, true, .fin (1 / 4), forward, .fin (1 / 8), some 4096⟩ (absolute 5000)
      (1 / 8) 100 5000 (1 / 4) := by
  refine ⟨show 0 < 16384 by decide, show 16384 ≤ 2 ^ 24 by decide, rfl, ?_, rfl, ?_, rfl, by norm_num,
    show (5000 : ℚ) ≤ 16384 by norm_num⟩
  · refine ⟨?_, by norm_num, by norm_num, by norm_num, by norm_num⟩
    constructor <;> decide +kernel
  · rw [abs_of_pos (by norm_num)]; norm_num

/-- The position does not change by whole turns exactly: it is truncated to
2^-16 turns. -/
theorem C39_truncation_refuted :
    let c : OutputConfig := ⟨131072, false, .fin 0, true, .fin 1, none⟩
    let before := follow .single c (absolute 1) .init
    let after := setNearest .single c (absolute 1) .init (.fin 0) before
    before.raw = 2 ^ 31 ∧ after.raw = 0 := by
  decide +kernel

/-- Without a reference the position can change by less than an output turn:
the positions compatible with a source on the rotor are a rotor turn apart. -/
theorem C39_rotor_turns_refuted :
    let c : OutputConfig := ⟨16384, true, .fin 0, true, .fin (1 / 8), none⟩
    let before := follow .single c (absolute 0) .init
    let after := setNearest .single c (absolute 0) .init (.fin (1 / 4)) before
    before.raw = 0 ∧ after.raw = 2 ^ 46 := by
  decide +kernel

/-- When only the reference is absolute, the request is ignored. -/
theorem C39_request_ignored_refuted (v w : Fl) (o : OutputStatus) :
    let c : OutputConfig := ⟨16384, true, .fin 0, true, .fin (1 / 8), some 4096⟩
    let src := { absolute 0 with activeAbsolute := false }
    setNearest .single c src (absolute 1024) v o = setNearest .single c src (absolute 1024) w o ∧
    (setNearest .single c src (absolute 1024) v o).raw = 2 ^ 46 := by
  refine ⟨rfl, ?_⟩
  have h : floatToInt .single (referenceValue .single ⟨16384, true, .fin 0, true, .fin (1 / 8), some 4096⟩ 4096
    (absolute 1024)) = 2 ^ 46 := by decide +kernel
  exact h

/-- Beyond 32768 turns the position saturates. -/
theorem C39_overflow_refuted :
    let c : OutputConfig := ⟨16384, false, .fin 0, true, .fin 1, none⟩
    (setNearest .single c (absolute 0) .init (.fin 40000) .init).position = .fin 32768 := by
  decide +kernel

/-- C39: which requests are honoured.  With neither an absolute output source nor
an absolute reference nothing changes at all; otherwise the output is homed, and
the reported position is the one kept. -/
theorem C39_honoured (A : Ar) (c : OutputConfig) (src ref : SourceStatus) (v : Fl) (o : OutputStatus) :
    (src.activeAbsolute = false → (c.reference = none ∨ ref.activeAbsolute = false) →
      setNearest A c src ref v o = o) ∧
    (src.activeAbsolute = true ∨ (c.reference ≠ none ∧ ref.activeAbsolute = true) →
      (setNearest A c src ref v o).homed = .output ∧
      (setNearest A c src ref v o).position = intToFloat A (setNearest A c src ref v o).raw) := by
  refine ⟨fun h h' => if_pos ⟨h, h'⟩, fun h => ?_⟩
  have : ¬ (src.activeAbsolute = false ∧ (c.reference = none ∨ ref.activeAbsolute = false)) := by
    rintro ⟨h1, h2⟩
    rcases h with h | ⟨h3, h4⟩
    · rw [h1] at h; cases h
    · rcases h2 with h2 | h2
      · exact h3 h2
      · rw [h4] at h2; cases h2
  unfold setNearest
  rw [if_neg this]
  exact ⟨rfl, rfl⟩

example : (absolute 0).activeAbsolute = true ∧ SourceStatus.init.activeAbsolute = false := by decide

end Verif.Fw
