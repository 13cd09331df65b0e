import Verif.Fw.Position
import Verif.Float.Rel
import Mathlib.Algebra.Order.Archimedean.Basic

/-!
# Property C38: the multi-turn position follows the encoder

The wrap detection compares quarters of a turn, so it is right as long as the
encoder moves by less than a quarter of a turn (less a margin for the rounding
of the thresholds) between samples.
-/

namespace Verif.Fw

open Verif.Float

/-! ## Specification -/

/-- The gear ratio between the output source and the output, and the range of
settings considered: a ratio between 1/4096 and 64, at most 2^24 counts. -/
structure Geared (A : Ar) (c : OutputConfig) (ρ : ℚ) : Prop where
  cpr_pos : 0 < c.cpr
  cpr_le : c.cpr ≤ 2 ^ 24
  scale : c.scale = .fin ρ
  rep : A.Rep ρ
  low : 1 / 4096 ≤ ρ
  high : ρ ≤ 64

/-- A reading as a fraction of a turn in the direction of the output. -/
def dirTurn (c : OutputConfig) (v : ℚ) : ℚ := if c.forward then v / c.cpr else 1 - v / c.cpr

/-- The largest motion between two samples: a quarter of a turn less 2^-15
output turns. -/
def maxMove (ρ : ℚ) : ℚ := 1 / 4 - 1 / (32768 * ρ)

/-! ## The numbers computed -/

section

variable {A : Ar} (hA : Ar.Law3 A) {c : OutputConfig} {ρ : ℚ} (hc : Geared A c ρ)

/-- The reading in the direction of the output, in counts. -/
def dirCount (A : Ar) (c : OutputConfig) (v : ℚ) : ℚ := if c.forward then v else A.rq (c.cpr - v)

/-- The scaled reading. -/
def scaled (A : Ar) (c : OutputConfig) (ρ v : ℚ) : ℚ := A.rq (dirCount A c v * A.rq (ρ / c.cpr))

/-- The fixed point reading, in units of 2^-24 output turns. -/
def ticks (A : Ar) (c : OutputConfig) (ρ v : ℚ) : ℤ := (16777216 * scaled A c ρ v).floor

include hc in
theorem Geared.ρ_pos : 0 < ρ := lt_of_lt_of_le (by norm_num) hc.low

include hc in
theorem Geared.C_pos : (0 : ℚ) < c.cpr := by exact_mod_cast hc.cpr_pos

include hc in
theorem Geared.C_le : (c.cpr : ℚ) ≤ 16777216 := by
  have := hc.cpr_le
  exact_mod_cast this

theorem tiny : pow2 (-100) ≤ 1 / 1125899906842624 := by decide +kernel

theorem huge : (1152921504606846976 : ℚ) ≤ pow2 127 := by decide +kernel

include hc in
theorem Geared.quot_ge : 1 / 68719476736 ≤ ρ / c.cpr := by
  rw [le_div_iff₀ hc.C_pos]
  have h1 := hc.low
  have h2 := hc.C_le
  nlinarith [hc.C_pos]

include hc in
theorem Geared.quot_le : ρ / c.cpr ≤ 64 := by
  rw [div_le_iff₀ hc.C_pos]
  have h1 := hc.high
  have h2 : (1 : ℚ) ≤ c.cpr := by exact_mod_cast hc.cpr_pos
  nlinarith

include hA hc in
theorem cprScale_eq : c.cprScale A = .fin (c.sign * A.rq (ρ / c.cpr)) := by
  unfold OutputConfig.cprScale
  rw [hc.scale, hA.lit_nat hc.cpr_le]
  have hC := hc.C_pos
  have h1 := hc.quot_ge
  have h2 := hc.quot_le
  have hq : |ρ / c.cpr| ≤ pow2 127 := by
    rw [abs_of_pos (by linarith)]
    exact le_trans (h2.trans (by norm_num)) huge
  simp only [OutputConfig.sign]
  cases c.forward with
  | true =>
    simp only [if_true, Ar.mul, one_mul, hc.rep.rnd, Ar.div]
    rw [if_neg (ne_of_gt hC), hA.rnd_fin hq]
  | false =>
    simp only [Bool.false_eq_true, if_false, Ar.mul]
    rw [show (-1 : ℚ) * ρ = -ρ by ring, (hA.rep_neg hc.rep).rnd]
    simp only [Ar.div]
    rw [if_neg (ne_of_gt hC), neg_div, hA.rnd_fin (by rwa [abs_neg]), hA.odd]
    congr 1
    ring

include hA hc in
theorem sc_bounds : ρ / c.cpr * (1 - 1 / 16777216) ≤ A.rq (ρ / c.cpr) ∧
    A.rq (ρ / c.cpr) ≤ ρ / c.cpr * (1 + 1 / 16777216) := by
  have h1 := hc.quot_ge
  have h : pow2 (-100) ≤ ρ / c.cpr := le_trans tiny (by linarith)
  exact ⟨hA.le_rq le_rfl h, hA.rq_le le_rfl h⟩

/-- The reading in the direction of the output, exactly. -/
def dirExact (c : OutputConfig) (v : ℚ) : ℚ := if c.forward then v else c.cpr - v

include hc in
theorem dirTurn_eq (v : ℚ) : dirTurn c v = dirExact c v / c.cpr := by
  have := hc.C_pos
  unfold dirTurn dirExact
  cases c.forward
  · simp only [Bool.false_eq_true, if_false]; field_simp
  · simp

include hA hc in
theorem count_le {v β : ℚ} (h : dirTurn c v ≤ β) (hβ : 1 / 1024 ≤ β) :
    dirCount A c v ≤ β * c.cpr * (1 + 1 / 16777216) := by
  rw [dirTurn_eq hc, div_le_iff₀ hc.C_pos] at h
  have hC1 : (1 : ℚ) ≤ c.cpr := by exact_mod_cast hc.cpr_pos
  have hb : 1 / 1024 ≤ β * c.cpr := by nlinarith
  unfold dirExact at h
  unfold dirCount
  cases hf : c.forward
  · simp only [hf, Bool.false_eq_true, if_false] at h ⊢
    exact hA.rq_le h (le_trans tiny (by linarith))
  · simp only [hf, if_true] at h ⊢
    nlinarith

include hA hc in
theorem le_count {v β : ℚ} (h : β ≤ dirTurn c v) (hβ : 1 / 1024 ≤ β) :
    β * c.cpr * (1 - 1 / 16777216) ≤ dirCount A c v := by
  rw [dirTurn_eq hc, le_div_iff₀ hc.C_pos] at h
  have hC1 : (1 : ℚ) ≤ c.cpr := by exact_mod_cast hc.cpr_pos
  have hb : 1 / 1024 ≤ β * c.cpr := by nlinarith
  unfold dirExact at h
  unfold dirCount
  cases hf : c.forward
  · simp only [hf, Bool.false_eq_true, if_false] at h ⊢
    exact hA.le_rq h (le_trans tiny (by linarith))
  · simp only [hf, if_true] at h ⊢
    nlinarith

include hA in
theorem count_nonneg {v : ℚ} (h0 : 0 ≤ v) (h1 : v ≤ c.cpr) : 0 ≤ dirCount A c v := by
  unfold dirCount
  split
  · exact h0
  · exact hA.nonneg (by linarith)

include hA hc in
theorem scaled_le {v β : ℚ} (h0 : 0 ≤ v) (h1 : v ≤ c.cpr) (h : dirTurn c v ≤ β) (hβ : 1 / 1024 ≤ β) :
    scaled A c ρ v ≤ β * ρ * (1 + 4 / 16777216) := by
  have k1 := count_le hA hc h hβ
  have k2 := (sc_bounds hA hc).2
  have k0 := count_nonneg hA (c := c) h0 h1
  have hq := hc.quot_ge
  have hp : 0 ≤ A.rq (ρ / c.cpr) := hA.nonneg (by linarith)
  have hC := hc.C_pos
  have hβC : 0 ≤ β * c.cpr := by positivity
  have k3 : dirCount A c v * A.rq (ρ / c.cpr) ≤
      (β * c.cpr * (1 + 1 / 16777216)) * (ρ / c.cpr * (1 + 1 / 16777216)) :=
    mul_le_mul k1 k2 hp (by positivity)
  have e : (β * c.cpr * (1 + 1 / 16777216)) * (ρ / c.cpr * (1 + 1 / 16777216)) =
      β * ρ * ((1 + 1 / 16777216) * (1 + 1 / 16777216)) := by field_simp
  rw [e] at k3
  have hρ := hc.low
  have hbr : 1 / 4194304 ≤ β * ρ := by nlinarith
  have k4 := hA.rq_le k3 (le_trans tiny (by nlinarith))
  unfold scaled
  nlinarith

include hA hc in
theorem le_scaled {v β : ℚ} (h : β ≤ dirTurn c v) (hβ : 1 / 1024 ≤ β) :
    β * ρ * (1 - 4 / 16777216) ≤ scaled A c ρ v := by
  have k1 := le_count hA hc h hβ
  have k2 := (sc_bounds hA hc).1
  have hq := hc.quot_ge
  have hC := hc.C_pos
  have hβC : 0 ≤ β * c.cpr := by positivity
  have k3 : (β * c.cpr * (1 - 1 / 16777216)) * (ρ / c.cpr * (1 - 1 / 16777216)) ≤
      dirCount A c v * A.rq (ρ / c.cpr) :=
    mul_le_mul k1 k2 (by nlinarith) (by nlinarith)
  have e : (β * c.cpr * (1 - 1 / 16777216)) * (ρ / c.cpr * (1 - 1 / 16777216)) =
      β * ρ * ((1 - 1 / 16777216) * (1 - 1 / 16777216)) := by field_simp
  rw [e] at k3
  have hρ := hc.low
  have hbr : 1 / 4194304 ≤ β * ρ := by nlinarith
  have k4 := hA.le_rq k3 (le_trans tiny (by nlinarith))
  unfold scaled
  nlinarith

include hc in
theorem dirTurn_range {v : ℚ} (h0 : 0 ≤ v) (h1 : v ≤ c.cpr) : 0 ≤ dirTurn c v ∧ dirTurn c v ≤ 1 := by
  rw [dirTurn_eq hc, div_le_one hc.C_pos]
  have : 0 ≤ dirExact c v ∧ dirExact c v ≤ c.cpr := by
    unfold dirExact; split <;> constructor <;> linarith
  exact ⟨div_nonneg this.1 hc.C_pos.le, this.2⟩

include hA hc in
theorem scaled_range {v : ℚ} (h0 : 0 ≤ v) (h1 : v ≤ c.cpr) : 0 ≤ scaled A c ρ v ∧ scaled A c ρ v ≤ 101 := by
  have k := scaled_le hA hc h0 h1 (dirTurn_range hc h0 h1).2 (by norm_num)
  have hq := hc.quot_ge
  refine ⟨hA.nonneg (mul_nonneg (count_nonneg hA h0 h1) (hA.nonneg (by linarith))), ?_⟩
  have := hc.high
  linarith

include hA hc in
theorem scaledRatio_eq {v : ℚ} (h0 : 0 ≤ v) (h1 : v ≤ c.cpr) :
    scaledRatio A c (.fin v) = .fin (scaled A c ρ v) := by
  have hC := hc.C_pos
  have hCl := hc.C_le
  have hq := hc.quot_ge
  have hs := (sc_bounds hA hc).2
  have hsc : 0 ≤ A.rq (ρ / c.cpr) := hA.nonneg (by linarith)
  have hql := hc.quot_le
  have hcount : dirCount A c v ≤ 16777217 := by
    have := count_le hA hc (dirTurn_range hc h0 h1).2 (by norm_num)
    linarith
  have hcn := count_nonneg hA (c := c) h0 h1
  have hprod : |dirCount A c v * A.rq (ρ / c.cpr)| ≤ pow2 127 := by
    rw [abs_of_nonneg (mul_nonneg hcn hsc)]
    refine le_trans ?_ huge
    nlinarith
  unfold scaledRatio
  rw [cprScale_eq hA hc]
  simp only [OutputConfig.sign]
  unfold scaled
  unfold dirCount at hprod ⊢
  cases hf : c.forward
  · simp only [hf, Bool.false_eq_true, if_false] at hprod ⊢
    rw [hA.lit_nat hc.cpr_le]
    have e1 : A.sub (.fin (c.cpr : ℚ)) (.fin v) = .fin (A.rq (c.cpr - v)) := by
      simp only [Ar.sub, Fl.neg, Ar.add]
      rw [← sub_eq_add_neg, hA.rnd_fin]
      rw [abs_of_nonneg (by linarith)]
      exact le_trans (by linarith) huge
    rw [e1]
    simp only [Fl.abs, neg_mul, one_mul, abs_neg, abs_of_nonneg hsc, Ar.mul]
    exact hA.rnd_fin hprod
  · simp only [hf, if_true, one_mul, Ar.mul] at hprod ⊢
    exact hA.rnd_fin hprod

include hA in
theorem fixed_eq {p : ℚ} (hp : A.Rep p) (h0 : 0 ≤ p) (h1 : p ≤ 101) :
    fixed A (.fin p) = 16777216 * (16777216 * p).floor := by
  have e24 : pow2 24 = 16777216 := by decide +kernel
  have hs : A.Rep (p * pow2 24) := hA.scale hp (by norm_num) (by
    rw [e24, abs_of_nonneg (by positivity)]
    exact le_trans (by linarith) huge)
  have hl : A.lit (16777216 : ℚ) = .fin 16777216 := by
    have := hA.lit_nat (n := 16777216) (by norm_num)
    simpa using this
  unfold fixed
  rw [hl]
  simp only [Ar.mul]
  rw [show (16777216 : ℚ) * p = p * pow2 24 by rw [e24]; ring, hs.rnd]
  have hn : 0 ≤ p * pow2 24 := by rw [e24]; positivity
  simp only [toI32, truncQ, if_pos hn]
  have hf0 : 0 ≤ (p * pow2 24).floor := by
    rw [Rat.le_floor_iff]; exact_mod_cast hn
  have hf1 : (p * pow2 24).floor ≤ 2147483647 := by
    have := floor_le' (p * pow2 24)
    have h2 : p * pow2 24 ≤ 1694498816 := by rw [e24]; linarith
    have h3 : ((p * pow2 24).floor : ℚ) ≤ 1694498816 := by linarith
    have h4 : (p * pow2 24).floor ≤ 1694498816 := by exact_mod_cast h3
    omega
  congr 1
  omega

include hA hc in
theorem rep_scaled {v : ℚ} (h0 : 0 ≤ v) (h1 : v ≤ c.cpr) : A.Rep (scaled A c ρ v) := by
  have h := scaled_range hA hc h0 h1
  refine ⟨hA.idem _, ?_⟩
  have := hA.small (x := scaled A c ρ v) (by rw [abs_of_nonneg h.1]; exact le_trans (by linarith) huge)
  unfold scaled at this ⊢
  rwa [hA.idem] at this

include hA hc in
/-- The fixed point number of a reading. -/
theorem code_eq {v : ℚ} (h0 : 0 ≤ v) (h1 : v ≤ c.cpr) :
    code A c (.fin v) = 16777216 * ticks A c ρ v := by
  have h := scaled_range hA hc h0 h1
  unfold code
  rw [scaledRatio_eq hA hc h0 h1, fixed_eq hA (rep_scaled hA hc h0 h1) h.1 h.2]
  rfl

/-- The step in units of 2^-24 output turns. -/
def stepTicks (ρ : ℚ) : ℤ := (16777216 * ρ).floor

include hA hc in
theorem step_eq : c.step A = 16777216 * stepTicks ρ := by
  unfold OutputConfig.step
  rw [hc.scale]
  simp only [Fl.abs, abs_of_pos hc.ρ_pos]
  exact fixed_eq hA hc.rep hc.ρ_pos.le (by linarith [hc.high])

include hc in
theorem stepTicks_bounds : 16777216 * ρ - 1 < stepTicks ρ ∧ (stepTicks ρ : ℚ) ≤ 16777216 * ρ ∧
    4096 ≤ stepTicks ρ ∧ stepTicks ρ ≤ 1677721600 := by
  have h1 := floor_le' (16777216 * ρ)
  have h2 := lt_floor_succ' (16777216 * ρ)
  have h3 := hc.low
  have h4 := hc.high
  unfold stepTicks
  refine ⟨by linarith, h1, ?_, ?_⟩
  · rw [Rat.le_floor_iff]; push_cast; linarith
  · have : ((16777216 * ρ).floor : ℚ) ≤ 1677721600 := by linarith
    exact_mod_cast this

include hA hc in
theorem quarter_eq : c.quarter A = stepTicks ρ / 1024 := by
  have h := (stepTicks_bounds hc).2.2
  unfold OutputConfig.quarter
  rw [step_eq hA hc]
  generalize stepTicks ρ = q at h
  rw [Int.tdiv_eq_ediv_of_nonneg (by omega)]
  unfold wrapI32
  omega

include hA hc in
theorem threeQuarters_eq : c.threeQuarters A = stepTicks ρ * 3 / 1024 := by
  have h := (stepTicks_bounds hc).2.2
  unfold OutputConfig.threeQuarters
  rw [step_eq hA hc]
  generalize stepTicks ρ = q at h
  rw [Int.tdiv_eq_ediv_of_nonneg (by omega)]
  rw [show 16777216 * q / 4 * 3 / 4294967296 = q * 3 / 1024 by omega]
  unfold wrapI32
  omega

theorem hb_eq (m t : ℤ) : (m + 16777216 * t - m) / 4294967296 = t / 256 := by omega

/-! ## The thresholds -/

include hc in
theorem move_bounds : 1 / 8 ≤ maxMove ρ ∧ maxMove ρ < 1 / 4 ∧ maxMove ρ * ρ = ρ / 4 - 1 / 32768 ∧
    maxMove ρ ≤ 1 / 4 - 1 / 3276800 := by
  have hp := hc.ρ_pos
  have h1 := hc.low
  have h2 := hc.high
  have e : maxMove ρ = 1 / 4 - 1 / (32768 * ρ) := rfl
  have h3 : 1 / (32768 * ρ) ≤ 1 / 8 := by
    rw [div_le_div_iff₀ (by positivity) (by norm_num)]; linarith
  have h4 : 1 / 3276800 ≤ 1 / (32768 * ρ) := by
    rw [div_le_div_iff₀ (by norm_num) (by positivity)]; linarith
  refine ⟨by linarith, by linarith, ?_, by linarith⟩
  rw [e]
  field_simp

theorem ticks_le {v : ℚ} : (ticks A c ρ v : ℚ) ≤ 16777216 * scaled A c ρ v := floor_le' _

theorem lt_ticks {v : ℚ} : 16777216 * scaled A c ρ v - 1 < ticks A c ρ v := by
  have := lt_floor_succ' (16777216 * scaled A c ρ v)
  unfold ticks
  linarith

include hA hc in
theorem low_detected {v : ℚ} (h0 : 0 ≤ v) (h1 : v ≤ c.cpr) (h : dirTurn c v ≤ maxMove ρ) :
    ticks A c ρ v / 256 < stepTicks ρ / 1024 := by
  obtain ⟨m1, m2, m3, m4⟩ := move_bounds hc
  have k := scaled_le hA hc h0 h1 h (by linarith)
  rw [m3] at k
  have hs := (stepTicks_bounds hc).1
  have ht := @ticks_le A c ρ v
  have hhi := hc.high
  have : (ticks A c ρ v : ℚ) * 4 + 1024 < stepTicks ρ := by linarith
  have h' : ticks A c ρ v * 4 + 1024 < stepTicks ρ := by exact_mod_cast this
  omega

include hA hc in
theorem high_detected {v : ℚ} (h : 1 - maxMove ρ ≤ dirTurn c v) :
    stepTicks ρ * 3 / 1024 < ticks A c ρ v / 256 := by
  obtain ⟨m1, m2, m3, m4⟩ := move_bounds hc
  have k := le_scaled hA hc h (by linarith)
  have e : (1 - maxMove ρ) * ρ = 3 / 4 * ρ + 1 / 32768 := by rw [sub_mul, m3]; ring
  rw [e] at k
  have hs := (stepTicks_bounds hc).2.1
  have ht := @lt_ticks A c ρ v
  have hhi := hc.high
  have : (stepTicks ρ : ℚ) * 3 + 1024 < ticks A c ρ v * 4 := by linarith
  have h' : stepTicks ρ * 3 + 1024 < ticks A c ρ v * 4 := by exact_mod_cast this
  omega

include hA hc in
theorem low_is_low {v : ℚ} (h : ticks A c ρ v / 256 < stepTicks ρ / 1024) : dirTurn c v < 3 / 8 := by
  by_contra hn
  have k := le_scaled hA hc (not_lt.mp hn) (by norm_num)
  have hs := (stepTicks_bounds hc).2.1
  have ht := @lt_ticks A c ρ v
  have hlo := hc.low
  have h' : ticks A c ρ v * 4 < stepTicks ρ := by omega
  have : (ticks A c ρ v : ℚ) * 4 < stepTicks ρ := by exact_mod_cast h'
  linarith

include hA hc in
theorem high_is_high {v : ℚ} (h0 : 0 ≤ v) (h1 : v ≤ c.cpr)
    (h : stepTicks ρ * 3 / 1024 < ticks A c ρ v / 256) : 5 / 8 < dirTurn c v := by
  by_contra hn
  have k := scaled_le hA hc h0 h1 (not_lt.mp hn) (by norm_num)
  have hs := (stepTicks_bounds hc).1
  have ht := @ticks_le A c ρ v
  have hlo := hc.low
  have h' : stepTicks ρ * 3 < ticks A c ρ v * 4 := by omega
  have : (stepTicks ρ : ℚ) * 3 < ticks A c ρ v * 4 := by exact_mod_cast h'
  linarith

/-! ## The encoder ratio -/

/-- `encoder_ratio` -/
def ratioOf (A : Ar) (c : OutputConfig) (v : ℚ) : ℚ :=
  if c.forward then A.rq (v / c.cpr) else A.rq (1 - A.rq (v / c.cpr))

include hA hc in
theorem unit_quot {v : ℚ} (h0 : 0 ≤ v) (h1 : v ≤ c.cpr) : 0 ≤ v / c.cpr ∧ v / c.cpr ≤ 1 ∧
    0 ≤ A.rq (v / c.cpr) ∧ A.rq (v / c.cpr) ≤ 1 := by
  have hC := hc.C_pos
  have k0 : 0 ≤ v / c.cpr := div_nonneg h0 hC.le
  have k1 : v / c.cpr ≤ 1 := by rwa [div_le_one hC]
  refine ⟨k0, k1, hA.nonneg k0, ?_⟩
  have := hA.mono k1
  have h2 := (hA.rep_int (n := 1) (by norm_num)).1
  push_cast at h2
  rwa [h2] at this

include hA hc in
theorem encoderRatio_eq {v : ℚ} (h0 : 0 ≤ v) (h1 : v ≤ c.cpr) :
    encoderRatio A c (.fin v) = .fin (ratioOf A c v) := by
  have hC := hc.C_pos
  obtain ⟨k0, k1, k2, k3⟩ := unit_quot hA hc h0 h1
  have hl : A.lit (1 : ℚ) = .fin 1 := by
    have := hA.lit_nat (n := 1) (by norm_num)
    simpa using this
  have hd : A.div (.fin v) (A.lit (c.cpr : ℚ)) = .fin (A.rq (v / c.cpr)) := by
    rw [hA.lit_nat hc.cpr_le]
    simp only [Ar.div]
    rw [if_neg (ne_of_gt hC), hA.rnd_fin]
    rw [abs_of_nonneg k0]
    exact le_trans (by linarith) huge
  unfold encoderRatio ratioOf
  rw [hd, hl]
  cases c.forward
  · simp only [Bool.false_eq_true, if_false, Ar.sub, Fl.neg, Ar.add]
    rw [← sub_eq_add_neg, hA.rnd_fin]
    rw [abs_of_nonneg (by linarith)]
    exact le_trans (by linarith) huge
  · rfl

include hA hc in
/-- The encoder ratio is within 2^-22 of the truth. -/
theorem ratio_near {v : ℚ} (h0 : 0 ≤ v) (h1 : v ≤ c.cpr) :
    |ratioOf A c v - dirTurn c v| ≤ 1 / 4194304 := by
  obtain ⟨k0, k1, k2, k3⟩ := unit_quot hA hc h0 h1
  have near : ∀ x : ℚ, 0 ≤ x → x ≤ 1 → |A.rq x - x| ≤ 1 / 8388608 := by
    intro x hx0 hx1
    by_cases hb : 1 / 16777216 ≤ x
    · have h := hA.rel (x := x) (le_trans tiny (by rw [abs_of_nonneg hx0]; linarith))
      rw [abs_of_nonneg hx0, show pow2 (-24) = 1 / 16777216 from by decide +kernel] at h
      linarith
    · have hm := hA.mono (not_le.mp hb).le
      have h2 : A.rq (1 / 16777216) = 1 / 16777216 := by
        have := (hA.unscale (n := 1) (k := -24) (by norm_num) (by norm_num) (by norm_num)).1
        rw [show pow2 (-24) = 1 / 16777216 from by decide +kernel] at this
        simpa using this
      rw [h2] at hm
      have hn := hA.nonneg hx0
      rw [abs_le]
      constructor <;> linarith
  unfold ratioOf dirTurn
  have n1 := near _ k0 k1
  cases c.forward
  · simp only [Bool.false_eq_true, if_false]
    have n2 := near (1 - A.rq (v / c.cpr)) (by linarith) (by linarith)
    rw [abs_le] at *
    constructor <;> linarith [n1.1, n1.2, n2.1, n2.2]
  · simp only [if_true]
    exact n1.trans (by norm_num)

include hA in
theorem lit_quarter : A.lit (1 / 4) = .fin (1 / 4) := by
  have := (hA.unscale (n := 1) (k := -2) (by norm_num) (by norm_num) (by norm_num)).rnd
  rw [show ((1 : ℤ) : ℚ) * pow2 (-2) = 1 / 4 from by decide +kernel] at this
  exact this

include hA in
theorem lit_threeQuarters : A.lit (3 / 4) = .fin (3 / 4) := by
  have := (hA.unscale (n := 3) (k := -2) (by norm_num) (by norm_num) (by norm_num)).rnd
  rw [show ((3 : ℤ) : ℚ) * pow2 (-2) = 3 / 4 from by decide +kernel] at this
  exact this

/-! ## One step -/

include hA hc in
/-- The modulo moves with the true number of turns. -/
theorem nextModulo_eq {v w : ℚ} (hv0 : 0 ≤ v) (hv1 : v ≤ c.cpr) (hw0 : 0 ≤ w) (hw1 : w ≤ c.cpr)
    (m n n' : ℤ) (hmove : |(n' + dirTurn c w) - (n + dirTurn c v)| ≤ maxMove ρ) :
    nextModulo A c (.fin w) (m + code A c (.fin v)) m = m + (n' - n) * c.step A := by
  obtain ⟨m1, m2, m3, m4⟩ := move_bounds hc
  obtain ⟨r0, r1⟩ := dirTurn_range hc hv0 hv1
  obtain ⟨s0, s1⟩ := dirTurn_range hc hw0 hw1
  have near := ratio_near hA hc hw0 hw1
  rw [abs_le] at hmove near
  unfold nextModulo
  rw [code_eq hA hc hv0 hv1, hb_eq, quarter_eq hA hc, threeQuarters_eq hA hc, encoderRatio_eq hA hc hw0 hw1,
    lit_quarter hA, lit_threeQuarters hA]
  simp only [Fl.blt_fin, decide_eq_true_eq]
  have hlo : (n' : ℚ) - n < 2 := by linarith
  have hhi : -2 < (n' : ℚ) - n := by linarith
  have hlo' : n' - n < 2 := by exact_mod_cast hlo
  have hhi' : -2 < n' - n := by exact_mod_cast hhi
  have hcases : n' = n - 1 ∨ n' = n ∨ n' = n + 1 := by omega
  rcases hcases with h | h | h
  · subst h
    push_cast at hmove
    have a1 := low_detected hA hc hv0 hv1 (by linarith)
    rw [if_pos ⟨a1, by linarith⟩]
    ring
  · subst h
    rw [if_neg, if_neg]
    · ring
    · rintro ⟨a1, a2⟩
      have := high_is_high hA hc hv0 hv1 a1
      linarith
    · rintro ⟨a1, a2⟩
      have := low_is_low hA hc a1
      linarith
  · subst h
    push_cast at hmove
    have a1 := high_detected hA hc (v := v) (by linarith)
    rw [if_neg, if_pos ⟨a1, by linarith⟩]
    · ring
    · rintro ⟨b1, b2⟩
      have := low_is_low hA hc b1
      linarith

end

/-! ## Whole runs -/

/-- The reference step leaves the relative position alone. -/
theorem reference_relative (A : Ar) (c : OutputConfig) (src ref : SourceStatus) (o : OutputStatus) :
    (reference A c src ref o).relativeRaw = o.relativeRaw ∧ (reference A c src ref o).modulo = o.modulo ∧
      (reference A c src ref o).everValid = o.everValid := by
  unfold reference
  split
  · exact ⟨rfl, rfl, rfl⟩
  · dsimp only
    split
    · exact ⟨rfl, rfl, rfl⟩
    · split
      · split <;> exact ⟨rfl, rfl, rfl⟩
      · exact ⟨rfl, rfl, rfl⟩

/-- The turns counted in the direction of the output. -/
def dirTurns (c : OutputConfig) (n : ℤ) : ℤ := if c.forward then n else -n

theorem relative_eq {A : Ar} (hA : Ar.Law3 A) {c : OutputConfig} {ρ : ℚ} (hc : Geared A c ρ)
    {src ref : ℕ → SourceStatus} {o : ℕ → OutputStatus} {v : ℕ → ℚ} {n : ℕ → ℤ}
    (ho : ∀ k, o (k + 1) = updateOutput A c (src k) (ref k) (o k))
    (hstart : (o 0).everValid = false ∧ (o 0).relativeRaw = 0)
    (hactive : ∀ k, (src k).activeVelocity = true) (hread : ∀ k, (src k).filtered = .fin (v k))
    (hrange : ∀ k, 0 ≤ v k ∧ v k ≤ c.cpr)
    (hmove : ∀ k, |(n (k + 1) + v (k + 1) / c.cpr) - (n k + v k / c.cpr)| ≤ maxMove ρ) (k : ℕ) :
    (o (k + 1)).relativeRaw =
      dirTurns c (n k - n 0) * c.step A + (code A c (.fin (v k)) - code A c (.fin (v 0))) := by
  have inv : ∀ k, (o (k + 1)).everValid = true ∧
      (o (k + 1)).relativeRaw = (o (k + 1)).modulo + code A c (.fin (v k)) ∧
      (o (k + 1)).modulo = -code A c (.fin (v 0)) + dirTurns c (n k - n 0) * c.step A := by
    intro k
    induction k with
    | zero =>
      rw [ho 0]
      unfold updateOutput
      rw [if_pos (hactive 0)]
      obtain ⟨e1, e2, e3⟩ := reference_relative A c (src 0) (ref 0) (follow A c (src 0) (o 0))
      rw [e1, e2, e3]
      unfold follow
      simp only [hstart.1, hstart.2, hread 0, Bool.false_eq_true, if_false, true_and]
      have h := nextModulo_eq hA hc (hrange 0).1 (hrange 0).2 (hrange 0).1 (hrange 0).2
        (-code A c (.fin (v 0))) 0 0 (by
          rw [sub_self, abs_zero]; linarith [(move_bounds hc).1])
      rw [neg_add_cancel] at h
      rw [h]
      simp [dirTurns]
    | succ k ih =>
      obtain ⟨i1, i2, i3⟩ := ih
      rw [ho (k + 1)]
      unfold updateOutput
      rw [if_pos (hactive _)]
      obtain ⟨e1, e2, e3⟩ := reference_relative A c (src (k + 1)) (ref (k + 1))
        (follow A c (src (k + 1)) (o (k + 1)))
      rw [e1, e2, e3]
      unfold follow
      simp only [i1, if_true, hread (k + 1), true_and]
      have hm := hmove k
      have h := nextModulo_eq hA hc (hrange k).1 (hrange k).2 (hrange (k + 1)).1 (hrange (k + 1)).2
        (o (k + 1)).modulo (dirTurns c (n k)) (dirTurns c (n (k + 1))) (by
          unfold dirTurn dirTurns
          cases c.forward
          · simp only [Bool.false_eq_true, if_false]
            push_cast
            rw [← abs_neg]
            refine le_trans (le_of_eq ?_) hm
            congr 1
            ring
          · simpa using hm)
      rw [← i2] at h
      rw [h, i3]
      unfold dirTurns
      cases c.forward
      · simp only [Bool.false_eq_true, if_false]; ring
      · simp only [if_true]; ring
  obtain ⟨_, i2, i3⟩ := inv k
  rw [i2, i3]
  ring

/-- C38: the relative position is the true number of turns times the size of a
turn, plus a number that only depends on the reading.

`x k` is the true position of the encoder in turns, with any number of whole
turns `n k`; the reading `v k` is the rest, in counts. -/
theorem C38_follows_partial (A : Ar) (hA : Ar.Law3 A) (c : OutputConfig) (ρ : ℚ) (hc : Geared A c ρ)
    (src ref : ℕ → SourceStatus) (o : ℕ → OutputStatus) (v : ℕ → ℚ) (n : ℕ → ℤ)
    (ho : ∀ k, o (k + 1) = updateOutput A c (src k) (ref k) (o k))
    (hstart : (o 0).everValid = false ∧ (o 0).relativeRaw = 0)
    (hactive : ∀ k, (src k).activeVelocity = true) (hread : ∀ k, (src k).filtered = .fin (v k))
    (hrange : ∀ k, 0 ≤ v k ∧ v k ≤ c.cpr)
    (hmove : ∀ k, |(n (k + 1) + v (k + 1) / c.cpr) - (n k + v k / c.cpr)| ≤ maxMove ρ) :
    ∃ (turn : ℤ) (pos : ℚ → ℤ), |(turn : ℚ) - 2 ^ 48 * ρ| < 2 ^ 24 ∧
      (∀ w : ℚ, 0 ≤ w → w ≤ c.cpr → |(pos w : ℚ) - 2 ^ 48 * (ρ * dirTurn c w)| ≤ 2 ^ 24 + 2 ^ 39 * ρ) ∧
      ∀ k, (o (k + 1)).relativeRaw = dirTurns c (n k - n 0) * turn + (pos (v k) - pos (v 0)) := by
  have hC := hc.C_pos
  refine ⟨c.step A, fun w => code A c (.fin w), ?_, ?_, ?_⟩
  · rw [step_eq hA hc]
    obtain ⟨h1, h2, _, _⟩ := stepTicks_bounds hc
    push_cast
    rw [abs_lt]
    constructor <;> linarith
  · intro w h0 h1
    simp only [code_eq hA hc h0 h1]
    have hρ := hc.ρ_pos
    have hr := dirTurn_range hc h0 h1
    have t1 := @ticks_le A c ρ w
    have t2 := @lt_ticks A c ρ w
    have key : |scaled A c ρ w - ρ * dirTurn c w| ≤ ρ / 512 := by
      by_cases hb : 1 / 1024 ≤ dirTurn c w
      · have k1 := scaled_le hA hc h0 h1 le_rfl hb
        have k2 := le_scaled hA hc le_rfl hb
        rw [abs_le]
        constructor <;> nlinarith
      · have k1 := scaled_le hA hc h0 h1 (not_le.mp hb).le le_rfl
        have k2 := (scaled_range hA hc h0 h1).1
        have k3 : ρ * dirTurn c w ≤ ρ * (1 / 1024) := by nlinarith [not_le.mp hb]
        have k4 : 0 ≤ ρ * dirTurn c w := by nlinarith
        rw [abs_le]
        constructor <;> linarith
    rw [abs_le] at key
    push_cast
    rw [abs_le]
    constructor <;> linarith [key.1, key.2]
  · exact relative_eq hA hc ho hstart hactive hread hrange hmove

/-- Without a fractional part in units of 2^-24 turns (in particular without a
reduction) a turn is exact. -/
theorem C38_exact_turn_partial (A : Ar) (hA : Ar.Law3 A) (c : OutputConfig) (ρ : ℚ) (hc : Geared A c ρ)
    (z : ℤ) (hz : 16777216 * ρ = z)
    (src ref : ℕ → SourceStatus) (o : ℕ → OutputStatus) (v : ℕ → ℚ) (n : ℕ → ℤ)
    (ho : ∀ k, o (k + 1) = updateOutput A c (src k) (ref k) (o k))
    (hstart : (o 0).everValid = false ∧ (o 0).relativeRaw = 0)
    (hactive : ∀ k, (src k).activeVelocity = true) (hread : ∀ k, (src k).filtered = .fin (v k))
    (hrange : ∀ k, 0 ≤ v k ∧ v k ≤ c.cpr)
    (hmove : ∀ k, |(n (k + 1) + v (k + 1) / c.cpr) - (n k + v k / c.cpr)| ≤ maxMove ρ) :
    ∀ j k, v j = v k →
      ((o (j + 1)).relativeRaw : ℚ) - (o (k + 1)).relativeRaw = dirTurns c (n j - n k) * (2 ^ 48 * ρ) := by
  intro j k hjk
  rw [relative_eq hA hc ho hstart hactive hread hrange hmove j,
    relative_eq hA hc ho hstart hactive hread hrange hmove k, step_eq hA hc, hjk]
  have hs : stepTicks ρ = z := by
    unfold stepTicks
    rw [hz]
    exact Rat.floor_intCast z
  rw [hs]
  have : (2 : ℚ) ^ 48 * ρ = 16777216 * z := by rw [← hz]; ring
  rw [this]
  unfold dirTurns
  cases c.forward
  · simp only [Bool.false_eq_true, if_false]; push_cast; ring
  · simp only [if_true]; push_cast; ring

/-- Once the output position was set, it follows the relative position. -/
theorem C38_output_follows (A : Ar) (c : OutputConfig) (src ref : ℕ → SourceStatus)
    (o : ℕ → OutputStatus) (ho : ∀ k, o (k + 1) = updateOutput A c (src k) (ref k) (o k))
    (hstart : (o 0).homed = .output) (hactive : ∀ k, (src k).activeVelocity = true) :
    ∀ k, (o k).homed = .output ∧ (o k).raw - (o k).relativeRaw = (o 0).raw - (o 0).relativeRaw := by
  intro k
  induction k with
  | zero => exact ⟨hstart, rfl⟩
  | succ k ih =>
    obtain ⟨i1, i2⟩ := ih
    rw [ho k]
    unfold updateOutput
    rw [if_pos (hactive k)]
    have hf : (follow A c (src k) (o k)).homed = .output ∧
        (follow A c (src k) (o k)).raw - (follow A c (src k) (o k)).relativeRaw =
          (o k).raw - (o k).relativeRaw := by
      unfold follow
      simp only [i1, reduceCtorEq, and_false, if_false, true_and]
      ring
    generalize follow A c (src k) (o k) = p at hf
    obtain ⟨h1, h2⟩ := hf
    rw [← i2, ← h2]
    unfold reference
    rw [if_neg (by simp [hactive k])]
    cases c.reference with
    | none => exact ⟨h1, rfl⟩
    | some cpr =>
      dsimp only
      split
      · simp only [h1, and_self]
      · exact ⟨h1, rfl⟩

/-! ## Runs -/

/-- A source that reads `v`. -/
def reads (v : ℚ) : SourceStatus :=
  { SourceStatus.init with activeVelocity := true, filtered := .fin v }

/-- The output over a sequence of readings. -/
def outputRun (A : Ar) (c : OutputConfig) (v : ℕ → ℚ) : ℕ → OutputStatus
  | 0 => .init
  | k + 1 => updateOutput A c (reads (v k)) .init (outputRun A c v k)

/-- An encoder of 16384 counts on the rotor. -/
def rotorEncoder (forward : Bool) (ratio : ℚ) : OutputConfig :=
  ⟨16384, true, .fin 0, forward, .fin ratio, none⟩

theorem rotor_geared {A : Ar} (forward : Bool) {ρ : ℚ} (h : A.Rep ρ) (h0 : 1 / 4096 ≤ ρ) (h1 : ρ ≤ 64) :
    Geared A (rotorEncoder forward ρ) ρ :=
  ⟨show 0 < 16384 by decide, show 16384 ≤ 2 ^ 24 by decide, rfl, h, h0, h1⟩

/-- An eighth of a turn between samples, forever. -/
def eighths (k : ℕ) : ℚ := ((k % 8 : ℕ) : ℚ) * 2048

theorem eighths_range (k : ℕ) : 0 ≤ eighths k ∧ eighths k ≤ 16384 := by
  unfold eighths
  have : ((k % 8 : ℕ) : ℚ) ≤ 7 := by exact_mod_cast (by omega : k % 8 ≤ 7)
  have h0 : (0 : ℚ) ≤ ((k % 8 : ℕ) : ℚ) := by positivity
  constructor <;> linarith

theorem eighths_turns (k : ℕ) : (((k / 8 : ℕ) : ℤ) : ℚ) + eighths k / 16384 = (k : ℚ) / 8 := by
  unfold eighths
  have : ((8 * (k / 8) + k % 8 : ℕ) : ℚ) = k := by exact_mod_cast Nat.div_add_mod k 8
  rw [Int.cast_natCast]
  push_cast at this
  linarith

theorem eighths_move (ρ : ℚ) (h : 1 / 4096 ≤ ρ) (k : ℕ) :
    |((((k + 1) / 8 : ℕ) : ℤ) + eighths (k + 1) / 16384) - (((k / 8 : ℕ) : ℤ) + eighths k / 16384)|
      ≤ maxMove ρ := by
  rw [eighths_turns, eighths_turns]
  have hp : (0 : ℚ) < ρ := lt_of_lt_of_le (by norm_num) h
  have h3 : 1 / (32768 * ρ) ≤ 1 / 8 := by
    rw [div_le_div_iff₀ (by positivity) (by norm_num)]; linarith
  unfold maxMove
  push_cast
  rw [show ((k : ℚ) + 1) / 8 - k / 8 = 1 / 8 by ring, abs_of_pos (by norm_num)]
  linarith

/-- The hypotheses of `C38_follows_partial` are met by an encoder that turns
forever, in both directions of the output. -/
example (forward : Bool) :
    Geared Ar.single (rotorEncoder forward 1) 1 ∧
    (∀ k, outputRun Ar.single (rotorEncoder forward 1) eighths (k + 1) =
      updateOutput Ar.single (rotorEncoder forward 1) (reads (eighths k)) .init
        (outputRun Ar.single (rotorEncoder forward 1) eighths k)) ∧
    (∀ k, 0 ≤ eighths k ∧ eighths k ≤ (rotorEncoder forward 1).cpr) ∧
    (∀ k : ℕ, |((((k + 1) / 8 : ℕ) : ℤ) + eighths (k + 1) / (rotorEncoder forward 1).cpr) -
      (((k / 8 : ℕ) : ℤ) + eighths k / (rotorEncoder forward 1).cpr)| ≤ maxMove 1) := by
  refine ⟨rotor_geared forward ?_ (by norm_num) (by norm_num), fun _ => rfl, eighths_range,
    eighths_move 1 (by norm_num)⟩
  have := Ar.single_law3.rep_int (n := 1) (by norm_num)
  simpa using this

/-- A motion of 0.26 turns is taken for a motion of 0.74 turns the other way. -/
theorem C38_half_turn_refuted :
    let c := rotorEncoder true 1
    let v : ℕ → ℚ := fun k => if k = 0 then 4200 else 16324
    -- from 4200 back by 4260 counts
    (4200 - 4260 : ℚ) / 16384 = -1 + v 1 / 16384 ∧ (4260 : ℚ) / 16384 < 1 / 2 ∧
    -- but the position goes up by 12124 counts
    (outputRun Ar.single c v 2).relativeRaw - (outputRun Ar.single c v 1).relativeRaw =
      12124 * (2 ^ 48 / 16384) := by
  refine ⟨by norm_num, by norm_num, ?_⟩
  decide +kernel

/-- `0.1f` -/
def tenth : ℚ := 13421773 / 134217728

theorem tenth_rep : Ar.single.Rep tenth := by
  constructor <;> decide +kernel

/-- With a reduction of 0.1 the position drifts away from the true position:
there is no bound on the error. -/
theorem C38_gear_drift_refuted (D : ℚ) : ∃ k : ℕ,
    D < |((outputRun Ar.single (rotorEncoder true tenth) eighths (k + 1)).relativeRaw : ℚ) -
      2 ^ 48 * (tenth * (k / 8))| := by
  have hA := Ar.single_law3
  have hc := rotor_geared (A := Ar.single) true tenth_rep (by decide +kernel) (by decide +kernel)
  obtain ⟨N, hN⟩ := exists_nat_gt (max D 0)
  refine ⟨8 * N, ?_⟩
  have h := relative_eq hA hc (src := fun k => reads (eighths k)) (ref := fun _ => .init)
    (o := outputRun Ar.single (rotorEncoder true tenth) eighths) (v := eighths)
    (n := fun k => ((k / 8 : ℕ) : ℤ)) (fun _ => rfl) ⟨rfl, rfl⟩ (fun _ => rfl) (fun _ => rfl)
    eighths_range (eighths_move tenth (by decide +kernel)) (8 * N)
  have e : eighths (8 * N) = eighths 0 := by
    unfold eighths; simp
  rw [e, sub_self, add_zero, step_eq hA hc] at h
  rw [h]
  have hs : stepTicks tenth = 1677721 := by decide +kernel
  rw [hs]
  simp only [dirTurns, rotorEncoder, if_true, Nat.mul_div_cancel_left N (show 0 < 8 by norm_num),
    Nat.zero_div, Nat.cast_zero, sub_zero]
  unfold tenth
  push_cast
  rw [show (N : ℚ) * 28147487604736 - 2 ^ 48 * (13421773 / 134217728 * (8 * N / 8)) =
    -(N * 10485760) by ring, abs_neg, abs_of_nonneg (by positivity)]
  have h1 : D < N := lt_of_le_of_lt (le_max_left _ _) hN
  have h2 : (0 : ℚ) < N := lt_of_le_of_lt (le_max_right _ _) hN
  linarith

end Verif.Fw
