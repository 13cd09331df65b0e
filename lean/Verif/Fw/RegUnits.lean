import Verif.Fw.Registers
import Verif.Commands.Lemmas
import Verif.Multiplex.ValueProps

/-!
# Client and controller use the same unit for each register (C47)

Numeric part: what the controller makes of an integer that the client sent,
and the client of an integer that the controller sent.
-/

namespace Verif.Fw.Registers

open Verif Verif.Float Verif.Multiplex Verif.Multiplex.Spec Verif.Commands Verif.Commands.Spec

/-! ## Specification -/

/-- `v` limited to the range that an integer register of type `r` can
express. -/
def clampTo (k : Kind) (r : Res) (v : ℚ) : ℚ :=
  max (-(top r * lsb k r)) (min (top r * lsb k r) v)

/-- `y` is `x` as it arrives through an integer register of kind `k` and type
`r`: the same number up to one LSB of the documented unit and the precision
of a single, limited to the range; NaN for what is not finite. -/
def ArrivesInt (k : Kind) (r : Res) (y : Fl) : Fl → Prop
  | .fin v => ∃ w, y = .fin w ∧
      |w - clampTo k r v| ≤ lsb k r * (1 + 1 / 2 ^ 10) + |clampTo k r v| / 2 ^ 22
  | _ => y = .nan

/-- The same for every type; as a float, `y` is the nearest single. -/
def Arrives (k : Kind) (r : Res) (x y : Fl) : Prop :=
  match r with
  | .f32 => y = single x
  | r => ArrivesInt k r y x

/-! ## The scales -/

theorem lsb_bounds (k : Kind) (r : Res) : 1 / 2147483647 ≤ lsb k r ∧ lsb k r ≤ 10 := by
  cases k <;> cases r <;> norm_num [lsb]

theorem lsb_pos (k : Kind) (r : Res) : 0 < lsb k r :=
  lt_of_lt_of_le (by norm_num) (lsb_bounds k r).1

/-- Every scale with which the controller encodes is the single nearest to
the documented unit. -/
theorem fscale_eq (k : Kind) (r : Res) (hr : r ≠ .f32) :
    fscale k r = .fin (b32.roundQ (lsb k r)) := by
  cases k <;> cases r <;> first | exact absurd rfl hr | decide +kernel

/-- Every scale with which the controller decodes is the single nearest to
the documented unit. -/
theorem rscale_eq (k : Kind) (r : Res) (hr : r ≠ .f32) (h1 : k ≠ .temperature) (h2 : k ≠ .power) :
    rscale k r = .fin (b32.roundQ (lsb k r)) := by
  cases k <;> cases r <;>
    first | exact absurd rfl hr | exact absurd rfl h1 | exact absurd rfl h2 | decide +kernel

theorem b32_err (x : ℚ) : |b32.roundQ x - x| ≤ |x| / 2 ^ 24 + 1 / 2 ^ 150 := by
  by_cases h : pow2 (b32.emin + b32.prec - 1) ≤ |x|
  · have h1 := roundQ_rel_err h
    have h2 : pow2 (-(b32.prec : ℤ)) = 1 / 2 ^ 24 := by rw [pow2_eq]; norm_num [b32]
    rw [h2] at h1
    have : (0 : ℚ) < 1 / 2 ^ 150 := by positivity
    linarith
  · have h1 := roundQ_err b32 x
    have h2 := ulp_le (f := b32) (x := x) (k := b32.emin + b32.prec) (by
      refine (not_le.mp h).trans_le (pow2_le (by omega))) (by omega)
    have h3 : pow2 (b32.emin + b32.prec - b32.prec) = 1 / 2 ^ 149 := by rw [pow2_eq]; norm_num [b32]
    rw [h3] at h2
    have h4 : (0 : ℚ) ≤ |x| / 2 ^ 24 := by positivity
    have h5 : (1 : ℚ) / 2 ^ 149 / 2 = 1 / 2 ^ 150 := by norm_num
    linarith

theorem b32_rel {x : ℚ} (h : 1 / 2 ^ 100 ≤ |x|) : |b32.roundQ x - x| ≤ |x| / 2 ^ 24 := by
  have h1 := roundQ_rel_err (f := b32) (x := x) (le_trans (by
    rw [pow2_eq]; simp only [b32]; rw [show ((-149 : ℤ) + (24 : ℕ) - 1) = -126 by norm_num]
    rw [zpow_neg]
    rw [← one_div]
    apply one_div_le_one_div_of_le (by positivity)
    exact_mod_cast (by norm_num : (2:ℕ) ^ 100 ≤ 2 ^ 126)) h)
  have h2 : pow2 (-(b32.prec : ℤ)) = 1 / 2 ^ 24 := by rw [pow2_eq]; norm_num [b32]
  rw [h2] at h1
  linarith

theorem b64_rel {x : ℚ} (h : 1 / 2 ^ 100 ≤ |x|) : |b64.roundQ x - x| ≤ |x| / 2 ^ 53 := by
  have h1 := roundQ_rel_err (f := b64) (x := x) (le_trans (by
    have e : pow2 (-100) = 1 / 2 ^ 100 := by rw [pow2_eq]; norm_num
    rw [← e]
    exact pow2_le (by decide)) h)
  have h2 : pow2 (-(b64.prec : ℤ)) = 1 / 2 ^ 53 := by rw [pow2_eq]; norm_num [b64]
  rw [h2] at h1
  linarith

theorem lsb_big (k : Kind) (r : Res) : 1 / 2 ^ 100 ≤ |lsb k r| := by
  rw [abs_of_pos (lsb_pos k r)]
  exact le_trans (by norm_num) (lsb_bounds k r).1

theorem fsc (k : Kind) (r : Res) : |b32.roundQ (lsb k r) - lsb k r| ≤ lsb k r / 2 ^ 24 := by
  have := b32_rel (lsb_big k r)
  rwa [abs_of_pos (lsb_pos k r)] at this

theorem dsc (k : Kind) (r : Res) : |step k r - lsb k r| ≤ lsb k r / 2 ^ 53 := by
  have := b64_rel (lsb_big k r)
  rwa [abs_of_pos (lsb_pos k r)] at this

theorem top_bound (r : Res) : (0 : ℚ) ≤ top r ∧ (top r : ℚ) ≤ 2147483647 := by
  cases r <;> norm_num [top]

theorem single_fin {x : ℚ} (h : |x| ≤ pow2 127) : Ar.single.rnd x = .fin (b32.roundQ x) := by
  have := Ar.single_small h
  unfold Ar.rnd
  rw [this]
  rfl

theorem big127 : (2 : ℚ) ^ 64 ≤ pow2 127 := by rw [pow2_eq]; norm_num

/-! ## Decoding by the controller -/

/-- The product computed by `ValueScaler`. -/
theorem scaler (n : Int) (hn : |n| ≤ 2147483647) {l s : ℚ} (hl : 1 / 2147483647 ≤ l) (hl2 : l ≤ 10)
    (hs : |s - l| ≤ l / 2 ^ 24) :
    ∃ w, Ar.single.mul (Ar.single.lit n) (.fin s) = .fin w ∧ |w - n * l| ≤ |n * l| / 2 ^ 22 := by
  have hlp : 0 < l := lt_of_lt_of_le (by norm_num) hl
  have hnq : |(n : ℚ)| ≤ 2147483647 := by exact_mod_cast hn
  obtain ⟨s1, s2⟩ := abs_le.mp hs
  have hsp : 0 < s := by nlinarith
  have hlit : Ar.single.lit n = .fin (b32.roundQ n) :=
    single_fin (le_trans (hnq.trans (by norm_num)) big127)
  rw [hlit]
  show ∃ w, Ar.single.rnd (b32.roundQ n * s) = .fin w ∧ _
  by_cases h0 : n = 0
  · subst h0
    refine ⟨0, ?_, by simp⟩
    simp only [Int.cast_zero, roundQ_zero, zero_mul]
    rw [single_fin (by simpa using (pow2_pos 127).le), roundQ_zero]
  · have hone : (1 : ℚ) ≤ |(n : ℚ)| := by
      have : (1 : ℤ) ≤ |n| := Int.one_le_abs h0
      exact_mod_cast this
    have e1 := b32_rel (x := n) (le_trans (by norm_num) hone)
    set N := |(n : ℚ)| with hN
    set a := b32.roundQ (n : ℚ) with ha
    have ha1 : |a| ≤ N * (1 + 1 / 2 ^ 24) := by
      have := abs_sub_abs_le_abs_sub a n
      linarith
    have ha2 : N * (1 - 1 / 2 ^ 24) ≤ |a| := by
      have := abs_sub_abs_le_abs_sub (n : ℚ) a
      rw [abs_sub_comm] at this
      linarith
    have hsu : s ≤ l * (1 + 1 / 2 ^ 24) := by linarith
    have hsl : l * (1 - 1 / 2 ^ 24) ≤ s := by linarith
    have hp1 : |a * s| ≤ N * l * ((1 + 1 / 2 ^ 24) * (1 + 1 / 2 ^ 24)) := by
      rw [abs_mul, abs_of_pos hsp]
      calc |a| * s ≤ (N * (1 + 1 / 2 ^ 24)) * (l * (1 + 1 / 2 ^ 24)) := by gcongr
        _ = _ := by ring
    have hNl : 0 < N * l := by positivity
    have hp2 : 1 / 2 ^ 100 ≤ |a * s| := by
      rw [abs_mul, abs_of_pos hsp]
      calc (1 : ℚ) / 2 ^ 100 ≤ (1 * (1 - 1 / 2 ^ 24)) * (1 / 2147483647 * (1 - 1 / 2 ^ 24)) := by norm_num
        _ ≤ |a| * s := by
          apply mul_le_mul _ _ (by norm_num) (abs_nonneg _)
          · exact le_trans (by nlinarith) ha2
          · exact le_trans (by nlinarith) hsl
    have hfin := single_fin (x := a * s) (by
      refine le_trans hp1 (le_trans ?_ big127)
      calc N * l * ((1 + 1 / 2 ^ 24) * (1 + 1 / 2 ^ 24)) ≤ 2147483647 * 10 * ((1 + 1 / 2 ^ 24) * (1 + 1 / 2 ^ 24)) := by
            gcongr
        _ ≤ 2 ^ 64 := by norm_num)
    refine ⟨_, hfin, ?_⟩
    have e2 := b32_rel hp2
    have e3 : |a * s - n * l| ≤ N * l * ((1 + 1 / 2 ^ 24) / 2 ^ 24 + 1 / 2 ^ 24) := by
      have : a * s - n * l = a * (s - l) + (a - n) * l := by ring
      rw [this]
      refine (abs_add_le _ _).trans ?_
      rw [abs_mul, abs_mul, abs_of_pos hlp]
      calc |a| * |s - l| + |a - n| * l
          ≤ (N * (1 + 1 / 2 ^ 24)) * (l / 2 ^ 24) + (N / 2 ^ 24) * l := by gcongr
        _ = _ := by ring
    have e4 : |b32.roundQ (a * s) - n * l| ≤
        N * l * ((1 + 1 / 2 ^ 24) * (1 + 1 / 2 ^ 24)) / 2 ^ 24 +
          N * l * ((1 + 1 / 2 ^ 24) / 2 ^ 24 + 1 / 2 ^ 24) := by
      have : b32.roundQ (a * s) - n * l = (b32.roundQ (a * s) - a * s) + (a * s - n * l) := by ring
      rw [this]
      refine (abs_add_le _ _).trans ?_
      have : |a * s| / 2 ^ 24 ≤ N * l * ((1 + 1 / 2 ^ 24) * (1 + 1 / 2 ^ 24)) / 2 ^ 24 := by gcongr
      linarith
    refine e4.trans ?_
    rw [abs_mul, abs_of_pos hlp, ← hN]
    nlinarith

/-- The value of an integer register. -/
def intValue : Res → Int → Value
  | .int8, n => .i8 n
  | .int16, n => .i16 n
  | _, n => .i32 n

theorem ofBytes_int {r : Res} (hr : r ≠ .f32) (b : Bytes) :
    Value.ofBytes r b = intValue r (unpackInt r b) := by
  cases r <;> first | exact absurd rfl hr | rfl

/-- Decoding of an integer that is not the NaN marker. -/
theorem readScale_int (k : Kind) (h1 : k ≠ .temperature) (h2 : k ≠ .power) (r : Res) (hr : r ≠ .f32)
    (n : Int) (hn : |n| ≤ top r) :
    ∃ w, readScale k (intValue r n) = .fin w ∧ |w - n * lsb k r| ≤ |n * lsb k r| / 2 ^ 22 := by
  obtain ⟨b1, b2⟩ := lsb_bounds k r
  obtain ⟨c1, c2⟩ := abs_le.mp hn
  have key : |n| ≤ 2147483647 → readScale k (intValue r n) =
      Ar.single.mul (Ar.single.lit n) (rscale k r) →
      ∃ w, readScale k (intValue r n) = .fin w ∧ |w - n * lsb k r| ≤ |n * lsb k r| / 2 ^ 22 := by
    intro hb h
    rw [h, rscale_eq k r hr h1 h2]
    exact scaler n hb b1 b2 (fsc k r)
  cases r with
  | int8 =>
    simp only [top] at hn c1 c2
    refine key (by omega) ?_
    show (if n = -128 then _ else _) = _
    rw [if_neg (by omega)]
  | int16 =>
    simp only [top] at hn c1 c2
    refine key (by omega) ?_
    show (if n = -32768 then _ else _) = _
    rw [if_neg (by omega)]
  | int32 =>
    simp only [top] at hn c1 c2
    refine key (by omega) ?_
    show (if n = -2147483648 then _ else _) = _
    rw [if_neg (by omega)]
  | f32 => exact absurd rfl hr

theorem readScale_marker (k : Kind) (r : Res) (hr : r ≠ .f32) :
    readScale k (intValue r (-top r - 1)) = .nan := by
  cases r <;> first | exact absurd rfl hr | rfl

theorem clampTo_mem {k : Kind} {r : Res} {v : ℚ} (h : |v| ≤ top r * lsb k r) : clampTo k r v = v := by
  obtain ⟨h1, h2⟩ := abs_le.mp h
  unfold clampTo
  rw [min_eq_right h2, max_eq_right h1]

theorem clampTo_above {k : Kind} {r : Res} {v : ℚ} (h : top r * lsb k r ≤ v) :
    clampTo k r v = top r * lsb k r := by
  unfold clampTo
  have : 0 ≤ top r * lsb k r := mul_nonneg (top_bound r).1 (lsb_pos k r).le
  rw [min_eq_left h, max_eq_right (by linarith)]

theorem clampTo_below {k : Kind} {r : Res} {v : ℚ} (h : v ≤ -(top r * lsb k r)) :
    clampTo k r v = -(top r * lsb k r) := by
  unfold clampTo
  have : 0 ≤ top r * lsb k r := mul_nonneg (top_bound r).1 (lsb_pos k r).le
  rw [min_eq_right (by linarith), max_eq_left h]

/-- What the client puts on the wire, in documented units. -/
theorem carries_units {k : Kind} {r : Res} {n : Int} {v : ℚ} (h : CarriesInt k r n (.fin v)) :
    |n * lsb k r - clampTo k r v| ≤ lsb k r * (1 + 1 / 2 ^ 20) := by
  obtain ⟨h1, -, -, h4, h5, h6, h7⟩ := h
  have hl := lsb_pos k r
  obtain ⟨t1, t2⟩ := top_bound r
  obtain ⟨d1, d2⟩ := abs_le.mp (dsc k r)
  set l := lsb k r with hldef
  set S := step k r
  have htS : |(top r : ℚ) * S - top r * l| ≤ l / 2 ^ 22 := by
    rw [← mul_sub, abs_mul, abs_of_nonneg t1]
    calc (top r : ℚ) * |S - l| ≤ 2147483647 * (l / 2 ^ 53) := by
          gcongr
          exact dsc k r
      _ ≤ l / 2 ^ 22 := by nlinarith
  obtain ⟨u1, u2⟩ := abs_le.mp htS
  have hn : |(n : ℚ)| ≤ top r := by
    have : |n| ≤ top r := abs_le.mpr ⟨h6, h7⟩
    exact_mod_cast this
  have hnS : |(n : ℚ) * l - n * S| ≤ l / 2 ^ 22 := by
    rw [← mul_sub, abs_mul, abs_sub_comm]
    calc |(n : ℚ)| * |S - l| ≤ 2147483647 * (l / 2 ^ 53) := by
          gcongr
          · linarith
          · exact dsc k r
      _ ≤ l / 2 ^ 22 := by nlinarith
  by_cases hv : |v| ≤ top r * S
  · have e1 := (h1 hv).le
    have e2 : |v - clampTo k r v| ≤ l / 2 ^ 22 := by
      by_cases hv2 : |v| ≤ top r * l
      · rw [clampTo_mem hv2, sub_self, abs_zero]; positivity
      · rcases le_or_gt 0 v with h0 | h0
        · rw [abs_of_nonneg h0] at hv hv2
          rw [clampTo_above (not_le.mp hv2).le, abs_of_nonneg (by linarith [not_le.mp hv2])]
          linarith
        · rw [abs_of_neg h0] at hv hv2
          rw [clampTo_below (by linarith [not_le.mp hv2]), abs_of_nonpos (by linarith [not_le.mp hv2])]
          linarith
    have : n * l - clampTo k r v = (n * l - n * S) + (n * S - v) + (v - clampTo k r v) := by ring
    rw [this]
    refine (abs_add_le _ _).trans ?_
    have := abs_add_le ((n:ℚ) * l - n * S) (n * S - v)
    rw [abs_sub_comm v] at e1
    have e5 : S ≤ l * (1 + 1 / 2 ^ 53) := by linarith
    have e6 : l / 2 ^ 22 + l * (1 + 1 / 2 ^ 53) + l / 2 ^ 22 ≤ l * (1 + 1 / 2 ^ 20) := by
      have : l * (1 + 1 / 2 ^ 20) = l + l / 2 ^ 22 * 4 := by ring
      have : l * (1 + 1 / 2 ^ 53) ≤ l + l / 2 ^ 22 := by
        have : l * (1 + 1 / 2 ^ 53) = l + l / 2 ^ 53 := by ring
        have : l / 2 ^ 53 ≤ l / 2 ^ 22 := by gcongr <;> norm_num
        linarith
      linarith
    linarith
  · rcases le_or_gt 0 v with h0 | h0
    · rw [abs_of_nonneg h0] at hv
      rw [h4 (not_le.mp hv).le]
      have e : |(top r : ℚ) * l - clampTo k r v| ≤ l / 2 ^ 22 := by
        by_cases hv2 : top r * l ≤ v
        · rw [clampTo_above hv2, sub_self, abs_zero]; positivity
        · rw [clampTo_mem (by rw [abs_of_nonneg h0]; linarith), abs_le]
          constructor <;> linarith
      refine e.trans ?_
      have : l * (1 + 1 / 2 ^ 20) = l + l / 2 ^ 22 * 4 := by ring
      have : 0 < l / 2 ^ 22 := by positivity
      linarith
    · rw [abs_of_neg h0] at hv
      rw [h5 (by linarith [not_le.mp hv])]
      have e : |((-top r : ℤ) : ℚ) * l - clampTo k r v| ≤ l / 2 ^ 22 := by
        push_cast
        by_cases hv2 : v ≤ -(top r * l)
        · rw [clampTo_below hv2, show -(top r : ℚ) * l - -(top r * l) = 0 by ring, abs_zero]; positivity
        · rw [clampTo_mem (by rw [abs_of_neg h0]; linarith), abs_le]
          constructor <;> linarith
      refine e.trans ?_
      have : l * (1 + 1 / 2 ^ 20) = l + l / 2 ^ 22 * 4 := by ring
      have : 0 < l / 2 ^ 22 := by positivity
      linarith

/-- C47, commands: what the client encodes with its scale, the controller
decodes with the same unit, for every kind of quantity that can be commanded,
every type and every value. -/
theorem C47_command_unit (k : Kind) (h1 : k ≠ .temperature) (h2 : k ≠ .power) (r : Res) (x : Fl)
    (b : Bytes) (h : Carries k r x b) : Arrives k r x (readScale k (.ofBytes r b)) := by
  by_cases hr : r = .f32
  · subst hr; exact h.2
  · have hc : CarriesInt k r (unpackInt r b) x := by
      have := h.2
      cases r <;> first | exact absurd rfl hr | exact this
    rw [ofBytes_int hr]
    generalize unpackInt r b = n at hc
    have goal : ArrivesInt k r (readScale k (intValue r n)) x := by
      clear h
      match x, hc with
      | .nan, hc => rw [show n = -top r - 1 from hc]; exact readScale_marker k r hr
      | .inf _, hc => rw [show n = -top r - 1 from hc]; exact readScale_marker k r hr
      | .fin v, hc =>
        have hn : |n| ≤ top r := abs_le.mpr ⟨hc.2.2.2.2.2.1, hc.2.2.2.2.2.2⟩
        obtain ⟨w, e1, e2⟩ := readScale_int k h1 h2 r hr n hn
        refine ⟨w, e1, ?_⟩
        have e3 := carries_units hc
        have hl := lsb_pos k r
        set c := clampTo k r v
        set l := lsb k r
        have e4 : |(n : ℚ) * l| ≤ |c| + l * (1 + 1 / 2 ^ 20) := by
          have := abs_sub_abs_le_abs_sub ((n : ℚ) * l) c
          linarith
        have e5 : |w - c| ≤ |w - n * l| + |n * l - c| := by
          have : w - c = (w - n * l) + (n * l - c) := by ring
          rw [this]; exact abs_add_le _ _
        have e6 : |(n : ℚ) * l| / 2 ^ 22 ≤ (|c| + l * (1 + 1 / 2 ^ 20)) / 2 ^ 22 := by gcongr
        nlinarith
    cases r <;> first | exact absurd rfl hr | exact goal

/-! ## Encoding by the controller -/

theorem truncQ_near (t : ℚ) : |(truncQ t : ℚ) - t| ≤ 1 := by
  unfold truncQ
  split
  · have h1 := Int.floor_le t
    have h2 := Int.lt_floor_add_one t
    rw [abs_le]; constructor <;> linarith
  · have h1 := Int.le_ceil t
    have h2 := Int.ceil_lt_add_one t
    rw [abs_le]; constructor <;> linarith

/-- The limited quotient computed by `ScaleSaturate`. -/
theorem quotient_limit {M : ℤ} (hM0 : 0 < M) (hM : M ≤ 2147483648) (hrep : b32.roundQ M = M) (q : ℚ) :
    ∃ t : ℚ, Fl.limit (Ar.single.rnd q) (.fin (-M)) (.fin M) = .fin t ∧ -(M : ℚ) ≤ t ∧ t ≤ M ∧
      (|q| ≤ M → t = b32.roundQ q) ∧ (M < q → t = M) ∧ (q < -M → t = -M) := by
  have hMq : (M : ℚ) ≤ 2147483648 := by exact_mod_cast hM
  have hM0q : (0 : ℚ) < M := by exact_mod_cast hM0
  have hMb : (M : ℚ) ≤ pow2 127 := le_trans (hMq.trans (by norm_num)) big127
  have hneg : b32.roundQ (-(M : ℚ)) = -M := by rw [roundQ_neg, hrep]
  rcases lt_or_ge (M : ℚ) q with h1 | h1
  · refine ⟨M, ?_, by linarith, le_refl _, fun h => ?_, fun _ => rfl, fun h => ?_⟩
    · have hr := le_roundQ_of_le (f := b32) (by decide) hrep h1.le
      unfold Ar.rnd
      split
      · have : ¬ q < 0 := by linarith
        simp [this, Fl.limit, Fl.blt, Fl.ble]
      · rw [Fl.limit_fin]
        rw [show Ar.single.rq q = b32.roundQ q from rfl]
        rw [if_neg (by linarith)]
        split
        · rfl
        · congr 1; linarith
    · rw [abs_le] at h; linarith
    · linarith
  · rcases lt_or_ge q (-(M : ℚ)) with h2 | h2
    · refine ⟨-M, ?_, le_refl _, by linarith, fun h => ?_, fun h => ?_, fun _ => rfl⟩
      · have hr := roundQ_le_of_le (f := b32) (by decide) hneg h2.le
        unfold Ar.rnd
        split
        · have : q < 0 := by linarith
          simp [this, Fl.limit, Fl.blt, Fl.ble]
        · rw [Fl.limit_fin]
          rw [show Ar.single.rq q = b32.roundQ q from rfl]
          split
          · rfl
          · rw [if_neg (by linarith)]; congr 1; linarith
      · rw [abs_le] at h; linarith
      · linarith
    · have hq : |q| ≤ M := abs_le.mpr ⟨h2, h1⟩
      have e1 := roundQ_le_of_le (f := b32) (by decide) hrep h1
      have e2 := le_roundQ_of_le (f := b32) (by decide) hneg h2
      refine ⟨b32.roundQ q, ?_, e2, e1, fun _ => rfl, fun h => by linarith, fun h => by linarith⟩
      rw [single_fin (hq.trans hMb), Fl.limit_fin, if_neg (by linarith), if_neg (by linarith)]

set_option maxHeartbeats 1000000 in
/-- The integer computed by `ScaleSaturate` for a finite value. -/
theorem saturate_core {m M : ℤ} (hm : 0 < m) (hmM : m ≤ M) (hM1 : (M : ℚ) ≤ m * (1 + 1 / 2 ^ 30))
    (hM : M ≤ 2147483648) (hm2 : m ≤ 2147483647) (hcase : M = m ∨ M = 2147483648)
    (hrep : b32.roundQ M = M) (hlit : Ar.single.lit m = .fin M)
    {l s : ℚ} (hl : 0 < l) (hs : |s - l| ≤ l / 2 ^ 24) (v : ℚ)
    (hv : M = 2147483648 → -(2147483000 * l) ≤ v) :
    |scaleSaturate m (.fin v) (.fin s)| ≤ m ∧
    |scaleSaturate m (.fin v) (.fin s) * l - max (-(m * l)) (min (m * l) v)| ≤
      l * (1 + 1 / 2 ^ 20) + |max (-(m * l)) (min (m * l) v)| * (33 / 10 / 2 ^ 24) := by
  obtain ⟨s1, s2⟩ := abs_le.mp hs
  have hsl : l * (1 - 1 / 2 ^ 24) ≤ s := by linarith
  have hsu : s ≤ l * (1 + 1 / 2 ^ 24) := by linarith
  have hsp : 0 < s := lt_of_lt_of_le (by linarith) hsl
  have hmq : (0 : ℚ) < m := by exact_mod_cast hm
  have hmMq : (m : ℚ) ≤ M := by exact_mod_cast hmM
  obtain ⟨t, ht, ht1, ht2, t3, t4, t5⟩ := quotient_limit (lt_of_lt_of_le hm hmM) hM hrep (v / s)
  set q := v / s with hq
  have hvq : v = q * s := by rw [hq]; field_simp
  set n := scaleSaturate m (.fin v) (.fin s) with hn
  have hn' : n = max (-2147483648) (min 2147483647 (truncQ t)) := by
    have : n = castI32 (Fl.limit (Ar.single.rnd q) (.fin (-M)) (.fin M)) := by
      rw [hn]
      unfold scaleSaturate
      rw [hlit]
      simp only [Fl.isFinite, Fl.neg, Ar.div, if_neg hsp.ne']
      rfl
    rw [this, ht]
    rfl
  have hMq : (M : ℚ) ≤ 2147483648 := by exact_mod_cast hM
  have htr := truncQ_near t
  have htM1 : truncQ t ≤ M := by
    have := truncQ_mono ht2
    rwa [truncQ_int] at this
  have htM2 : -M ≤ truncQ t := by
    have := truncQ_mono ht1
    rwa [← Int.cast_neg, truncQ_int] at this
  -- the value is not beyond the negative end of `int32_t`
  have hqlow : M = 2147483648 → -(2147483264 : ℚ) ≤ q := by
    intro h
    have h1 := hv h
    rw [hvq] at h1
    by_contra hc
    have hc := not_le.mp hc
    nlinarith
  have htlow : M = 2147483648 → -(2147483264 : ℚ) ≤ t := by
    intro h
    have h1 := hqlow h
    have hM' : (M : ℚ) = 2147483648 := by exact_mod_cast h
    rcases lt_or_ge (M : ℚ) q with h2 | h2
    · rw [t4 h2]; linarith
    · rw [t3 (abs_le.mpr ⟨by linarith, h2⟩)]
      refine le_roundQ_of_le (f := b32) (by decide) ?_ h1
      decide +kernel
  have htrlow : M = 2147483648 → -2147483264 ≤ truncQ t := by
    intro h
    have h1 := truncQ_mono (htlow h)
    have e : (-(2147483264 : ℚ)) = ((-2147483264 : ℤ) : ℚ) := by norm_num
    rwa [e, truncQ_int] at h1
  have hnrange : |n| ≤ m := by
    rw [abs_le, hn']
    rcases hcase with h | h
    · subst h
      constructor <;> omega
    · have := htrlow h
      have hmb : 2147483647 ≤ m := by
        have : (2147483648 : ℚ) ≤ m * (1 + 1 / 2 ^ 30) := by rw [h] at hM1; exact_mod_cast hM1
        by_contra hc
        have : m ≤ 2147483646 := by omega
        have : (m : ℚ) ≤ 2147483646 := by exact_mod_cast this
        linarith
      constructor <;> omega
  refine ⟨hnrange, ?_⟩
  have hnt : |(n : ℚ) - t| ≤ 1 := by
    rw [hn']
    have hc1 : -2147483648 ≤ truncQ t := by omega
    rcases le_or_gt (truncQ t) 2147483647 with h | h
    · rw [min_eq_right h, max_eq_right hc1]; exact htr
    · rw [min_eq_left h.le]
      have e : truncQ t = 2147483648 := by omega
      rw [e] at htr
      rw [abs_le] at htr ⊢
      rw [show max (-2147483648 : ℤ) 2147483647 = 2147483647 from rfl]
      push_cast at htr ⊢
      constructor <;> linarith
  set c := max (-((m : ℚ) * l)) (min (m * l) v) with hc
  have hml : 0 < (m : ℚ) * l := by positivity
  rcases le_or_gt |q| M with hqM | hqM
  · -- inside of the range of the limiter
    have e1 : |t - q| ≤ |q| / 2 ^ 24 + 1 / 2 ^ 150 := by rw [t3 hqM]; exact b32_err q
    have hqv : |q| * s = |v| := by rw [hvq, abs_mul, abs_of_pos hsp]
    have e2 : |q * l - v| ≤ |v| * (101 / 100 / 2 ^ 24) := by
      have : q * l - v = -(q * (s - l)) := by rw [hvq]; ring
      rw [this, abs_neg, abs_mul, ← hqv]
      calc |q| * |s - l| ≤ |q| * (l / 2 ^ 24) := by gcongr
        _ ≤ |q| * (s * (101 / 100 / 2 ^ 24)) := by
          gcongr
          linarith
        _ = _ := by ring
    have e3 : |q| * l ≤ |v| * (101 / 100) := by
      rw [← hqv]
      calc |q| * l ≤ |q| * (s * (101 / 100)) := by
            gcongr
            linarith
        _ = _ := by ring
    have e4 : |(n : ℚ) * l - v| ≤ l * (1 + 1 / 2 ^ 150) + |v| * (203 / 100 / 2 ^ 24) := by
      have : (n : ℚ) * l - v = (n - t) * l + (t - q) * l + (q * l - v) := by ring
      rw [this]
      refine (abs_add_le _ _).trans ?_
      have h1 := abs_add_le (((n : ℚ) - t) * l) ((t - q) * l)
      rw [abs_mul, abs_mul, abs_of_pos hl] at h1
      have h2 : |(n : ℚ) - t| * l ≤ 1 * l := by gcongr
      have h3 : |t - q| * l ≤ (|q| / 2 ^ 24 + 1 / 2 ^ 150) * l := by gcongr
      have h4 : |q| / 2 ^ 24 * l ≤ |v| * (101 / 100) / 2 ^ 24 := by
        calc |q| / 2 ^ 24 * l = |q| * l / 2 ^ 24 := by ring
          _ ≤ _ := by gcongr
      have h5 : |v| * (101 / 100) / 2 ^ 24 + |v| * (101 / 100 / 2 ^ 24) ≤ |v| * (203 / 100 / 2 ^ 24) := by
        have : 0 ≤ |v| := abs_nonneg v
        linarith
      have h6 : (|q| / 2 ^ 24 + 1 / 2 ^ 150) * l = |q| / 2 ^ 24 * l + l / 2 ^ 150 := by ring
      have h7 : l * (1 + 1 / 2 ^ 150) = l + l / 2 ^ 150 := by ring
      linarith
    have e5 : |v| ≤ m * l * (1 + 102 / 100 / 2 ^ 24) := by
      rw [← hqv]
      calc |q| * s ≤ (m * (1 + 1 / 2 ^ 30)) * (l * (1 + 1 / 2 ^ 24)) := by
            gcongr
            exact hqM.trans hM1
        _ = m * l * ((1 + 1 / 2 ^ 30) * (1 + 1 / 2 ^ 24)) := by ring
        _ ≤ _ := by gcongr; norm_num
    have e6 : |v - c| ≤ |c| * (102 / 100 / 2 ^ 24) ∧ |v| ≤ |c| * (1 + 102 / 100 / 2 ^ 24) := by
      rcases le_or_gt |v| (m * l) with h | h
      · have hcv : c = v := by
          obtain ⟨h1, h2⟩ := abs_le.mp h
          rw [hc, min_eq_right h2, max_eq_right h1]
        rw [hcv, sub_self, abs_zero]
        have : 0 ≤ |v| := abs_nonneg v
        constructor
        · positivity
        · linarith
      · rcases le_or_gt 0 v with h0 | h0
        · rw [abs_of_nonneg h0] at h e5 ⊢
          have hcv : c = m * l := by rw [hc, min_eq_left h.le, max_eq_right (by linarith)]
          rw [hcv, abs_of_pos hml, abs_of_nonneg (by linarith)]
          constructor <;> linarith
        · rw [abs_of_neg h0] at h e5 ⊢
          have hcv : c = -(m * l) := by rw [hc, min_eq_right (by linarith), max_eq_left (by linarith)]
          rw [hcv, abs_neg, abs_of_pos hml, abs_of_nonpos (by linarith)]
          constructor <;> linarith
    have e7 : |(n : ℚ) * l - c| ≤ |n * l - v| + |v - c| := by
      have : (n : ℚ) * l - c = (n * l - v) + (v - c) := by ring
      rw [this]; exact abs_add_le _ _
    have e8 : l * (1 + 1 / 2 ^ 150) ≤ l * (1 + 1 / 2 ^ 20) := by
      apply mul_le_mul_of_nonneg_left _ hl.le
      norm_num
    have e9 : |v| * (203 / 100 / 2 ^ 24) ≤ |c| * (1 + 102 / 100 / 2 ^ 24) * (203 / 100 / 2 ^ 24) := by
      gcongr
      exact e6.2
    have : 0 ≤ |c| := abs_nonneg c
    have e10 : |c| * (1 + 102 / 100 / 2 ^ 24) * (203 / 100 / 2 ^ 24) + |c| * (102 / 100 / 2 ^ 24) ≤
        |c| * (33 / 10 / 2 ^ 24) := by linarith
    linarith [e6.1]
  · -- limited
    have hend : (m : ℚ) * l * (1 - 1 / 2 ^ 24) ≤ |v| := by
      rw [hvq, abs_mul, abs_of_pos hsp]
      calc (m : ℚ) * l * (1 - 1 / 2 ^ 24) = m * (l * (1 - 1 / 2 ^ 24)) := by ring
        _ ≤ |q| * s := by
          apply mul_le_mul (hmMq.trans hqM.le) hsl _ (abs_nonneg _)
          linarith
    rcases le_or_gt 0 q with h0 | h0
    · rw [abs_of_nonneg h0] at hqM
      have ht' := t4 hqM
      have hnm : n = m := by
        rw [hn', ht', truncQ_int]
        rcases hcase with h | h
        · subst h; omega
        · have : m = 2147483647 := by
            have h3 : (2147483648 : ℚ) ≤ m * (1 + 1 / 2 ^ 30) := by rw [h] at hM1; exact_mod_cast hM1
            by_contra hc
            have : m ≤ 2147483646 := by omega
            have : (m : ℚ) ≤ 2147483646 := by exact_mod_cast this
            linarith
          omega
      have hv0 : 0 ≤ v := by rw [hvq]; positivity
      rw [abs_of_nonneg hv0] at hend
      have hc1 : c ≤ m * l := by
        rw [hc]; exact max_le (by linarith) (min_le_left _ _)
      have hc2 : (m : ℚ) * l * (1 - 1 / 2 ^ 24) ≤ c := by
        rw [hc]; refine le_max_of_le_right (le_min ?_ hend); linarith
      have hc0 : 0 < c := lt_of_lt_of_le (by linarith) hc2
      rw [hnm, abs_of_nonneg (by linarith), abs_of_pos hc0]
      have : (m : ℚ) * l / 2 ^ 24 ≤ c * (33 / 10 / 2 ^ 24) := by linarith
      have : 0 < l * (1 + 1 / 2 ^ 20) := by positivity
      linarith
    · rw [abs_of_neg h0] at hqM
      rcases hcase with h | h
      · have ht' := t5 (by linarith)
        have hnm : n = -m := by
          rw [hn', ht', ← Int.cast_neg, truncQ_int]
          omega
        have hv0 : v < 0 := by rw [hvq]; exact mul_neg_of_neg_of_pos h0 hsp
        rw [abs_of_neg hv0] at hend
        have hc1 : -(m * l) ≤ c := by rw [hc]; exact le_max_left _ _
        have hc2 : c ≤ -((m : ℚ) * l * (1 - 1 / 2 ^ 24)) := by
          rw [hc]
          refine max_le (by linarith) ((min_le_right _ _).trans (by linarith))
        have hc0 : c < 0 := lt_of_le_of_lt hc2 (by linarith)
        rw [hnm, abs_of_nonpos (by push_cast; linarith), abs_of_neg hc0]
        have : (m : ℚ) * l / 2 ^ 24 ≤ -c * (33 / 10 / 2 ^ 24) := by linarith
        have : 0 < l * (1 + 1 / 2 ^ 20) := by positivity
        push_cast
        linarith
      · have := hqlow h
        have hM' : (M : ℚ) = 2147483648 := by exact_mod_cast h
        linarith

end Verif.Fw.Registers
