import Verif.Fw.FastAtan
import Verif.Fw.Trajectory
import Verif.Float.Approx
import Mathlib.Analysis.Real.Pi.Bounds

/-!
# The sine/cosine sensor

Model of `FastAtan2` (`fw/math.h` 124-150) and of the angle that
`AuxPort::ISR_EndAnalogSample` reports (`fw/aux_port.h` 289-309), in any
arithmetic.

Property C92.
-/

namespace Verif.Fw.Sc

open Verif.Float Verif.Fw

variable {A : Ar}

/-! ## Model -/

/-- fw/math.h:130: the smaller by the larger magnitude, the latter with the
smallest normal number added. -/
def ratio (A : Ar) (y x : Fl) : Fl :=
  A.div (Fl.min x.abs y.abs) (A.add (Fl.max x.abs y.abs) (A.lit (pow2 (-126))))

/-- fw/math.h:132-134. -/
def arc (A : Ar) (a : Fl) : Fl :=
  let s := A.mul a a
  A.add (A.mul (A.mul (A.sub (A.mul (A.add (A.mul (A.lit (-0.0464964749)) s) (A.lit 0.15931422)) s)
    (A.lit 0.327622764)) s) a) a

/-- fw/math.h:124-150, `FastAtan2`. -/
def fastAtan2 (A : Ar) (y x : Fl) : Fl :=
  let r := arc A (ratio A y x)
  let r := if Fl.blt x.abs y.abs then A.sub (A.lit 1.57079637) r else r
  let r := if Fl.blt x (.fin 0) then A.sub (A.lit 3.14159274) r else r
  if Fl.blt y (.fin 0) then r.neg else r

/-- `static_cast<float>(static_cast<int32_t>(s) - config.common) / 2048.0f`. -/
def centred (A : Ar) (s common : ℤ) : Fl := A.div (A.lit ((s - common : ℤ) : ℚ)) (A.lit 2048)

/-- fw/aux_port.h:296-308: the value from the readings of sine and cosine. -/
def scValue (A : Ar) (s c common : ℤ) : ℤ :=
  min 65535 (max 0 (toI32 (A.mul (A.div (A.lit 65536) (A.lit 6.283185307179586))
    (A.add (fastAtan2 A (centred A s common) (centred A c common)) (A.lit 3.141592653589793)))))

/-! ## Proof -/

theorem abs_fin (q : ℚ) : (Fl.fin q).abs = .fin |q| := rfl

theorem blt_fin (p q : ℚ) : Fl.blt (.fin p) (.fin q) = decide (p < q) := by
  simp only [Fl.blt, Fl.ble]
  by_cases h : p < q
  · simp [h, h.le]
  · simp [h]
    intro h1
    exact le_of_not_gt h

theorem min_fin (p q : ℚ) : Fl.min (.fin p) (.fin q) = .fin (min p q) := by
  unfold Fl.min
  rw [blt_fin]
  by_cases h : q < p
  · simp [h, min_eq_right h.le]
  · simp [h, min_eq_left (not_lt.1 h)]

theorem max_fin (p q : ℚ) : Fl.max (.fin p) (.fin q) = .fin (max p q) := by
  unfold Fl.max
  rw [blt_fin]
  by_cases h : p < q
  · simp [h, max_eq_right h.le]
  · simp [h, max_eq_left (not_lt.1 h)]

theorem div_fin (a : ℚ) {b : ℚ} (h : b ≠ 0) : A.div (.fin a) (.fin b) = A.rnd (a / b) := by
  simp [Ar.div, h]

/-- A literal. -/
theorem lit_apx (hA : A.Law3) (z : ℚ) {x e : ℝ} (hz : |(z : ℝ) - x| ≤ e) {M g : ℝ} (hx : |x| ≤ M)
    (hs : M + e ≤ 2 ^ 126) (hg : e + (M + e) * (1 / 16777216) + 1 / 2 ^ 98 ≤ g) :
    Apx (A.lit z) x g M :=
  Apx.rnd hA hz hx hs hg le_rfl

theorem centred_eq (hA : A.Law3) {s common : ℤ} (h : |s - common| ≤ 65535) :
    centred A s common = .fin (((s - common : ℤ) : ℚ) / 2048) := by
  unfold centred
  rw [hA.lit_int (by omega), show A.lit 2048 = .fin 2048 by
    have := hA.lit_int (n := 2048) (by norm_num); simpa using this]
  have : A.Rep (((s - common : ℤ) : ℚ) * pow2 (-11)) :=
    hA.unscale (by omega) (by norm_num) (by norm_num)
  have e : ((s - common : ℤ) : ℚ) * pow2 (-11) = ((s - common : ℤ) : ℚ) / 2048 := by
    rw [show pow2 (-11) = 1 / 2048 by decide +kernel]; ring
  rw [e] at this
  rw [div_fin _ (by norm_num)]
  exact this.rnd

/-- The quotient of the magnitudes, with rounding. -/
theorem ratio_apx (hA : A.Law3) {p q : ℚ} (h : 1 / 2048 ≤ max |p| |q|) (h32 : max |p| |q| ≤ 32) :
    Apx (ratio A (.fin q) (.fin p)) ((min |p| |q| / max |p| |q| : ℚ) : ℝ) (1 / 4194304) 1 := by
  unfold ratio
  rw [abs_fin, abs_fin, min_fin, max_fin]
  set n := max |p| |q| with hn
  set m := min |p| |q| with hm
  have hm0 : 0 ≤ m := le_min (abs_nonneg _) (abs_nonneg _)
  have hmn : m ≤ n := min_le_max
  have hn0 : 0 < n := by linarith
  -- the smallest normal number
  have hl : ∃ d : ℚ, A.lit (pow2 (-126)) = .fin d ∧ 0 ≤ d ∧ d ≤ 1 / 2 ^ 90 := by
    have hle : pow2 (-126) ≤ pow2 127 := pow2_le (by norm_num)
    have hp := pow2_pos (-126)
    refine ⟨A.rq (pow2 (-126)), hA.rnd_fin (by rwa [abs_of_pos hp]), hA.nonneg hp.le, ?_⟩
    have := hA.rq_le (x := pow2 (-126)) (y := pow2 (-100)) (pow2_le (by norm_num)) le_rfl
    refine this.trans ?_
    decide +kernel
  obtain ⟨d, hd, d0, d1⟩ := hl
  rw [hd, Ar.add_fin]
  have hz0 : 1 / 2048 ≤ n + d := by linarith
  have hz1 : n + d ≤ 33 := by
    have : (1 : ℚ) / 2 ^ 90 ≤ 1 := by norm_num
    linarith
  have hsmall : |n + d| ≤ pow2 127 := by
    rw [abs_of_nonneg (by linarith)]
    exact hz1.trans (by decide +kernel)
  rw [hA.rnd_fin hsmall]
  set w := A.rq (n + d) with hw
  have hrel : |w - (n + d)| ≤ (n + d) * (1 / 16777216) := by
    have := hA.rel (x := n + d) (by
      rw [abs_of_nonneg (by linarith)]
      exact le_trans (by decide +kernel) hz0)
    rwa [abs_of_nonneg (by linarith : 0 ≤ n + d),
      show pow2 (-24) = 1 / 16777216 from by decide +kernel] at this
  have hwn : |w - n| ≤ n * (1 / 16777216 + 1 / 2 ^ 70) := by
    have : d ≤ n * (1 / 2 ^ 79) := by
      have : (1 : ℚ) / 2 ^ 90 = 1 / 2048 * (1 / 2 ^ 79) := by norm_num
      rw [this] at d1
      exact d1.trans (mul_le_mul_of_nonneg_right h (by norm_num))
    clear_value w
    rw [abs_le] at hrel ⊢
    obtain ⟨r1, r2⟩ := hrel
    norm_num at r1 r2 this ⊢
    constructor <;> linarith
  have hwpos : n * (1 - 1 / 8388608) ≤ w := by
    clear_value w
    rw [abs_le] at hwn
    obtain ⟨r1, -⟩ := hwn
    norm_num at r1 ⊢
    linarith
  have hw0 : 0 < w := lt_of_lt_of_le (by positivity) hwpos
  rw [div_fin _ hw0.ne']
  have key : |m / w - m / n| ≤ 1 / 8388608 := by
    have e : m / w - m / n = m * (n - w) / (w * n) := by field_simp
    rw [e, abs_div, abs_mul, abs_of_nonneg hm0, abs_of_pos (mul_pos hw0 hn0),
      div_le_div_iff₀ (mul_pos hw0 hn0) (by norm_num), abs_sub_comm]
    have a1 : m * |w - n| ≤ n * (n * (1 / 16777216 + 1 / 2 ^ 70)) :=
      mul_le_mul hmn hwn (abs_nonneg _) hn0.le
    have a2 : n * (n * (1 - 1 / 8388608)) ≤ w * n := by nlinarith
    have a3 : 0 ≤ n * n := by positivity
    generalize m * |w - n| = X at a1 ⊢
    generalize w * n = Y at a2 ⊢
    have a1' : X ≤ (n * n) * (1 / 16777216 + 1 / 2 ^ 70) := by linarith
    have a2' : (n * n) * (1 - 1 / 8388608) ≤ Y := by linarith
    generalize n * n = Z at a1' a2' a3
    norm_num at a1' a2' ⊢
    linarith
  have t0 : 0 ≤ m / n := div_nonneg hm0 hn0.le
  have t1 : m / n ≤ 1 := (div_le_one hn0).2 hmn
  refine Apx.rnd hA (e := 1 / 8388608) (M := 1) ?_ ?_ (by norm_num) (by norm_num) le_rfl
  · have := (Rat.cast_le (K := ℝ)).2 key
    push_cast at this ⊢
    exact this
  · have h0 : (0 : ℝ) ≤ ((m / n : ℚ) : ℝ) := by exact_mod_cast t0
    have h1 : ((m / n : ℚ) : ℝ) ≤ 1 := by exact_mod_cast t1
    rw [abs_of_nonneg h0]; exact h1

/-- The polynomial, with rounding. -/
theorem arc_apx (hA : A.Law3) {a : Fl} {t : ℝ} (h0 : 0 ≤ t) (h1 : t ≤ 1)
    (h : Apx a t (1 / 4194304) 1) : Apx (arc A a) (Real.arctan t) 0.00021 1.1 := by
  have ht : |t| ≤ 1 := by rw [abs_of_nonneg h0]; exact h1
  have hs := Apx.mul hA h h (g := 6e-7) (P := 1) (by norm_num) (by norm_num) (by norm_num)
  have l1 := lit_apx hA (-0.0464964749) (x := -0.0464964749) (e := 0) (M := 0.05) (g := 1e-8)
    (by norm_num) (by norm_num [abs_le]) (by norm_num) (by norm_num)
  have l2 := lit_apx hA 0.15931422 (x := 0.15931422) (e := 0) (M := 0.16) (g := 2e-8)
    (by norm_num) (by norm_num [abs_le]) (by norm_num) (by norm_num)
  have l3 := lit_apx hA 0.327622764 (x := 0.327622764) (e := 0) (M := 0.33) (g := 3e-8)
    (by norm_num) (by norm_num [abs_le]) (by norm_num) (by norm_num)
  have k1 := Apx.mul hA l1 hs (g := 1e-7) (P := 0.05) (by norm_num) (by norm_num) (by norm_num)
  have k2 := Apx.add hA k1 l2 (g := 2e-7) (P := 0.21) (by norm_num) (by norm_num) (by norm_num)
  have k3 := Apx.mul hA k2 hs (g := 5e-7) (P := 0.21) (by norm_num) (by norm_num) (by norm_num)
  have k4 := Apx.sub hA k3 l3 (g := 6e-7) (P := 0.54) (by norm_num) (by norm_num) (by norm_num)
  have k5 := Apx.mul hA k4 hs (g := 1.1e-6) (P := 0.54) (by norm_num) (by norm_num) (by norm_num)
  have k6 := Apx.mul hA k5 h (g := 1.4e-6) (P := 0.54) (by norm_num) (by norm_num) (by norm_num)
  have k7 := Apx.add hA k6 h (g := 1.9e-6) (P := 1.54) (by norm_num) (by norm_num) (by norm_num)
  have hp := poly_arctan h0 h1
  unfold poly at hp
  have hb : |Real.arctan t| ≤ 1.1 := by
    have a0 := Real.arctan_nonneg.2 h0
    have a1 := Real.arctan_le_arctan_iff.2 h1
    rw [Real.arctan_one] at a1
    rw [abs_of_nonneg a0]
    have := Real.pi_lt_d2
    norm_num at this ⊢
    linarith
  have := Apx.recentre k7 hp hb
  exact this.weaken (by norm_num) le_rfl

/-- `FastAtan2` is within 0.00022 of the angle. -/
theorem fastAtan2_apx (hA : A.Law3) {p q : ℚ} (h : 1 / 2048 ≤ max |p| |q|)
    (h32 : max |p| |q| ≤ 32) {ρ θ : ℝ} (hρ : 0 < ρ) (hp : (p : ℝ) = ρ * Real.cos θ)
    (hq : (q : ℝ) = ρ * Real.sin θ) (h1 : -Real.pi < θ) (h2 : θ ≤ Real.pi) :
    Apx (fastAtan2 A (.fin q) (.fin p)) θ 0.000213 3.2 := by
  have pi3 := Real.pi_gt_d20
  have pi4 := Real.pi_lt_d20
  norm_num at pi3 pi4
  have pp := Real.pi_pos
  -- the angle without its sign
  obtain ⟨θ1, e1, b1, c1, s1, q1⟩ : ∃ θ1, θ1 = |θ| ∧ (0 ≤ θ1 ∧ θ1 ≤ Real.pi) ∧
      (p : ℝ) = ρ * Real.cos θ1 ∧ (|q| : ℝ) = ρ * Real.sin θ1 ∧
      (q < 0 ↔ θ < 0) := by
    refine ⟨|θ|, rfl, ⟨abs_nonneg _, abs_le.2 ⟨h1.le, h2⟩⟩, by rw [Real.cos_abs]; exact hp, ?_, ?_⟩
    · rw [hq, abs_mul, abs_of_pos hρ]
      congr 1
      rcases le_or_gt 0 θ with ht | ht
      · rw [abs_of_nonneg ht, abs_of_nonneg (Real.sin_nonneg_of_nonneg_of_le_pi ht h2)]
      · rw [abs_of_neg ht, Real.sin_neg,
          abs_of_nonpos (Real.sin_nonpos_of_nonpos_of_neg_pi_le ht.le h1.le)]
    · have hc : (q < 0) ↔ ((q : ℝ) < 0) := by exact_mod_cast Iff.rfl
      rw [hc, hq]
      constructor
      · intro hn
        by_contra hge
        have := Real.sin_nonneg_of_nonneg_of_le_pi (not_lt.1 hge) h2
        nlinarith
      · intro hn
        have := Real.sin_neg_of_neg_of_neg_pi_lt hn h1
        nlinarith
  -- the angle in the first quadrant
  obtain ⟨θ2, e2, b2, c2, s2, q2⟩ : ∃ θ2, (θ2 = if p < 0 then Real.pi - θ1 else θ1) ∧
      (0 ≤ θ2 ∧ θ2 ≤ Real.pi / 2) ∧
      (|p| : ℝ) = ρ * Real.cos θ2 ∧ (|q| : ℝ) = ρ * Real.sin θ2 ∧ True := by
    have hc : (p < 0) ↔ ((p : ℝ) < 0) := by exact_mod_cast Iff.rfl
    by_cases hn : p < 0
    · have hn' := hc.1 hn
      refine ⟨Real.pi - θ1, by rw [if_pos hn], ⟨by linarith [b1.2], ?_⟩, ?_, ?_, trivial⟩
      · by_contra hge
        have : 0 ≤ Real.cos θ1 := Real.cos_nonneg_of_neg_pi_div_two_le_of_le (by linarith [b1.1])
          (by linarith)
        nlinarith
      · rw [abs_of_neg hn', c1, Real.cos_pi_sub]; ring
      · rw [s1, Real.sin_pi_sub]
    · have hn' : (0 : ℝ) ≤ p := not_lt.1 (fun h => hn (hc.2 h))
      refine ⟨θ1, by rw [if_neg hn], ⟨b1.1, ?_⟩, ?_, s1, trivial⟩
      · by_contra hge
        have := Real.cos_neg_of_pi_div_two_lt_of_lt (by linarith : Real.pi / 2 < θ1)
          (by linarith [b1.2])
        nlinarith
      · rw [abs_of_nonneg hn', c1]
  -- the angle in the first octant
  set n := max |p| |q| with hn
  set m := min |p| |q| with hm
  have hm0 : 0 ≤ m := le_min (abs_nonneg _) (abs_nonneg _)
  have hmn : m ≤ n := min_le_max
  have hn0 : 0 < n := lt_of_lt_of_le (by norm_num) h
  have t0 : (0 : ℝ) ≤ ((m / n : ℚ) : ℝ) := by exact_mod_cast div_nonneg hm0 hn0.le
  have t1 : ((m / n : ℚ) : ℝ) ≤ 1 := by exact_mod_cast (div_le_one hn0).2 hmn
  have hr := arc_apx hA t0 t1 (ratio_apx hA h h32)
  have e3 : Real.arctan ((m / n : ℚ) : ℝ) = if |p| < |q| then Real.pi / 2 - θ2 else θ2 := by
    by_cases hlt : |p| < |q|
    · rw [if_pos hlt]
      have em : m = |p| := min_eq_left hlt.le
      have en : n = |q| := max_eq_right hlt.le
      have hs0 : 0 < Real.sin θ2 := by
        have : (0 : ℝ) < |(q : ℝ)| := by
          have := lt_of_le_of_lt (abs_nonneg p) hlt
          exact_mod_cast this
        rw [s2] at this
        exact (pos_iff_pos_of_mul_pos this).1 hρ
      have ht2 : 0 < θ2 := by
        rcases lt_or_eq_of_le b2.1 with h | h
        · exact h
        · rw [← h] at hs0; simp at hs0
      have : ((m / n : ℚ) : ℝ) = Real.tan (Real.pi / 2 - θ2) := by
        rw [em, en]
        push_cast
        rw [c2, s2, Real.tan_eq_sin_div_cos, Real.sin_pi_div_two_sub, Real.cos_pi_div_two_sub,
          mul_div_mul_left _ _ hρ.ne']
      rw [this, Real.arctan_tan (by linarith [b2.2]) (by linarith)]
    · rw [if_neg hlt]
      have hge := not_lt.1 hlt
      have em : m = |q| := min_eq_right hge
      have en : n = |p| := max_eq_left hge
      have hc0 : 0 < Real.cos θ2 := by
        have : (0 : ℝ) < |(p : ℝ)| := by
          rw [en] at hn0
          exact_mod_cast hn0
        rw [c2] at this
        exact (pos_iff_pos_of_mul_pos this).1 hρ
      have ht2 : θ2 < Real.pi / 2 := by
        rcases lt_or_eq_of_le b2.2 with h | h
        · exact h
        · rw [h] at hc0; simp at hc0
      have : ((m / n : ℚ) : ℝ) = Real.tan θ2 := by
        rw [em, en]
        push_cast
        rw [c2, s2, Real.tan_eq_sin_div_cos, mul_div_mul_left _ _ hρ.ne']
      rw [this, Real.arctan_tan (by linarith [b2.1]) ht2]
  unfold fastAtan2
  simp only [abs_fin, blt_fin, decide_eq_true_eq]
  rw [e3] at hr
  -- the steps back
  have g2 : Apx (if |p| < |q| then A.sub (A.lit 1.57079637) (arc A (ratio A (.fin q) (.fin p)))
      else arc A (ratio A (.fin q) (.fin p))) θ2 0.000211 1.6 := by
    have hb : |θ2| ≤ 1.6 := by
      rw [abs_of_nonneg b2.1]; norm_num; linarith [b2.2]
    by_cases hlt : |p| < |q|
    · rw [if_pos hlt] at hr ⊢
      have l := lit_apx hA 1.57079637 (x := Real.pi / 2) (e := 5e-8) (M := 1.6) (g := 2e-7)
        (by rw [abs_le]; constructor <;> norm_num <;> linarith)
        (by rw [abs_of_nonneg (by linarith)]; norm_num; linarith) (by norm_num) (by norm_num)
      have := Apx.sub hA l hr (g := 0.000211) (P := 2.7) (by norm_num) (by norm_num) (by norm_num)
      rw [sub_sub_cancel] at this
      obtain ⟨z, z1, z2, -⟩ := this
      exact ⟨z, z1, z2, hb⟩
    · rw [if_neg hlt] at hr ⊢
      obtain ⟨z, z1, z2, -⟩ := hr
      exact ⟨z, z1, z2.trans (by norm_num), hb⟩
  have hb1 : |θ1| ≤ 3.2 := by
    rw [abs_of_nonneg b1.1]; norm_num; linarith [b1.2]
  generalize (if |p| < |q| then A.sub (A.lit 1.57079637) (arc A (ratio A (.fin q) (.fin p)))
      else arc A (ratio A (.fin q) (.fin p))) = r2 at g2
  have g1 : Apx (if p < 0 then A.sub (A.lit 3.14159274) r2 else r2) θ1 0.000213 3.2 := by
    by_cases hlt : p < 0
    · rw [if_pos hlt] at e2 ⊢
      have l := lit_apx hA 3.14159274 (x := Real.pi) (e := 1e-7) (M := 3.2) (g := 4e-7)
        (by rw [abs_le]; constructor <;> norm_num <;> linarith)
        (by rw [abs_of_nonneg (by linarith)]; norm_num; linarith) (by norm_num) (by norm_num)
      have := Apx.sub hA l g2 (g := 0.000213) (P := 4.8) (by norm_num) (by norm_num) (by norm_num)
      rw [e2, sub_sub_cancel] at this
      obtain ⟨z, z1, z2, -⟩ := this
      exact ⟨z, z1, z2, hb1⟩
    · rw [if_neg hlt] at e2 ⊢
      rw [e2] at g2
      obtain ⟨z, z1, z2, -⟩ := g2
      exact ⟨z, z1, z2.trans (by norm_num), hb1⟩
  generalize (if p < 0 then A.sub (A.lit 3.14159274) r2 else r2) = r1 at g1
  by_cases hlt : q < 0
  · rw [if_pos hlt]
    have := g1.neg
    rw [e1, abs_of_neg (q1.1 hlt), neg_neg] at this
    exact this
  · rw [if_neg hlt]
    rw [e1, abs_of_nonneg (not_lt.1 (fun hh => hlt (q1.2 hh)))] at g1
    exact g1

/-- The factor from radians to counts. -/
theorem factor_apx (hA : A.Law3) :
    Apx (A.div (A.lit 65536) (A.lit 6.283185307179586)) (65536 / (2 * Real.pi)) 0.003 10431 := by
  have pi3 := Real.pi_gt_d20
  have pi4 := Real.pi_lt_d20
  norm_num at pi3 pi4
  have pp := Real.pi_pos
  obtain ⟨w, e1, e2, -⟩ := lit_apx hA 6.283185307179586 (x := 2 * Real.pi) (e := 1e-12) (M := 6.3)
    (g := 4e-7) (by rw [abs_le]; constructor <;> norm_num <;> linarith)
    (by rw [abs_of_nonneg (by linarith)]; norm_num; linarith) (by norm_num) (by norm_num)
  have e3 : A.lit 65536 = .fin 65536 := by
    have := hA.lit_int (n := 65536) (by norm_num); simpa using this
  rw [abs_le] at e2
  obtain ⟨w1, w2⟩ := e2
  norm_num at w1 w2
  have hw : (6.28 : ℝ) ≤ w := by norm_num; linarith
  have hwq : (0 : ℚ) < w := by
    have : (0 : ℝ) < w := by norm_num at hw; linarith
    exact_mod_cast this
  rw [e1, e3, div_fin _ hwq.ne']
  refine Apx.rnd hA (e := 0.001) (M := 10431) ?_ ?_ (by norm_num) (by norm_num) le_rfl
  · push_cast
    have hw0 : (0 : ℝ) < w := by exact_mod_cast hwq
    have e : (65536 : ℝ) / w - 65536 / (2 * Real.pi) =
        65536 * (2 * Real.pi - w) / (w * (2 * Real.pi)) := by
      field_simp
    rw [e, abs_div, abs_of_pos (by positivity : 0 < (w : ℝ) * (2 * Real.pi)),
      div_le_iff₀ (by positivity), abs_mul, abs_of_pos (by norm_num : (0 : ℝ) < 65536)]
    have a1 : |2 * Real.pi - (w : ℝ)| ≤ 4e-7 := by
      rw [abs_le]; norm_num; constructor <;> linarith
    have a2 : (6.28 : ℝ) * 6.28 ≤ w * (2 * Real.pi) :=
      mul_le_mul hw (by norm_num; linarith) (by norm_num) hw0.le
    norm_num at a1 a2 ⊢
    linarith
  · rw [abs_of_pos (by positivity), div_le_iff₀ (by positivity)]
    linarith

/-- The value that is reported for readings `s` and `c` is the angle of
`(c - common, s - common)`, from half a turn behind the cosine axis on, in
units of 1/65536 turns, up to 3.3 units. -/
theorem C92_angle (hA : A.Law3) (s c common : ℤ) (hs : 0 ≤ s ∧ s ≤ 65535) (hc : 0 ≤ c ∧ c ≤ 65535)
    (hm : 0 ≤ common ∧ common ≤ 65535) (ρ θ : ℝ) (hρ : 0 < ρ)
    (e1 : (s - common : ℝ) = ρ * Real.sin θ) (e2 : (c - common : ℝ) = ρ * Real.cos θ)
    (h1 : -Real.pi < θ) (h2 : θ ≤ Real.pi) :
    (0 ≤ scValue A s c common ∧ scValue A s c common ≤ 65535) ∧
      |(scValue A s c common : ℝ) - 65536 * ((θ + Real.pi) / (2 * Real.pi))| ≤ 3.3 := by
  have pi3 := Real.pi_gt_d20
  have pi4 := Real.pi_lt_d20
  norm_num at pi3 pi4
  have pp := Real.pi_pos
  refine ⟨⟨le_min (by norm_num) (le_max_left _ _), min_le_left _ _⟩, ?_⟩
  unfold scValue
  have ds : |s - common| ≤ 65535 := by rw [abs_le]; omega
  have dc : |c - common| ≤ 65535 := by rw [abs_le]; omega
  rw [centred_eq hA ds, centred_eq hA dc]
  have hne : s - common ≠ 0 ∨ c - common ≠ 0 := by
    by_contra hz
    push Not at hz
    have z1 : (s - common : ℝ) = 0 := by exact_mod_cast hz.1
    have z2 : (c - common : ℝ) = 0 := by exact_mod_cast hz.2
    rw [e1] at z1
    rw [e2] at z2
    have y1 : Real.sin θ = 0 := (mul_eq_zero.1 z1).resolve_left hρ.ne'
    have y2 : Real.cos θ = 0 := (mul_eq_zero.1 z2).resolve_left hρ.ne'
    have := Real.sin_sq_add_cos_sq θ
    rw [y1, y2] at this
    norm_num at this
  have big : ∀ n : ℤ, n ≠ 0 → (1 : ℚ) / 2048 ≤ |(n : ℚ) / 2048| := by
    intro n hn
    rw [abs_div, abs_of_pos (by norm_num : (0 : ℚ) < 2048)]
    have : (1 : ℚ) ≤ |(n : ℚ)| := by exact_mod_cast Int.one_le_abs hn
    exact div_le_div_of_nonneg_right this (by norm_num)
  have small : ∀ n : ℤ, |n| ≤ 65535 → |(n : ℚ) / 2048| ≤ 32 := by
    intro n hn
    rw [abs_div, abs_of_pos (by norm_num : (0 : ℚ) < 2048)]
    have : |(n : ℚ)| ≤ 65535 := by exact_mod_cast hn
    rw [div_le_iff₀ (by norm_num)]
    linarith
  have hr := fastAtan2_apx hA (p := ((c - common : ℤ) : ℚ) / 2048) (q := ((s - common : ℤ) : ℚ) / 2048)
    (by rcases hne with h | h
        · exact (big _ h).trans (le_max_right _ _)
        · exact (big _ h).trans (le_max_left _ _))
    (max_le (small _ dc) (small _ ds)) (ρ := ρ / 2048) (θ := θ) (by positivity)
    (by push_cast; rw [e2]; ring) (by push_cast; rw [e1]; ring) h1 h2
  have l := lit_apx hA 3.141592653589793 (x := Real.pi) (e := 1e-12) (M := 3.2) (g := 2e-7)
    (by rw [abs_le]; constructor <;> norm_num <;> linarith)
    (by rw [abs_of_nonneg (by linarith)]; norm_num; linarith) (by norm_num) (by norm_num)
  have sum := Apx.add hA hr l (g := 0.000215) (P := 6.4) (by norm_num) (by norm_num) (by norm_num)
  have prod := Apx.mul hA (factor_apx hA) sum (g := 2.29) (P := 66759) (by norm_num) (by norm_num)
    (by norm_num)
  obtain ⟨z, ez, hz, -⟩ := prod
  rw [ez]
  have eT : 65536 / (2 * Real.pi) * (θ + Real.pi) = 65536 * ((θ + Real.pi) / (2 * Real.pi)) := by ring
  rw [eT] at hz
  set T := 65536 * ((θ + Real.pi) / (2 * Real.pi)) with hT
  have T0 : 0 ≤ T := by
    have : 0 ≤ (θ + Real.pi) / (2 * Real.pi) := div_nonneg (by linarith) (by positivity)
    linarith
  have T1 : T ≤ 65536 := by
    have : (θ + Real.pi) / (2 * Real.pi) ≤ 1 := by rw [div_le_one (by positivity)]; linarith
    linarith
  rw [abs_le] at hz
  obtain ⟨z1, z2⟩ := hz
  norm_num at z1 z2
  have zs : (z : ℝ) ≤ 65539 := by linarith
  have zb : (-3 : ℝ) ≤ z := by linarith
  have zsq : z ≤ 65539 := by exact_mod_cast zs
  have zbq : -3 ≤ z := by exact_mod_cast zb
  simp only [toI32]
  unfold truncQ
  split
  · next hpos =>
    have f1 := floor_le' z
    have f2 := lt_floor_succ' z
    have f0 : 0 ≤ z.floor := by
      have : (-1 : ℚ) < z.floor := by linarith
      have : (-1 : ℤ) < z.floor := by exact_mod_cast this
      omega
    have f3 : z.floor ≤ 65539 := by
      have : (z.floor : ℚ) ≤ 65539 := f1.trans zsq
      exact_mod_cast this
    rw [show max 0 (max (-2147483648) (min 2147483647 z.floor)) = z.floor by omega]
    have g1 : (z.floor : ℝ) ≤ z := by exact_mod_cast f1
    have g2 : (z : ℝ) < z.floor + 1 := by exact_mod_cast f2
    rcases le_or_gt z.floor 65535 with hle | hgt
    · rw [min_eq_right hle, abs_le]
      norm_num
      constructor <;> linarith
    · rw [min_eq_left hgt.le, abs_le]
      have : (65535 : ℝ) < z.floor := by exact_mod_cast hgt
      push_cast
      norm_num
      constructor <;> linarith
  · next hneg =>
    have f1 := floor_le' (-z)
    have f2 := lt_floor_succ' (-z)
    have zn : z < 0 := not_le.1 hneg
    have f0 : 0 ≤ (-z).floor := by
      have : (-1 : ℚ) < (-z).floor := by linarith
      have : (-1 : ℤ) < (-z).floor := by exact_mod_cast this
      omega
    have f3 : (-z).floor ≤ 3 := by
      have : ((-z).floor : ℚ) ≤ 3 := f1.trans (by linarith)
      exact_mod_cast this
    rw [show max 0 (max (-2147483648) (min 2147483647 (-(-z).floor))) = 0 by omega,
      min_eq_right (by norm_num), abs_le]
    have znr : (z : ℝ) < 0 := by exact_mod_cast zn
    push_cast
    norm_num
    constructor <;> linarith

/-- For example a reading in the direction of the cosine. -/
example : ((1700 : ℤ) - (1700 : ℤ) : ℝ) = 1000 * Real.sin 0 ∧
    ((2700 : ℤ) - (1700 : ℤ) : ℝ) = 1000 * Real.cos 0 := by norm_num

end Verif.Fw.Sc
