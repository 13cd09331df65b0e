import Verif.Fw.Foc
import Mathlib.Algebra.Order.Group.MinMax

/-!
# From a voltage vector to the duty cycles

The chain `ISR_DoVoltageDQ` (`fw/bldc_servo.cc` 1922-1924): phase voltages, shift
to the middle, limit of the duty cycles.  A vector that is no longer than the
`max_V` of `ISR_DoCurrent` reaches the motor as commanded: the limit of the duty
cycles does not bend it.  `ISR_DoVoltageDQCommand` limits the two components one
by one, and there the limit of the duty cycles does.

Property C82.
-/

namespace Verif.Fw.Foc

open Verif.Float Verif.Fw

variable {A : Ar}

/-! ## Model -/

/-- `kSvpwmRatio` (`fw/math.h` 30). -/
def svpwmRatio (A : Ar) : Fl := A.lit (11547 / 10000)

/-- `max_V` (`fw/bldc_servo.cc` 1832-1834 and 1947-1949). -/
def maxV (A : Ar) (rc : RateConfig) (busV : Fl) : Fl :=
  A.mul (A.mul (A.mul rc.maxVoltageRatio (svpwmRatio A)) (half A)) busV

/-- `ISR_DoVoltageDQ` (`fw/bldc_servo.cc` 1922-1924), with
`ISR_DoBalancedVoltageControl` and `ISR_DoPwmControl`. -/
def voltageDQ (A : Ar) (rc : RateConfig) (counts : ℤ) (phaseInvert positive : Bool) (busV : Fl)
    (sc : SinCos) (d q : Fl) : PwmOut :=
  pwmControl A rc counts phaseInvert (balanced A busV (phaseVoltage A sc positive d q))

/-- `ISR_DoVoltageDQCommand` (`fw/bldc_servo.cc` 1926-1956) for a configured motor
with a valid angle. -/
def voltageDQCommand (A : Ar) (rc : RateConfig) (counts : ℤ) (phaseInvert positive : Bool)
    (busV : Fl) (sc : SinCos) (d q : Fl) : PwmOut :=
  let m := maxV A rc busV
  voltageDQ A rc counts phaseInvert positive busV sc (Fl.limit d m.neg m) (Fl.limit q m.neg m)

/-! ## Line voltages of a vector -/

/-- Two phases never differ by more than √3 times the length of the vector. -/
theorem line_sq (θ d q : ℝ) :
    (onPhase θ d q 0 - onPhase θ d q 1) ^ 2 ≤ 3 * (d ^ 2 + q ^ 2) ∧
    (onPhase θ d q 1 - onPhase θ d q 2) ^ 2 ≤ 3 * (d ^ 2 + q ^ 2) ∧
    (onPhase θ d q 0 - onPhase θ d q 2) ^ 2 ≤ 3 * (d ^ 2 + q ^ 2) := by
  have key : ∀ p r : ℝ, p ^ 2 + r ^ 2 = 3 → (p * d - r * q) ^ 2 ≤ 3 * (d ^ 2 + q ^ 2) := by
    intro p r h
    nlinarith [sq_nonneg (p * q + r * d)]
  have h3 : Real.sqrt 3 * Real.sqrt 3 = 3 := Real.mul_self_sqrt (by norm_num)
  have h1 := Real.sin_sq_add_cos_sq θ
  unfold onPhase
  rw [angle0, cos1, cos2, sin1, sin2]
  refine ⟨?_, ?_, ?_⟩
  · have := key (3 / 2 * Real.cos θ - Real.sqrt 3 / 2 * Real.sin θ)
      (3 / 2 * Real.sin θ + Real.sqrt 3 / 2 * Real.cos θ)
      (by linear_combination (1 / 4 * (Real.sin θ ^ 2 + Real.cos θ ^ 2)) * h3 + 3 * h1)
    refine le_trans (le_of_eq ?_) this
    ring
  · have := key (Real.sqrt 3 * Real.sin θ) (-(Real.sqrt 3 * Real.cos θ))
      (by linear_combination (Real.sin θ ^ 2 + Real.cos θ ^ 2) * h3 + 3 * h1)
    refine le_trans (le_of_eq ?_) this
    ring
  · have := key (3 / 2 * Real.cos θ + Real.sqrt 3 / 2 * Real.sin θ)
      (3 / 2 * Real.sin θ - Real.sqrt 3 / 2 * Real.cos θ)
      (by linear_combination (1 / 4 * (Real.sin θ ^ 2 + Real.cos θ ^ 2)) * h3 + 3 * h1)
    refine le_trans (le_of_eq ?_) this
    ring

/-! ## The longest vector -/

local notation "u" => (1 / 16777216 : ℝ)

theorem castLe {x y : ℚ} {z : ℝ} (h : x ≤ y) (e : (x : ℝ) = z) : z ≤ y := by
  rw [← e]
  exact_mod_cast h

/-- The lower end of the band. -/
theorem band_lo (hA : A.Law3) {lo hi : ℚ} (b1 : 3 / 100 < lo) (b2 : lo < 1 / 8)
    (e5 : A.rnd (1 - lo) = .fin hi) : (1 : ℝ) - hi - u ≤ lo ∧ (lo : ℝ) ≤ 1 - hi + u := by
  have r1 : (3 / 100 : ℝ) ≤ lo := castLe b1.le (by norm_num)
  have r2 : (lo : ℝ) ≤ 1 / 8 := by
    have : (lo : ℝ) ≤ ((1 / 8 : ℚ) : ℝ) := by exact_mod_cast b2.le
    push_cast at this
    exact this
  obtain ⟨w, ew, xw, -⟩ := Apx.rnd (A := A) (z := 1 - lo) (x := 1 - (lo : ℝ)) (e := 0)
    (M := 98 / 100) (g := u) (P := 98 / 100) hA (by push_cast; simp)
    (by rw [abs_le]; constructor <;> linarith)
    (by norm_num) (by norm_num) le_rfl
  rw [e5] at ew
  injection ew with ew
  subst ew
  rw [abs_le] at xw
  constructor <;> linarith [xw.1, xw.2]

theorem apx_maxV (hA : A.Law3) (bd : Bool) (n : ℤ) {V : ℚ} (hV : 1 ≤ V)
    (hV2 : V ≤ 2 ^ 20) {hi : ℚ} (e : (rateConfig A bd n).maxPwm = .fin hi) (h1 : 7 / 8 ≤ hi)
    (h2 : hi < 1) :
    Apx (maxV A (rateConfig A bd n) (.fin V))
      (((2 * hi - 1) * (11547 / 20000) * V : ℚ)) (6 * u * V) (57735 / 100000 * V) := by
  have r1 : (7 / 8 : ℝ) ≤ hi := castLe h1 (by norm_num)
  have r2 : (hi : ℝ) < 1 := by exact_mod_cast h2
  have rV : (1 : ℝ) ≤ V := by exact_mod_cast hV
  have rV2 : (V : ℝ) ≤ 1048576 := by
    have : ((V : ℚ) : ℝ) ≤ ((2 ^ 20 : ℚ) : ℝ) := by exact_mod_cast hV2
    norm_num at this
    exact this
  have em : (rateConfig A bd n).maxVoltageRatio =
      A.mul (A.sub (rateConfig A bd n).maxPwm (half A)) (.fin 2) := rfl
  have s1 : Apx (A.sub (.fin hi) (half A)) ((hi : ℝ) - 1 / 2) (1 * u) (1 / 2) := by
    rw [half_eq hA, sub_fin]
    refine Apx.rnd hA (e := 0) (M := 1 / 2) ?_ ?_ (by norm_num) (by norm_num) le_rfl
    · push_cast; norm_num
    · rw [abs_le]; constructor <;> linarith
  have two : Apx (.fin 2) 2 0 2 := ⟨2, rfl, by norm_num, by norm_num⟩
  have s2 : Apx (rateConfig A bd n).maxVoltageRatio (((hi : ℝ) - 1 / 2) * 2) (4 * u) 1 := by
    rw [em, e]
    exact Apx.mul hA s1 two (by norm_num) (by norm_num) (by norm_num)
  have k : Apx (svpwmRatio A) (11547 / 10000) (2 * u) (11547 / 10000) :=
    Apx.rnd hA (e := 0) (M := 11547 / 10000) (by norm_num) (by norm_num) (by norm_num)
      (by norm_num) le_rfl
  have s3 := Apx.mul hA s2 k (g := 8 * u) (P := 11547 / 10000) (by norm_num) (by norm_num)
    (by norm_num)
  have s4 := Apx.mul hA s3 (apx_half hA) (g := 5 * u) (P := 57735 / 100000) (by norm_num)
    (by norm_num) (by norm_num)
  have fV : Apx (.fin V) (V : ℝ) 0 V := Apx.fin_self (by rw [abs_of_nonneg (by linarith)])
  have s5 := Apx.mul hA s4 fV (g := 6 * u * V) (P := 57735 / 100000 * V) (by norm_num; linarith)
    (by norm_num; linarith) (by linarith)
  have ec : (((2 * hi - 1) * (11547 / 20000) * V : ℚ) : ℝ) =
      ((hi : ℝ) - 1 / 2) * 2 * (11547 / 10000) * (1 / 2) * V := by
    push_cast
    ring
  rw [ec]
  exact s5

/-- The length of a vector within `max_V`, against the band. -/
theorem length_bound (hA : A.Law3) (bd : Bool) (n : ℤ) {V d q m hi : ℚ} (hV : 1 ≤ V)
    (hV2 : V ≤ 2 ^ 20) (e2 : (rateConfig A bd n).maxPwm = .fin hi) (b3 : 7 / 8 ≤ hi) (b4 : hi < 1)
    (hm : maxV A (rateConfig A bd n) (.fin V) = .fin m)
    (hlen : d ^ 2 + q ^ 2 ≤ (m * (1 + 1 / 2 ^ 18)) ^ 2) :
    ∃ L : ℝ, 0 ≤ L ∧ (d : ℝ) ^ 2 + (q : ℝ) ^ 2 ≤ L ^ 2 ∧
      17320508076 / 10000000000 * L ≤ ((2 * (hi : ℝ) - 1) + 1 / 2 ^ 17) * V ∧ L ≤ V := by
  obtain ⟨m', em, xm, -⟩ := apx_maxV hA bd n hV hV2 e2 b3 b4
  rw [hm] at em
  injection em with em
  subst em
  have rV : (1 : ℝ) ≤ V := castLe hV (by norm_num)
  have rV0 : (0 : ℝ) < V := by linarith
  have rhi : (7 / 8 : ℝ) ≤ hi := castLe b3 (by norm_num)
  have rhi2 : (hi : ℝ) < 1 := by exact_mod_cast b4
  push_cast at xm
  have rlen : (d : ℝ) ^ 2 + (q : ℝ) ^ 2 ≤ ((m : ℝ) * (1 + 1 / 2 ^ 18)) ^ 2 := by
    have : ((d ^ 2 + q ^ 2 : ℚ) : ℝ) ≤ (((m * (1 + 1 / 2 ^ 18)) ^ 2 : ℚ) : ℝ) := by
      exact_mod_cast hlen
    push_cast at this
    exact this
  refine ⟨|(m : ℝ) * (1 + 1 / 2 ^ 18)|, abs_nonneg _, by rwa [sq_abs], ?_⟩
  have pr : 0 ≤ (2 * (hi : ℝ) - 1) * V := mul_nonneg (by linarith) rV0.le
  have prV : (2 * (hi : ℝ) - 1) * V ≤ V := by nlinarith
  have mle : |(m : ℝ)| ≤ (2 * (hi : ℝ) - 1) * V * (11547 / 20000) + 6 * u * V := by
    rw [abs_le] at xm ⊢
    constructor <;> linarith [xm.1, xm.2]
  rw [abs_mul, abs_of_pos (a := (1 + 1 / 2 ^ 18 : ℝ)) (by norm_num)]
  rw [add_mul]
  generalize (2 * (hi : ℝ) - 1) * V = W at *
  have : |(m : ℝ)| * (1 + 1 / 2 ^ 18) ≤ (W * (11547 / 20000) + 6 * u * V) * (1 + 1 / 2 ^ 18) :=
    mul_le_mul_of_nonneg_right mle (by norm_num)
  constructor
  · norm_num at this ⊢
    linarith
  · norm_num at this ⊢
    linarith

/-- Three numbers whose differences are within `S` stay within `S / 2` of the
middle of their range. -/
theorem centred {a b c S : ℝ} (h1 : |a - b| ≤ S) (h2 : |b - c| ≤ S) (h3 : |a - c| ≤ S) :
    max a (max b c) - min a (min b c) ≤ S := by
  rw [abs_le] at *
  rcases max_choice b c with e1 | e1 <;> rw [e1] <;>
  rcases min_choice b c with e2 | e2 <;> rw [e2]
  all_goals
    first
    | rcases max_choice a b with e3 | e3 <;> rw [e3]
    | rcases max_choice a c with e3 | e3 <;> rw [e3]
  all_goals
    first
    | rcases min_choice a b with e4 | e4 <;> rw [e4]
    | rcases min_choice a c with e4 | e4 <;> rw [e4]
  all_goals linarith [h1.1, h1.2, h2.1, h2.2, h3.1, h3.2]

theorem apx_min {v w : Fl} {x y e M : ℝ} (h1 : Apx v x e M) (h2 : Apx w y e M) :
    Apx (Fl.min v w) (min x y) e M := by
  obtain ⟨p, rfl, e1, m1⟩ := h1
  obtain ⟨q, rfl, e2, m2⟩ := h2
  rw [Fl_min_fin]
  refine ⟨_, rfl, ?_, ?_⟩
  · rw [Rat.cast_min]
    exact (abs_min_sub_min_le_max _ _ _ _).trans (max_le e1 e2)
  · rcases min_choice x y with h | h <;> rw [h] <;> assumption

theorem apx_max {v w : Fl} {x y e M : ℝ} (h1 : Apx v x e M) (h2 : Apx w y e M) :
    Apx (Fl.max v w) (max x y) e M := by
  obtain ⟨p, rfl, e1, m1⟩ := h1
  obtain ⟨q, rfl, e2, m2⟩ := h2
  rw [Fl_max_fin]
  refine ⟨_, rfl, ?_, ?_⟩
  · rw [Rat.cast_max]
    exact (abs_max_sub_max_le_max _ _ _ _).trans (max_le e1 e2)
  · rcases max_choice x y with h | h <;> rw [h] <;> assumption

/-- Where the duty cycle of a phase ends when the real phase voltages are `a`, `b`
and `c` volts on a bus of one volt. -/
noncomputable def middle (a b c : ℝ) : ℝ := 1 / 2 * (min a (min b c) + max a (max b c)) - 1 / 2

/-- The duty cycles asked for. -/
theorem apx_balanced (hA : A.Law3) {V a b c : ℚ} {P Q R δ : ℝ} (hV : 0 < V)
    (hδ : δ ≤ 1) (ha : |(a : ℝ) - P * V| ≤ δ * V) (hb : |(b : ℝ) - Q * V| ≤ δ * V)
    (hc : |(c : ℝ) - R * V| ≤ δ * V) (hP : |P| ≤ 1) (hQ : |Q| ≤ 1) (hR : |R| ≤ 1) :
    let v := balanced A (.fin V) ⟨.fin a, .fin b, .fin c⟩
    Apx v.a (P - middle P Q R) (2 * δ + 20 * u) 3 ∧ Apx v.b (Q - middle P Q R) (2 * δ + 20 * u) 3 ∧
      Apx v.c (R - middle P Q R) (2 * δ + 20 * u) 3 := by
  have rV : (0 : ℝ) < V := by exact_mod_cast hV
  have one : ∀ {x : ℚ} {X : ℝ}, |(x : ℝ) - X * V| ≤ δ * V → |X| ≤ 1 →
      Apx (A.div (.fin x) (.fin V)) X (δ + 3 * u) 1 := by
    intro x X h hX
    rw [div_fin _ hV.ne']
    refine Apx.rnd hA (e := δ) (M := 1) ?_ hX (by norm_num; linarith) (by norm_num; linarith) le_rfl
    push_cast
    have : (x : ℝ) / V - X = ((x : ℝ) - X * V) / V := by
      field_simp
    rw [this, abs_div, abs_of_pos rV, div_le_iff₀ rV]
    exact h
  have pa := one ha hP
  have pb := one hb hQ
  have pc := one hc hR
  have mn := apx_min pa (apx_min pb pc)
  have mx := apx_max pa (apx_max pb pc)
  have s1 := Apx.add hA mn mx (g := 2 * δ + 11 * u) (P := 2) (by norm_num; linarith)
    (by norm_num; linarith) (by norm_num)
  have s2 := Apx.mul hA (apx_half hA) s1 (g := δ + 8 * u) (P := 1) (by norm_num; linarith)
    (by norm_num; linarith) (by norm_num)
  have s3 : Apx (balanceOffset A ⟨A.div (.fin a) (.fin V), A.div (.fin b) (.fin V),
      A.div (.fin c) (.fin V)⟩) (middle P Q R) (δ + 11 * u) (3 / 2) :=
    Apx.sub hA s2 (apx_half hA) (by norm_num; linarith) (by norm_num; linarith) (by norm_num)
  refine ⟨?_, ?_, ?_⟩
  · exact Apx.sub hA pa s3 (by norm_num; linarith) (by norm_num; linarith) (by norm_num)
  · exact Apx.sub hA pb s3 (by norm_num; linarith) (by norm_num; linarith) (by norm_num)
  · exact Apx.sub hA pc s3 (by norm_num; linarith) (by norm_num; linarith) (by norm_num)

/-- The limit of a duty cycle that is inside of the band up to `κ`. -/
theorem limit_near {x lo hi : ℚ} {D e κ : ℝ} (h : |(x : ℝ) - D| ≤ e) (hle : lo ≤ hi)
    (h1 : (lo : ℝ) - κ ≤ D) (h2 : D ≤ hi + κ) (hκ : 0 ≤ κ) :
    ∃ y : ℚ, Fl.limit (.fin x) (.fin lo) (.fin hi) = .fin y ∧ |(y : ℝ) - D| ≤ e + κ := by
  refine ⟨_, Fl.limit_fin _ _ _, ?_⟩
  have hle' : (lo : ℝ) ≤ hi := by exact_mod_cast hle
  have he : 0 ≤ e := (abs_nonneg _).trans h
  rw [abs_le] at h
  split
  · rename_i g
    have g' : (x : ℝ) < lo := by exact_mod_cast g
    rw [abs_le]
    constructor <;> linarith [h.1, h.2]
  · split
    · rename_i g
      have g' : (hi : ℝ) < x := by exact_mod_cast g
      rw [abs_le]
      constructor <;> linarith [h.1, h.2]
    · rw [abs_le]
      constructor <;> linarith [h.1, h.2]

theorem diff_near {x y D E P Q e V : ℝ} (h1 : |x - D| ≤ e) (h2 : |y - E| ≤ e)
    (hD : D - E = (P - Q) / V) : |(x - y) - (P - Q) / V| ≤ 2 * e := by
  rw [← hD, abs_le] at *
  constructor <;> linarith [h1.1, h1.2, h2.1, h2.2]

/-- C82, line voltages: on a bus of 1 V to 2^20 V a vector no longer than `max_V`
(by up to 2^-18) reaches the motor: the duty cycles of any two phases differ by the
difference of their phases divided by the bus voltage, up to 2^-15 and 12 times the
error of sine and cosine.  This holds in binary32, for any PWM rate, board, order of
phases and sign. -/
theorem C82_line_voltage (hA : A.Law3) (hB : Band A) (bd : Bool) (n counts : ℤ) (inv pos : Bool)
    {θ ε : ℝ} {sc : SinCos} {V d q m : ℚ} (ht : Turned θ ε sc) (hε : ε ≤ 1 / 8) (hV : 1 ≤ V)
    (hV2 : V ≤ 2 ^ 20) (hm : maxV A (rateConfig A bd n) (.fin V) = .fin m)
    (hlen : d ^ 2 + q ^ 2 ≤ (m * (1 + 1 / 2 ^ 18)) ^ 2) :
    let out := (voltageDQ A (rateConfig A bd n) counts inv pos (.fin V) sc (.fin d) (.fin q)).duty
    let phase := onPhase θ d (if pos then q else -q)
    ∃ x y z : ℚ, out = ⟨.fin x, .fin y, .fin z⟩ ∧
      |((x : ℝ) - y) - (phase 0 - phase 1) / V| ≤ 1 / 2 ^ 15 + 12 * ε ∧
      |((y : ℝ) - z) - (phase 1 - phase 2) / V| ≤ 1 / 2 ^ 15 + 12 * ε ∧
      |((x : ℝ) - z) - (phase 0 - phase 2) / V| ≤ 1 / 2 ^ 15 + 12 * ε := by
  obtain ⟨lo, hi, e1, e2, -, -, b1, b2, b3, b4, e5⟩ := C40_band_proper hB bd n
  have hε0 : 0 ≤ ε := by
    obtain ⟨s, co, -, -, -, es, -⟩ := ht
    exact (abs_nonneg _).trans es
  have rV : (1 : ℝ) ≤ V := castLe hV (by norm_num)
  have rV0 : (0 : ℝ) < V := by linarith
  have rV2 : (V : ℝ) ≤ 2 ^ 20 := by
    have : ((V : ℚ) : ℝ) ≤ ((2 ^ 20 : ℚ) : ℝ) := by exact_mod_cast hV2
    push_cast at this
    exact this
  obtain ⟨q', hq', eq', sq'⟩ : ∃ q' : ℚ, signed pos (.fin q) = .fin q' ∧
      (q' : ℝ) = (if pos then q else -q : ℝ) ∧ q' ^ 2 = q ^ 2 := by
    cases pos
    · exact ⟨-q, rfl, by push_cast; simp, by ring⟩
    · exact ⟨q, rfl, by simp, rfl⟩
  obtain ⟨L, L0, rlen, Lle, LV⟩ := length_bound hA bd n hV hV2 e2 b3 b4 hm (sq' ▸ hlen)
  have hd : |(d : ℝ)| ≤ V := by
    refine (abs_le_of_sq_le_sq ?_ L0).trans LV
    linarith [sq_nonneg (q' : ℝ)]
  have hq : |(q' : ℝ)| ≤ V := by
    refine (abs_le_of_sq_le_sq ?_ L0).trans LV
    linarith [sq_nonneg (d : ℝ)]
  -- the phase voltages
  obtain ⟨a, b, c, ev, xa, xb, xc⟩ := C82_phases hA ht rV (rV2.trans (by norm_num)) hd hq
  have bound : ∀ k, |onPhase θ d q' k / V| ≤ 1 := by
    intro k
    rw [abs_div, abs_of_pos rV0, div_le_one rV0]
    exact (abs_le_of_sq_le_sq ((onPhase_sq θ d q' k).trans rlen) L0).trans LV
  have sc1 : ∀ k, onPhase θ d q' k / V * V = onPhase θ d q' k := fun k => by
    field_simp
  have hδ1 : (1 : ℝ) / 2 ^ 19 + 3 * ε ≤ 1 := by norm_num; linarith
  have hV0 : (0 : ℚ) < V := by linarith
  obtain ⟨⟨x, ex, dx, -⟩, ⟨y, ey, dy, -⟩, ⟨z, ez, dz, -⟩⟩ := apx_balanced hA hV0 hδ1
    (by rw [sc1]; exact xa) (by rw [sc1]; exact xb) (by rw [sc1]; exact xc) (bound 0) (bound 1)
    (bound 2)
  -- the spread
  set P := onPhase θ d q' 0 / V with hP
  set Q := onPhase θ d q' 1 / V with hQ
  set R := onPhase θ d q' 2 / V with hR
  have sp : ∀ i j : ℤ, (onPhase θ d q' i - onPhase θ d q' j) ^ 2 ≤ 3 * ((d : ℝ) ^ 2 + (q' : ℝ) ^ 2) →
      |onPhase θ d q' i / V - onPhase θ d q' j / V| ≤ (2 * (hi : ℝ) - 1) + 1 / 2 ^ 17 := by
    intro i j h
    have h1 : (onPhase θ d q' i - onPhase θ d q' j) ^ 2 ≤ (17320508076 / 10000000000 * L) ^ 2 := by
      refine h.trans ?_
      rw [mul_pow]
      nlinarith [sq_nonneg L]
    have h2 := abs_le_of_sq_le_sq h1 (by linarith)
    rw [← sub_div, abs_div, abs_of_pos rV0, div_le_iff₀ rV0]
    exact h2.trans Lle
  obtain ⟨l1, l2, l3⟩ := line_sq θ d q'
  have spread := centred (sp 0 1 l1) (sp 1 2 l2) (sp 0 2 l3)
  rw [← hP, ← hQ, ← hR] at spread
  -- the band
  have hlo := band_lo hA b1 b2 e5
  have inside : ∀ D : ℝ, min P (min Q R) ≤ D → D ≤ max P (max Q R) →
      (lo : ℝ) - 1 / 2 ^ 17 ≤ D - middle P Q R ∧ D - middle P Q R ≤ hi + 1 / 2 ^ 17 := by
    intro D g1 g2
    unfold middle
    generalize min P (min Q R) = mn at *
    generalize max P (max Q R) = mx at *
    have n1 : (1 : ℝ) / 2 ^ 17 = 1 / 131072 := by norm_num
    rw [n1] at spread ⊢
    constructor <;> linarith [hlo.1, hlo.2]
  have lohi : lo ≤ hi := by linarith
  obtain ⟨i1, i2⟩ := inside P (min_le_left _ _) (le_max_left _ _)
  obtain ⟨j1, j2⟩ := inside Q ((min_le_right _ _).trans (min_le_left _ _))
    (le_max_of_le_right (le_max_left _ _))
  obtain ⟨k1, k2⟩ := inside R ((min_le_right _ _).trans (min_le_right _ _))
    (le_max_of_le_right (le_max_right _ _))
  obtain ⟨x', fx, tx⟩ := limit_near dx lohi i1 i2 (by norm_num)
  obtain ⟨y', fy, ty⟩ := limit_near dy lohi j1 j2 (by norm_num)
  obtain ⟨z', fz, tz⟩ := limit_near dz lohi k1 k2 (by norm_num)
  have hout : (voltageDQ A (rateConfig A bd n) counts inv pos (.fin V) sc (.fin d) (.fin q)).duty =
      ⟨.fin x', .fin y', .fin z'⟩ := by
    have : (voltageDQ A (rateConfig A bd n) counts inv pos (.fin V) sc (.fin d) (.fin q)).duty =
        ⟨limitPwm (rateConfig A bd n) (balanced A (.fin V) ⟨.fin a, .fin b, .fin c⟩).a,
          limitPwm (rateConfig A bd n) (balanced A (.fin V) ⟨.fin a, .fin b, .fin c⟩).b,
          limitPwm (rateConfig A bd n) (balanced A (.fin V) ⟨.fin a, .fin b, .fin c⟩).c⟩ := by
      unfold voltageDQ phaseVoltage pwmControl
      rw [hq', ev]
      cases inv <;> rfl
    rw [this, ex, ey, ez]
    unfold limitPwm
    rw [e1, e2, fx, fy, fz]
  dsimp only
  rw [hout, ← eq']
  have fin : ∀ {w : ℝ}, w ≤ 2 * (2 * (1 / 2 ^ 19 + 3 * ε) + 20 * u + 1 / 2 ^ 17) →
      w ≤ 1 / 2 ^ 15 + 12 * ε := by
    intro w h
    norm_num at h ⊢
    linarith
  refine ⟨x', y', z', rfl, fin (diff_near tx ty ?_), fin (diff_near ty tz ?_),
    fin (diff_near tx tz ?_)⟩
  all_goals rw [hP, hQ, hR]; ring

/-! ## Witnesses -/

/-- The finite value of a float. -/
def val : Fl → ℚ
  | .fin q => q
  | _ => 0

/-- C82 fails for `ISR_DoVoltageDQCommand`, which limits the two components one by
one: on a bus of 24 V a command of 12 V and 12 V is below the limit of 12.14 V for
each, but 17 V long.  Two of its phases are 28.39 V apart, the duty cycles put
21.03 V between them.  The third pair keeps 60 % of its voltage, so the vector is
also turned. -/
theorem C82_command_refuted :
    let rc := rateConfig .single false 30000
    let sc : SinCos := ⟨.fin 0, .fin 1⟩
    let v := phaseVoltage .single sc true (.fin 12) (.fin 12)
    let out := (voltageDQCommand .single rc 5666 false true (.fin 24) sc (.fin 12) (.fin 12)).duty
    Fl.blt (.fin 12) (maxV .single rc (.fin 24)) = true ∧
      28 < val v.a - val v.c ∧ out.a.isFinite = true ∧ out.b.isFinite = true ∧
      out.c.isFinite = true ∧ (val out.a - val out.c) * 24 < 22 ∧
      7 < val v.a - val v.b ∧ (val out.a - val out.b) * 24 < 4 := by
  decide +kernel

/-- C82, command: each component of a commanded voltage is clipped to `max_V` on its
own, and one within it is used as it is. -/
theorem C82_command {A : Ar} (rc : RateConfig) (counts : ℤ) (inv pos : Bool) (busV : Fl) (sc : SinCos)
    {m d q : ℚ} (hm : maxV A rc busV = .fin m) (h0 : 0 ≤ m) :
    voltageDQCommand A rc counts inv pos busV sc (.fin d) (.fin q) =
      voltageDQ A rc counts inv pos busV sc (.fin (max (-m) (min m d))) (.fin (max (-m) (min m q))) := by
  have key : ∀ x : ℚ, Fl.limit (.fin x) (Fl.fin m).neg (.fin m) = .fin (max (-m) (min m x)) := by
    intro x
    unfold Fl.limit
    simp only [Fl.neg, Fl.blt_fin]
    by_cases h1 : x < -m
    · simp [h1]
      exact Or.inr h1.le
    · by_cases h2 : m < x
      · simp [h1, h2]
        rw [min_eq_left h2.le, max_eq_right (by linarith)]
      · simp [h1, h2]
        rw [min_eq_right (not_lt.1 h2), max_eq_right (not_lt.1 h1)]
  unfold voltageDQCommand
  simp only [hm, key]

/-- The hypotheses of `C82_command`: 24 V. -/
example : ∃ m : ℚ, maxV .exact (rateConfig .exact false 30000) (.fin 24) = .fin m ∧ 12 < m :=
  ⟨75898431 / 6250000, by decide +kernel, by norm_num⟩

/-- The hypotheses of `C82_phases`, `C82_round_trip` and `C82_line_voltage`: no
rotation, 24 V, a vector of 8 V and 8 V. -/
example : Turned 0 0 ⟨.fin 0, .fin 1⟩ ∧ |((8 : ℚ) : ℝ)| ≤ 8 ∧
    ∃ m : ℚ, maxV .exact (rateConfig .exact false 30000) (.fin 24) = .fin m ∧
      (8 : ℚ) ^ 2 + 8 ^ 2 ≤ (m * (1 + 1 / 2 ^ 18)) ^ 2 := by
  refine ⟨⟨0, 1, rfl, by simp, by simp, by simp, by simp⟩, by norm_num, 75898431 / 6250000,
    by decide +kernel, by norm_num⟩

/-- The hypotheses of `C82_measured`: 1 A for each volt, a vector of 8 V and 0 V. -/
example : |((8 : ℚ) : ℝ) - 1 * onPhase 0 8 0 (phaseOf false 1)| ≤ 0 ∧
    |((-4 : ℚ) : ℝ) - 1 * onPhase 0 8 0 (phaseOf false 2)| ≤ 0 ∧
    |((-4 : ℚ) : ℝ) - 1 * onPhase 0 8 0 (phaseOf false 3)| ≤ 0 := by
  have e1 : phaseOf false 1 = 0 := rfl
  have e2 : phaseOf false 2 = 2 := rfl
  have e3 : phaseOf false 3 = 1 := rfl
  unfold onPhase
  rw [e1, e2, e3, angle0, cos1, cos2, sin1, sin2]
  norm_num

end Verif.Fw.Foc
