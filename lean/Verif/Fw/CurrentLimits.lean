import Verif.Fw.FocPwm

/-!
# Limits of current and voltage

Model of `ISR_DoCurrent` (`fw/bldc_servo.cc` 1711-1890) up to the voltages: the
limits of the current command by position bounds, velocity, temperature and power,
and the limit of the voltage vector.

Property C83.
-/

namespace Verif.Fw.Current

open Verif.Float Verif.Fw Verif.Fw.Foc

/-! ## Model -/

/-- The members of `config_` and `position_config_` that are used. -/
structure Config where
  positionMin : Fl
  positionMax : Fl
  positionDerate : Fl
  maxVelocity : Fl
  maxVelocityDerate : Fl
  maxCurrent : Fl
  derateCurrent : Fl
  derateTemp : Fl
  faultTemp : Fl
  motorDerateTemp : Fl
  motorFaultTemp : Fl

/-- What is measured, and `old_d_V`, `old_q_V`: the voltages of the last cycle. -/
structure Meas where
  position : Fl
  velocity : Fl
  fetTemp : Fl
  motorTemp : Fl
  maxPower : Fl
  oldD : Fl
  oldQ : Fl

variable (A : Ar)

/-- `std::max(0.0f, 1.0f - x / position_derate)` (lines 1738-1742, 1747-1751). -/
def derateFactor (cfg : Config) (x : Fl) : Fl :=
  Fl.max (.fin 0) (A.sub (.fin 1) (A.div x cfg.positionDerate))

/-- `limit_q_current` (lines 1726-1755). -/
def limitQCurrent (cfg : Config) (m : Meas) (ignoreBounds : Bool) (i : Fl) : Fl :=
  if ignoreBounds then i
  else if !cfg.positionMax.isNan && Fl.blt cfg.positionMax m.position && Fl.blt (.fin 0) i then
    A.mul i (derateFactor A cfg (A.sub m.position cfg.positionMax))
  else if !cfg.positionMin.isNan && Fl.blt m.position cfg.positionMin && Fl.blt i (.fin 0) then
    A.mul i (derateFactor A cfg (A.sub cfg.positionMin m.position))
  else i

/-- `limit_q_velocity` (lines 1757-1769). -/
def limitQVelocity (cfg : Config) (m : Meas) (i : Fl) : Fl :=
  let absVelocity := m.velocity.abs
  if Fl.blt absVelocity cfg.maxVelocity || Fl.blt (A.mul m.velocity i) (.fin 0) then i
  else
    let derateFraction :=
      A.sub (.fin 1) (A.div (A.sub absVelocity cfg.maxVelocity) cfg.maxVelocityDerate)
    let currentLimit := Fl.max (.fin 0) (A.mul derateFraction cfg.maxCurrent)
    Fl.limit i currentLimit.neg currentLimit

/-- `derate_fraction` (lines 1771-1779). -/
def derateFraction (cfg : Config) (m : Meas) : Fl :=
  let fet := A.div (A.sub m.fetTemp cfg.derateTemp) (A.sub cfg.faultTemp cfg.derateTemp)
  if cfg.motorFaultTemp.isFinite then
    Fl.min fet (A.div (A.sub m.motorTemp cfg.motorDerateTemp)
      (A.sub cfg.motorFaultTemp cfg.motorDerateTemp))
  else fet

/-- `temp_limit_A` (lines 1781-1789). -/
def tempLimit (cfg : Config) (m : Meas) : Fl :=
  let derateCurrent := Fl.max (.fin 0)
    (A.add (A.mul (derateFraction A cfg m) (A.sub cfg.derateCurrent cfg.maxCurrent)) cfg.maxCurrent)
  Fl.min cfg.maxCurrent derateCurrent

/-- `almost_i_q_A` (lines 1796-1799). -/
def almostQ (cfg : Config) (m : Meas) (ignoreBounds : Bool) (i : Fl) : Fl :=
  Fl.limit (limitQVelocity A cfg m (limitQCurrent A cfg m ignoreBounds i))
    (tempLimit A cfg m).neg (tempLimit A cfg m)

/-- `almost_i_d_A` (line 1800). -/
def almostD (cfg : Config) (m : Meas) (i : Fl) : Fl :=
  Fl.limit i (tempLimit A cfg m).neg (tempLimit A cfg m)

/-- `used_d_power_W` and `used_q_power_W` (lines 1808-1809). -/
def usedPower (oldV i : Fl) : Fl := A.mul (A.mul (A.lit (3 / 2)) oldV) i

/-- The power limit (lines 1810-1827): `i_d_A` and `i_q_A`. -/
def powerLimit (m : Meas) (d q : Fl) : Fl × Fl :=
  let usedD := usedPower A m.oldD d
  let usedQ := usedPower A m.oldQ q
  let used := A.add usedQ usedD
  if Fl.blt used.abs m.maxPower then (d, q)
  else
    let scale := A.div m.maxPower used.abs
    (A.div (A.mul usedD scale) (A.mul (A.lit (3 / 2)) m.oldD),
      A.div (A.mul usedQ scale) (A.mul (A.lit (3 / 2)) m.oldQ))

/-- `control_.i_d_A` and `control_.i_q_A` for the command `d`, `q`. -/
def currents (cfg : Config) (m : Meas) (ignoreBounds : Bool) (d q : Fl) : Fl × Fl :=
  powerLimit A m (almostD A cfg m d) (almostQ A cfg m ignoreBounds q)

/-- `limit_to_max_voltage` (lines 1836-1846); `sqrtf` is a parameter. -/
def limitVoltage (sqrtf : Fl → Fl) (maxV d q : Fl) : Fl × Fl :=
  let maxSq := A.mul maxV maxV
  let len := A.add (A.mul d d) (A.mul q q)
  if Fl.blt len maxSq then (d, q)
  else
    let scale := sqrtf (A.div maxSq len)
    (A.mul d scale, A.mul q scale)

variable {A}

/-! ## Current -/

theorem max_zero_nonneg (x : Fl) : (Fl.fin 0).Le (Fl.max (.fin 0) x) := by
  unfold Fl.max
  split
  · exact Fl.Le_of_blt ‹_›
  · simp

theorem min_spec {x y : Fl} (hx : x ≠ .nan) (hy : y ≠ .nan) :
    (Fl.min x y).Le x ∧ (Fl.min x y).Le y ∧ (Fl.min x y = x ∨ Fl.min x y = y) := by
  unfold Fl.min
  split
  · exact ⟨Fl.Le_of_blt ‹_›, Fl.Le.refl hy, .inr rfl⟩
  · rename_i h
    exact ⟨Fl.Le.refl hx, (Fl.not_blt hy hx).mp (by simpa using h), .inl rfl⟩

/-- C83, temperature limit: whatever temperatures and settings, it is between zero
and the maximum current. -/
theorem C83_limit_range {cfg : Config} {m : Meas} {I : ℚ} (hI : cfg.maxCurrent = .fin I)
    (h0 : 0 ≤ I) :
    (Fl.fin 0).Le (tempLimit A cfg m) ∧ (tempLimit A cfg m).Le (.fin I) := by
  unfold tempLimit
  rw [hI]
  dsimp only
  have h1 := max_zero_nonneg
    (A.add (A.mul (derateFraction A cfg m) (A.sub cfg.derateCurrent (.fin I))) (.fin I))
  obtain ⟨h2, -, h3⟩ := min_spec (x := .fin I) (by simp) h1.not_nan.2
  refine ⟨?_, h2⟩
  rcases h3 with h3 | h3 <;> rw [h3]
  · simpa using h0
  · exact h1

theorem neg_le_self {x : Fl} (h : (Fl.fin 0).Le x) : x.neg.Le x := by
  have := Fl.neg_Le h
  simp only [Fl.neg, neg_zero] at this
  exact this.trans h

theorem limit_ne_nan {a lo hi : Fl} (h : lo.Le hi) (ha : a ≠ .nan) : Fl.limit a lo hi ≠ .nan :=
  (Fl.limit_mem h ha).1.not_nan.2

theorem mul_factor_ne_nan {i : ℚ} {f : Fl} (hi : i ≠ 0) (hf : f ≠ .nan) :
    A.mul (.fin i) f ≠ .nan := by
  rcases f with _ | s | q
  · exact absurd rfl hf
  · simp [Ar.mul, Ar.infMul, hi]
  · exact Ar.rnd_ne_nan _

theorem limitQCurrent_ne_nan {cfg : Config} {m : Meas} {b : Bool} {i : ℚ} :
    limitQCurrent A cfg m b (.fin i) ≠ .nan := by
  unfold limitQCurrent derateFactor
  split
  · simp
  split
  · rename_i h
    simp only [Bool.and_eq_true, Fl.blt_fin, decide_eq_true_eq] at h
    exact mul_factor_ne_nan h.2.ne' (max_zero_nonneg _).not_nan.2
  split
  · rename_i h
    simp only [Bool.and_eq_true, Fl.blt_fin, decide_eq_true_eq] at h
    exact mul_factor_ne_nan h.2.ne (max_zero_nonneg _).not_nan.2
  · simp

theorem limitQVelocity_ne_nan {cfg : Config} {m : Meas} {i : Fl} (hi : i ≠ .nan) :
    limitQVelocity A cfg m i ≠ .nan := by
  unfold limitQVelocity
  dsimp only
  split
  · exact hi
  · exact limit_ne_nan (neg_le_self (max_zero_nonneg _)) hi

/-- C83, current: for finite commands, whatever is measured (NaN included) and
configured, neither component before the power limit exceeds the maximum current
or the temperature limit. -/
theorem C83_current {cfg : Config} {m : Meas} {b : Bool} {I d q : ℚ}
    (hI : cfg.maxCurrent = .fin I) (h0 : 0 ≤ I) :
    ∃ d' q' T : ℚ, almostD A cfg m (.fin d) = .fin d' ∧ almostQ A cfg m b (.fin q) = .fin q' ∧
      tempLimit A cfg m = .fin T ∧ |d'| ≤ T ∧ |q'| ≤ T ∧ T ≤ I := by
  obtain ⟨t1, t2⟩ := C83_limit_range (A := A) (m := m) hI h0
  obtain ⟨T, eT⟩ : ∃ T : ℚ, tempLimit A cfg m = .fin T := by
    generalize tempLimit A cfg m = t at t1 t2
    rcases t with _ | ⟨_ | _⟩ | T
    · simp [Fl.Le] at t1
    · simp [Fl.Le, Fl.ble] at t2
    · simp [Fl.Le, Fl.ble] at t1
    · exact ⟨T, rfl⟩
  rw [eT, Fl.Le_fin] at t1 t2
  have key : ∀ i : Fl, i ≠ .nan →
      ∃ x : ℚ, Fl.limit i (tempLimit A cfg m).neg (tempLimit A cfg m) = .fin x ∧ |x| ≤ T := by
    intro i hi
    rw [eT]
    obtain ⟨g1, g2⟩ := Fl.limit_mem (a := i) (lo := (Fl.fin T).neg) (hi := .fin T)
      (neg_le_self (by simpa using t1)) hi
    generalize Fl.limit i (Fl.fin T).neg (.fin T) = y at g1 g2
    rcases y with _ | ⟨_ | _⟩ | x
    · simp [Fl.Le] at g2
    · simp [Fl.Le, Fl.ble] at g2
    · simp [Fl.neg, Fl.Le, Fl.ble] at g1
    · simp only [Fl.neg, Fl.Le_fin] at g1 g2
      exact ⟨x, rfl, abs_le.mpr ⟨g1, g2⟩⟩
  obtain ⟨d', e1, l1⟩ := key (.fin d) (by simp)
  obtain ⟨q', e2, l2⟩ := key _ (limitQVelocity_ne_nan (limitQCurrent_ne_nan (A := A) (cfg := cfg)
    (m := m) (b := b) (i := q)))
  exact ⟨d', q', T, e1, e2, eT, l1, l2, t2⟩

/-- C83, temperature: an unknown FET temperature allows no current. -/
theorem C83_unknown_temperature {cfg : Config} {m : Meas} {I : ℚ} (hI : cfg.maxCurrent = .fin I)
    (h0 : 0 ≤ I) (hT : m.fetTemp = .nan) : tempLimit A cfg m = .fin 0 := by
  have hn : derateFraction A cfg m = .nan := by
    unfold derateFraction
    rw [hT]
    dsimp only
    have e1 : ∀ y, A.sub .nan y = .nan := fun y => by simp [Ar.sub, Ar.add]
    have e2 : ∀ y, A.div .nan y = .nan := fun y => by simp [Ar.div]
    rw [e1, e2]
    split
    · simp [Fl.min]
    · rfl
  unfold tempLimit
  rw [hn, hI]
  have e1 : ∀ y, A.mul .nan y = .nan := fun y => by simp [Ar.mul]
  have e2 : ∀ y, A.add .nan y = .nan := fun y => by simp [Ar.add]
  rw [e1, e2]
  simp only [Fl.max, Fl.blt_nan_right, Fl.min]
  by_cases h : 0 < I
  · simp [h]
  · have : I = 0 := le_antisymm (not_lt.mp h) h0
    simp [this]

/-! ## Velocity and position bounds -/

theorem le_sub (hA : A.Law) {x y r : ℚ} (hr : A.Rep r) (h : r ≤ x - y) :
    (Fl.fin r).Le (A.sub (.fin x) (.fin y)) := by
  rw [sub_fin]
  exact hA.le_rnd hr h

/-- `1 - x / y` is not positive when `x` is at least `y`. -/
theorem one_sub_div (hA : A.Law2) {x : Fl} {y : ℚ} (hy : 0 < y) (h : (Fl.fin y).Le x) :
    (A.sub (.fin 1) (A.div x (.fin y))).Le (.fin 0) := by
  rcases x with _ | ⟨_ | _⟩ | q
  · simp [Fl.Le] at h
  · have : ¬ y < 0 := not_lt.mpr hy.le
    simp [Ar.div, Ar.sub, Fl.neg, Ar.add, Fl.Le, Fl.ble, this]
  · simp [Fl.Le, Fl.ble] at h
  · rw [Fl.Le_fin] at h
    rw [div_fin _ hy.ne']
    have h1 : 1 ≤ q / y := (one_le_div hy).mpr h
    have h2 := hA.toLaw.le_rnd (lit_one hA) h1
    generalize A.rnd (q / y) = z at h2
    rcases z with _ | ⟨_ | _⟩ | z
    · simp [Fl.Le] at h2
    · simp [Ar.sub, Fl.neg, Ar.add, Fl.Le, Fl.ble]
    · simp [Fl.Le, Fl.ble] at h2
    · rw [Fl.Le_fin] at h2
      rw [sub_fin]
      exact hA.toLaw.rnd_le hA.toLaw.rep_zero (by linarith)

theorem mul_nonpos (hA : A.Law) {x : Fl} {I : ℚ} (h0 : 0 ≤ I) (h : x.Le (.fin 0)) :
    A.mul x (.fin I) = .nan ∨ (A.mul x (.fin I)).Le (.fin 0) := by
  rcases x with _ | ⟨_ | _⟩ | q
  · exact .inl rfl
  · simp [Fl.Le, Fl.ble] at h
  · by_cases hI : I = 0
    · left; simp [Ar.mul, Ar.infMul, hI]
    · right
      have : ¬ I < 0 := not_lt.mpr h0
      simp [Ar.mul, Ar.infMul, hI, this, Fl.Le, Fl.ble]
  · right
    rw [Fl.Le_fin] at h
    exact hA.rnd_le hA.rep_zero (mul_nonpos_of_nonpos_of_nonneg h h0)

theorem max_zero_eq {x : Fl} (h : x = .nan ∨ x.Le (.fin 0)) : Fl.max (.fin 0) x = .fin 0 := by
  unfold Fl.max
  split
  · rename_i g
    rcases h with rfl | h
    · simp at g
    · have h2 := h
      unfold Fl.Le at h2
      simp [Fl.blt, h2] at g
  · rfl

theorem limit_zero {x : Fl} (h : x ≠ .nan) : Fl.limit x (Fl.fin 0).neg (.fin 0) = .fin 0 := by
  have hz : (Fl.fin 0).neg = .fin 0 := by simp [Fl.neg]
  rw [hz]
  obtain ⟨h1, h2⟩ := Fl.limit_mem (a := x) (lo := .fin 0) (hi := .fin 0) (by simp) h
  exact (h1.antisymm h2).symm

theorem limit_sym_zero {T : Fl} (hT : (Fl.fin 0).Le T) : Fl.limit (.fin 0) T.neg T = .fin 0 := by
  have h1 : Fl.blt (.fin 0) T.neg = false := by
    have := Fl.neg_Le hT
    simp only [Fl.neg, neg_zero] at this
    exact (Fl.not_blt (by simp) this.not_nan.1).mpr this
  have h2 : Fl.blt T (.fin 0) = false := (Fl.not_blt hT.not_nan.2 (by simp)).mpr hT
  simp [Fl.limit, h1, h2]

theorem mul_factor_sign (hA : A.Law) {i : ℚ} {f : Fl} (hf : (Fl.fin 0).Le f) :
    (0 < i → (Fl.fin 0).Le (A.mul (.fin i) f)) ∧ (i < 0 → (A.mul (.fin i) f).Le (.fin 0)) := by
  rcases f with _ | ⟨_ | _⟩ | f
  · simp [Fl.Le] at hf
  · constructor
    · intro h
      have h2 : ¬ i < 0 := not_lt.mpr h.le
      simp [Ar.mul, Ar.infMul, h.ne', h2, Fl.Le, Fl.ble]
    · intro h
      simp [Ar.mul, Ar.infMul, h.ne, h, Fl.Le, Fl.ble]
  · simp [Fl.Le, Fl.ble] at hf
  · rw [Fl.Le_fin] at hf
    constructor
    · intro h
      exact hA.le_rnd hA.rep_zero (mul_nonneg h.le hf)
    · intro h
      exact hA.rnd_le hA.rep_zero (mul_nonpos_of_nonpos_of_nonneg h.le hf)

/-- The limit at the position bounds keeps the sign. -/
theorem limitQCurrent_sign (hA : A.Law) {cfg : Config} {m : Meas} {b : Bool} {i : ℚ} :
    (0 ≤ i → (Fl.fin 0).Le (limitQCurrent A cfg m b (.fin i))) ∧
      (i ≤ 0 → (limitQCurrent A cfg m b (.fin i)).Le (.fin 0)) := by
  unfold limitQCurrent derateFactor
  split
  · simp
  split
  · rename_i h
    simp only [Bool.and_eq_true, Fl.blt_fin, decide_eq_true_eq] at h
    exact ⟨fun _ => (mul_factor_sign hA (max_zero_nonneg _)).1 h.2, fun g => absurd h.2 (by linarith)⟩
  split
  · rename_i h
    simp only [Bool.and_eq_true, Fl.blt_fin, decide_eq_true_eq] at h
    exact ⟨fun g => absurd h.2 (by linarith), fun _ => (mul_factor_sign hA (max_zero_nonneg _)).2 h.2⟩
  · simp

theorem mul_same_sign (hA : A.Law) {v q : ℚ} {j : Fl}
    (hj : (0 ≤ q → (Fl.fin 0).Le j) ∧ (q ≤ 0 → j.Le (.fin 0))) (h : 0 ≤ v * q) :
    Fl.blt (A.mul (.fin v) j) (.fin 0) = false := by
  by_contra hc
  rw [Bool.not_eq_false] at hc
  have ord : (0 ≤ v ∧ (Fl.fin 0).Le j) ∨ (v ≤ 0 ∧ j.Le (.fin 0)) ∨ v = 0 := by
    rcases lt_trichotomy v 0 with g | g | g
    · exact .inr (.inl ⟨g.le, hj.2 (by nlinarith)⟩)
    · exact .inr (.inr g)
    · exact .inl ⟨g.le, hj.1 (by nlinarith)⟩
  rcases j with _ | s | j
  · simp [Ar.mul] at hc
  · by_cases h0 : v = 0
    · simp [Ar.mul, Ar.infMul, h0] at hc
    · cases s
      · have : 0 ≤ v := by
          rcases ord with g | g | g
          · exact g.1
          · have := g.2
            simp [Fl.Le, Fl.ble] at this
          · exact g.ge
        have h2 : ¬ v < 0 := not_lt.mpr this
        simp [Ar.mul, Ar.infMul, h0, h2, Fl.blt, Fl.ble] at hc
      · have : v < 0 := by
          rcases ord with g | g | g
          · have := g.2
            simp [Fl.Le, Fl.ble] at this
          · exact lt_of_le_of_ne g.1 h0
          · exact absurd g h0
        simp [Ar.mul, Ar.infMul, h0, this, Fl.blt, Fl.ble] at hc
  · have hp : 0 ≤ v * j := by
      simp only [Fl.Le_fin] at ord
      rcases ord with g | g | g
      · exact mul_nonneg g.1 g.2
      · exact mul_nonneg_of_nonpos_of_nonpos g.1 g.2
      · simp [g]
    have := hA.le_rnd hA.rep_zero hp
    have hx : Fl.blt (A.rnd (v * j)) (.fin 0) = false :=
      (Fl.not_blt (Ar.rnd_ne_nan _) (by simp)).mpr this
    exact absurd (hc.symm.trans hx) (by simp)

/-- C83, velocity: at `max_velocity + max_velocity_derate` and above, no current
drives the motor on. -/
theorem C83_velocity (hA : A.Law2) {cfg : Config} {m : Meas} {b : Bool} {I v W D q : ℚ}
    (hI : cfg.maxCurrent = .fin I) (h0 : 0 ≤ I) (hv : m.velocity = .fin v)
    (hW : cfg.maxVelocity = .fin W) (hD : cfg.maxVelocityDerate = .fin D) (rD : A.Rep D)
    (hD0 : 0 < D) (hfast : W + D ≤ |v|) (hdir : 0 ≤ v * q) :
    almostQ A cfg m b (.fin q) = .fin 0 := by
  unfold almostQ
  have hn := limitQCurrent_ne_nan (A := A) (cfg := cfg) (m := m) (b := b) (i := q)
  have hs := mul_same_sign hA.toLaw (limitQCurrent_sign hA.toLaw (cfg := cfg) (m := m) (b := b)
    (i := q)) hdir
  generalize limitQCurrent A cfg m b (.fin q) = j at *
  have hz : limitQVelocity A cfg m j = .fin 0 := by
    unfold limitQVelocity
    dsimp only
    rw [hv, hW, hD, hI]
    have ha : (Fl.fin v).abs = .fin |v| := rfl
    rw [ha]
    have c1 : Fl.blt (.fin |v|) (.fin W) = false := by
      rw [Fl.blt_fin]
      exact decide_eq_false (by linarith)
    rw [c1, hs]
    simp only [Bool.or_self, Bool.false_eq_true, if_false]
    rw [max_zero_eq (mul_nonpos hA.toLaw h0
      (one_sub_div hA hD0 (le_sub hA.toLaw rD (by linarith))))]
    exact limit_zero hn
  rw [hz]
  exact limit_sym_zero (C83_limit_range hI h0).1

/-- C83, velocity: an unknown velocity allows no current across. -/
theorem C83_unknown_velocity {cfg : Config} {m : Meas} {b : Bool} {I q : ℚ}
    (hI : cfg.maxCurrent = .fin I) (h0 : 0 ≤ I) (hv : m.velocity = .nan) :
    almostQ A cfg m b (.fin q) = .fin 0 := by
  unfold almostQ
  have hn := limitQCurrent_ne_nan (A := A) (cfg := cfg) (m := m) (b := b) (i := q)
  have hz : limitQVelocity A cfg m (limitQCurrent A cfg m b (.fin q)) = .fin 0 := by
    unfold limitQVelocity
    dsimp only
    rw [hv]
    have e1 : Fl.nan.abs = .nan := rfl
    have e2 : ∀ y, A.mul .nan y = .nan := fun y => by simp [Ar.mul]
    have e3 : ∀ y, A.sub .nan y = .nan := fun y => by simp [Ar.sub, Ar.add]
    have e4 : ∀ y, A.div .nan y = .nan := fun y => by simp [Ar.div]
    have e5 : A.sub (.fin 1) .nan = .nan := by simp [Ar.sub, Fl.neg, Ar.add]
    rw [e1, e2, e3, e4, e5, e2]
    simp only [Fl.blt_nan_left, Bool.or_self, Bool.false_eq_true, if_false]
    rw [max_zero_eq (.inl rfl)]
    exact limit_zero hn
  rw [hz]
  exact limit_sym_zero (C83_limit_range hI h0).1

theorem mul_zero_factor (hA : A.Law) (i : ℚ) : A.mul (.fin i) (.fin 0) = .fin 0 := by
  show A.rnd (i * 0) = _
  rw [mul_zero]
  exact hA.rep_zero.rnd

/-- C83, position bounds: `position_derate` beyond the upper bound no current drives
further out. -/
theorem C83_upper_bound (hA : A.Law2) {cfg : Config} {m : Meas} {I x X D q : ℚ}
    (hI : cfg.maxCurrent = .fin I) (h0 : 0 ≤ I) (hx : m.position = .fin x)
    (hX : cfg.positionMax = .fin X) (hD : cfg.positionDerate = .fin D) (rD : A.Rep D)
    (hD0 : 0 < D) (hfar : X + D ≤ x) (hq : 0 ≤ q) :
    almostQ A cfg m false (.fin q) = .fin 0 := by
  have hz : limitQCurrent A cfg m false (.fin q) = .fin 0 := by
    unfold limitQCurrent derateFactor
    rw [hx, hX, hD]
    have c1 : Fl.blt (.fin X) (.fin x) = true := by
      rw [Fl.blt_fin]
      exact decide_eq_true (by linarith)
    by_cases h : 0 < q
    · rw [c1]
      simp only [Fl.isNan, Fl.blt_fin, h, decide_true, Bool.not_false, Bool.and_self, if_true,
        Bool.false_eq_true, if_false]
      rw [max_zero_eq (.inr (one_sub_div hA hD0 (le_sub hA.toLaw rD (by linarith)))),
        mul_zero_factor hA.toLaw]
    · have : q = 0 := le_antisymm (not_lt.mp h) hq
      subst this
      simp
  unfold almostQ
  rw [hz]
  have hv : limitQVelocity A cfg m (.fin 0) = .fin 0 := by
    unfold limitQVelocity
    dsimp only
    split
    · rfl
    · exact limit_sym_zero (max_zero_nonneg _)
  rw [hv]
  exact limit_sym_zero (C83_limit_range hI h0).1

/-- C83, position bounds: the same at the lower bound. -/
theorem C83_lower_bound (hA : A.Law2) {cfg : Config} {m : Meas} {I x X D q : ℚ}
    (hI : cfg.maxCurrent = .fin I) (h0 : 0 ≤ I) (hx : m.position = .fin x)
    (hX : cfg.positionMin = .fin X) (hD : cfg.positionDerate = .fin D) (rD : A.Rep D)
    (hD0 : 0 < D) (hfar : x + D ≤ X) (hq : q ≤ 0) :
    almostQ A cfg m false (.fin q) = .fin 0 := by
  have hz : limitQCurrent A cfg m false (.fin q) = .fin 0 := by
    unfold limitQCurrent derateFactor
    rw [hx, hX, hD]
    have c1 : Fl.blt (.fin x) (.fin X) = true := by
      rw [Fl.blt_fin]
      exact decide_eq_true (by linarith)
    have c2 : Fl.blt (.fin 0) (.fin q) = false := by
      rw [Fl.blt_fin]
      exact decide_eq_false (by linarith)
    rw [c1, c2]
    simp only [Bool.and_false, Bool.false_eq_true, if_false]
    by_cases h : q < 0
    · simp only [Fl.isNan, Fl.blt_fin, h, decide_true, Bool.not_false, Bool.and_self, if_true]
      rw [max_zero_eq (.inr (one_sub_div hA hD0 (le_sub hA.toLaw rD (by linarith)))),
        mul_zero_factor hA.toLaw]
    · have : q = 0 := le_antisymm hq (not_lt.mp h)
      subst this
      simp
  unfold almostQ
  rw [hz]
  have hv : limitQVelocity A cfg m (.fin 0) = .fin 0 := by
    unfold limitQVelocity
    dsimp only
    split
    · rfl
    · exact limit_sym_zero (max_zero_nonneg _)
  rw [hv]
  exact limit_sym_zero (C83_limit_range hI h0).1

/-! ## Power, in exact arithmetic -/

/-- C83, power: when both voltages of the last cycle are nonzero the two currents are
reduced by the same factor, and their power at the voltages of the last cycle is
within the limit. -/
theorem C83_power_partial {m : Meas} {P u w d q : ℚ} (hP : m.maxPower = .fin P) (hP0 : 0 < P)
    (hu : m.oldD = .fin u) (hw : m.oldQ = .fin w) (hu0 : u ≠ 0) (hw0 : w ≠ 0) :
    ∃ k : ℚ, powerLimit .exact m (.fin d) (.fin q) = (.fin (k * d), .fin (k * q)) ∧ 0 < k ∧ k ≤ 1 ∧
      |3 / 2 * (u * (k * d) + w * (k * q))| ≤ P ∧
      (|3 / 2 * (u * d + w * q)| < P → k = 1) := by
  have key : ∀ x y : ℚ, Ar.exact.mul (.fin x) (.fin y) = .fin (x * y) := fun x y => by
    show Ar.exact.rnd _ = _
    simp
  have eu : usedPower .exact m.oldD (.fin d) = .fin (3 / 2 * u * d) := by
    rw [hu]
    simp only [usedPower, Ar.lit, Ar.exact_rnd, key]
  have ew : usedPower .exact m.oldQ (.fin q) = .fin (3 / 2 * w * q) := by
    rw [hw]
    simp only [usedPower, Ar.lit, Ar.exact_rnd, key]
  unfold powerLimit
  dsimp only
  rw [eu, ew, hP, hu, hw, Ar.add_fin, Ar.exact_rnd]
  have ha : (Fl.fin (3 / 2 * w * q + 3 / 2 * u * d)).abs = .fin |3 / 2 * (u * d + w * q)| := by
    show Fl.fin |_| = _
    congr 2
    ring
  rw [ha, Fl.blt_fin]
  by_cases h : |3 / 2 * (u * d + w * q)| < P
  · rw [decide_eq_true h, if_pos rfl]
    exact ⟨1, by simp, by norm_num, le_rfl, by simpa using h.le, fun _ => rfl⟩
  · rw [decide_eq_false h, if_neg (by simp)]
    have hS : P ≤ |3 / 2 * (u * d + w * q)| := not_lt.mp h
    have e2 : 3 / 2 * (u * (P / |3 / 2 * (u * d + w * q)| * d) +
        w * (P / |3 / 2 * (u * d + w * q)| * q)) =
        P / |3 / 2 * (u * d + w * q)| * (3 / 2 * (u * d + w * q)) := by ring
    refine ⟨P / |3 / 2 * (u * d + w * q)|, ?_, ?_, ?_, ?_, fun g => absurd g h⟩
    · have h1 : |3 / 2 * (u * d + w * q)| ≠ 0 := by linarith
      generalize |3 / 2 * (u * d + w * q)| = S at *
      rw [div_fin _ h1]
      simp only [Ar.lit, Ar.exact_rnd, key]
      rw [div_fin _ (by positivity), div_fin _ (by positivity)]
      simp only [Ar.exact_rnd]
      congr 2 <;> field_simp
    · exact div_pos hP0 (by linarith)
    · exact (div_le_one (by linarith)).mpr hS
    · rw [e2, abs_mul, abs_of_nonneg (div_nonneg hP0.le (abs_nonneg _))]
      rw [div_mul_cancel₀ _ (by linarith)]

/-- The currents of C83 without rounding: bounded by the maximum current and the
temperature limit, and by the power limit. -/
theorem C83_currents_partial {cfg : Config} {m : Meas} {b : Bool} {I P u w d q : ℚ}
    (hI : cfg.maxCurrent = .fin I) (h0 : 0 ≤ I) (hP : m.maxPower = .fin P) (hP0 : 0 < P)
    (hu : m.oldD = .fin u) (hw : m.oldQ = .fin w) (hu0 : u ≠ 0) (hw0 : w ≠ 0) :
    ∃ d' q' T : ℚ, currents .exact cfg m b (.fin d) (.fin q) = (.fin d', .fin q') ∧
      tempLimit .exact cfg m = .fin T ∧ |d'| ≤ T ∧ |q'| ≤ T ∧ T ≤ I ∧
      |3 / 2 * (u * d' + w * q')| ≤ P := by
  obtain ⟨d1, q1, T, e1, e2, e3, l1, l2, l3⟩ := C83_current (A := .exact) (m := m) (b := b) (d := d)
    (q := q) hI h0
  obtain ⟨k, ek, k0, k1, kp, -⟩ := C83_power_partial (d := d1) (q := q1) hP hP0 hu hw hu0 hw0
  have shrink : ∀ x : ℚ, |k * x| ≤ |x| := fun x => by
    rw [abs_mul, abs_of_pos k0]
    exact mul_le_of_le_one_left (abs_nonneg _) k1
  refine ⟨k * d1, k * q1, T, ?_, e3, (shrink _).trans l1, (shrink _).trans l2, l3, kp⟩
  unfold currents
  rw [e1, e2, ek]

/-! ## Temperature, in exact arithmetic -/

/-- The current allowed at temperature `t` when derating from `t0` to `t1`: the
maximum below `t0`, then linear, reaching `i1` at `t1`, never negative. -/
def allowed (t t0 t1 imax i1 : ℚ) : ℚ := max 0 (min imax (imax + (t - t0) / (t1 - t0) * (i1 - imax)))

/-- C83, temperature: without a motor fault temperature the limit is that of the
FETs. -/
theorem C83_temperature_partial {cfg : Config} {m : Meas} {I i1 t t0 t1 : ℚ}
    (hI : cfg.maxCurrent = .fin I) (h0 : 0 ≤ I) (hi : cfg.derateCurrent = .fin i1)
    (ht : m.fetTemp = .fin t) (ht0 : cfg.derateTemp = .fin t0) (ht1 : cfg.faultTemp = .fin t1)
    (h01 : t0 < t1) (hm : cfg.motorFaultTemp.isFinite = false) :
    tempLimit .exact cfg m = .fin (allowed t t0 t1 I i1) := by
  unfold tempLimit derateFraction
  rw [hI, hi, ht, ht0, ht1, hm]
  dsimp only
  have key : ∀ x y : ℚ, Ar.exact.mul (.fin x) (.fin y) = .fin (x * y) := fun x y => by
    show Ar.exact.rnd _ = _
    simp
  simp only [sub_fin, Ar.exact_rnd, Bool.false_eq_true, if_false]
  rw [div_fin _ (by linarith)]
  simp only [Ar.exact_rnd, key, Ar.add_fin, Fl_max_fin, Fl_min_fin]
  congr 1
  unfold allowed
  rw [add_comm]
  rcases le_total 0 (I + (t - t0) / (t1 - t0) * (i1 - I)) with h | h
  · rw [max_eq_right h, max_eq_right (le_min h0 h)]
  · rw [max_eq_left h, min_eq_right (h.trans h0), min_eq_right h0, max_eq_left h]

/-- C83, temperature, with a motor fault temperature: the limit is that of the
cooler of the two. -/
theorem C83_cooler_partial {cfg : Config} {m : Meas} {I i1 t t0 t1 s s0 s1 : ℚ}
    (hI : cfg.maxCurrent = .fin I) (h0 : 0 ≤ I) (hi : cfg.derateCurrent = .fin i1) (hi1 : i1 ≤ I)
    (ht : m.fetTemp = .fin t) (ht0 : cfg.derateTemp = .fin t0) (ht1 : cfg.faultTemp = .fin t1)
    (h01 : t0 < t1) (hs : m.motorTemp = .fin s) (hs0 : cfg.motorDerateTemp = .fin s0)
    (hs1 : cfg.motorFaultTemp = .fin s1) (hs01 : s0 < s1) :
    tempLimit .exact cfg m = .fin (max (allowed t t0 t1 I i1) (allowed s s0 s1 I i1)) := by
  unfold tempLimit derateFraction
  rw [hI, hi, ht, ht0, ht1, hs, hs0, hs1]
  dsimp only
  have key : ∀ x y : ℚ, Ar.exact.mul (.fin x) (.fin y) = .fin (x * y) := fun x y => by
    show Ar.exact.rnd _ = _
    simp
  simp only [sub_fin, Ar.exact_rnd, Fl.isFinite, if_true]
  rw [div_fin _ (by linarith), div_fin _ (by linarith)]
  simp only [Ar.exact_rnd, key, Ar.add_fin, Fl_max_fin, Fl_min_fin]
  congr 1
  unfold allowed
  generalize (t - t0) / (t1 - t0) = x
  generalize (s - s0) / (s1 - s0) = y
  have hneg : i1 - I ≤ 0 := by linarith
  have e : ∀ z : ℚ, min I (max 0 (z * (i1 - I) + I)) = max 0 (min I (I + z * (i1 - I))) := by
    intro z
    rw [add_comm]
    rcases le_total 0 (I + z * (i1 - I)) with h | h
    · rw [max_eq_right h, max_eq_right (le_min h0 h)]
    · rw [max_eq_left h, min_eq_right (h.trans h0), min_eq_right h0, max_eq_left h]
  rw [e]
  have mono : ∀ {a b : ℚ}, a ≤ b → max 0 (min I (I + b * (i1 - I))) ≤ max 0 (min I (I + a * (i1 - I))) := by
    intro a b h
    have := mul_le_mul_of_nonpos_right h hneg
    exact max_le_max le_rfl (min_le_min le_rfl (by linarith))
  rcases le_total x y with h | h
  · rw [min_eq_left h, max_eq_left (mono h)]
  · rw [min_eq_right h, max_eq_right (mono h)]

/-! ## Witnesses -/

/-- Ordinary settings with a motor temperature sensor; 100 A, derating from 50 to
75 degrees (FETs) and from 50 to 100 degrees (motor). -/
def sampleConfig : Config where
  positionMin := .nan
  positionMax := .nan
  positionDerate := .fin (1 / 50)
  maxVelocity := .fin 500
  maxVelocityDerate := .fin 2
  maxCurrent := .fin 100
  derateCurrent := .fin (-20)
  derateTemp := .fin 50
  faultTemp := .fin 75
  motorDerateTemp := .fin 50
  motorFaultTemp := .fin 100

def sampleMeas : Meas where
  position := .fin 0
  velocity := .fin 1
  fetTemp := .fin 25
  motorTemp := .fin 25
  maxPower := .fin 450
  oldD := .fin 1
  oldQ := .fin 2

/-- C83 fails for a hot motor: at 99 degrees, one below its fault temperature, the
full current is allowed while the FETs are cool. -/
theorem C83_motor_refuted :
    tempLimit .single sampleConfig { sampleMeas with motorTemp := .fin 99 } = .fin 100 := by
  decide +kernel

/-- C83 fails for hot FETs: with a motor sensor in use and a cool motor the full
current is allowed at 74 degrees; without the sensor it is 0. -/
theorem C83_fet_refuted :
    tempLimit .single sampleConfig { sampleMeas with fetTemp := .fin 74 } = .fin 100 ∧
      tempLimit .single { sampleConfig with motorFaultTemp := .nan }
        { sampleMeas with fetTemp := .fin 74 } = .fin 0 := by
  decide +kernel

/-- C83 fails for a voltage of zero in the last cycle: at the power limit the
current becomes 0 / 0. -/
theorem C83_power_refuted :
    powerLimit .single { sampleMeas with oldD := .fin 0, oldQ := .fin 4, maxPower := .fin 10 }
      (.fin 0) (.fin 4) = (.nan, Ar.single.lit (5 / 3)) := by
  decide +kernel

/-- Hypotheses of `C83_velocity` and of the bounds. -/
example : (502 : ℚ) ≤ |(-600 : ℚ)| ∧ 0 ≤ (-600 : ℚ) * (-3) ∧ Ar.single.Rep 2 ∧
    almostQ .single sampleConfig { sampleMeas with velocity := .fin (-600) } false (.fin (-3)) =
      .fin 0 ∧
    almostQ .single sampleConfig { sampleMeas with velocity := .fin (-600) } false (.fin 3) =
      .fin 3 := by
  unfold Ar.Rep
  decide +kernel

/-- Hypotheses of the power theorem: 13.5 W where 10 W are allowed. -/
example : powerLimit .exact { sampleMeas with maxPower := .fin 10 } (.fin 1) (.fin 4) =
    (.fin (20 / 27 * 1), .fin (20 / 27 * 4)) := by decide +kernel

end Verif.Fw.Current
