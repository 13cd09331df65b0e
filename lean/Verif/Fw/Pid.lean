import Verif.Float.Arith
import Mathlib.Algebra.Order.Archimedean.Basic
import Mathlib.Data.Rat.Cast.Order

/-!
# PID and PI controllers of the firmware

Model of `PID::Apply` (`fw/pid.h`) and `SimplePI::Apply` (`fw/simple_pi.h`),
over an arbitrary arithmetic.  The compiler is assumed not to fuse
multiplications and additions.

Property C41.
-/

namespace Verif.Fw

open Verif.Float

/-- `PID::Config` (`fw/pid.h` 29-36). -/
structure PidConfig where
  kp : Fl
  ki : Fl
  kd : Fl
  iratelimit : Fl
  ilimit : Fl
  maxDesiredRate : Fl
  sign : ℤ

/-- `PID::State` (`fw/pid.h` 50-66). -/
structure PidState where
  integral : Fl
  desired : Fl
  error : Fl
  errorRate : Fl
  p : Fl
  d : Fl
  pd : Fl
  command : Fl
deriving DecidableEq

/-- `PID::State::Clear` (`fw/pid.h` 68-82). -/
def PidState.clear : PidState :=
  ⟨.fin 0, .nan, .fin 0, .fin 0, .fin 0, .fin 0, .fin 0, .fin 0⟩

/-- The arguments of one call of `PID::Apply` (`fw/pid.h` 100-111). -/
structure PidInput where
  measured : Fl
  inputDesired : Fl
  measuredRate : Fl
  inputDesiredRate : Fl
  rateHz : ℤ
  kpScale : Fl
  kdScale : Fl
  ilimitScale : Fl

/-- The set point after the desired rate limit, shared by `PID::Apply`
(`fw/pid.h` 115-129) and `SimplePI::Apply` (`fw/simple_pi.h` 87-96). -/
def stepDesired (A : Ar) (maxRate state input : Fl) (rateHz : ℤ) : Fl :=
  if !maxRate.beq (.fin 0) && state.isFinite then
    let maxStep := A.div maxRate (A.lit rateHz)
    A.add state (Fl.limit (A.sub input state) maxStep.neg maxStep)
  else input

/-- Desired rate after the limit (`fw/pid.h` 123-128). -/
def stepDesiredRate (maxRate state inputRate : Fl) : Fl :=
  if !maxRate.beq (.fin 0) && state.isFinite then
    Fl.limit inputRate maxRate.neg maxRate
  else inputRate

/-- The clamp written out twice in `PID::Apply` (`fw/pid.h` 138-142 and
148-152): upper limit first. -/
def clampUpperFirst (x m : Fl) : Fl :=
  if m.blt x then m else if x.blt m.neg then m.neg else x

/-- The integral update before the limit (`fw/pid.h` 135-143). -/
def pidUpdate (A : Ar) (c : PidConfig) (error : Fl) (rateHz : ℤ) : Fl :=
  let maxUpdate := A.div c.iratelimit (A.lit rateHz)
  let u := A.div (A.mul error c.ki) (A.lit rateHz)
  if (Fl.fin 0).blt maxUpdate then clampUpperFirst u maxUpdate else u

/-- `PID::Apply` (`fw/pid.h` 108-162). -/
def pidApply (A : Ar) (c : PidConfig) (s : PidState) (i : PidInput) : PidState :=
  let desired := stepDesired A c.maxDesiredRate s.desired i.inputDesired i.rateHz
  let desiredRate := stepDesiredRate c.maxDesiredRate s.desired i.inputDesiredRate
  let error := A.sub i.measured desired
  let errorRate := A.sub i.measuredRate desiredRate
  let integral := A.add s.integral (pidUpdate A c error i.rateHz)
  let integral := clampUpperFirst integral (A.mul c.ilimit i.ilimitScale)
  let p := A.mul (A.mul i.kpScale c.kp) error
  let d := A.mul (A.mul i.kdScale c.kd) errorRate
  let pd := A.add p d
  let command := A.mul (A.lit c.sign) (A.add pd integral)
  ⟨integral, desired, error, errorRate, p, d, pd, command⟩

/-- The states after each of a sequence of calls. -/
def pidRun (A : Ar) (c : PidConfig) : PidState → List PidInput → List PidState
  | _, [] => []
  | s, i :: is => pidApply A c s i :: pidRun A c (pidApply A c s i) is

/-- `SimplePI::Config` (`fw/simple_pi.h` 29-32). -/
structure PiConfig where
  kp : Fl
  ki : Fl
  maxDesiredRate : Fl

/-- `SimplePI::State` (`fw/simple_pi.h` 42-55). -/
structure PiState where
  integral : Fl
  desired : Fl
  error : Fl
  p : Fl
  command : Fl
deriving DecidableEq

/-- `SimplePI::State::Clear` (`fw/simple_pi.h` 57-68). -/
def PiState.clear : PiState := ⟨.fin 0, .nan, .fin 0, .fin 0, .fin 0⟩

/-- `SimplePI::Apply` (`fw/simple_pi.h` 83-108). -/
def piApply (A : Ar) (c : PiConfig) (s : PiState) (measured inputDesired : Fl) (rateHz : ℤ) :
    PiState :=
  let desired := stepDesired A c.maxDesiredRate s.desired inputDesired rateHz
  let error := A.sub measured desired
  let integral := A.add s.integral (A.div (A.mul error c.ki) (A.lit rateHz))
  let p := A.mul c.kp error
  ⟨integral, desired, error, p, A.mul (.fin (-1)) (A.add p integral)⟩

/-! ## The clamps -/

theorem clamp_le_abs {x m : Fl} (hm : m ≠ .nan) (hx : x ≠ .nan) :
    (clampUpperFirst x m).abs.Le m.abs := by
  unfold clampUpperFirst
  split
  · exact Fl.Le.refl (by cases m <;> simp_all [Fl.abs])
  · rename_i h1
    rw [Bool.not_eq_true, Fl.not_blt hm hx] at h1
    split
    · rcases m with _ | ⟨_ | _⟩ | a <;> simp_all [Fl.abs, Fl.neg, Fl.Le, Fl.ble]
    · rename_i h2
      rw [Bool.not_eq_true, Fl.not_blt hx (Fl.neg_ne_nan hm)] at h2
      rw [Fl.abs_Le_iff]
      rcases x with _ | ⟨_ | _⟩ | a <;> rcases m with _ | ⟨_ | _⟩ | b <;>
        simp_all [Fl.abs, Fl.neg, Fl.Le, Fl.ble]
      have : b ≤ |b| := le_abs_self b
      constructor <;> linarith

theorem clamp_mem {x m : Fl} (hm : (Fl.fin 0).Le m) (hx : x ≠ .nan) :
    m.neg.Le (clampUpperFirst x m) ∧ (clampUpperFirst x m).Le m := by
  have hn := hm.not_nan.2
  have h := clamp_le_abs hn hx
  rw [Fl.abs_Le_iff] at h
  have : m.abs = m := by
    rcases m with _ | ⟨_ | _⟩ | b <;> simp_all [Fl.abs, Fl.Le, Fl.ble]
  rwa [this] at h

/-- The clamp does not leave an interval around a value inside of the limits. -/
theorem clamp_between {x m u v y : Fl} (h1 : u.Le x) (h2 : x.Le v) (hy : u.Le y ∧ y.Le v)
    (hl : m.neg.Le y ∧ y.Le m) :
    u.Le (clampUpperFirst x m) ∧ (clampUpperFirst x m).Le v := by
  unfold clampUpperFirst
  split
  · rename_i h; exact ⟨hy.1.trans hl.2, (Fl.Le_of_blt h).trans h2⟩
  · split
    · rename_i h; exact ⟨h1.trans (Fl.Le_of_blt h), hl.1.trans hy.2⟩
    · exact ⟨h1, h2⟩

theorem clamp_nan (m : Fl) : clampUpperFirst .nan m = .nan := by simp [clampUpperFirst]

theorem clamp_ne_nan_imp {x m : Fl} (h : clampUpperFirst x m ≠ .nan) : x ≠ .nan := by
  rintro rfl; exact h (clamp_nan m)

theorem add_nan (A : Ar) (x : Fl) : A.add x .nan = .nan := by cases x <;> rfl

/-! ## Theorems -/

variable {A : Ar}

/-- C41.  Whatever the state, configuration and arguments of a call, the
integral afterwards is not larger in magnitude than the configured limit times
the scale of the call, unless it is not a number. -/
theorem C41_integral_limit (c : PidConfig) (s : PidState) (i : PidInput)
    (hl : A.mul c.ilimit i.ilimitScale ≠ .nan) :
    (pidApply A c s i).integral = .nan ∨
      (pidApply A c s i).integral.abs.Le (A.mul c.ilimit i.ilimitScale).abs := by
  by_cases h : (pidApply A c s i).integral = .nan
  · exact Or.inl h
  · exact Or.inr (clamp_le_abs hl (clamp_ne_nan_imp h))

/-- C41, for a whole run: every state of the run satisfies the limit. -/
theorem C41_integral_limit_run (c : PidConfig) (s : PidState) (is : List PidInput)
    (hl : ∀ i ∈ is, A.mul c.ilimit i.ilimitScale ≠ .nan) :
    ∀ e ∈ List.zip is (pidRun A c s is),
      e.2.integral = .nan ∨ e.2.integral.abs.Le (A.mul c.ilimit e.1.ilimitScale).abs := by
  induction is generalizing s with
  | nil => simp
  | cons i is ih =>
    intro e he
    simp only [pidRun, List.zip_cons_cons, List.mem_cons] at he
    rcases he with rfl | he
    · exact C41_integral_limit c s i (hl i (by simp))
    · exact ih _ (fun i h => hl i (by simp [h])) e he

/-- Between the sum with the negated bound and the sum with the bound. -/
theorem add_bounds (hA : A.Law) {a : ℚ} {u m : Fl} (hm : m.neg.Le u ∧ u.Le m) :
    (A.sub (.fin a) m).Le (A.add (.fin a) u) ∧ (A.add (.fin a) u).Le (A.add (.fin a) m) := by
  have hu := hm.1.not_nan.2
  have hmn := hm.2.not_nan.2
  have nn : ∀ z : Fl, z ≠ .nan → A.add (.fin a) z ≠ .nan := by
    intro z hz
    cases z
    · exact absurd rfl hz
    · simp [Ar.add]
    · exact Ar.rnd_ne_nan _
  exact ⟨hA.add_mono hm.1 (nn _ (Fl.neg_ne_nan hmn)) (nn _ hu), hA.add_mono hm.2 (nn _ hu) (nn _ hmn)⟩

theorem add_nonneg_ge (hA : A.Law) {a : ℚ} {m : Fl} (ha : A.Rep a) (hm : (Fl.fin 0).Le m) :
    (A.sub (.fin a) m).Le (.fin a) ∧ (Fl.fin a).Le (A.add (.fin a) m) := by
  have h0 : (Fl.neg m).Le (.fin 0) := by simpa [Fl.neg] using Fl.neg_Le hm
  have := add_bounds hA (a := a) (u := .fin 0) (m := m) ⟨h0, hm⟩
  have e : A.add (.fin a) (.fin 0) = .fin a := by
    show A.rnd (a + 0) = _
    rw [add_zero]; exact ha.rnd
  rwa [e] at this

/-- C41.  With an integral rate limit, a call moves the integral by at most
`iratelimit / rate_hz`: the new integral lies between the old integral minus
and plus this bound (as floats), provided that the old integral was within the
limit of this call. -/
theorem C41_integral_rate (hA : A.Law) (c : PidConfig) (s : PidState) (i : PidInput) (a : ℚ)
    (ha : s.integral = .fin a) (hr : A.Rep a)
    (hm : (Fl.fin 0).blt (A.div c.iratelimit (A.lit i.rateHz)) = true)
    (hl : (A.mul c.ilimit i.ilimitScale).neg.Le s.integral ∧
      s.integral.Le (A.mul c.ilimit i.ilimitScale)) :
    (pidApply A c s i).integral = .nan ∨
      ((A.sub s.integral (A.div c.iratelimit (A.lit i.rateHz))).Le (pidApply A c s i).integral ∧
        (pidApply A c s i).integral.Le (A.add s.integral (A.div c.iratelimit (A.lit i.rateHz)))) := by
  by_cases h : (pidApply A c s i).integral = .nan
  · exact Or.inl h
  refine Or.inr ?_
  have hx := clamp_ne_nan_imp h
  rw [ha] at hl hx ⊢
  simp only [pidApply, ha]
  generalize hU : A.sub i.measured
    (stepDesired A c.maxDesiredRate s.desired i.inputDesired i.rateHz) = er at hx ⊢
  have hm0 : (Fl.fin 0).Le (A.div c.iratelimit (A.lit i.rateHz)) := Fl.Le_of_blt hm
  have hu : pidUpdate A c er i.rateHz ≠ .nan := by
    intro e; rw [e] at hx; exact hx rfl
  have hb : (A.div c.iratelimit (A.lit i.rateHz)).neg.Le (pidUpdate A c er i.rateHz) ∧
      (pidUpdate A c er i.rateHz).Le (A.div c.iratelimit (A.lit i.rateHz)) := by
    unfold pidUpdate at hu ⊢
    simp only [hm, if_true] at hu ⊢
    exact clamp_mem hm0 (clamp_ne_nan_imp hu)
  have h1 := add_bounds hA (a := a) hb
  exact clamp_between h1.1 h1.2 (add_nonneg_ge hA hr hm0) hl

/-- C41.  With a desired rate limit the set point moves in one call by at most
`max_desired_rate / rate_hz`. -/
theorem C41_set_point (hA : A.Law) (maxRate input : Fl) (d : ℚ) (rateHz : ℤ)
    (h0 : maxRate ≠ .fin 0) (hm : (Fl.fin 0).Le (A.div maxRate (A.lit rateHz))) :
    stepDesired A maxRate (.fin d) input rateHz = .nan ∨
      ((A.sub (.fin d) (A.div maxRate (A.lit rateHz))).Le (stepDesired A maxRate (.fin d) input rateHz) ∧
      (stepDesired A maxRate (.fin d) input rateHz).Le
        (A.add (.fin d) (A.div maxRate (A.lit rateHz)))) := by
  have hb : maxRate.beq (.fin 0) = false := by
    rcases maxRate with _ | ⟨_ | _⟩ | q
    · rfl
    · rfl
    · rfl
    · simp_all
  by_cases h : stepDesired A maxRate (.fin d) input rateHz = .nan
  · exact Or.inl h
  refine Or.inr ?_
  unfold stepDesired at h ⊢
  simp only [hb, Bool.not_false, Fl.isFinite, Bool.and_self, if_true] at h ⊢
  have hp : A.sub input (.fin d) ≠ .nan := by
    intro e; rw [e, Fl.limit_nan] at h; exact h (add_nan A _)
  refine add_bounds hA (Fl.limit_mem ?_ hp)
  have : (A.div maxRate (A.lit rateHz)).neg.Le (.fin 0) := by simpa [Fl.neg] using Fl.neg_Le hm
  exact this.trans hm

/-- The set point of `PID::Apply` and of `SimplePI::Apply` is the limited one. -/
theorem C41_set_point_used (c : PidConfig) (s : PidState) (i : PidInput) (c' : PiConfig)
    (s' : PiState) (m d : Fl) (r : ℤ) :
    (pidApply A c s i).desired = stepDesired A c.maxDesiredRate s.desired i.inputDesired i.rateHz ∧
    (piApply A c' s' m d r).desired = stepDesired A c'.maxDesiredRate s'.desired d r := ⟨rfl, rfl⟩

/-- The first set point after `Clear` is accepted without a limit, as the
comment in the code says. -/
theorem C41_first_set_point (maxRate input : Fl) (rateHz : ℤ) :
    stepDesired A maxRate PidState.clear.desired input rateHz = input := by
  simp [stepDesired, PidState.clear, Fl.isFinite]

/-- Finite configuration, in exact arithmetic. -/
def qConfig (kp ki kd iratelimit ilimit maxRate : ℚ) (sign : ℤ) : PidConfig :=
  ⟨.fin kp, .fin ki, .fin kd, .fin iratelimit, .fin ilimit, .fin maxRate, sign⟩

/-- C41 in exact arithmetic: with positive limits, for any finite inputs, one
call keeps the integral within `ilimit * scale` and moves it by at most
`iratelimit / rate`, and moves the set point by at most `max_desired_rate /
rate`. -/
theorem C41_exact (kp ki kd iratelimit ilimit maxRate : ℚ) (sign : ℤ) (s : PidState) (i : PidInput)
    (a d m x mr xr ks ds sc : ℚ) (hs : s.integral = .fin a) (hd : s.desired = .fin d)
    (hi : i.measured = .fin m ∧ i.inputDesired = .fin x ∧ i.measuredRate = .fin mr ∧
      i.inputDesiredRate = .fin xr ∧ i.kpScale = .fin ks ∧ i.kdScale = .fin ds ∧
      i.ilimitScale = .fin sc)
    (hr : 0 < i.rateHz) (h1 : 0 < iratelimit) (h2 : |a| ≤ ilimit * sc) (h3 : 0 < maxRate) :
    ∃ a' d' : ℚ, (pidApply .exact (qConfig kp ki kd iratelimit ilimit maxRate sign) s i).integral = .fin a' ∧
      (pidApply .exact (qConfig kp ki kd iratelimit ilimit maxRate sign) s i).desired = .fin d' ∧
      |a'| ≤ ilimit * sc ∧ |a' - a| ≤ iratelimit / i.rateHz ∧ |d' - d| ≤ maxRate / i.rateHz := by
  obtain ⟨im, ix, imr, ixr, iks, ids, isc⟩ := hi
  have hrq : (0 : ℚ) < i.rateHz := by exact_mod_cast hr
  have hrn : ((i.rateHz : ℤ) : ℚ) ≠ 0 := hrq.ne'
  set c := qConfig kp ki kd iratelimit ilimit maxRate sign with hc
  have dv : ∀ q : ℚ, Ar.exact.div (.fin q) (Ar.exact.lit i.rateHz) = .fin (q / i.rateHz) := by
    intro q; simp [Ar.lit, Ar.div, hrn]
  have ad : ∀ p q : ℚ, Ar.exact.add (.fin p) (.fin q) = .fin (p + q) := by
    intro p q; simp [Ar.add]
  have sb : ∀ p q : ℚ, Ar.exact.sub (.fin p) (.fin q) = .fin (p - q) := by
    intro p q; simp [Ar.sub, Ar.add, Fl.neg, sub_eq_add_neg]
  have ml : ∀ p q : ℚ, Ar.exact.mul (.fin p) (.fin q) = .fin (p * q) := by
    intro p q; simp [Ar.mul]
  have rep : ∀ q : ℚ, Ar.exact.Rep q := fun q => ⟨rfl, rfl⟩
  -- the set point
  have hsp := C41_set_point Ar.exact_law (.fin maxRate) (.fin x) d i.rateHz (by simpa using h3.ne')
    (by rw [dv]; simpa using (div_pos h3 hrq).le)
  have dfin : ∃ d', stepDesired .exact (.fin maxRate) (.fin d) (.fin x) i.rateHz = .fin d' := by
    unfold stepDesired
    rw [dv, sb]
    simp only [Fl.beq_fin, Fl.isFinite, Bool.and_true, h3.ne', decide_false, Bool.not_false, if_true,
      Fl.neg, Fl.limit_fin]
    exact ⟨_, ad _ _⟩
  obtain ⟨d', hd'⟩ := dfin
  rw [hd', dv, sb, ad] at hsp
  have hsp' : |d' - d| ≤ maxRate / i.rateHz := by
    rcases hsp with h | h
    · exact absurd h (by simp)
    · rw [Fl.Le_fin, Fl.Le_fin] at h
      rw [abs_le]; constructor <;> linarith [h.1, h.2]
  have hdes : (pidApply .exact c s i).desired = .fin d' := by
    rw [← hd', ← hd, ← ix]; rfl
  -- the integral
  have clampfin : ∀ p q : ℚ, ∃ r, clampUpperFirst (.fin p) (.fin q) = .fin r := by
    intro p q; unfold clampUpperFirst; split
    · exact ⟨_, rfl⟩
    · split
      · exact ⟨_, rfl⟩
      · exact ⟨_, rfl⟩
  have hfin : ∃ a', (pidApply .exact c s i).integral = .fin a' := by
    have he : Ar.exact.sub i.measured
        (stepDesired .exact c.maxDesiredRate s.desired i.inputDesired i.rateHz) = .fin (m - d') := by
      rw [im, hd, ix, show c.maxDesiredRate = .fin maxRate from rfl, hd', sb]
    have hu : ∃ u, pidUpdate .exact c (.fin (m - d')) i.rateHz = .fin u := by
      unfold pidUpdate
      rw [show c.iratelimit = .fin iratelimit from rfl, show c.ki = .fin ki from rfl, ml, dv, dv]
      dsimp only
      split
      · exact clampfin _ _
      · exact ⟨_, rfl⟩
    obtain ⟨u, hu⟩ := hu
    simp only [pidApply, he, hu, hs, ad, isc]
    rw [show c.ilimit = .fin ilimit from rfl, ml]
    exact clampfin _ _
  obtain ⟨a', ha'⟩ := hfin
  have hlim : Ar.exact.mul c.ilimit i.ilimitScale = .fin (ilimit * sc) := by
    rw [isc, show c.ilimit = .fin ilimit from rfl, ml]
  have hpos : 0 ≤ ilimit * sc := (abs_nonneg a).trans h2
  have k1 := C41_integral_limit (A := .exact) c s i (by rw [hlim]; simp)
  have k2 := C41_integral_rate Ar.exact_law c s i a hs (rep a)
    (by rw [show c.iratelimit = .fin iratelimit from rfl, dv]; simpa using div_pos h1 hrq)
    (by rw [hlim, hs]; simp only [Fl.neg, Fl.Le_fin]; exact abs_le.mp h2)
  rw [ha', hlim] at k1
  rw [ha', hs, show c.iratelimit = .fin iratelimit from rfl, dv, sb, ad] at k2
  refine ⟨a', d', ha', hdes, ?_, ?_, hsp'⟩
  · rcases k1 with h | h
    · exact absurd h (by simp)
    · simpa [Fl.abs, abs_of_nonneg hpos] using h
  · rcases k2 with h | h
    · exact absurd h (by simp)
    · simp only [Fl.Le_fin] at h
      rw [abs_le]; constructor <;> linarith [h.1, h.2]

/-- An integral scale of zero (as used while the position loop is inactive)
empties a finite integral. -/
theorem C41_scale_zero (hA : A.Law) (c : PidConfig) (s : PidState) (i : PidInput) (q : ℚ)
    (hc : c.ilimit = .fin q) (hi : i.ilimitScale = .fin 0) :
    (pidApply A c s i).integral = .nan ∨ (pidApply A c s i).integral = .fin 0 := by
  have hz : A.mul c.ilimit i.ilimitScale = .fin 0 := by
    rw [hc, hi]; show A.rnd (q * 0) = _
    rw [mul_zero]; exact hA.rep_zero.rnd
  rcases C41_integral_limit (A := A) c s i (by rw [hz]; simp) with h | h
  · exact Or.inl h
  · right
    rw [hz] at h
    rcases he : (pidApply A c s i).integral with _ | b | y
    · rw [he] at h; simp [Fl.abs, Fl.Le] at h
    · rw [he] at h; simp [Fl.abs, Fl.Le, Fl.ble] at h
    · rw [he] at h; simpa [Fl.abs] using h

/-! ## The output -/

/-- Specification: a number limited to `-m … m`. -/
def Spec.within (m x : ℚ) : ℚ := max (-m) (min m x)

/-- Specification: the set point of a controller that limits its rate; without a
previous set point, or with rate 0, there is no limit. -/
def Spec.setPoint (maxRate rate : ℚ) (old : Option ℚ) (x : ℚ) : ℚ :=
  match old with
  | some d => if maxRate = 0 then x else d + Spec.within (maxRate / rate) (x - d)
  | none => x

/-- Specification: the textbook controller with limited integral. `e` and `de` are
the errors, `a` the new integral. -/
def Spec.pidCommand (sign : ℤ) (kp kd a e de : ℚ) : ℚ := sign * (kp * e + kd * de + a)

/-- Specification: the integral of the controller: the change per call is limited
if there is a limit, and the result is limited. -/
def Spec.integral (ki iratelimit limit rate a e : ℚ) : ℚ :=
  let u := e * ki / rate
  Spec.within limit (a + if 0 < iratelimit then Spec.within (iratelimit / rate) u else u)

/-- A stored set point: a number or nothing. -/
def Spec.stored : Option ℚ → Fl
  | some d => .fin d
  | none => .nan

theorem clampUpper_fin {m : ℚ} (hm : 0 ≤ m) (x : ℚ) :
    clampUpperFirst (.fin x) (.fin m) = .fin (Spec.within m x) := by
  unfold clampUpperFirst Spec.within
  simp only [Fl.blt_fin, decide_eq_true_eq, Fl.neg]
  by_cases h1 : m < x
  · rw [if_pos h1, min_eq_left h1.le, max_eq_right (by linarith)]
  · rw [if_neg h1, min_eq_right (not_lt.mp h1)]
    by_cases h2 : x < -m
    · rw [if_pos h2, max_eq_left h2.le]
    · rw [if_neg h2, max_eq_right (not_lt.mp h2)]

theorem limit_within {m : ℚ} (hm : 0 ≤ m) (x : ℚ) :
    Fl.limit (.fin x) (Fl.neg (.fin m)) (.fin m) = .fin (Spec.within m x) := by
  show Fl.limit (.fin x) (.fin (-m)) (.fin m) = _
  rw [Fl.limit_fin]
  unfold Spec.within
  by_cases h2 : x < -m
  · rw [if_pos h2, max_eq_left ((min_le_right _ _).trans h2.le)]
  · rw [if_neg h2]
    by_cases h1 : m < x
    · rw [if_pos h1, min_eq_left h1.le, max_eq_right (by linarith)]
    · rw [if_neg h1, min_eq_right (not_lt.mp h1), max_eq_right (not_lt.mp h2)]

private theorem div_rate {r : ℤ} (hr : 0 < r) (q : ℚ) :
    Ar.exact.div (.fin q) (Ar.exact.lit r) = .fin (q / r) := by
  have : ((r : ℤ) : ℚ) ≠ 0 := by exact_mod_cast hr.ne'
  simp [Ar.lit, Ar.div, this]

private theorem ex_add (p q : ℚ) : Ar.exact.add (.fin p) (.fin q) = .fin (p + q) := by simp [Ar.add]
private theorem ex_sub (p q : ℚ) : Ar.exact.sub (.fin p) (.fin q) = .fin (p - q) := by
  simp [Ar.sub, Ar.add, Fl.neg, sub_eq_add_neg]
private theorem ex_mul (p q : ℚ) : Ar.exact.mul (.fin p) (.fin q) = .fin (p * q) := by simp [Ar.mul]

theorem stepDesired_exact {maxRate : ℚ} (hm : 0 ≤ maxRate) {rate : ℤ} (hr : 0 < rate) (old : Option ℚ) (x : ℚ) :
    stepDesired .exact (.fin maxRate) (Spec.stored old) (.fin x) rate =
      .fin (Spec.setPoint maxRate rate old x) := by
  have hrq : (0 : ℚ) < rate := by exact_mod_cast hr
  unfold stepDesired Spec.setPoint
  cases old with
  | none => simp [Spec.stored, Fl.isFinite]
  | some d =>
    by_cases h0 : maxRate = 0
    · simp [h0]
    · simp only [Spec.stored, Fl.beq_fin, Fl.isFinite, h0, decide_false, Bool.not_false, Bool.and_self,
        if_true, if_false, div_rate hr, ex_sub]
      rw [limit_within (div_nonneg hm hrq.le), ex_add]

theorem stepDesiredRate_exact {maxRate : ℚ} (hm : 0 ≤ maxRate) (old : Option ℚ) (x : ℚ) :
    stepDesiredRate (.fin maxRate) (Spec.stored old) (.fin x) =
      .fin (if maxRate = 0 ∨ old = none then x else Spec.within maxRate x) := by
  unfold stepDesiredRate
  cases old with
  | none => simp [Spec.stored, Fl.isFinite]
  | some d =>
    by_cases h0 : maxRate = 0
    · simp [h0]
    · simp only [Spec.stored, Fl.beq_fin, Fl.isFinite, h0, decide_false, Bool.not_false, Bool.and_self,
        if_true, reduceCtorEq, or_self, if_false]
      exact limit_within hm x

/-- **C41, the output in exact arithmetic.** One call gives, for any gains, limits,
scales and finite inputs: the limited set point, the limited integral, and the sum
of the three terms with the sign of the configuration. -/
theorem C41_output_exact (kp ki kd iratelimit ilimit maxRate : ℚ) (sign : ℤ) (s : PidState)
    (a m x mr xr ks ds sc : ℚ) (old : Option ℚ) (rate : ℤ) (hs : s.integral = .fin a)
    (hd : s.desired = Spec.stored old) (hr : 0 < rate) (h2 : 0 ≤ ilimit * sc) (h3 : 0 ≤ maxRate) :
    let r := pidApply .exact (qConfig kp ki kd iratelimit ilimit maxRate sign) s
      ⟨.fin m, .fin x, .fin mr, .fin xr, rate, .fin ks, .fin ds, .fin sc⟩
    let d := Spec.setPoint maxRate rate old x
    let a' := Spec.integral ki iratelimit (ilimit * sc) rate a (m - d)
    r.desired = .fin d ∧ r.integral = .fin a' ∧
    r.command = .fin (Spec.pidCommand sign (ks * kp) (ds * kd) a' (m - d)
      (mr - if maxRate = 0 ∨ old = none then xr else Spec.within maxRate xr)) := by
  have hrq : (0 : ℚ) < rate := by exact_mod_cast hr
  have e1 := stepDesired_exact h3 hr old x
  have e2 := stepDesiredRate_exact h3 old xr
  have e3 : ∀ e : ℚ, pidUpdate .exact (qConfig kp ki kd iratelimit ilimit maxRate sign) (.fin e) rate =
      .fin (if 0 < iratelimit then Spec.within (iratelimit / rate) (e * ki / rate) else e * ki / rate) := by
    intro e
    unfold pidUpdate qConfig
    simp only [div_rate hr, ex_mul, Fl.blt_fin, decide_eq_true_eq]
    by_cases h : 0 < iratelimit
    · rw [if_pos (div_pos h hrq), if_pos h, clampUpper_fin (div_pos h hrq).le]
    · rw [if_neg (not_lt.mpr (div_nonpos_of_nonpos_of_nonneg (not_lt.mp h) hrq.le)), if_neg h]
  intro r d a'
  have hd' : r.desired = .fin d := by
    show stepDesired .exact (.fin maxRate) s.desired (.fin x) rate = _
    rw [hd, e1]
  have ha' : r.integral = .fin a' := by
    show clampUpperFirst (Ar.exact.add s.integral (pidUpdate .exact _ (Ar.exact.sub (.fin m)
      (stepDesired .exact (.fin maxRate) s.desired (.fin x) rate)) rate))
      (Ar.exact.mul (.fin ilimit) (.fin sc)) = _
    rw [hd, e1, ex_sub, e3, hs, ex_add, ex_mul, clampUpper_fin h2]
    rfl
  refine ⟨hd', ha', ?_⟩
  have hc : r.command = Ar.exact.mul (Ar.exact.lit sign) (Ar.exact.add (Ar.exact.add
      (Ar.exact.mul (Ar.exact.mul (.fin ks) (.fin kp)) (Ar.exact.sub (.fin m) r.desired))
      (Ar.exact.mul (Ar.exact.mul (.fin ds) (.fin kd)) (Ar.exact.sub (.fin mr)
        (stepDesiredRate (.fin maxRate) s.desired (.fin xr))))) r.integral) := rfl
  have hl : Ar.exact.lit ((sign : ℤ) : ℚ) = .fin sign := rfl
  rw [hc, hd', ha', hd, e2, hl]
  simp only [ex_sub, ex_mul, ex_add]
  rfl

/-- **C41, the PI controller in exact arithmetic**, as the current loops use it. -/
theorem C41_pi_exact (kp ki maxRate : ℚ) (s : PiState) (a m x : ℚ) (old : Option ℚ) (rate : ℤ)
    (hs : s.integral = .fin a) (hd : s.desired = Spec.stored old) (hr : 0 < rate) (h3 : 0 ≤ maxRate) :
    let r := piApply .exact ⟨.fin kp, .fin ki, .fin maxRate⟩ s (.fin m) (.fin x) rate
    let d := Spec.setPoint maxRate rate old x
    r.desired = .fin d ∧ r.integral = .fin (a + (m - d) * ki / rate) ∧
    r.command = .fin (kp * (d - m) - (a + (m - d) * ki / rate)) := by
  intro r d
  have e1 := stepDesired_exact h3 hr old x
  have hd' : r.desired = .fin d := by
    show stepDesired .exact (.fin maxRate) s.desired (.fin x) rate = _
    rw [hd, e1]
  have ha' : r.integral = .fin (a + (m - d) * ki / rate) := by
    show Ar.exact.add s.integral (Ar.exact.div (Ar.exact.mul (Ar.exact.sub (.fin m)
      (stepDesired .exact (.fin maxRate) s.desired (.fin x) rate)) (.fin ki)) (Ar.exact.lit rate)) = _
    rw [hd, e1, ex_sub, ex_mul, div_rate hr, hs, ex_add]
  refine ⟨hd', ha', ?_⟩
  have hc : r.command = Ar.exact.mul (.fin (-1)) (Ar.exact.add
      (Ar.exact.mul (.fin kp) (Ar.exact.sub (.fin m) r.desired)) r.integral) := rfl
  rw [hc, hd', ha', ex_sub, ex_mul, ex_add, ex_mul]
  congr 1
  ring

example : ∃ s : PidState, s.integral = .fin 0 ∧ s.desired = Spec.stored none ∧ (0 : ℚ) ≤ 2 * 1 :=
  ⟨.clear, rfl, rfl, by norm_num⟩

/-! ## What does not hold -/

/-- Once the integral is NaN it stays NaN, whatever follows, until `Clear`. -/
theorem C41_nan_forever (c : PidConfig) (s : PidState) (is : List PidInput)
    (h : s.integral = .nan) : ∀ t ∈ pidRun A c s is, t.integral = .nan ∧ t.command = .nan := by
  induction is generalizing s with
  | nil => simp [pidRun]
  | cons i is ih =>
    have hi : (pidApply A c s i).integral = .nan := by
      simp only [pidApply, h]
      rw [show ∀ x, A.add .nan x = .nan from fun x => by cases x <;> rfl, clamp_nan]
    intro t ht
    simp only [pidRun, List.mem_cons] at ht
    rcases ht with rfl | ht
    · refine ⟨hi, ?_⟩
      have : (pidApply A c s i).command = A.mul (A.lit c.sign)
          (A.add (pidApply A c s i).pd (pidApply A c s i).integral) := rfl
      rw [this, hi, add_nan]
      cases A.lit c.sign <;> rfl
    · exact ih _ hi t ht

/-- A call with plain scales. -/
def plainInput (measured desired : Fl) (scale : Fl) : PidInput :=
  ⟨measured, desired, .fin 0, .fin 0, 10, .fin 1, .fin 1, scale⟩

/-- A NaN measurement makes the integral NaN: the limit is not enforced on it. -/
theorem C41_nan_refuted :
    ((pidApply .single (qConfig 1 1 0 0 1 0 1) .clear (plainInput .nan (.fin 0) (.fin 1))).integral
      = .nan) := by decide +kernel

/-- The rate is not bounded when the scale of the limit shrinks between calls:
with a rate limit of `0.1` per call the integral jumps from 1 to 0. -/
theorem C41_rate_refuted_when_scale_shrinks :
    ∃ s : PidState, s.integral = .fin 1 ∧
      (pidApply .exact (qConfig 0 1 0 1 1 0 1) s (plainInput (.fin 0) (.fin 0) (.fin 0))).integral
        = .fin 0 ∧
      Ar.exact.div (.fin 1) (Ar.exact.lit 10) = .fin (1/10) :=
  ⟨{ PidState.clear with integral := .fin 1 }, rfl, by decide +kernel, by decide +kernel⟩

/-- A NaN set point switches the limit off for the next call: 0, NaN, 1000
reaches 1000 although the limit is 1 per second at 10 Hz. -/
theorem C41_set_point_nan_refuted :
    let c := qConfig 1 0 0 0 0 1 1
    let run := pidRun .exact c { PidState.clear with desired := .fin 0 }
      [plainInput (.fin 0) .nan (.fin 1), plainInput (.fin 0) (.fin 1000) (.fin 1)]
    run.map (·.desired) = [.nan, .fin 1000] := by decide +kernel

/-- `SimplePI` has no integral limit: for every bound there is a run in which
the integral exceeds it. -/
theorem C41_simple_pi_refuted (B : ℚ) :
    ∃ n : ℕ, ∃ a : ℚ, B < a ∧
      ((fun s => piApply .exact ⟨.fin 0, .fin 1, .fin 0⟩ s (.fin 1) (.fin 0) 1)^[n]
        PiState.clear).integral = .fin a := by
  have key : ∀ n : ℕ, ((fun s => piApply .exact ⟨.fin 0, .fin 1, .fin 0⟩ s (.fin 1) (.fin 0) 1)^[n]
      PiState.clear).integral = .fin (n : ℚ) := by
    intro n
    induction n with
    | zero => rfl
    | succ n ih =>
      rw [Function.iterate_succ_apply']
      generalize (fun s => piApply .exact ⟨.fin 0, .fin 1, .fin 0⟩ s (.fin 1) (.fin 0) 1)^[n]
        PiState.clear = s at ih ⊢
      have hd : stepDesired .exact (.fin 0) s.desired (.fin 0) 1 = .fin 0 := by
        simp [stepDesired]
      simp only [piApply, hd, ih]
      simp [Ar.sub, Ar.add, Ar.mul, Ar.div, Ar.lit, Fl.neg]
  obtain ⟨n, hn⟩ := exists_nat_gt B
  exact ⟨n, n, hn, key n⟩

/-- The hypotheses of the theorems above are met by ordinary values. -/
example : ∃ s : PidState, s.integral = .fin (1/2) ∧ Ar.single.Rep (1/2) ∧
    (Fl.fin 0).blt (Ar.single.div (.fin 100) (Ar.single.lit 10000)) = true ∧
    (Ar.single.mul (.fin 1) (.fin 1)).neg.Le s.integral ∧
    s.integral.Le (Ar.single.mul (.fin 1) (.fin 1)) :=
  ⟨{ PidState.clear with integral := .fin (1/2) }, rfl, by unfold Ar.Rep; decide +kernel,
    by decide +kernel, by unfold Fl.Le; decide +kernel, by unfold Fl.Le; decide +kernel⟩

/-- Saturation in single precision: a large error over two calls. -/
example : (pidRun .single (qConfig 0 100 0 0 1 0 1) .clear
    [plainInput (.fin 1) (.fin 0) (.fin 1), plainInput (.fin (-7)) (.fin 0) (.fin (1/2))]).map
    (·.integral) = [.fin 1, .fin (-1/2)] := by decide +kernel

end Verif.Fw
