import Verif.Fw.PositionModes
import Verif.Fw.TrajDone

/-!
# Staying within bounds; the torque in exact arithmetic

Property C84.
-/

namespace Verif.Fw.Modes

open Verif.Float Verif.Fw

variable {A : Ar}

/-! ## Inside of the bounds -/

/-- Specification: a position within bounds; a bound that is not a number is absent. -/
def Spec.inside (lo hi x : Fl) : Prop := (lo = .nan ∨ lo.Le x) ∧ (hi = .nan ∨ x.Le hi)

theorem nan_or_zero_mul (hA : A.Law) (x : Fl) : A.mul x (.fin 0) = .nan ∨ A.mul x (.fin 0) = .fin 0 := by
  rcases x with _ | b | a
  · exact Or.inl rfl
  · left; simp [Ar.mul, Ar.infMul]
  · right
    show A.rnd (a * 0) = _
    rw [mul_zero]; exact hA.rep_zero.rnd

theorem nan_or_zero_add (hA : A.Law) {x y : Fl} (hx : x = .nan ∨ x = .fin 0) (hy : y = .nan ∨ y = .fin 0) :
    A.add x y = .nan ∨ A.add x y = .fin 0 := by
  rcases hx with rfl | rfl
  · exact Or.inl (Current.add_nan_left _)
  · rcases hy with rfl | rfl
    · exact Or.inl (Current.add_nan_right _)
    · exact Or.inr (add_zero_repF hA.rep_zero)

/-- With all scales zero the controller does nothing. -/
theorem scales_zero (hA : A.Law) {c : Config} {kp kd il : ℚ} (h1 : c.pid.kp = .fin kp)
    (h2 : c.pid.kd = .fin kd) (h3 : c.pid.ilimit = .fin il) (m : Meas) (cp : ℤ) (v : Fl) (s : PidState) :
    (applyPid A c m ⟨.fin 0, .fin 0, .fin 0⟩ cp v s).command = .nan ∨
    (applyPid A c m ⟨.fin 0, .fin 0, .fin 0⟩ cp v s).command = .fin 0 := by
  have hi := C41_scale_zero hA c.pid s
    { measured := intToFloat A (m.traj.posRel - cp)
      inputDesired := .fin 0
      measuredRate := measuredVelocity A c m.velocity v
      inputDesiredRate := v
      rateHz := m.rateHz
      kpScale := .fin 0
      kdScale := .fin 0
      ilimitScale := .fin 0 } il h3 rfl
  have hp := zero_scale hA kp (applyPid A c m ⟨.fin 0, .fin 0, .fin 0⟩ cp v s).error
  have hd := zero_scale hA kd (applyPid A c m ⟨.fin 0, .fin 0, .fin 0⟩ cp v s).errorRate
  have e : (applyPid A c m ⟨.fin 0, .fin 0, .fin 0⟩ cp v s).command =
      A.mul (A.lit c.pid.sign) (A.add (A.add
        (A.mul (A.mul (.fin 0) (.fin kp)) (applyPid A c m ⟨.fin 0, .fin 0, .fin 0⟩ cp v s).error)
        (A.mul (A.mul (.fin 0) (.fin kd)) (applyPid A c m ⟨.fin 0, .fin 0, .fin 0⟩ cp v s).errorRate))
        (applyPid A c m ⟨.fin 0, .fin 0, .fin 0⟩ cp v s).integral) := by
    rw [← h1, ← h2]; rfl
  rw [e]
  rcases nan_or_zero_add hA (nan_or_zero_add hA hp hd) hi with k | k
  · left
    change A.add _ (applyPid A c m ⟨.fin 0, .fin 0, .fin 0⟩ cp v s).integral = _ at k
    rw [k]; exact Current.mul_nan_right _
  · change A.add _ (applyPid A c m ⟨.fin 0, .fin 0, .fin 0⟩ cp v s).integral = _ at k
    rw [k]; exact nan_or_zero_mul hA _

theorem target_inside {m : Meas} {d : Command} (h : Spec.inside d.boundsMin d.boundsMax m.position) :
    boundTarget m d = none := by
  have key : ∀ {x y : Fl}, x.Le y → y.blt x = false := by
    intro x y h
    rw [Fl.not_blt h.not_nan.2 h.not_nan.1]; exact h
  unfold boundTarget
  obtain ⟨h1, h2⟩ := h
  have e1 : (!d.boundsMin.isNan && m.position.blt d.boundsMin) = false := by
    rcases h1 with e | e
    · rw [e]; rfl
    · rw [key e]; simp
  have e2 : (!d.boundsMax.isNan && d.boundsMax.blt m.position) = false := by
    rcases h2 with e | e
    · rw [e]; rfl
    · rw [key e]; simp
  rw [e1, e2]; rfl

/-- **C84.** Inside of the bounds only the feedforward torque, limited, is applied,
whatever the controller did before. -/
theorem C84_stay_inside (hA : A.Law) {c : Config} {m : Meas} {s : State} {d : Command}
    {kp kd il : ℚ} (h1 : c.pid.kp = .fin kp) (h2 : c.pid.kd = .fin kd) (h3 : c.pid.ilimit = .fin il)
    (hf : A.RepF d.feedforward) (hb : Spec.inside d.boundsMin d.boundsMax m.position) {t dA qA v : Fl}
    (h : (doStayWithin A c m s d).1 = .current t dA qA v) :
    t = .nan ∨ t = Fl.limit d.feedforward d.maxTorque.neg d.maxTorque := by
  unfold doStayWithin at h
  rw [target_inside hb] at h
  obtain ⟨e, ep, -⟩ := common_current (A := A) (Prod.ext h rfl)
  rw [e, ep]
  unfold limitedTorque
  rcases scales_zero hA h1 h2 h3 m (derefI _) _ PidState.clear with k | k
  · left
    rw [show (applyPid A c m _ _ _ _).command = .nan from k]
    rw [Current.add_nan_left]; exact Fl.limit_nan _ _
  · right
    rw [show (applyPid A c m _ _ _ _).command = .fin 0 from k]
    rw [zero_add_repF hf]

/-! ## Outside of the bounds -/

/-- Limits of a command that do not underflow: absent, or not negative and, unless zero,
such that the velocity limit times the period is not rounded to zero. -/
def LimitsFine (A : Ar) (period : Fl) (d : TrajData) : Prop :=
  (d.velLimit = .nan ∨ ∃ l, d.velLimit = .fin l ∧ 0 ≤ l ∧ A.Rep l ∧
    (l = 0 ∨ (Fl.fin 0).blt (A.mul (.fin l) period) = true)) ∧
  (d.accelLimit = .nan ∨ ∃ a, d.accelLimit = .fin a ∧ 0 ≤ a)

theorem distance_zero (hA : A.Law2) (n : ℤ) : distance A n n = .fin 0 := by
  unfold distance intToFloat
  rw [sub_self, lit65536 hA]
  have : wrapI32 (0 / 4294967296) = 0 := by decide
  rw [this]
  have e : A.lit ((0 : ℤ) : ℚ) = .fin 0 := by rw [Int.cast_zero]; exact hA.rep_zero.rnd
  rw [e]
  have : A.div (.fin 0) (.fin 65536) = A.rnd (0 / 65536) := by simp [Ar.div]
  rw [this, zero_div]
  exact hA.rep_zero.rnd

theorem clampVelocity_zero {l : Fl} (h : l = .nan ∨ ∃ q, l = .fin q ∧ 0 ≤ q) :
    clampVelocity l (.fin 0) = .fin 0 := by
  rcases h with rfl | ⟨q, rfl, hq⟩
  · rfl
  · simp [clampVelocity, Fl.isNan, Fl.neg, not_lt.mpr hq]

/-- At the target with velocity 0, the profile stays there. -/
theorem rest_stays (hA : A.Law2) {z1 z2 : Bool} {r t : ℚ} (hr : 0 < r)
    (hT : A.div (A.lit 1) (.fin r) = .fin t) {d : TrajData} (hL : LimitsFine A (.fin t) d)
    (hn : noLimits d = false) :
    (velocityAndAccelLimits A z1 z2 (.fin r) d.velLimit d.accelLimit (.fin 0) (.fin 0) (.fin 0)).1 = .fin 0 := by
  have ht : 0 ≤ t := by
    have h1 : A.lit 1 = .fin 1 := by
      have := (hA.rep_int (n := 1) (by norm_num)).rnd
      simpa [Ar.lit] using this
    rw [h1] at hT
    have : (Fl.fin 0).Le (A.div (.fin 1) (.fin r)) := by
      simp only [Ar.div, hr.ne', if_false]
      exact hA.le_rnd hA.rep_zero (div_pos one_pos hr).le
    rw [hT] at this
    simpa using this
  have z0 : Fl.neg (.fin 0) = .fin 0 := by simp [Fl.neg]
  have s0 : A.sub (.fin 0) (.fin 0) = .fin 0 := by
    rw [Ar.sub, z0]; exact add_zero_repF hA.rep_zero
  obtain ⟨hv, ha⟩ := hL
  unfold velocityAndAccelLimits
  rw [hT]
  dsimp only
  rcases ha with ha | ⟨a, ha, ha0⟩
  · -- velocity limit only
    rw [ha]
    simp only [Fl.isNan, if_true]
    obtain ⟨l, hl, hl0, hlr, hlt⟩ : ∃ l, d.velLimit = .fin l ∧ 0 ≤ l ∧ A.Rep l ∧
        (l = 0 ∨ (Fl.fin 0).blt (A.mul (.fin l) (.fin t)) = true) := by
      rcases hv with e | e
      · simp [noLimits, e, ha, Fl.isNan] at hn
      · exact e
    rw [hl]
    have hcv : A.mul (.fin 1) (.fin l) = .fin l := by
      show A.rnd (1 * l) = _
      rw [one_mul]; exact hlr.rnd
    unfold velocityOnlyLimit
    simp only [Fl.blt_fin, lt_irrefl, decide_false, signOf, Bool.false_eq_true, if_false, neg_neg, hcv]
    rcases hlt with rfl | hlt
    · split <;> rfl
    · have hfin : ∀ y : Fl, A.RepF y → (Fl.fin 0).blt y = true →
          (A.sub (.fin 0) y).blt (.fin 0) = true := by
        intro y hrep hy
        rcases y with _ | ⟨_ | _⟩ | q
        · simp at hy
        · simp [Ar.sub, Ar.add, Fl.neg, Fl.blt, Fl.ble]
        · simp [Fl.blt, Fl.ble] at hy
        · have hq : 0 < q := by simpa using hy
          show (A.rnd (0 + -q)).blt (.fin 0) = true
          rw [zero_add, (hA.rep_neg hrep).rnd]
          simpa using hq
      rw [hfin _ (hA.repF_mul _ _) hlt]
      simp
  · rw [ha]
    simp only [Fl.isNan, Bool.false_eq_true, if_false]
    have hacc : calculateAcceleration A z1 d.velLimit (.fin a) (.fin 0) (.fin 0) (.fin 0) =
        if z1 then .fin (-a) else .fin a := by
      have h1 : (d.velLimit.isFinite && d.velLimit.blt (Fl.fin 0).abs) = false := by
        rcases hv with e | ⟨l, e, hl0, -⟩
        · rw [e]; rfl
        · rw [e]; simp [Fl.abs, not_lt.mpr hl0]
      unfold calculateAcceleration
      rw [h1, s0]
      simp only [Bool.false_eq_true, if_false, Fl.beq_fin, decide_true, Bool.not_true, Bool.and_false,
        copysign, signBit, if_true, Fl.abs, abs_of_nonneg ha0, Fl.neg, neg_zero]
    rw [hacc]
    generalize hw : A.add (.fin 0) (A.mul (if z1 = true then Fl.fin (-a) else Fl.fin a) (.fin t)) = w
    have hwn : w ≠ .nan := by
      rw [← hw]
      rcases z1 with _ | _
      · show A.add (.fin 0) (A.rnd (a * t)) ≠ .nan
        cases h : A.rnd (a * t)
        · exact absurd h (Ar.rnd_ne_nan _)
        · simp [Ar.add]
        · exact Ar.rnd_ne_nan _
      · show A.add (.fin 0) (A.rnd (-a * t)) ≠ .nan
        cases h : A.rnd (-a * t)
        · exact absurd h (Ar.rnd_ne_nan _)
        · simp [Ar.add]
        · exact Ar.rnd_ne_nan _
    by_cases hw0 : w = .fin 0
    · subst hw0
      split
      · rfl
      · simp only [cruise, Fl.abs, abs_zero]
        rcases hv with e | ⟨l, e, hl0, -⟩
        · rw [e]; rfl
        · rw [e]
          have : Fl.max (.fin 0) (.fin 0) = .fin 0 := by simp [Fl.max]
          rw [this, Fl.blt_fin, decide_eq_false (not_lt.mpr hl0)]
          simp
    · have hc : complete A (.fin t) (.fin a) (.fin 0) w (.fin 0) (.fin 0) = true := by
        have h1 : ((Fl.min (.fin 0) w).ble (.fin 0) && (Fl.fin 0).ble (Fl.max (.fin 0) w)) = true := by
          rcases w with _ | ⟨_ | _⟩ | q
          · exact absurd rfl hwn
          · simp [Fl.min, Fl.max, Fl.blt, Fl.ble]
          · simp [Fl.min, Fl.max, Fl.blt, Fl.ble]
          · by_cases hq : q < 0
            · simp [Fl.min, Fl.max, hq, hq.le, not_lt.mpr hq.le]
            · have hq' : 0 < q := lt_of_le_of_ne (not_lt.mp hq) (fun e => hw0 (by rw [← e]))
              simp [Fl.min, Fl.max, hq, hq', hq'.le]
        have h2 : A.div (.fin 0) w = .fin 0 := by
          rcases w with _ | _ | q
          · exact absurd rfl hwn
          · rfl
          · have : q ≠ 0 := fun e => hw0 (by rw [e])
            simp only [Ar.div, this, if_false, zero_div]
            exact hA.rep_zero.rnd
        have h3 : (Fl.fin 0).ble (A.mul (.fin 10) (.fin t)) = true :=
          hA.le_rnd hA.rep_zero (by positivity)
        unfold complete
        dsimp only
        rw [h1, h2]
        simp [Fl.abs, h3]
      rw [hc]; rfl

theorem posStep_zero (hA : A.Law) {r : ℚ} (hr : 0 < r) : posStep A (.fin r) (.fin 0) = 0 := by
  have e : A.div (.fin 0) (.fin r) = .fin 0 := by
    simp only [Ar.div, hr.ne', if_false, zero_div]; exact hA.rep_zero.rnd
  unfold posStep
  rw [e]
  rcases nan_or_zero_mul hA (A.lit 4294967296) with k | k <;> rw [k]
  · rfl
  · rw [show toI32 (.fin 0) = 0 by decide +kernel]; rfl

theorem pastStop_zero (hA : A.Law) (cp stop : ℤ) : pastStop A cp stop (.fin 0) = false := by
  unfold pastStop
  rcases nan_or_zero_mul hA (.fin (signI (cp - stop))) with k | k <;> rw [k] <;> simp

/-- At rest at the target, with velocity 0: the velocity command is 0 and the control
position is the target, as far as the position bounds allow. -/
theorem rest_update (hA : A.Law2) {c : TrajConfig} {i : TrajIn} {s : TrajStatus} {d : TrajData}
    {r t : ℚ} {raw : ℤ} (hr : 0 < r) (hrate : i.rateHz = .fin r)
    (hT : A.div (A.lit 1) (.fin r) = .fin t) (hL : LimitsFine A (.fin t) d)
    (hmot : i.motorMax.blt (.fin 0) = false) (hps : c.maxPositionSlip.isFinite = false)
    (h1 : s.cp = some raw) (h2 : s.cv = some (.fin 0)) (h3 : d.posRaw = some raw)
    (h4 : i.velocity = .fin 0) :
    (updateCommand A c i s d).1 = .fin 0 ∧
    (updateCommand A c i s d).2.1.cp = some (bounds A c d.ignoreBounds i.delta raw).1 := by
  have hva : velocityArg (.fin 0) = .fin 0 := rfl
  have hp : (prepare A c i s d).velocityCommand = .fin 0 ∧ (prepare A c i s d).cp = raw := by
    have hslip : ∀ z, positionSlip A c.maxPositionSlip i.posRel z = z := by
      intro z; unfold positionSlip; rw [hps]; rfl
    unfold prepare
    dsimp only
    rw [h4, hva, hslip]
    have key : derefF (advance A i (.fin 0) (begin i c (.fin 0) s d).1 (begin i c (.fin 0) s d).2).1.cv =
        .fin 0 ∧ derefI (advance A i (.fin 0) (begin i c (.fin 0) s d).1 (begin i c (.fin 0) s d).2).1.cp =
        raw := by
      by_cases hn : noLimits d = true
      · simp [begin, advance, h3, hn, derefF, derefI]
      · rw [Bool.not_eq_true] at hn
        have hb : begin i c (.fin 0) s d = ({ s with done := false }, d) := by
          simp [begin, hn, h1]
        rw [hb]
        have hcl : clampVelocity d.velLimit (.fin 0) = .fin 0 := by
          apply clampVelocity_zero
          rcases hL.1 with e | ⟨l, e, hl, -⟩
          · exact Or.inl e
          · exact Or.inr ⟨l, e, hl⟩
        simp only [advance, Bool.false_eq_true, if_false, updateTrajectory, h3, h1, h2, derefF, derefI,
          Option.getD_some, hcl, hrate, distance_zero hA, rest_stays hA hr hT hL hn, and_self]
    rw [key.1, key.2, motorLimit_zero hmot, hrate, posStep_zero hA.toLaw hr]
    simp
  have hd := prepare_data (A := A) c i s d
  unfold updateCommand finish
  dsimp only
  rw [hp.1, hp.2, hd.1, hd.2]
  have hs : ∀ o cp, stopAt A o cp (.fin 0) = none := by
    intro o cp
    cases o with
    | none => rfl
    | some st => simp [stopAt, pastStop_zero hA.toLaw]
  rw [hs]
  constructor
  · dsimp only; split <;> rfl
  · rfl

/-- Specification: the bound that is violated. -/
def Spec.violated (lo hi x : Fl) : Option Fl :=
  if x.blt lo then some lo else if hi.blt x then some hi else none

theorem target_violated (m : Meas) (d : Command) :
    boundTarget m d = Spec.violated d.boundsMin d.boundsMax m.position := by
  have h1 : ∀ x y : Fl, (!x.isNan && y.blt x) = y.blt x := by
    intro x y; rcases x with _ | _ | _ <;> simp [Fl.isNan]
  have h2 : ∀ x y : Fl, (!x.isNan && x.blt y) = x.blt y := by
    intro x y; rcases x with _ | _ | _ <;> simp [Fl.isNan]
  unfold boundTarget Spec.violated
  rw [h1, h2]

/-- **C84.** Outside of the bounds the motor is controlled, with the gains of the
command, to the violated bound with velocity 0: that is the set point of the very
same cycle, whatever trajectory was under way. -/
theorem C84_stay_outside (hA : A.Law2) {c : Config} {m : Meas} {s : State} {d : Command} {b : Fl}
    (hb : Spec.violated d.boundsMin d.boundsMax m.position = some b)
    {r t : ℚ} (hr : 0 < r) (hrate : m.traj.rateHz = .fin r)
    (hT : A.div (A.lit 1) (.fin r) = .fin t) (hL : LimitsFine A (.fin t) d.traj)
    (hmot : m.traj.motorMax.blt (.fin 0) = false) (hps : c.traj.maxPositionSlip.isFinite = false)
    {τ dA qA v : Fl} (h : (doStayWithin A c m s d).1 = .current τ dA qA v) :
    ∃ cp, (doStayWithin A c m s d).2.1.traj.cp = some cp ∧
      cp = (bounds A c.traj d.traj.ignoreBounds m.traj.delta (floatToInt A b - m.traj.delta)).1 ∧
      (doStayWithin A c m s d).2.1.pid =
        applyPid A c m ⟨d.kpScale, d.kdScale, d.ilimitScale⟩ cp (.fin 0) s.pid ∧
      τ = Fl.limit (A.add (doStayWithin A c m s d).2.1.pid.command d.feedforward)
        d.maxTorque.neg d.maxTorque := by
  rw [← target_violated] at hb
  revert h
  generalize hres : doStayWithin A c m s d = res
  intro h
  unfold doStayWithin at hres
  rw [hb] at hres
  obtain ⟨o, s', d'⟩ := res
  dsimp only at h
  subst h
  obtain ⟨e, ep, et, -⟩ := common_current (A := A) hres
  have hu := rest_update hA (c := c.traj) (i := { m.traj with velocity := .fin 0 })
    (s := { s.traj with
      cp := some (floatToInt A b - m.traj.delta), cv := some (.fin 0), controlPosition := b })
    (d := { d.traj with posRaw := some (floatToInt A b - m.traj.delta), velocity := .fin 0 })
    (raw := floatToInt A b - m.traj.delta) hr hrate hT hL hmot hps rfl rfl rfl rfl
  refine ⟨_, ?_, rfl, ?_, e⟩
  · rw [et]; exact hu.2
  · rw [ep, et]
    dsimp only
    rw [hu.1, hu.2]
    rfl

/-- **C84.** Within the position limits of the configuration the set point is the bound
itself. -/
theorem C84_stay_bound (c : TrajConfig) (ignore : Bool) (delta : ℤ) (b : Fl)
    (h1 : c.positionMin = .nan ∨ floatToInt A c.positionMin ≤ floatToInt A b)
    (h2 : c.positionMax = .nan ∨ floatToInt A b ≤ floatToInt A c.positionMax) :
    (bounds A c ignore delta (floatToInt A b - delta)).1 = floatToInt A b - delta := by
  unfold bounds
  split
  · rfl
  · have e1 : saturateMin A c.positionMin delta (floatToInt A b - delta, false) =
        (floatToInt A b - delta, false) := by
      unfold saturateMin
      rcases h1 with e | e
      · rw [e]; rfl
      · split
        · rfl
        · dsimp only; rw [if_neg (by omega)]
    rw [e1]
    unfold saturateMax
    rcases h2 with e | e
    · rw [e]; rfl
    · split
      · rfl
      · dsimp only; rw [if_neg (by omega)]

end Verif.Fw.Modes
