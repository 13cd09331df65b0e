import Verif.Fw.TrajVary
import Verif.Fw.StayWithin
import Verif.Fw.Servo

/-!
# Preparation of a command, and its way to the interrupt

Model of `BldcServo::Impl::Command` (`fw/bldc_servo.cc` 333-445): what it makes of the
values of a command, and the two buffers through which the command gets to the
interrupt.  Which commands are refused is part of the mode logic (`Fw/Servo.lean`).

Property C85.
-/

namespace Verif.Fw.Prep

open Verif.Float Verif.Fw

/-! ## Model -/

/-- The members of `BldcServoConfig` that are used (`fw/bldc_servo_structs.h`). -/
structure Config where
  defaultTimeout : Fl
  defaultVelocityLimit : Fl
  defaultAccelLimit : Fl
  maxVelocity : Fl
  fixedVoltageMode : Bool

/-- `BldcServoCommandData` (`fw/bldc_servo_structs.h` 270-336); `rest` stands for the
members that `Command` does not look at. -/
structure Data (R : Type) where
  timeout : Fl
  position : Fl
  velocity : Fl
  stopPosition : Fl
  velLimit : Fl
  accelLimit : Fl
  fixedVoltageOverride : Fl
  fixedCurrentOverride : Fl
  posRaw : Option ℤ
  stopRaw : Option ℤ
  syntheticTheta : Bool
  rest : R

variable {R : Type}

/-- Lines 352-361: a limit of the command, or the default. -/
def pickLimit (own default : Fl) : Fl :=
  if own.isNan then default else if own.blt (.fin 0) then .nan else own

/-- Lines 362-372. -/
def capVelocity (maxVelocity vl al : Fl) : Fl :=
  if !vl.isNan || !al.isNan then (if vl.isNan then maxVelocity else Fl.min vl maxVelocity) else vl

/-- Lines 374-381. -/
def limitVelocity (vl v : Fl) : Fl :=
  if !vl.isNan && !v.isNan then Fl.limit v vl.neg vl else v

/-- Lines 399-411: the sign of the velocity is chosen so that the motor moves towards
the stop position. -/
def aimVelocity (A : Ar) (posRaw stopRaw : Option ℤ) (now : ℤ) (v : Fl) : Fl :=
  match posRaw, stopRaw with
  | none, some stop =>
    if !v.isNan && !v.beq (.fin 0) then A.mul v.abs (.fin (if stop - now > 0 then 1 else -1)) else v
  | _, _ => v

/-- The value that `Command` makes of a command (lines 345-411 and 438-442); `delta` is
`absolute_relative_delta`, `now` is `position_.position_relative_raw`. -/
def prepare (A : Ar) (c : Config) (delta now : ℤ) (d : Data R) : Data R :=
  let al := pickLimit d.accelLimit c.defaultAccelLimit
  let vl := capVelocity c.maxVelocity (pickLimit d.velLimit c.defaultVelocityLimit) al
  let posRaw := if d.position.isNan then none else some (floatToInt A d.position - delta)
  let stopRaw := if d.stopPosition.isNan then d.stopRaw
    else some (floatToInt A d.stopPosition - delta)
  { d with
    timeout := if d.timeout.beq (.fin 0) then c.defaultTimeout else d.timeout
    velLimit := vl
    accelLimit := al
    posRaw
    stopRaw
    velocity := aimVelocity A posRaw stopRaw now (limitVelocity vl d.velocity)
    syntheticTheta := c.fixedVoltageMode || !d.fixedVoltageOverride.isNan ||
      !d.fixedCurrentOverride.isNan }

/-- The part of a command that the trajectory generator uses. -/
def Data.traj (d : Data R) (ignoreBounds : Bool) : TrajData :=
  ⟨d.position, d.velocity, d.posRaw, d.stopRaw, d.velLimit, d.accelLimit, ignoreBounds⟩

variable {A : Ar} {c : Config} {delta now : ℤ} {d : Data R}

/-! ## Timeout and limits -/

/-- **C85.** A timeout of 0 is replaced by the default, every other is kept, NaN (no
timeout) too; everything else that `Command` does not look at is unchanged. -/
theorem C85_timeout :
    (d.timeout = .fin 0 → (prepare A c delta now d).timeout = c.defaultTimeout) ∧
    (d.timeout ≠ .fin 0 → (prepare A c delta now d).timeout = d.timeout) ∧
    (prepare A c delta now d).rest = d.rest := by
  refine ⟨fun h => ?_, fun h => ?_, rfl⟩
  · simp [prepare, h]
  · have : d.timeout.beq (.fin 0) = false := by
      rcases hd : d.timeout with _ | ⟨_ | _⟩ | q
      · simp [Fl.beq]
      · simp [Fl.beq, Fl.ble]
      · simp [Fl.beq, Fl.ble]
      · rw [hd] at h
        have : q ≠ 0 := fun e => h (by rw [e])
        simp [this]
    simp [prepare, this]

/-- Specification: the limit that a command asks for.  NaN means the default, negative
means none, and a default of NaN is none. -/
inductive Spec.Asked (own default : Fl) : Option Fl → Prop
  | own : (Fl.fin 0).Le own → Spec.Asked own default (some own)
  | none : own.Le (.fin 0) → own ≠ .fin 0 → Spec.Asked own default none
  | default : own = .nan → default ≠ .nan → Spec.Asked own default (some default)
  | unset : own = .nan → default = .nan → Spec.Asked own default none

/-- Specification: a limit as the firmware stores it. -/
def Spec.stored : Option Fl → Fl
  | some x => x
  | none => .nan

theorem pick_asked {own default : Fl} {l : Option Fl} (h : Spec.Asked own default l) :
    pickLimit own default = Spec.stored l := by
  unfold pickLimit
  cases h with
  | own h =>
    rcases own with _ | ⟨_ | _⟩ | q
    · simp [Fl.Le] at h
    · simp [Fl.isNan, Fl.blt, Fl.ble, Spec.stored]
    · simp [Fl.Le, Fl.ble] at h
    · have : 0 ≤ q := by simpa using h
      simp [Fl.isNan, Spec.stored, not_lt.mpr this]
  | none h h' =>
    rcases own with _ | ⟨_ | _⟩ | q
    · simp [Fl.Le] at h
    · simp [Fl.Le, Fl.ble] at h
    · simp [Fl.isNan, Fl.blt, Fl.ble, Spec.stored]
    · have h1 : q ≤ 0 := by simpa using h
      have h2 : q ≠ 0 := fun e => h' (by rw [e])
      simp [Fl.isNan, Spec.stored, lt_of_le_of_ne h1 h2]
  | default h _ => subst h; simp [Fl.isNan, Spec.stored]
  | unset h h' => subst h h'; simp [Fl.isNan, Spec.stored]

theorem asked_total (own default : Fl) : ∃ l, Spec.Asked own default l := by
  by_cases h : own = .nan
  · by_cases h' : default = .nan
    · exact ⟨_, .unset h h'⟩
    · exact ⟨_, .default h h'⟩
  · rcases Fl.Le.total (x := .fin 0) (by simp) h with h1 | h1
    · exact ⟨_, .own h1⟩
    · by_cases h2 : own = .fin 0
      · exact ⟨_, .own (by rw [h2]; simp)⟩
      · exact ⟨_, .none h1 h2⟩

/-- **C85.** The acceleration limit is the one asked for.  Without any limit there is
no velocity limit; otherwise there is one: the smaller of what was asked for and the
maximum velocity, or that maximum. -/
theorem C85_limits {vl al : Option Fl} (hv : Spec.Asked d.velLimit c.defaultVelocityLimit vl)
    (ha : Spec.Asked d.accelLimit c.defaultAccelLimit al) (hna : ∀ x, al = some x → x ≠ .nan)
    (hnv : ∀ x, vl = some x → x ≠ .nan) (hm : c.maxVelocity ≠ .nan) :
    (prepare A c delta now d).accelLimit = Spec.stored al ∧
    (vl = none → al = none → (prepare A c delta now d).velLimit = .nan) ∧
    (vl = none → al ≠ none → (prepare A c delta now d).velLimit = c.maxVelocity) ∧
    (∀ x, vl = some x → (prepare A c delta now d).velLimit.Le x ∧
      (prepare A c delta now d).velLimit.Le c.maxVelocity ∧
      ((prepare A c delta now d).velLimit = x ∨ (prepare A c delta now d).velLimit = c.maxVelocity)) := by
  have e1 : (prepare A c delta now d).accelLimit = Spec.stored al := pick_asked ha
  have e2 : (prepare A c delta now d).velLimit =
      capVelocity c.maxVelocity (Spec.stored vl) (Spec.stored al) := by
    show capVelocity _ (pickLimit _ _) (pickLimit _ _) = _
    rw [pick_asked hv, pick_asked ha]
  have nn : ∀ x : Fl, x ≠ .nan → x.isNan = false := by intro x h; cases x <;> simp_all [Fl.isNan]
  refine ⟨e1, ?_, ?_, ?_⟩
  · rintro rfl rfl
    rw [e2]; rfl
  · rintro rfl h
    obtain ⟨x, rfl⟩ := Option.ne_none_iff_exists'.mp h
    rw [e2]
    unfold capVelocity
    rw [show Spec.stored (some x) = x from rfl, nn x (hna x rfl)]
    simp [Spec.stored, Fl.isNan]
  · rintro x rfl
    have hx := hnv x rfl
    rw [e2]
    have : capVelocity c.maxVelocity (Spec.stored (some x)) (Spec.stored al) = Fl.min x c.maxVelocity := by
      simp [capVelocity, Spec.stored, nn x hx]
    rw [this]
    unfold Fl.min
    split
    · rename_i h
      exact ⟨Fl.Le_of_blt h, Fl.Le.refl hm, Or.inr rfl⟩
    · rename_i h
      rw [Bool.not_eq_true, Fl.not_blt hm hx] at h
      exact ⟨Fl.Le.refl hx, h, Or.inl rfl⟩

/-- The limits that decide in `Fw/Servo.lean` whether a command is refused are the ones
that are handed to the interrupt. -/
theorem C85_same_limits (ci : CmdIn) (k : CmdCfg) (hv : ci.velocityLimit = d.velLimit)
    (ha : ci.accelLimit = d.accelLimit) (h1 : k.defaultVelocityLimit = c.defaultVelocityLimit)
    (h2 : k.defaultAccelLimit = c.defaultAccelLimit) (h3 : k.maxVelocity = c.maxVelocity) :
    commandLimits ci k = ((prepare A c delta now d).velLimit, (prepare A c delta now d).accelLimit) := by
  rw [show (prepare A c delta now d).accelLimit = pickLimit d.accelLimit c.defaultAccelLimit from rfl]
  show (if _ then (_, _) else (_, _)) = (if _ then _ else _, _)
  rw [hv, ha, h1, h2, h3]
  unfold pickLimit
  generalize (if d.velLimit.isNan then _ else _ : Fl) = x
  generalize (if d.accelLimit.isNan then _ else _ : Fl) = y
  split <;> simp_all

/-! ## Velocity -/

theorem aim_abs {p s : Option ℤ} {now : ℤ} {v : Fl} (hA : A.Law) (hv : A.RepF v) :
    (aimVelocity A p s now v).abs = v.abs := by
  unfold aimVelocity
  split
  · split
    · rcases v with _ | b | q
      · simp_all [Fl.isNan]
      · split <;> simp [Ar.mul, Fl.abs, Ar.infMul]
      · have ha : A.Rep |q| := hA.rep_abs hv
        split
        · show (A.rnd (|q| * 1)).abs = _
          rw [_root_.mul_one, ha.rnd]; simp [Fl.abs]
        · show (A.rnd (|q| * -1)).abs = _
          rw [show |q| * -1 = -|q| by ring, (hA.rep_neg ha).rnd]; simp [Fl.abs]
    · rfl
  · rfl

/-- **C85.** The velocity never exceeds the velocity limit, and the limit is the only
reason to change its magnitude. -/
theorem C85_velocity (hA : A.Law) (hl : (Fl.fin 0).Le (prepare A c delta now d).velLimit)
    (hv : A.RepF d.velocity) (hr : A.RepF (prepare A c delta now d).velLimit) :
    (d.velocity = .nan ∨
      (prepare A c delta now d).velocity.abs.Le (prepare A c delta now d).velLimit) ∧
    (d.velocity.abs.Le (prepare A c delta now d).velLimit →
      (prepare A c delta now d).velocity.abs = d.velocity.abs) := by
  generalize hL : (prepare A c delta now d).velLimit = L at hl hr ⊢
  have e : (prepare A c delta now d).velocity = aimVelocity A (prepare A c delta now d).posRaw
      (prepare A c delta now d).stopRaw now (limitVelocity L d.velocity) := by rw [← hL]; rfl
  have hLn : L.isNan = false := by cases L <;> simp_all [Fl.isNan, Fl.Le]
  have hneg : L.neg.Le L := Current.neg_le_self hl
  have hrep : A.RepF (limitVelocity L d.velocity) := by
    unfold limitVelocity
    split
    · exact Ar.repF_limit hv (hA.repF_neg hr) hr
    · exact hv
  have habs : ∀ x : Fl, L.neg.Le x ∧ x.Le L → x.abs.Le L := by
    rintro x ⟨h1, h2⟩
    rcases x with _ | ⟨_ | _⟩ | a <;> rcases L with _ | ⟨_ | _⟩ | b <;>
      simp_all [Fl.abs, Fl.neg, Fl.Le, Fl.ble, abs_le]
  rw [e, aim_abs hA hrep]
  constructor
  · by_cases hn : d.velocity = .nan
    · exact Or.inl hn
    · right
      have : d.velocity.isNan = false := by cases h : d.velocity <;> simp_all [Fl.isNan]
      simp only [limitVelocity, hLn, this, Bool.not_false, Bool.and_self, if_true]
      exact habs _ (Fl.limit_mem hneg hn)
  · intro h
    have hn : d.velocity ≠ .nan := by
      intro e; rw [e] at h; simp [Fl.abs, Fl.Le] at h
    have : d.velocity.isNan = false := by cases h : d.velocity <;> simp_all [Fl.isNan]
    simp only [limitVelocity, hLn, this, Bool.not_false, Bool.and_self, if_true]
    have h1 : d.velocity.blt L.neg = false := by
      rw [Fl.not_blt hn (Fl.neg_ne_nan hl.not_nan.2)]
      rcases hd : d.velocity with _ | ⟨_ | _⟩ | a <;> rcases L with _ | ⟨_ | _⟩ | b <;>
        simp_all [Fl.abs, Fl.neg, Fl.Le, Fl.ble, abs_le]
    have h2 : L.blt d.velocity = false := by
      rw [Fl.not_blt hl.not_nan.2 hn]
      rcases hd : d.velocity with _ | ⟨_ | _⟩ | a <;> rcases L with _ | ⟨_ | _⟩ | b <;>
        simp_all [Fl.abs, Fl.neg, Fl.Le, Fl.ble, abs_le]
    unfold Fl.limit
    rw [h1, h2]; simp

/-- **C85.** Without position, but with a stop position, the velocity points to the stop
position. -/
theorem C85_towards_stop (hA : A.Law) {x : ℚ} (hp : d.position = .nan) (hs : d.stopPosition ≠ .nan)
    (hv : (prepare A c delta now d).velocity = .fin x) :
    (floatToInt A d.stopPosition - delta > now → 0 ≤ x) ∧
    (floatToInt A d.stopPosition - delta < now → x ≤ 0) := by
  have hns : d.stopPosition.isNan = false := by cases h : d.stopPosition <;> simp_all [Fl.isNan]
  have e : (prepare A c delta now d).velocity = aimVelocity A none
      (some (floatToInt A d.stopPosition - delta)) now
      (limitVelocity (prepare A c delta now d).velLimit d.velocity) := by
    show aimVelocity A (if d.position.isNan then _ else _) (if d.stopPosition.isNan then _ else _) now _ = _
    rw [hp, hns]; rfl
  rw [e] at hv
  generalize limitVelocity (prepare A c delta now d).velLimit d.velocity = w at hv
  generalize floatToInt A d.stopPosition - delta = stop at hv ⊢
  unfold aimVelocity at hv
  dsimp only at hv
  split at hv
  · have h0 : w ≠ .nan → (Fl.fin 0).Le w.abs := by
      intro h
      rcases w with _ | ⟨_ | _⟩ | q
      · exact absurd rfl h
      · simp [Fl.abs, Fl.Le, Fl.ble]
      · simp [Fl.abs, Fl.Le, Fl.ble]
      · simp [Fl.abs]
    have hw : w ≠ .nan := by rintro rfl; simp [Fl.isNan] at *
    constructor
    · intro h
      rw [if_pos (by omega)] at hv
      rcases (Modes.mul_sign hA (y := .fin 1) (h0 hw)).1 (by simp) with k | k
      · rw [k] at hv; simp at hv
      · rw [hv] at k; simpa using k
    · intro h
      rw [if_neg (by omega)] at hv
      rcases (Modes.mul_sign hA (y := .fin (-1)) (h0 hw)).2 (by simp) with k | k
      · rw [k] at hv; simp at hv
      · rw [hv] at k; simpa using k
  · rename_i h
    subst hv
    have : x = 0 := by
      by_contra hx
      simp [Fl.isNan, hx] at h
    simp [this]

/-! ## Positions -/

/-- **C85.** The positions of the command are those in the frame of the output, up to
the resolution of 1/65536 turns. -/
theorem C85_position (hA : A.Law2) :
    (d.position = .nan → (prepare A c delta now d).posRaw = none) ∧
    (∀ q, d.position = .fin q → A.Rep q → |q| < 32768 →
      ∃ p, (prepare A c delta now d).posRaw = some p ∧ |turns (p + delta) - q| < 1 / 65536) ∧
    (∀ q, d.stopPosition = .fin q → A.Rep q → |q| < 32768 →
      ∃ p, (prepare A c delta now d).stopRaw = some p ∧ |turns (p + delta) - q| < 1 / 65536) := by
  refine ⟨fun h => ?_, fun q h hr hs => ?_, fun q h hr hs => ?_⟩
  · simp [prepare, h, Fl.isNan]
  · refine ⟨floatToInt A (.fin q) - delta, by simp [prepare, h, Fl.isNan], ?_⟩
    rw [sub_add_cancel]; exact (turns_floatToInt hA hr hs).1
  · refine ⟨floatToInt A (.fin q) - delta, by simp [prepare, h, Fl.isNan], ?_⟩
    rw [sub_add_cancel]; exact (turns_floatToInt hA hr hs).1

/-- **C85.** The position in raw counts fits into its 64 bits as long as the position and
the offset are within 16384 turns. -/
theorem C85_position_fits (hA : A.Law2) {q : ℚ} (hp : d.position = .fin q) (hr : A.Rep q)
    (hq : |q| < 16384) (hd : |turns delta| < 16383) :
    ∃ p, (prepare A c delta now d).posRaw = some p ∧ |p| < 2 ^ 63 := by
  obtain ⟨p, h1, h2⟩ := (C85_position (c := c) (delta := delta) (now := now) (d := d) hA).2.1 q hp hr
    (by linarith)
  refine ⟨p, h1, ?_⟩
  have : |(p : ℚ)| < 2 ^ 63 := by
    unfold turns at h2 hd
    push_cast at h2
    rw [abs_lt] at h2 hq hd ⊢
    constructor <;> linarith
  exact_mod_cast this

/-! ## The speed of the motor -/

/-- A command that asks for a limit; the acceleration changes the velocity by at most
`V` per cycle of length `t`. -/
def Limited (A : Ar) (t V : ℚ) (c : Config) (d : Data R) : Prop :=
  A.RepF d.velLimit ∧ ∃ vl al, Spec.Asked d.velLimit c.defaultVelocityLimit vl ∧
    Spec.Asked d.accelLimit c.defaultAccelLimit al ∧ (vl ≠ none ∨ al ≠ none) ∧
    (al = none ∨ ∃ a m, al = some (.fin a) ∧ A.Rep a ∧ Step A a t m ∧ m ≤ V)

theorem limited_ok {V t : ℚ} (hm : c.maxVelocity = .fin V) (hV : 0 ≤ V) (rV : A.Rep V)
    (hdef : c.defaultVelocityLimit = .nan ∨
      ((Fl.fin 0).Le c.defaultVelocityLimit ∧ A.RepF c.defaultVelocityLimit))
    (h : Limited A t V c d) (ib : Bool) :
    Vary.LimitsOk A V t ((prepare A c delta now d).traj ib) := by
  obtain ⟨hr, vl, al, hv, ha, hne, hacc⟩ := h
  have hx : ∀ x, vl = some x → (Fl.fin 0).Le x ∧ A.RepF x := by
    rintro x rfl
    cases hv with
    | own h => exact ⟨h, hr⟩
    | default h h' => exact hdef.resolve_left h'
  obtain ⟨h1, _, h3, h4⟩ := C85_limits (A := A) (delta := delta) (now := now) hv ha
    (by rintro x rfl; rcases hacc with h | ⟨a, m, h, _⟩ <;> simp_all)
    (fun x e => (hx x e).1.not_nan.2) (by simp [hm])
  have hacc' : Spec.stored al = .nan ∨ ∃ a m, Spec.stored al = .fin a ∧ A.Rep a ∧ Step A a t m ∧ m ≤ V := by
    rcases hacc with rfl | ⟨a, m, rfl, g⟩
    · exact Or.inl rfl
    · exact Or.inr ⟨a, m, rfl, g⟩
  rw [← h1] at hacc'
  show ∃ l, (prepare A c delta now d).velLimit = _ ∧ _
  cases vl with
  | none => exact ⟨V, by rw [h3 rfl (by simpa using hne), hm], hV, le_rfl, rV, hacc'⟩
  | some x =>
    obtain ⟨x0, xr⟩ := hx x rfl
    obtain ⟨_, g2, g3⟩ := h4 x rfl
    rcases g3 with e | e
    · rw [hm, e] at g2
      rcases x with _ | ⟨_ | _⟩ | q
      · simp [Fl.Le] at x0
      · simp [Fl.Le, Fl.ble] at g2
      · simp [Fl.Le, Fl.ble] at x0
      · exact ⟨q, e, by simpa using x0, by simpa using g2, xr, hacc'⟩
    · exact ⟨V, by rw [e, hm], hV, le_rfl, rV, hacc'⟩

/-- **C85.** Whatever commands with limits are sent, and however their own limits differ,
the commanded velocity stays within the configured maximum.  Not covered: commands
without any limit, a finite `max_velocity_slip`, accelerations of more than the maximum
velocity per cycle. -/
theorem C85_max_velocity_partial (hA : A.Law2) {V r t : ℚ} (hm : c.maxVelocity = .fin V) (hV : 0 ≤ V)
    (rV : A.Rep V)
    (hdef : c.defaultVelocityLimit = .nan ∨
      ((Fl.fin 0).Le c.defaultVelocityLimit ∧ A.RepF c.defaultVelocityLimit))
    (hT : A.div (A.lit 1) (.fin r) = .fin t) (k : TrajConfig)
    (hk : k.maxVelocitySlip.isFinite = false) (x : TrajRun) (h : Vary.Inv A V t x) (ops : List TrajOp)
    (hops : ∀ op ∈ ops,
      (∃ (d : Data R) (delta now : ℤ) (ib : Bool), Limited A t V c d ∧
        op = .command ((prepare A c delta now d).traj ib)) ∨
      (∃ i, op = .cycle i ∧ CycleOk A r i)) :
    ∃ v w : ℚ, (trajRun A k x ops).s.cv = some (.fin v) ∧ |v| ≤ V ∧
      (trajRun A k x ops).vc = .fin w ∧ |w| ≤ V := by
  obtain ⟨_, ⟨_, e, v, rfl, _, hv⟩, ⟨w, e2, _, hw⟩, _⟩ :=
    Vary.run_within hA hV rV hT k hk x h ops (fun op hop => by
      rcases hops op hop with ⟨d, delta, now, ib, hl, e⟩ | hc
      · exact Or.inl ⟨_, e, limited_ok hm hV rV hdef hl ib⟩
      · exact Or.inr hc)
  exact ⟨v, w, e, hv, e2, hw⟩

/-! ## A concrete configuration, and what does not hold -/

/-- The defaults of the firmware (`fw/bldc_servo_structs.h`), with a maximum of 500. -/
def sampleConfig : Config := ⟨.fin (1 / 10), .nan, .nan, .fin 500, false⟩

def sampleData : Data Unit :=
  ⟨.fin 0, .nan, .fin 700, .fin (-2), .nan, .fin 4, .nan, .nan, none, none, false, ()⟩

example : (prepare .exact sampleConfig 0 0 sampleData).timeout = .fin (1 / 10) ∧
    (prepare .exact sampleConfig 0 0 sampleData).velLimit = .fin 500 ∧
    (prepare .exact sampleConfig 0 0 sampleData).velocity = .fin (-500) := by decide +kernel

example : Limited .exact (1 / 1000) 500 sampleConfig sampleData :=
  ⟨by simp [sampleData, Ar.RepF], none, some (.fin 4), .unset rfl rfl, .own (by simp [sampleData]), by simp,
    Or.inr ⟨4, 4 / 1000, rfl, ⟨rfl, rfl⟩, ⟨by norm_num, by norm_num, by decide +kernel⟩, by norm_num⟩⟩

example : Vary.Inv .exact 500 (1 / 1000)
    ⟨⟨some 0, some (.fin 3), false, .fin 0⟩, ⟨.nan, .fin 3, none, none, .fin 3, .fin 4, false⟩, .fin 3⟩ :=
  ⟨rfl, ⟨_, rfl, 3, rfl, ⟨rfl, rfl⟩, by norm_num⟩, ⟨3, rfl, ⟨rfl, rfl⟩, by norm_num⟩,
    ⟨3, rfl, by norm_num, by norm_num, ⟨rfl, rfl⟩,
      Or.inr ⟨4, 4 / 1000, rfl, ⟨rfl, rfl⟩, ⟨by norm_num, by norm_num, by decide +kernel⟩, by norm_num⟩⟩⟩

/-- A negative default velocity limit is not "no limit": a velocity of 0 becomes 1. -/
theorem C85_negative_default_refuted :
    ∃ (c : Config) (d : Data Unit), d.velocity = .fin 0 ∧ d.velLimit = .nan ∧
      (prepare .exact c 0 0 d).velocity = .fin 1 :=
  ⟨{ sampleConfig with defaultVelocityLimit := .fin (-1) },
    { sampleData with velocity := .fin 0, stopPosition := .nan },
    rfl, rfl, by decide +kernel⟩

/-- With a maximum velocity of NaN a command with an acceleration limit has no velocity
limit, and one of its own is not reduced. -/
theorem C85_nan_maximum_refuted :
    ∃ c : Config, (prepare .exact c 0 0 sampleData).velLimit = .nan ∧
      (prepare .exact c 0 0 sampleData).accelLimit = .fin 4 ∧
      (prepare .exact c 0 0 { sampleData with velLimit := .fin 900 }).velLimit = .fin 900 :=
  ⟨{ sampleConfig with maxVelocity := .nan }, by decide +kernel⟩

/-- Without any limit the velocity is not bounded by the maximum. -/
theorem C85_no_limit_refuted :
    ∃ d : Data Unit, (prepare .exact sampleConfig 0 0 d).velocity = .fin 700 :=
  ⟨{ sampleData with accelLimit := .nan, stopPosition := .nan }, by decide +kernel⟩

/-- At the stop position the velocity is turned to the negative side, whatever its sign. -/
theorem C85_at_stop_refuted :
    ∃ d : Data Unit, d.velocity = .fin 3 ∧ d.stopPosition = .fin 0 ∧
      (prepare .exact sampleConfig 0 0 d).velocity = .fin (-3) :=
  ⟨{ sampleData with accelLimit := .nan, velocity := .fin 3, stopPosition := .fin 0 },
    rfl, rfl, by decide +kernel⟩

/-- A position and an offset that are both valid can exceed the 64 bits of the raw
position. -/
theorem C85_position_overflow_refuted :
    ∃ (delta : ℤ) (d : Data Unit) (p : ℤ), |turns delta| ≤ 32767 ∧ d.position = .fin 32767 ∧
      (prepare .exact sampleConfig delta 0 d).posRaw = some p ∧ 2 ^ 63 ≤ p :=
  ⟨-32767 * 2 ^ 48, { sampleData with position := .fin 32767 }, 2 * 32767 * 2 ^ 48,
    by decide +kernel, rfl, by decide +kernel, by norm_num⟩

end Verif.Fw.Prep
