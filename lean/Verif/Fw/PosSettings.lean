import Verif.Fw.CommutationAngle

/-!
# Configuration of the position module

Model of `MotorPosition::HandleConfigUpdate` (`fw/motor_position.h` 413-650):
what the firmware makes of the configuration that the user stored, and which
configurations it refuses.

Simplifications: enumerations hold only their named values; an access past the
end of an array (undefined in C++) is `none`; the epoch and the reset of the
status (lines 414-418) are not represented, nor is what remains of earlier
constants after a refused configuration.

Property C69.
-/

namespace Verif.Fw

open Verif.Float

/-! ## Model -/

/-- `Spi::Config::Mode` (`fw/aux_common.h` 27-36) -/
inductive SpiMode
  | onboardAs5047 | disabled | as5047 | icPz | ma732 | ma600
deriving DecidableEq

/-- `UartEncoder::Config::Mode` (`fw/aux_common.h` 84-92) -/
inductive UartMode
  | disabled | aksim2 | tunnel | debug | cuiAmt21
deriving DecidableEq

/-- The parts of `AuxConfig` (`fw/aux_common.h`) that are read. -/
structure AuxSettings where
  spiMode : SpiMode
  uartMode : UartMode
  /-- `uart.poll_rate_us` -/
  uartPoll : ℤ
  /-- `i2c.devices[i].poll_rate_us` -/
  i2cPoll : Fin 3 → ℤ

/-- `SourceConfig` (`fw/motor_position.h` 40-111): the part of
`Fw/Source.lean` and the rest. -/
structure SourceSettings where
  aux : ℕ
  i2c : ℕ
  /-- `reference == kRotor` -/
  rotor : Bool
  base : SourceConfig

/-- `Config` (`fw/motor_position.h` 113-169). -/
structure PosSettings where
  sources : Fin 3 → SourceSettings
  comm : ℤ
  out : ℤ
  offset : Fl
  sign : ℤ
  ref : ℤ
  ratio : Fl
  override : Bool

/-- `IsThetaCapable` (`fw/motor_position.h` 403-410) -/
def thetaCapable : SourceType → Bool
  | .spi | .i2c | .hall | .sineCosine | .uart => true
  | .none | .quadrature | .index | .sensorless => false

/-- The check of the phase table (`fw/motor_position.h` 420-432). -/
def discontinuous (A : Ar) (phase : ℕ → Fl) : Bool :=
  (List.range 64).any fun i => Fl.blt (A.lit (7 / 2)) (A.sub (phase ((i + 1) % 64)) (phase i)).abs

/-- `cached_any_compensation_enabled` (`fw/motor_position.h` 444-452) -/
def anyCompensation (c : SourceConfig) : Bool :=
  !Fl.beq c.compScale (.fin 0) && (List.range 256).any fun i => c.table i ≠ 0

/-- The bandwidth for a device that is asked every `poll` microseconds
(`fw/motor_position.h` 473-478). -/
def limitPll (A : Ar) (poll : ℤ) (pll : Fl) : Fl :=
  Fl.min pll (A.div (A.div (A.lit 1000000) (A.lit poll)) (A.lit 10))

/-- The first part of the loop over the sources (`fw/motor_position.h` 435-456). -/
def clampSource (c : SourceSettings) : SourceSettings :=
  { c with
    aux := max 1 (min 2 c.aux)
    i2c := min c.i2c 3
    base := { c.base with
      sign := if 0 ≤ c.base.sign then 1 else -1
      compEnabled := anyCompensation c.base
      incrementalIndex := if 2 < c.base.incrementalIndex then 2 else c.base.incrementalIndex } }

/-- The `switch` over the type of the source (`fw/motor_position.h` 464-533);
the `Bool` is an invalid configuration. -/
def typeSource (A : Ar) (a : AuxSettings) (poles : ℕ) (c : SourceSettings) : Option (SourceSettings × Bool) :=
  match c.base.type with
  | .uart =>
    let cpr := match a.uartMode with
      | .aksim2 => 4194304
      | .cuiAmt21 => 16384
      | _ => c.base.cpr
    some ({ c with base := { c.base with cpr := cpr, pllHz := limitPll A a.uartPoll c.base.pllHz } }, false)
  | .spi =>
    let cpr := match a.spiMode with
      | .as5047 | .onboardAs5047 => 16384
      | .ma732 | .ma600 => 65536
      | .icPz => 16777216
      | .disabled => c.base.cpr
    some ({ c with base := { c.base with cpr := cpr } }, false)
  | .i2c =>
    if h : c.i2c < 3 then
      some ({ c with base := { c.base with pllHz := limitPll A (a.i2cPoll ⟨c.i2c, h⟩) c.base.pllHz } }, false)
    else none
  | .hall => some ({ c with base := { c.base with cpr := 6 * poles / 2 } }, false)
  | .sineCosine => some ({ c with base := { c.base with cpr := 65536 } }, false)
  | .index => some (c, c.rotor)
  | .none | .quadrature | .sensorless => some (c, false)

/-- One pass of the loop over the sources (`fw/motor_position.h` 434-534). -/
def normSource (A : Ar) (aux : Fin 2 → AuxSettings) (poles : ℕ) (c : SourceSettings) :
    Option (SourceSettings × Bool) :=
  let c := clampSource c
  if thetaCapable c.base.type = true ∧ 1 ≤ c.base.incrementalIndex then some (c, true)
  else typeSource A (aux (if c.aux - 1 = 0 then 0 else 1)) poles c

/-- The loop over the sources; it ends at the first error. -/
def normSources (A : Ar) (aux : Fin 2 → AuxSettings) (poles : ℕ) :
    List (Fin 3) → (Fin 3 → SourceSettings) → Option ((Fin 3 → SourceSettings) × Bool)
  | [], s => some (s, false)
  | i :: l, s =>
    match normSource A aux poles (s i) with
    | none => none
    | some (c, true) => some (Function.update s i c, true)
    | some (c, false) => normSources A aux poles l (Function.update s i c)

/-- The index of a source, if it exists. -/
def sourceIndex (n : ℤ) : Option (Fin 3) :=
  if n = 0 then some 0 else if n = 1 then some 1 else if n = 2 then some 2 else none

/-- The checks for the source of commutation (`fw/motor_position.h` 543-572). -/
def commError (A : Ar) (poles : ℕ) (ratio : Fl) (c : SourceSettings) : PosError :=
  if thetaCapable c.base.type = false then .none
  else if poles = 0 ∨ poles % 2 ≠ 0 then .motorNotConfigured
  else if c.rotor then .none
  else if c.base.type = .hall then .invalidConfig
  else if Fl.blt (A.lit 1) ratio then .invalidConfig
  else
    let inverse := A.div (A.lit 1) ratio
    if Fl.blt (A.lit (1 / 1000)) (A.sub (flRound A inverse) inverse).abs then .invalidConfig
    else .none

/-- The source and the sign of the output (`fw/motor_position.h` 606-617). -/
def finishOutput (c : PosSettings) : PosSettings × PosError :=
  match sourceIndex c.out with
  | none => (c, .invalidConfig)
  | some _ => ({ c with sign := if 0 ≤ c.sign then 1 else -1 }, .none)

/-- The checks of the output (`fw/motor_position.h` 590-617): the new
configuration and the error. -/
def outputChecks (c : PosSettings) : Option (PosSettings × PosError) :=
  if 0 ≤ c.ref then
    match sourceIndex (min 3 c.ref) with
    | none => none
    | some i =>
      if (c.sources i).rotor = true ∧ Fl.beq c.ratio (.fin 1) = false then
        some ({ c with ref := min 3 c.ref }, .invalidConfig)
      else some (finishOutput { c with ref := min 3 c.ref })
  else some (finishOutput c)

/-- `HandleConfigUpdate` (`fw/motor_position.h` 413-650) for the configuration
of the ports, the poles and phases of the motor. -/
def handleConfig (A : Ar) (aux : Fin 2 → AuxSettings) (poles : ℕ) (phase : ℕ → Fl) (c : PosSettings) :
    Option (PosSettings × PosError) :=
  if discontinuous A phase then some (c, .discontinuousOffset)
  else
    match normSources A aux poles [0, 1, 2] c.sources with
    | none => none
    | some (s, true) => some ({ c with sources := s }, .invalidConfig)
    | some (s, false) =>
      let c := { c with sources := s }
      match sourceIndex c.comm with
      | none => some (c, .invalidConfig)
      | some i =>
        let e := commError A poles c.ratio (c.sources i)
        if e ≠ .none then some (c, e)
        else if Fl.blt (A.lit 1) c.ratio = true ∧ c.override = false then some (c, .invalidConfig)
        else outputChecks c

/-- `pll_filter_constants_` (`fw/motor_position.h` 643-650). -/
def withFilter (A : Ar) (c : SourceConfig) : SourceConfig :=
  let w := A.mul c.pllHz (.fin twoPi)
  { c with kp := A.mul (A.lit 2) w, ki := A.mul w w }

/-- The accepted configuration as the control interrupt uses it. -/
def running (A : Ar) (poles : ℕ) (phase : ℕ → Fl) (c : PosSettings) (comm out : Fin 3) : PosConfig where
  sources := fun i => withFilter A (c.sources i).base
  rotor := fun i => (c.sources i).rotor
  comm := comm
  out := out
  ref := sourceIndex c.ref
  offset := c.offset
  forward := decide (c.sign = 1)
  ratio := c.ratio
  poles := poles
  phase := phase

/-! ## Specification -/

namespace Spec

/-- The port that a source names. -/
def port (aux : Fin 2 → AuxSettings) (n : ℕ) : AuxSettings := if n = 1 then aux 0 else aux 1

/-- `a` is not greater than `b`. -/
def NotAbove (a b : Fl) : Prop := Fl.blt b a = false

/-- A tenth of the rate of a device that is asked every `poll` microseconds. -/
def tenth (A : Ar) (poll : ℤ) : Fl := A.div (A.div (A.lit 1000000) (A.lit poll)) (A.lit 10)

/-- The devices with a known number of counts per revolution. -/
def deviceCpr (a : AuxSettings) (poles : ℕ) : SourceType → Option ℕ
  | .spi =>
    if a.spiMode = .as5047 ∨ a.spiMode = .onboardAs5047 then some 16384
    else if a.spiMode = .ma732 ∨ a.spiMode = .ma600 then some 65536
    else if a.spiMode = .icPz then some 16777216
    else none
  | .uart =>
    if a.uartMode = .aksim2 then some 4194304
    else if a.uartMode = .cuiAmt21 then some 16384
    else none
  | .hall => some (6 * poles / 2)
  | .sineCosine => some 65536
  | _ => none

/-- The source gives the angle of the rotor from the start. -/
def GivesAngle (t : SourceType) : Prop := t = .spi ∨ t = .uart ∨ t = .i2c ∨ t = .hall ∨ t = .sineCosine

/-- A source as an accepted configuration has it. -/
structure NormalSource (A : Ar) (aux : Fin 2 → AuxSettings) (poles : ℕ) (c : SourceSettings) : Prop where
  number : c.aux = 1 ∨ c.aux = 2
  sign : c.base.sign = 1 ∨ c.base.sign = -1
  i2c : c.i2c ≤ 3 ∧ (c.base.type = .i2c → c.i2c < 3)
  index : c.base.incrementalIndex ≤ 2
  noIndex : GivesAngle c.base.type → c.base.incrementalIndex < 1
  compensation : c.base.compEnabled = true ↔ c.base.compScale ≠ .fin 0 ∧ ∃ i < 256, c.base.table i ≠ 0
  cpr : ∀ n, deviceCpr (port aux c.aux) poles c.base.type = some n → c.base.cpr = n
  uart : c.base.type = .uart → NotAbove c.base.pllHz (tenth A (port aux c.aux).uartPoll)
  i2cRate : c.base.type = .i2c → ∀ h : c.i2c < 3,
    NotAbove c.base.pllHz (tenth A ((port aux c.aux).i2cPoll ⟨c.i2c, h⟩))
  homing : c.base.type = .index → c.rotor = false

/-- An accepted configuration. -/
structure Normal (A : Ar) (aux : Fin 2 → AuxSettings) (poles : ℕ) (phase : ℕ → Fl) (c : PosSettings) :
    Prop where
  phases : ∀ i < 64, NotAbove (A.sub (phase ((i + 1) % 64)) (phase i)).abs (A.lit (7 / 2))
  sources : ∀ i, NormalSource A aux poles (c.sources i)
  comm : ∃ i : Fin 3, c.comm = (i : ℕ) ∧ (GivesAngle (c.sources i).base.type →
    0 < poles ∧ poles % 2 = 0 ∧
    ((c.sources i).rotor = false → (c.sources i).base.type ≠ .hall ∧ NotAbove c.ratio (A.lit 1) ∧
      NotAbove (A.sub (flRound A (A.div (A.lit 1) c.ratio)) (A.div (A.lit 1) c.ratio)).abs
        (A.lit (1 / 1000))))
  ratio : NotAbove c.ratio (A.lit 1) ∨ c.override = true
  ref : c.ref < 0 ∨ ∃ i : Fin 3, c.ref = (i : ℕ) ∧ ((c.sources i).rotor = false ∨ c.ratio = .fin 1)
  out : ∃ i : Fin 3, c.out = (i : ℕ)
  sign : c.sign = 1 ∨ c.sign = -1

/-- What a user set and the firmware does not change. -/
def SameChoices (c d : PosSettings) : Prop :=
  c.comm = d.comm ∧ c.out = d.out ∧ c.offset = d.offset ∧ c.ratio = d.ratio ∧ c.override = d.override ∧
  ∀ i, (c.sources i).rotor = (d.sources i).rotor ∧ (c.sources i).base.type = (d.sources i).base.type ∧
    (c.sources i).base.offset = (d.sources i).base.offset ∧
    (c.sources i).base.debugOverride = (d.sources i).base.debugOverride ∧
    (c.sources i).base.timeout = (d.sources i).base.timeout ∧
    (c.sources i).base.table = (d.sources i).base.table ∧
    (c.sources i).base.compScale = (d.sources i).base.compScale

end Spec

open Spec

/-! ## One source -/

section

variable {A : Ar} {aux : Fin 2 → AuxSettings} {poles : ℕ}

theorem thetaCapable_iff (t : SourceType) : thetaCapable t = true ↔ GivesAngle t := by
  unfold GivesAngle
  cases t <;> simp [thetaCapable]

theorem beq_false_iff (x : Fl) (q : ℚ) : Fl.beq x (.fin q) = false ↔ x ≠ .fin q := by
  cases x with
  | nan => simp [Fl.beq]
  | inf b => cases b <;> simp [Fl.beq, Fl.ble]
  | fin p => simp

theorem anyCompensation_iff (c : SourceConfig) :
    anyCompensation c = true ↔ c.compScale ≠ .fin 0 ∧ ∃ i < 256, c.table i ≠ 0 := by
  unfold anyCompensation
  simp only [Bool.and_eq_true, Bool.not_eq_true', List.any_eq_true, List.mem_range,
    decide_eq_true_eq, beq_false_iff]

theorem limit_idem (poll : ℤ) (x : Fl) :
    limitPll A poll (limitPll A poll x) = limitPll A poll x ∧
    NotAbove (limitPll A poll x) (tenth A poll) := by
  have irr : ∀ y : Fl, Fl.blt y y = false := by
    intro y
    cases y with
    | nan => rfl
    | inf b => cases b <;> rfl
    | fin q => simp
  unfold limitPll Fl.min NotAbove tenth
  by_cases h : Fl.blt (A.div (A.div (A.lit 1000000) (A.lit poll)) (A.lit 10)) x = true
  · simp only [if_pos h, irr, if_neg Bool.false_ne_true, and_self]
  · simp only [if_neg h, true_and]
    exact Bool.eq_false_iff.mpr h

theorem limit_eq {poll : ℤ} {x : Fl} (h : NotAbove x (tenth A poll)) : limitPll A poll x = x := by
  unfold limitPll Fl.min
  exact if_neg (Bool.eq_false_iff.mp h)

theorem clamp_idem (c : SourceSettings) : clampSource (clampSource c) = clampSource c := by
  unfold clampSource
  simp only
  congr 1
  · omega
  · omega
  · congr 1
    · by_cases h : 2 < c.base.incrementalIndex
      · simp [h]
      · simp [h]
    · by_cases h : 0 ≤ c.base.sign
      · simp [h]
      · simp [h]

/-- The clamped values are those of an accepted configuration. -/
def Clamped (c : SourceSettings) : Prop := clampSource c = c

theorem port_eq (c : SourceSettings) :
    aux (if (clampSource c).aux - 1 = 0 then 0 else 1) = port aux (clampSource c).aux := by
  unfold port clampSource
  simp only
  by_cases h : max 1 (min 2 c.aux) = 1
  · rw [if_pos h, if_pos (by omega)]
  · rw [if_neg h, if_neg (by omega)]

/-- What the `switch` does is settled after one pass. -/
theorem type_idem {a : AuxSettings} {c d : SourceSettings} {b : Bool}
    (h : typeSource A a poles c = some (d, b)) :
    typeSource A a poles d = some (d, b) ∧ d.base.type = c.base.type ∧ d.aux = c.aux ∧ d.i2c = c.i2c ∧
    d.rotor = c.rotor ∧ d.base.sign = c.base.sign ∧ d.base.incrementalIndex = c.base.incrementalIndex ∧
    d.base.compEnabled = c.base.compEnabled ∧ d.base.table = c.base.table ∧
    d.base.compScale = c.base.compScale ∧ d.base.offset = c.base.offset ∧
    d.base.debugOverride = c.base.debugOverride ∧ d.base.timeout = c.base.timeout := by
  unfold typeSource at h
  cases ht : c.base.type <;> simp only [ht] at h
  case i2c =>
    by_cases h3 : c.i2c < 3
    · rw [dif_pos h3] at h
      simp only [Option.some.injEq, Prod.mk.injEq] at h
      obtain ⟨h1, h2⟩ := h
      subst h1 h2
      unfold typeSource
      simp only [dif_pos h3, (limit_idem _ _).1, and_self]
    · rw [dif_neg h3] at h; cases h
  all_goals
    simp only [Option.some.injEq, Prod.mk.injEq] at h
    obtain ⟨h1, h2⟩ := h
    subst h1 h2
    unfold typeSource
    simp only [ht, and_self, (limit_idem _ _).1]
    try (cases a.spiMode <;> simp only [and_self])
    try (cases a.uartMode <;> simp only [and_self])

theorem clamp_eq {d : SourceSettings} (h1 : max 1 (min 2 d.aux) = d.aux) (h2 : min d.i2c 3 = d.i2c)
    (h3 : (if 0 ≤ d.base.sign then 1 else -1) = d.base.sign)
    (h4 : anyCompensation d.base = d.base.compEnabled)
    (h5 : (if 2 < d.base.incrementalIndex then 2 else d.base.incrementalIndex) = d.base.incrementalIndex) :
    clampSource d = d := by
  unfold clampSource
  rw [h1, h2, h3, h4, h5]

theorem clamped_parts {d : SourceSettings} (h : clampSource d = d) :
    max 1 (min 2 d.aux) = d.aux ∧ min d.i2c 3 = d.i2c ∧
    (if 0 ≤ d.base.sign then 1 else -1) = d.base.sign ∧
    anyCompensation d.base = d.base.compEnabled ∧
    (if 2 < d.base.incrementalIndex then 2 else d.base.incrementalIndex) = d.base.incrementalIndex :=
  ⟨congrArg SourceSettings.aux h, congrArg SourceSettings.i2c h,
    congrArg (fun d => d.base.sign) h, congrArg (fun d => d.base.compEnabled) h,
    congrArg (fun d => d.base.incrementalIndex) h⟩

theorem anyCompensation_congr {c d : SourceConfig} (h1 : c.compScale = d.compScale)
    (h2 : c.table = d.table) : anyCompensation c = anyCompensation d := by
  unfold anyCompensation
  rw [h1, h2]

/-- Everything about one source: it is settled after one pass, the choices of the
user are kept, and without an error it is as specified. -/
theorem norm_source {c d : SourceSettings} {b : Bool} (h : normSource A aux poles c = some (d, b)) :
    normSource A aux poles d = some (d, b) ∧
    (c.rotor = d.rotor ∧ c.base.type = d.base.type ∧ c.base.offset = d.base.offset ∧
      c.base.debugOverride = d.base.debugOverride ∧ c.base.timeout = d.base.timeout ∧
      c.base.table = d.base.table ∧ c.base.compScale = d.base.compScale) ∧
    (b = false → NormalSource A aux poles d) := by
  unfold normSource at h
  simp only at h
  have hcl := clamp_idem c
  by_cases h1 : thetaCapable (clampSource c).base.type = true ∧ 1 ≤ (clampSource c).base.incrementalIndex
  · rw [if_pos h1] at h
    simp only [Option.some.injEq, Prod.mk.injEq] at h
    obtain ⟨rfl, rfl⟩ := h
    refine ⟨?_, ⟨rfl, rfl, rfl, rfl, rfl, rfl, rfl⟩, fun h => by cases h⟩
    unfold normSource
    simp only [hcl]
    rw [if_pos h1]
  · rw [if_neg h1, port_eq (aux := aux) c] at h
    obtain ⟨i0, i1, i2, i3, i4, i5, i6, i7, i8, i9, i10, i11, i12⟩ := type_idem h
    obtain ⟨p1, p2, p3, p4, p5⟩ := clamped_parts hcl
    have hd : clampSource d = d := by
      refine clamp_eq (by rw [i2, p1]) (by rw [i3, p2]) (by rw [i5, p3]) ?_ (by rw [i6, p5])
      rw [i7, ← p4]
      exact anyCompensation_congr i9 i8
    refine ⟨?_, ⟨i4.symm, i1.symm, i10.symm, i11.symm, i12.symm, i8.symm, i9.symm⟩, ?_⟩
    · unfold normSource
      simp only [hd]
      rw [if_neg (by rw [i1, i6]; exact h1)]
      have := port_eq (aux := aux) d
      rw [hd] at this
      rw [this, i2, i0]
    · intro hb
      subst hb
      have q := clamped_parts hd
      have hport : port aux (clampSource c).aux = port aux d.aux := by rw [i2]
      rw [hport] at i0
      refine ⟨?_, ?_, ⟨?_, ?_⟩, ?_, ?_, ?_, ?_, ?_, ?_, ?_⟩
      · omega
      · have := q.2.2.1
        by_cases hs : 0 ≤ d.base.sign
        · rw [if_pos hs] at this; exact Or.inl this.symm
        · rw [if_neg hs] at this; exact Or.inr this.symm
      · omega
      · intro ht
        unfold typeSource at i0
        simp only [ht] at i0
        by_contra hn
        rw [dif_neg hn] at i0
        cases i0
      · have := q.2.2.2.2
        by_contra hn
        rw [if_pos (by omega)] at this
        omega
      · intro ht
        by_contra hn
        apply h1
        rw [← i1, ← i6]
        exact ⟨(thetaCapable_iff _).mpr ht, by omega⟩
      · rw [← q.2.2.2.1]
        exact anyCompensation_iff _
      · intro n hn
        unfold typeSource at i0
        unfold deviceCpr at hn
        cases ht : d.base.type <;> simp only [ht, reduceCtorEq, Option.some.injEq] at hn
        · simp only [ht, Option.some.injEq, Prod.mk.injEq, and_true] at i0
          have := congrArg (fun d => d.base.cpr) i0
          simp only at this
          rw [← this]
          cases hm : (port aux d.aux).spiMode <;> simp [hm] at hn ⊢ <;> exact hn
        · simp only [ht, Option.some.injEq, Prod.mk.injEq, and_true] at i0
          have := congrArg (fun d => d.base.cpr) i0
          simp only at this
          rw [← this]
          cases hm : (port aux d.aux).uartMode <;> simp [hm] at hn ⊢ <;> exact hn
        · simp only [ht, Option.some.injEq, Prod.mk.injEq, and_true] at i0
          have := congrArg (fun d => d.base.cpr) i0
          simp only at this
          rw [← this, hn]
        · simp only [ht, Option.some.injEq, Prod.mk.injEq, and_true] at i0
          have := congrArg (fun d => d.base.cpr) i0
          simp only at this
          rw [← this, hn]
      · intro ht
        unfold typeSource at i0
        simp only [ht, Option.some.injEq, Prod.mk.injEq, and_true] at i0
        have := congrArg (fun d => d.base.pllHz) i0
        simp only at this
        rw [← this]
        exact (limit_idem _ _).2
      · intro ht h3
        unfold typeSource at i0
        simp only [ht, dif_pos h3, Option.some.injEq, Prod.mk.injEq, and_true] at i0
        have := congrArg (fun d => d.base.pllHz) i0
        simp only at this
        rw [← this]
        exact (limit_idem _ _).2
      · intro ht
        unfold typeSource at i0
        simp only [ht, Option.some.injEq, Prod.mk.injEq, true_and] at i0
        exact i0

/-- A source as specified is left as it is. -/
theorem norm_source_of {c : SourceSettings} (h : NormalSource A aux poles c) :
    normSource A aux poles c = some (c, false) := by
  have hc : clampSource c = c := by
    refine clamp_eq ?_ ?_ ?_ ?_ ?_
    · rcases h.number with h | h <;> rw [h] <;> rfl
    · have := h.i2c.1; omega
    · rcases h.sign with h | h <;> rw [h] <;> decide
    · rw [Bool.eq_iff_iff, h.compensation, anyCompensation_iff]
    · rw [if_neg (by have := h.index; omega)]
  unfold normSource
  simp only [hc]
  rw [if_neg (fun h' => by have := h.noIndex ((thetaCapable_iff _).mp h'.1); omega)]
  have hp := port_eq (aux := aux) c
  rw [hc] at hp
  rw [hp]
  have hcpr := h.cpr
  have setCpr : ∀ ty n, c.base.type = ty → c.base.cpr = n →
      ({ c with base := { c.base with type := ty, cpr := n } } : SourceSettings) = c := by
    rintro _ _ rfl rfl; rfl
  unfold typeSource
  unfold deviceCpr at hcpr
  cases ht : c.base.type <;> simp only [ht, reduceCtorEq] at hcpr ⊢
  · congr 2
    apply setCpr _ _ ht
    cases hm : (port aux c.aux).spiMode <;> simp [hm] at hcpr ⊢ <;> exact hcpr
  · have hl := limit_eq (h.uart ht)
    rw [hl]
    congr 2
    apply setCpr _ _ ht
    cases hm : (port aux c.aux).uartMode <;> simp [hm] at hcpr ⊢ <;> exact hcpr
  · congr 2
    exact setCpr _ _ ht (hcpr _ rfl)
  · rw [h.homing ht]
  · congr 2
    exact setCpr _ _ ht (hcpr _ rfl)
  · have h3 := h.i2c.2 ht
    rw [dif_pos h3, limit_eq (h.i2cRate ht h3)]
    congr 2
    exact setCpr _ _ ht rfl

/-! ## The loop -/

/-- The loop over the sources: settled after one pass; without an error all
sources are as specified. -/
theorem norm_sources (l : List (Fin 3)) (hl : l.Nodup) :
    ∀ {s s' : Fin 3 → SourceSettings} {b : Bool}, normSources A aux poles l s = some (s', b) →
      normSources A aux poles l s' = some (s', b) ∧ (∀ i, i ∉ l → s' i = s i) ∧
      (∀ i, (s i).rotor = (s' i).rotor ∧ (s i).base.type = (s' i).base.type ∧
        (s i).base.offset = (s' i).base.offset ∧ (s i).base.debugOverride = (s' i).base.debugOverride ∧
        (s i).base.timeout = (s' i).base.timeout ∧ (s i).base.table = (s' i).base.table ∧
        (s i).base.compScale = (s' i).base.compScale) ∧
      (b = false → ∀ i ∈ l, NormalSource A aux poles (s' i)) := by
  induction l with
  | nil =>
    intro s s' b h
    simp only [normSources, Option.some.injEq, Prod.mk.injEq] at h
    obtain ⟨rfl, rfl⟩ := h
    exact ⟨rfl, fun _ _ => rfl, fun _ => ⟨rfl, rfl, rfl, rfl, rfl, rfl, rfl⟩, fun _ i hi => by cases hi⟩
  | cons j l ih =>
    intro s s' b h
    rw [List.nodup_cons] at hl
    simp only [normSources] at h
    cases hn : normSource A aux poles (s j) with
    | none => rw [hn] at h; cases h
    | some r =>
    obtain ⟨c, e⟩ := r
    rw [hn] at h
    obtain ⟨k1, k2, k3⟩ := norm_source hn
    cases e with
    | true =>
      simp only [Option.some.injEq, Prod.mk.injEq] at h
      obtain ⟨rfl, rfl⟩ := h
      refine ⟨?_, fun i hi => ?_, fun i => ?_, fun h => by cases h⟩
      · simp only [normSources, Function.update_self, k1, Function.update_idem]
      · exact Function.update_of_ne (fun h => hi (by rw [h]; exact List.mem_cons_self)) _ _
      · by_cases hi : i = j
        · subst hi; rw [Function.update_self]; exact k2
        · rw [Function.update_of_ne hi]; exact ⟨rfl, rfl, rfl, rfl, rfl, rfl, rfl⟩
    | false =>
      simp only at h
      obtain ⟨m1, m2, m3, m4⟩ := ih hl.2 h
      have hj : s' j = c := by rw [m2 j hl.1, Function.update_self]
      refine ⟨?_, fun i hi => ?_, fun i => ?_, fun hb i hi => ?_⟩
      · simp only [normSources, hj, k1]
        rw [← hj, Function.update_eq_self, m1]
      · rw [List.mem_cons, not_or] at hi
        rw [m2 i hi.2, Function.update_of_ne hi.1]
      · by_cases hi : i = j
        · subst hi; rw [hj]; exact k2
        · have := m3 i
          rwa [Function.update_of_ne hi] at this
      · rcases List.mem_cons.mp hi with rfl | hi
        · rw [hj]; exact k3 rfl
        · exact m4 hb i hi

theorem norm_sources_of (l : List (Fin 3)) {s : Fin 3 → SourceSettings}
    (h : ∀ i, NormalSource A aux poles (s i)) : normSources A aux poles l s = some (s, false) := by
  induction l with
  | nil => rfl
  | cons j l ih =>
    simp only [normSources, norm_source_of (h j), Function.update_eq_self, ih]

theorem sourceIndex_some {n : ℤ} {i : Fin 3} : sourceIndex n = some i ↔ n = (i : ℕ) := by
  unfold sourceIndex
  constructor
  · intro h
    split at h
    · cases h; simpa
    · split at h
      · cases h; simpa
      · split at h
        · cases h; simpa
        · cases h
  · rintro rfl
    match i with
    | 0 => rfl
    | 1 => rfl
    | 2 => rfl

theorem commError_none {ratio : Fl} {c : SourceSettings} :
    commError A poles ratio c = .none ↔ (GivesAngle c.base.type →
      0 < poles ∧ poles % 2 = 0 ∧
      (c.rotor = false → c.base.type ≠ .hall ∧ NotAbove ratio (A.lit 1) ∧
        NotAbove (A.sub (flRound A (A.div (A.lit 1) ratio)) (A.div (A.lit 1) ratio)).abs
          (A.lit (1 / 1000)))) := by
  unfold commError NotAbove
  rw [← thetaCapable_iff]
  by_cases h1 : thetaCapable c.base.type = false
  · rw [if_pos h1]
    simp [h1]
  rw [if_neg h1]
  rw [Bool.not_eq_false] at h1
  by_cases h2 : poles = 0 ∨ poles % 2 ≠ 0
  · rw [if_pos h2]
    simp only [reduceCtorEq, h1, true_implies, false_iff, not_and]
    intros; omega
  rw [if_neg h2]
  by_cases h3 : c.rotor = true
  · rw [if_pos h3]
    simp only [h1, h3, true_implies, reduceCtorEq, false_implies, and_true, true_iff]
    omega
  rw [if_neg h3]
  have h3' : c.rotor = false := by simpa using h3
  have h2' : 0 < poles ∧ poles % 2 = 0 := by omega
  by_cases h4 : c.base.type = .hall
  · rw [if_pos h4]
    simp only [reduceCtorEq, false_iff]
    intro h
    exact ((h h1).2.2 h3').1 h4
  rw [if_neg h4]
  by_cases h5 : Fl.blt (A.lit 1) ratio = true
  · rw [if_pos h5]
    simp only [reduceCtorEq, false_iff]
    intro h
    rw [((h h1).2.2 h3').2.1] at h5
    cases h5
  rw [if_neg h5]
  by_cases h6 : Fl.blt (A.lit (1 / 1000)) (A.sub (flRound A (A.div (A.lit 1) ratio))
      (A.div (A.lit 1) ratio)).abs = true
  · simp only [if_pos h6]
    simp only [reduceCtorEq, false_iff]
    intro h
    rw [((h h1).2.2 h3').2.2] at h6
    cases h6
  · simp only [if_neg h6, true_iff]
    intro _
    exact ⟨h2'.1, h2'.2, fun _ => ⟨h4, Bool.eq_false_iff.mpr h5, Bool.eq_false_iff.mpr h6⟩⟩

/-! ## The whole configuration -/

variable {phase : ℕ → Fl}

theorem discontinuous_iff : discontinuous A phase = false ↔
    ∀ i < 64, NotAbove (A.sub (phase ((i + 1) % 64)) (phase i)).abs (A.lit (7 / 2)) := by
  unfold discontinuous NotAbove
  rw [List.any_eq_false]
  simp only [List.mem_range, Bool.not_eq_true]

theorem finish_facts {c d : PosSettings} {e : PosError} (h : finishOutput c = (d, e)) :
    finishOutput d = (d, e) ∧ (d.sources = c.sources ∧ d.comm = c.comm ∧ d.out = c.out ∧
      d.offset = c.offset ∧ d.ref = c.ref ∧ d.ratio = c.ratio ∧ d.override = c.override) ∧
    (e = .none → (∃ i : Fin 3, d.out = (i : ℕ)) ∧ (d.sign = 1 ∨ d.sign = -1)) := by
  unfold finishOutput at h
  cases hi : sourceIndex c.out with
  | none =>
    simp only [hi, Prod.mk.injEq] at h
    obtain ⟨rfl, rfl⟩ := h
    refine ⟨?_, ⟨rfl, rfl, rfl, rfl, rfl, rfl, rfl⟩, fun h => by cases h⟩
    unfold finishOutput
    rw [hi]
  | some i =>
    simp only [hi, Prod.mk.injEq] at h
    obtain ⟨rfl, rfl⟩ := h
    refine ⟨?_, ⟨rfl, rfl, rfl, rfl, rfl, rfl, rfl⟩, fun _ => ⟨⟨i, sourceIndex_some.mp hi⟩, ?_⟩⟩
    · unfold finishOutput
      simp only [hi]
      congr 1
      by_cases hs : 0 ≤ c.sign <;> simp [hs]
    · by_cases hs : 0 ≤ c.sign <;> simp [hs]

theorem output_facts {c d : PosSettings} {e : PosError} (h : outputChecks c = some (d, e)) :
    outputChecks d = some (d, e) ∧ (d.sources = c.sources ∧ d.comm = c.comm ∧ d.out = c.out ∧
      d.offset = c.offset ∧ d.ratio = c.ratio ∧ d.override = c.override) ∧
    (e = .none → (d.ref < 0 ∨ ∃ i : Fin 3, d.ref = (i : ℕ) ∧ ((d.sources i).rotor = false ∨
        d.ratio = .fin 1)) ∧ (∃ i : Fin 3, d.out = (i : ℕ)) ∧ (d.sign = 1 ∨ d.sign = -1)) := by
  unfold outputChecks at h
  by_cases hr : 0 ≤ c.ref
  · rw [if_pos hr] at h
    cases hi : sourceIndex (min 3 c.ref) with
    | none => rw [hi] at h; cases h
    | some i =>
    simp only [hi] at h
    have him := sourceIndex_some.mp hi
    have hmm : min 3 (min 3 c.ref) = min 3 c.ref := by omega
    have h0 : 0 ≤ min 3 c.ref := by omega
    by_cases hb : (c.sources i).rotor = true ∧ Fl.beq c.ratio (.fin 1) = false
    · rw [if_pos hb] at h
      simp only [Option.some.injEq, Prod.mk.injEq] at h
      obtain ⟨rfl, rfl⟩ := h
      refine ⟨?_, ⟨rfl, rfl, rfl, rfl, rfl, rfl⟩, fun h => by cases h⟩
      unfold outputChecks
      simp only [if_pos h0, hmm, hi, if_pos hb]
    · rw [if_neg hb, Option.some.injEq] at h
      obtain ⟨f1, ⟨f2, f3, f4, f5, f6, f7, f8⟩, f9⟩ := finish_facts h
      simp only at f2 f3 f4 f5 f6 f7 f8
      have hmd : min 3 d.ref = d.ref := by rw [f6, hmm]
      refine ⟨?_, ⟨f2, f3, f4, f5, f7, f8⟩, fun he => ⟨Or.inr ⟨i, f6.trans him, ?_⟩, f9 he⟩⟩
      · unfold outputChecks
        simp only [hmd]
        rw [if_pos (by rw [f6]; exact h0), f6]
        simp only [hi]
        rw [if_neg (by rw [f2, f7]; exact hb), ← f6, f1]
      · rw [not_and, Bool.not_eq_false] at hb
        by_cases hrt : (c.sources i).rotor = true
        · right
          have := hb hrt
          by_contra hn
          rw [f7, ← ne_eq, ← beq_false_iff] at hn
          rw [hn] at this
          cases this
        · left
          rw [f2]
          simpa using hrt
  · rw [if_neg hr, Option.some.injEq] at h
    obtain ⟨f1, ⟨f2, f3, f4, f5, f6, f7, f8⟩, f9⟩ := finish_facts h
    refine ⟨?_, ⟨f2, f3, f4, f5, f7, f8⟩, fun he => ⟨Or.inl (by omega), f9 he⟩⟩
    unfold outputChecks
    rw [if_neg (by omega), f1]

/-- Everything about one configuration change. -/
theorem handle_facts {c d : PosSettings} {e : PosError}
    (h : handleConfig A aux poles phase c = some (d, e)) :
    handleConfig A aux poles phase d = some (d, e) ∧ SameChoices c d ∧
    (e = .none → Normal A aux poles phase d) := by
  have same : ∀ s : Fin 3 → SourceSettings, (∀ i, (c.sources i).rotor = (s i).rotor ∧
        (c.sources i).base.type = (s i).base.type ∧ (c.sources i).base.offset = (s i).base.offset ∧
        (c.sources i).base.debugOverride = (s i).base.debugOverride ∧
        (c.sources i).base.timeout = (s i).base.timeout ∧ (c.sources i).base.table = (s i).base.table ∧
        (c.sources i).base.compScale = (s i).base.compScale) → SameChoices c { c with sources := s } :=
    fun s hs => ⟨rfl, rfl, rfl, rfl, rfl, hs⟩
  unfold handleConfig at h
  by_cases h1 : discontinuous A phase = true
  · rw [if_pos h1] at h
    simp only [Option.some.injEq, Prod.mk.injEq] at h
    obtain ⟨rfl, rfl⟩ := h
    refine ⟨?_, ⟨rfl, rfl, rfl, rfl, rfl, fun _ => ⟨rfl, rfl, rfl, rfl, rfl, rfl, rfl⟩⟩, fun h => by cases h⟩
    unfold handleConfig
    rw [if_pos h1]
  rw [if_neg h1] at h
  cases hn : normSources A aux poles [0, 1, 2] c.sources with
  | none => rw [hn] at h; cases h
  | some r =>
  obtain ⟨s, b⟩ := r
  obtain ⟨n1, -, n3, n4⟩ := norm_sources [0, 1, 2] (by decide) hn
  have hsame := same s n3
  cases b with
  | true =>
    simp only [hn, Option.some.injEq, Prod.mk.injEq] at h
    obtain ⟨rfl, rfl⟩ := h
    refine ⟨?_, hsame, fun h => by cases h⟩
    unfold handleConfig
    simp only [if_neg h1, n1]
  | false =>
  have hall : ∀ i, NormalSource A aux poles (s i) := by
    intro i
    exact n4 rfl i (by match i with | 0 => simp | 1 => simp | 2 => simp)
  simp only [hn] at h
  cases hi : sourceIndex c.comm with
  | none =>
    simp only [hi, Option.some.injEq, Prod.mk.injEq] at h
    obtain ⟨rfl, rfl⟩ := h
    refine ⟨?_, hsame, fun h => by cases h⟩
    unfold handleConfig
    simp only [if_neg h1, n1, hi]
  | some i =>
  simp only [hi] at h
  by_cases h2 : commError A poles c.ratio (s i) ≠ .none
  · rw [if_pos h2] at h
    simp only [Option.some.injEq, Prod.mk.injEq] at h
    obtain ⟨rfl, rfl⟩ := h
    refine ⟨?_, hsame, fun h => absurd h h2⟩
    unfold handleConfig
    simp only [if_neg h1, n1, hi, if_pos h2]
  rw [if_neg h2] at h
  by_cases h3 : Fl.blt (A.lit 1) c.ratio = true ∧ c.override = false
  · rw [if_pos h3] at h
    simp only [Option.some.injEq, Prod.mk.injEq] at h
    obtain ⟨rfl, rfl⟩ := h
    refine ⟨?_, hsame, fun h => by cases h⟩
    unfold handleConfig
    simp only [if_neg h1, n1, hi, if_neg h2, if_pos h3]
  rw [if_neg h3] at h
  obtain ⟨o1, ⟨o2, o3, o4, o5, o6, o7⟩, o8⟩ := output_facts h
  simp only at o2 o3 o4 o5 o6 o7
  refine ⟨?_, ?_, fun he => ?_⟩
  · unfold handleConfig
    rw [if_neg h1, o2, n1]
    simp only [o3, hi, o6, o7]
    have e1 : ({ d with sources := s, comm := c.comm, ratio := c.ratio, override := c.override } :
        PosSettings) = d := by rw [← o2, ← o3, ← o6, ← o7]
    rw [if_neg h2, if_neg h3, e1, o1]
  · refine ⟨o3.symm, o4.symm, o5.symm, o6.symm, o7.symm, fun j => ?_⟩
    rw [o2]
    exact n3 j
  · rw [not_not] at h2
    obtain ⟨q1, q2, q3⟩ := o8 he
    refine ⟨discontinuous_iff.mp (Bool.eq_false_iff.mpr h1), fun j => o2 ▸ hall j,
      ⟨i, o3.trans (sourceIndex_some.mp hi), ?_⟩, ?_, q1, q2, q3⟩
    · rw [o2, o6]
      exact commError_none.mp h2
    · rw [o6, o7]
      rw [not_and] at h3
      unfold NotAbove
      cases hb : Fl.blt (A.lit 1) c.ratio with
      | false => exact Or.inl rfl
      | true => exact Or.inr (by simpa using h3 hb)

/-- **C69, what is accepted.** A configuration that the firmware accepts is, as it
stands afterwards, as specified: ports, signs and indices in range, the counts
of known devices, limited bandwidths, an even number of poles, ratios that
commutation can use. -/
theorem C69_accepted {c d : PosSettings} (h : handleConfig A aux poles phase c = some (d, .none)) :
    Normal A aux poles phase d := (handle_facts h).2.2 rfl

/-- **C69, nothing else is refused.** A configuration as specified is accepted
and not changed. -/
theorem C69_accepts {c : PosSettings} (h : Normal A aux poles phase c) :
    handleConfig A aux poles phase c = some (c, .none) := by
  unfold handleConfig
  rw [if_neg (Bool.eq_false_iff.mp (discontinuous_iff.mpr h.phases)), norm_sources_of _ h.sources]
  obtain ⟨i, hi, hcomm⟩ := h.comm
  simp only [sourceIndex_some.mpr hi, commError_none.mpr hcomm, ne_eq, not_true_eq_false, if_false]
  rw [if_neg (by
    rintro ⟨h1, h2⟩
    rcases h.ratio with h3 | h3
    · unfold NotAbove at h3; rw [h3] at h1; cases h1
    · rw [h3] at h2; cases h2)]
  have hs : (if 0 ≤ c.sign then 1 else -1) = c.sign := by
    rcases h.sign with h | h <;> rw [h] <;> decide
  obtain ⟨o, ho⟩ := h.out
  have hfin : finishOutput c = (c, .none) := by
    unfold finishOutput
    simp only [sourceIndex_some.mpr ho]
    rw [hs]
  show outputChecks c = _
  unfold outputChecks
  rcases h.ref with hr | ⟨j, hj, hj'⟩
  · rw [if_neg (by omega), hfin]
  · have hj3 : min 3 c.ref = c.ref := by rw [hj]; omega
    rw [if_pos (by omega), hj3]
    simp only [sourceIndex_some.mpr hj]
    rw [if_neg, hfin]
    rintro ⟨h1, h2⟩
    rw [beq_false_iff] at h2
    rcases hj' with h3 | h3
    · rw [h3] at h1; cases h1
    · exact h2 h3

/-- **C69, the check is settled.** Checking the stored result again (as after a
restart) changes nothing and gives the same error. -/
theorem C69_stable {c d : PosSettings} {e : PosError}
    (h : handleConfig A aux poles phase c = some (d, e)) :
    handleConfig A aux poles phase d = some (d, e) := (handle_facts h).1

/-- **C69, the choices of the user are kept**, whether or not there is an error. -/
theorem C69_kept {c d : PosSettings} {e : PosError}
    (h : handleConfig A aux poles phase c = some (d, e)) : SameChoices c d := (handle_facts h).2.1

/-- **C69, the error.** There is an error exactly if the result is not as
specified. -/
theorem C69_error_iff {c d : PosSettings} {e : PosError}
    (h : handleConfig A aux poles phase c = some (d, e)) : e = .none ↔ Normal A aux poles phase d := by
  refine ⟨fun he => C69_accepted (he ▸ h), fun hn => ?_⟩
  have h1 := C69_accepts hn
  rw [C69_stable h, Option.some.injEq, Prod.mk.injEq] at h1
  exact h1.2

/-- **C69, no access past an array (partial).** With an I2C device and a reference
source that exist, the check always comes to a result. Missing: other values,
see `C69_reference_refuted` and `C69_i2c_refuted`. -/
theorem C69_defined_partial {c : PosSettings} (h : ∀ i, (c.sources i).base.type = .i2c → (c.sources i).i2c < 3)
    (hr : c.ref < 3) : ∃ d e, handleConfig A aux poles phase c = some (d, e) := by
  have hsrc : ∀ c : SourceSettings, (c.base.type = .i2c → c.i2c < 3) →
      ∃ r, normSource A aux poles c = some r := by
    intro c hc
    unfold normSource
    simp only
    by_cases h1 : thetaCapable (clampSource c).base.type = true ∧ 1 ≤ (clampSource c).base.incrementalIndex
    · exact ⟨_, if_pos h1⟩
    · rw [if_neg h1]
      unfold typeSource
      have ht : (clampSource c).base.type = c.base.type := rfl
      cases hty : c.base.type <;> rw [hty] at ht <;> simp only [ht] <;> try exact ⟨_, rfl⟩
      rw [dif_pos (by have := hc hty; unfold clampSource; simp only; omega)]
      exact ⟨_, rfl⟩
  have hlist : ∀ (l : List (Fin 3)) (s : Fin 3 → SourceSettings),
      (∀ i, (s i).base.type = .i2c → (s i).i2c < 3) → ∃ r, normSources A aux poles l s = some r := by
    intro l
    induction l with
    | nil => intro s _; exact ⟨_, rfl⟩
    | cons j l ih =>
      intro s hs
      obtain ⟨⟨d, b⟩, hd⟩ := hsrc (s j) (hs j)
      simp only [normSources, hd]
      cases b with
      | true => exact ⟨_, rfl⟩
      | false =>
        refine ih _ fun i => ?_
        by_cases hi : i = j
        · subst hi
          rw [Function.update_self]
          exact (norm_source hd).2.2 rfl |>.i2c.2
        · rw [Function.update_of_ne hi]
          exact hs i
  unfold handleConfig
  by_cases h1 : discontinuous A phase = true
  · rw [if_pos h1]; exact ⟨_, _, rfl⟩
  rw [if_neg h1]
  obtain ⟨⟨s, b⟩, hs⟩ := hlist [0, 1, 2] c.sources h
  cases b with
  | true => simp only [hs]; exact ⟨_, _, rfl⟩
  | false =>
    simp only [hs]
    cases hi : sourceIndex c.comm with
    | none => exact ⟨_, _, rfl⟩
    | some i =>
      simp only
      split
      · exact ⟨_, _, rfl⟩
      · split
        · exact ⟨_, _, rfl⟩
        · unfold outputChecks
          by_cases hr0 : 0 ≤ c.ref
          · rw [if_pos hr0]
            have : ∃ j, sourceIndex (min 3 c.ref) = some j := by
              refine ⟨⟨c.ref.toNat, by omega⟩, sourceIndex_some.mpr ?_⟩
              simp only
              omega
            obtain ⟨j, hj⟩ := this
            simp only [hj]
            split
            · exact ⟨_, _, rfl⟩
            · exact ⟨_, _, rfl⟩
          · rw [if_neg hr0]; exact ⟨_, _, rfl⟩

/-- **C69 and C68 together.** An accepted configuration that commutates from a
rotor encoder is one for which the angle follows the rotor: the numbers of the
table are the only further assumption. -/
theorem C69_calibrated {A : Ar} {κ : ℚ} (hA : Fine A κ) {c d : PosSettings}
    (h : handleConfig A aux poles phase c = some (d, .none)) {i o : Fin 3} (hi : d.comm = (i : ℕ))
    (hrotor : (d.sources i).rotor = true) (hgives : GivesAngle (d.sources i).base.type)
    (hpoles : poles ≤ 255) (hcpr : 0 < (d.sources i).base.cpr) (hcpr' : (d.sources i).base.cpr ≤ 2 ^ 24)
    {t : ℕ → ℚ} (ht : ∀ j < 64, phase j = .fin (t j)) (hrep : ∀ j < 64, A.Rep (t j))
    (hb : ∀ j < 64, |t j| ≤ 1000) :
    Calibrated A (running A poles phase d i o) t 1 1000 4 2000 ∧ poles % 2 = 0 := by
  have hn := C69_accepted h
  obtain ⟨j, hj, hcomm⟩ := hn.comm
  have hij : i = j := by
    have : ((i : ℕ) : ℤ) = (j : ℕ) := by rw [← hi, hj]
    exact Fin.ext (by exact_mod_cast this)
  subst hij
  obtain ⟨p1, p2, -⟩ := hcomm hgives
  obtain ⟨tp6, tp7⟩ := twoPi_bounds
  have hp : (poles : ℚ) ≤ 255 := by exact_mod_cast hpoles
  refine ⟨⟨hcpr, hcpr', p1, hpoles, ?_, by norm_num, ht, hrep, hb, ?_, ?_, by norm_num, by norm_num⟩, p2⟩
  · unfold PosConfig.rotorScale running
    simp only [hrotor, if_true]
  · intro j hj
    have hd := hn.phases j hj
    have hm : (j + 1) % 64 < 64 := Nat.mod_lt _ (by norm_num)
    rw [ht j hj, ht _ hm, sub_fin] at hd
    have b1 := hb j hj
    have b2 := hb _ hm
    generalize t ((j + 1) % 64) = a at *
    generalize t j = b at *
    by_contra hc
    rw [not_le] at hc
    have hlit : A.lit (7 / 2) = .fin (7 / 2) := by
      have := (hA.unscale (n := 7) (k := -1) (by norm_num) (by norm_num) (by norm_num)).rnd
      rw [show ((7 : ℤ) : ℚ) * pow2 (-1) = 7 / 2 from by decide +kernel] at this
      exact this
    have hsmall : |a - b| ≤ pow2 127 := by
      have : |a - b| ≤ 2000 := by
        rw [abs_le] at *
        constructor <;> linarith
      exact this.trans (by decide +kernel)
    rw [hA.rnd_fin hsmall, hlit] at hd
    unfold NotAbove at hd
    simp only [Fl.abs, Fl.blt_fin, decide_eq_false_iff_not, not_lt] at hd
    have r4 : A.Rep 4 := by simpa using hA.rep_int (n := 4) (by norm_num)
    rcases lt_abs.mp hc with h4 | h4
    · have := hA.mono h4.le
      rw [r4.1] at this
      have := (abs_le.mp hd).2
      linarith
    · have h5 : a - b ≤ -4 := by linarith
      have := hA.mono h5
      rw [hA.odd, r4.1] at this
      have := (abs_le.mp hd).1
      linarith
  · show (poles : ℚ) / 2 * twoPi / 1 + 1000 ≤ 2000
    nlinarith

/-- **C69, the direction.** An accepted configuration runs forwards exactly if the
user set a sign that is not negative. -/
theorem C69_direction {c d : PosSettings} (h : handleConfig A aux poles phase c = some (d, .none)) (i o : Fin 3) :
    (running A poles phase d i o).forward = true ↔ 0 ≤ c.sign := by
  have hfin : ∀ {c d : PosSettings}, finishOutput c = (d, .none) → (d.sign = 1 ↔ 0 ≤ c.sign) := by
    intro c d h
    unfold finishOutput at h
    split at h
    · simp only [Prod.mk.injEq, reduceCtorEq, and_false] at h
    · simp only [Prod.mk.injEq, and_true] at h
      rw [← h]
      by_cases hs : 0 ≤ c.sign <;> simp [hs]
  have hout : ∀ {c d : PosSettings}, outputChecks c = some (d, .none) → (d.sign = 1 ↔ 0 ≤ c.sign) := by
    intro c d h
    unfold outputChecks at h
    split at h
    · split at h
      · cases h
      · split at h
        · simp only [Option.some.injEq, Prod.mk.injEq, reduceCtorEq, and_false] at h
        · exact (hfin (Option.some.inj h)).trans Iff.rfl
    · exact hfin (Option.some.inj h)
  have hd : d.sign = 1 ↔ 0 ≤ c.sign := by
    unfold handleConfig at h
    split at h
    · simp only [Option.some.injEq, Prod.mk.injEq, reduceCtorEq, and_false] at h
    · split at h
      · cases h
      · simp only [Option.some.injEq, Prod.mk.injEq, reduceCtorEq, and_false] at h
      · simp only at h
        split at h
        · simp only [Option.some.injEq, Prod.mk.injEq, reduceCtorEq, and_false] at h
        · split at h
          · simp only [Option.some.injEq, Prod.mk.injEq] at h
            exact absurd h.2 (by assumption)
          · split at h
            · simp only [Option.some.injEq, Prod.mk.injEq, reduceCtorEq, and_false] at h
            · exact (hout h).trans Iff.rfl
  unfold running
  simp only [decide_eq_true_eq, hd]

/-- **C69, the filter of a source.** With exact arithmetic a source whose bandwidth
is set to `w` Hz runs a filter whose constants are those of two equal poles at
2π`w` rad/s: `s² + kp·s + ki = (s + 2πw)²`. -/
theorem C69_filter {d : PosSettings} {i o k : Fin 3} {w : ℚ} (hw : (d.sources k).base.pllHz = .fin w) :
    ∃ p q : ℚ, ((running .exact poles phase d i o).sources k).kp = .fin p ∧
      ((running .exact poles phase d i o).sources k).ki = .fin q ∧
      ∀ s : ℚ, s ^ 2 + p * s + q = (s + 13176795 / 2097152 * w) ^ 2 := by
  refine ⟨2 * (w * twoPi), w * twoPi * (w * twoPi), ?_, ?_, fun s => ?_⟩
  · unfold running withFilter
    simp only [hw, mul_fin, Ar.lit, Ar.exact_rnd]
  · unfold running withFilter
    simp only [hw, mul_fin, Ar.exact_rnd]
  · unfold twoPi
    ring

end

/-! ## Examples and violations -/

/-- The ports as delivered. -/
def plainAux : Fin 2 → AuxSettings := fun _ => ⟨.onboardAs5047, .disabled, 100, fun _ => 1000⟩

/-- The configuration as delivered (`fw/motor_position.h` 40-160): the onboard
encoder for everything. -/
def plainSettings : PosSettings where
  sources := fun i => if i = 0 then ⟨1, 0, true, exampleSource 16384 0 1 (1 / 5)⟩
    else ⟨1, 0, true, { exampleSource 16384 0 1 (1 / 5) with type := .none }⟩
  comm := 0
  out := 0
  offset := .fin 0
  sign := 1
  ref := -1
  ratio := .fin 1
  override := false

private theorem of_test {x : Option (PosSettings × PosError)} {P : PosSettings → Bool} {e : PosError}
    (h : x.elim false (fun a => decide (a.2 = e) && P a.1) = true) : ∃ d, x = some (d, e) ∧ P d = true := by
  cases x with
  | none => cases h
  | some a =>
    obtain ⟨d, e'⟩ := a
    simp only [Option.elim_some, Bool.and_eq_true, decide_eq_true_eq] at h
    exact ⟨d, by rw [h.1], h.2⟩

private theorem of_none {x : Option (PosSettings × PosError)} (h : x.isNone = true) : x = none := by
  cases x with
  | none => rfl
  | some _ => cases h

/-- The value of a finite number, and 100 for the others. -/
private def valueOf : Fl → ℚ
  | .fin q => q
  | _ => 100

private theorem fin_of {x : Fl} (h : x.isFinite = true) : x = .fin (valueOf x) := by
  cases x <;> first | rfl | cases h

/-- It is accepted for a motor with 14 poles and refused for one with 7. -/
example : (∃ d, handleConfig .single plainAux 14 (fun _ => .fin 0) plainSettings = some (d, .none) ∧
      d.comm = ((0 : Fin 3) : ℕ) ∧ (d.sources 0).rotor = true ∧ GivesAngle (d.sources 0).base.type ∧
      (d.sources 0).base.cpr = 16384) ∧
    ∃ d, handleConfig .single plainAux 7 (fun _ => .fin 0) plainSettings = some (d, .motorNotConfigured) := by
  constructor
  · obtain ⟨d, h, hp⟩ := of_test (x := handleConfig .single plainAux 14 (fun _ => .fin 0) plainSettings)
      (e := .none) (P := fun d => decide (d.comm = 0 ∧ (d.sources 0).rotor = true ∧
        (d.sources 0).base.type = .spi ∧ (d.sources 0).base.cpr = 16384)) (by decide +kernel)
    obtain ⟨h1, h2, h3, h4⟩ := of_decide_eq_true hp
    exact ⟨d, h, h1, h2, Or.inl h3, h4⟩
  · obtain ⟨d, h, -⟩ := of_test (x := handleConfig .single plainAux 7 (fun _ => .fin 0) plainSettings)
      (e := .motorNotConfigured) (P := fun _ => true) (by decide +kernel)
    exact ⟨d, h⟩

/-- `C69_direction` and `C69_filter` apply to the configuration as
delivered with another sign and a bandwidth of 400 Hz. -/
example : (∃ d, handleConfig .single plainAux 14 (fun _ => .fin 0) { plainSettings with sign := -3 } = some (d, .none)) ∧
    ({ plainSettings with sources := fun _ => ⟨1, 0, true, { exampleSource 16384 0 1 (1 / 5) with
      pllHz := .fin 400 }⟩ }.sources 0).base.pllHz = .fin 400 := by
  refine ⟨?_, ?_⟩
  · obtain ⟨d, h, -⟩ := of_test (x := handleConfig .single plainAux 14 (fun _ => .fin 0) { plainSettings with sign := -3 })
      (e := .none) (P := fun _ => true) (by decide +kernel)
    exact ⟨d, h⟩
  · rfl

/-- `Normal` holds for it. -/
example : ∃ d, Normal .single plainAux 14 (fun _ => .fin 0) d := by
  obtain ⟨d, h, -⟩ := of_test (x := handleConfig .single plainAux 14 (fun _ => .fin 0) plainSettings)
    (e := .none) (P := fun _ => true) (by decide +kernel)
  exact ⟨d, C69_accepted h⟩

example : (∀ i, (plainSettings.sources i).base.type = .i2c → (plainSettings.sources i).i2c < 3) ∧
    plainSettings.ref < 3 := by
  refine ⟨?_, by decide⟩
  decide +kernel

/-- **C69 is violated: a reference source out of range** is not refused; the
array of sources is read past its end. -/
theorem C69_reference_refuted :
    handleConfig .single plainAux 14 (fun _ => .fin 0) { plainSettings with ref := 3 } = none :=
  of_none (by decide +kernel)

/-- **C69 is violated: an I2C device out of range** is not refused; the array of
devices is read past its end. -/
theorem C69_i2c_refuted :
    handleConfig .single plainAux 14 (fun _ => .fin 0) { plainSettings with
      sources := Function.update plainSettings.sources 1
        ⟨1, 3, true, { exampleSource 16384 0 1 (1 / 5) with type := .i2c }⟩ } = none :=
  of_none (by decide +kernel)

/-- An output encoder for commutation. -/
def outputCommutation : PosSettings :=
  { plainSettings with
    sources := Function.update plainSettings.sources 0 ⟨1, 0, false, exampleSource 16384 0 1 (1 / 5)⟩
    ratio := .fin 0 }

/-- **C69 is violated: a ratio of 0** is accepted for commutation from the output;
the angle is not finite then. -/
theorem C69_ratio_refuted :
    ∃ d, handleConfig .single plainAux 14 (fun _ => .fin 0) outputCommutation = some (d, .none) ∧
      (angle .single (running .single 14 (fun _ => .fin 0) d 0 0) (.fin 100)).isFinite = false := by
  obtain ⟨d, h, hp⟩ := of_test (x := handleConfig .single plainAux 14 (fun _ => .fin 0) outputCommutation)
    (e := .none) (P := fun d => decide
      ((angle .single (running .single 14 (fun _ => .fin 0) d 0 0) (.fin 100)).isFinite = false)) (by decide +kernel)
  exact ⟨d, h, of_decide_eq_true hp⟩

/-- **C69 is violated: phases that are not numbers** are accepted. -/
theorem C69_phase_refuted :
    ∃ d, handleConfig .single plainAux 14 (fun _ => .nan) plainSettings = some (d, .none) ∧
      angle .single (running .single 14 (fun _ => .nan) d 0 0) (.fin 100) = .nan := by
  obtain ⟨d, h, hp⟩ := of_test (x := handleConfig .single plainAux 14 (fun _ => .nan) plainSettings)
    (e := .none) (P := fun d => decide
      (angle .single (running .single 14 (fun _ => .nan) d 0 0) (.fin 100) = .nan)) (by decide +kernel)
  exact ⟨d, h, of_decide_eq_true hp⟩

/-- A quadrature encoder with an index for commutation. -/
def indexEncoder (cpr : ℕ) : PosSettings :=
  { plainSettings with
    sources := Function.update plainSettings.sources 0
      ⟨1, 0, true, { exampleSource cpr 0 1 (1 / 5) with type := .quadrature, incrementalIndex := 1 }⟩ }

/-- **C69 is violated: an odd number of poles** is accepted for commutation from a
quadrature encoder with an index; from the last count to the first one the angle
jumps by half a turn. -/
theorem C69_poles_refuted :
    ∃ d, handleConfig .single plainAux 7 (fun _ => .fin 0) (indexEncoder 4096) = some (d, .none) ∧
      angle .single (running .single 7 (fun _ => .fin 0) d 0 0) (.fin 0) = .fin 0 ∧
      ∃ θ, angle .single (running .single 7 (fun _ => .fin 0) d 0 0) (.fin 4095) = .fin θ ∧
        31 / 10 < θ ∧ θ < 32 / 10 := by
  obtain ⟨d, h, hp⟩ := of_test (x := handleConfig .single plainAux 7 (fun _ => .fin 0) (indexEncoder 4096))
    (e := .none) (P := fun d => decide
      (angle .single (running .single 7 (fun _ => .fin 0) d 0 0) (.fin 0) = .fin 0 ∧
      (angle .single (running .single 7 (fun _ => .fin 0) d 0 0) (.fin 4095)).isFinite = true ∧
      31 / 10 < valueOf (angle .single (running .single 7 (fun _ => .fin 0) d 0 0) (.fin 4095)) ∧
      valueOf (angle .single (running .single 7 (fun _ => .fin 0) d 0 0) (.fin 4095)) < 32 / 10))
    (by decide +kernel)
  obtain ⟨h1, h2, h3, h4⟩ := of_decide_eq_true hp
  exact ⟨d, h, h1, _, fin_of h2, h3, h4⟩

/-- **C69 is violated: an encoder without counts** is accepted. -/
theorem C69_cpr_refuted :
    ∃ d, handleConfig .single plainAux 14 (fun _ => .fin 0) (indexEncoder 0) = some (d, .none) ∧
      (d.sources 0).base.cpr = 0 := by
  obtain ⟨d, h, hp⟩ := of_test (x := handleConfig .single plainAux 14 (fun _ => .fin 0) (indexEncoder 0))
    (e := .none) (P := fun d => decide ((d.sources 0).base.cpr = 0)) (by decide +kernel)
  exact ⟨d, h, of_decide_eq_true hp⟩

/-- **C69 is violated: a negative time between requests** of a serial encoder makes
the bandwidth of the filter negative. -/
theorem C69_rate_refuted :
    ∃ d, handleConfig .single (fun _ => ⟨.onboardAs5047, .aksim2, -100, fun _ => 1000⟩) 14 (fun _ => .fin 0)
        { plainSettings with
          sources := Function.update plainSettings.sources 0
            ⟨1, 0, true, { exampleSource 16384 0 1 (1 / 5) with type := .uart, pllHz := .fin 400 }⟩ } =
        some (d, .none) ∧ (d.sources 0).base.pllHz = .fin (-1000) := by
  obtain ⟨d, h, hp⟩ := of_test (x := handleConfig .single
      (fun _ => ⟨.onboardAs5047, .aksim2, -100, fun _ => 1000⟩) 14 (fun _ => .fin 0)
        { plainSettings with
          sources := Function.update plainSettings.sources 0
            ⟨1, 0, true, { exampleSource 16384 0 1 (1 / 5) with type := .uart, pllHz := .fin 400 }⟩ })
    (e := .none) (P := fun d => decide ((d.sources 0).base.pllHz = .fin (-1000))) (by decide +kernel)
  exact ⟨d, h, of_decide_eq_true hp⟩

end Verif.Fw
