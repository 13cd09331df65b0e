import Verif.Fw.Position
import Verif.Fw.SensorCounts
import Verif.Fw.ServoRuns

/-!
# Commutation angle and the whole position update

Model of `ISR_UpdateCommutation`, `ISR_UpdateState` and `ISR_Update`
(`fw/motor_position.h`) over the three sources, with the requests that the rest
of the firmware makes.

Simplifications: those of `Fw/Source.lean` and `Fw/Position.lean`; the
configuration is fixed (a configuration change starts again from
`PosStatus.init`), its checks are the subject of `Fw/PosConfig.lean`.

Property C68.
-/

namespace Verif.Fw

open Verif.Float

/-! ## Model -/

/-- `k2Pi` (`fw/math.h` 24): the `float` nearest to 2 pi -/
def twoPi : ℚ := 13176795 / 2097152

/-- `WrapZeroToTwoPi` (`fw/math.h` 34-44) -/
def wrapZeroToTwoPi (A : Ar) (x : Fl) : Fl :=
  let divisor := toI32 (A.div x (.fin twoPi))
  let mod := A.sub x (A.mul (A.lit divisor) (.fin twoPi))
  if Fl.ble (.fin 0) mod then mod else A.add mod (.fin twoPi)

/-- The parts of `Config` (`fw/motor_position.h` 113-169) and `BldcServoMotor`
(`fw/bldc_servo_structs.h` 381-396) that the update uses. -/
structure PosConfig where
  sources : Fin 3 → SourceConfig
  /-- `sources[i].reference == kRotor` -/
  rotor : Fin 3 → Bool
  /-- `commutation_source` -/
  comm : Fin 3
  /-- `output.source` -/
  out : Fin 3
  /-- `output.reference_source`, if not negative -/
  ref : Option (Fin 3)
  /-- `output.offset` -/
  offset : Fl
  /-- `output.sign == 1` -/
  forward : Bool
  /-- `rotor_to_output_ratio` -/
  ratio : Fl
  poles : ℕ
  /-- `motor.offset`, 64 entries -/
  phase : ℕ → Fl

/-- The configuration as `Fw/Position.lean` uses it. -/
def PosConfig.output (c : PosConfig) : OutputConfig where
  cpr := (c.sources c.out).cpr
  rotor := c.rotor c.out
  offset := c.offset
  forward := c.forward
  ratio := c.ratio
  reference := c.ref.map fun i => (c.sources i).cpr

/-- `commutation_pole_scale_` (`fw/motor_position.h` 573) -/
def PosConfig.poleScale (A : Ar) (c : PosConfig) : Fl :=
  A.mul (A.mul (A.lit c.poles) (.fin (1 / 2))) (.fin twoPi)

/-- `commutation_rotor_scale_` (`fw/motor_position.h` 575-578) -/
def PosConfig.rotorScale (c : PosConfig) : Fl := if c.rotor c.comm then .fin 1 else c.ratio

/-- `Status::Error` (`fw/motor_position.h` 194-202) -/
inductive PosError
  | none | motorNotConfigured | invalidConfig | sourceError | discontinuousOffset
deriving DecidableEq

/-- `Status` (`fw/motor_position.h` 193-296). -/
structure PosStatus where
  error : PosError
  sources : Fin 3 → SourceStatus
  out : OutputStatus
  /-- `electrical_theta` -/
  theta : Fl

/-- After a configuration change without an error. -/
def PosStatus.init : PosStatus := ⟨.none, fun _ => .init, .init, .fin 0⟩

/-- The angle for a filtered value of the source (`fw/motor_position.h` 664-671). -/
def angle (A : Ar) (c : PosConfig) (filtered : Fl) : Fl :=
  let ratio := A.div filtered (A.lit (c.sources c.comm).cpr)
  wrapZeroToTwoPi A (A.add (A.div (A.mul ratio (c.poleScale A)) c.rotorScale)
    (lerp A c.phase 64 (.fin 1) ratio))

/-- `ISR_UpdateCommutation` (`fw/motor_position.h` 659-673). -/
def updateCommutation (A : Ar) (c : PosConfig) (s : PosStatus) : PosStatus :=
  if (s.sources c.comm).activeTheta then
    { s with
      theta := angle A c (s.sources c.comm).filtered
      out := { s.out with thetaValid := true } }
  else s

/-- The status of the reference source (not used without one). -/
def PosStatus.reference (c : PosConfig) (s : PosStatus) : SourceStatus :=
  match c.ref with
  | some i => s.sources i
  | none => .init

/-- `ISR_UpdateState` (`fw/motor_position.h` 652-657). -/
def updateState (A : Ar) (c : PosConfig) (s : PosStatus) : PosStatus :=
  if s.error ≠ .none then s
  else
    let s := updateCommutation A c s
    { s with out := updateOutput A c.output (s.sources c.out) (s.reference c) s.out }

/-- The modulo after an index pulse (`fw/motor_position.h` 912-922). -/
def indexed (A : Ar) (c : PosConfig) (i : Fin 3) (st : SourceStep) (o : OutputStatus) : OutputStatus :=
  match st.indexed with
  | some old => if i = c.out then indexAdjust A c.output old st.status.offsetValue o else o
  | none => o

/-- One pass of the loop in `ISR_UpdateSources` (`fw/motor_position.h` 786-1029). -/
def updateOne (A : Ar) (c : PosConfig) (dt : Fl) (r : Fin 3 → Reading) (s : PosStatus) (i : Fin 3) :
    Option PosStatus :=
  (updateSource A (c.sources i) c.poles dt (r i) (s.sources i)).map fun st =>
    { s with
      sources := Function.update s.sources i st.status
      error := if st.failed then .sourceError else s.error
      out := indexed A c i st s.out }

/-- `ISR_Update` (`fw/motor_position.h` 328-335). -/
def isrUpdate (A : Ar) (c : PosConfig) (dt : Fl) (r : Fin 3 → Reading) (s : PosStatus) :
    Option PosStatus :=
  ([0, 1, 2].foldlM (updateOne A c dt r) s).map (updateState A c)

/-- What the control interrupt does with the position module. -/
inductive PosOp
  /-- one control cycle, with what the ports report -/
  | update (r : Fin 3 → Reading)
  /-- `ISR_SetOutputPosition` -/
  | setExact (value : Fl)
  /-- `ISR_SetOutputPositionNearest` -/
  | setNearest (value : Fl)
  /-- `ISR_RequireReindex` -/
  | reindex

/-- One operation (`fw/motor_position.h` 328-377). -/
def PosOp.apply (A : Ar) (c : PosConfig) (dt : Fl) (s : PosStatus) : PosOp → Option PosStatus
  | .update r => isrUpdate A c dt r s
  | .setExact v => some { s with out := Fw.setExact v s.out }
  | .setNearest v =>
    some { s with out := Fw.setNearest A c.output (s.sources c.out) (s.reference c) v s.out }
  | .reindex => some { s with
      sources := fun i => { s.sources i with activeTheta := false }
      out := requireReindex s.out }

/-- A list of operations since the last configuration change. -/
def runPos (A : Ar) (c : PosConfig) (dt : Fl) (s : PosStatus) (ops : List PosOp) : Option PosStatus :=
  ops.foldlM (PosOp.apply A c dt) s

/-! ## Specification -/

namespace Spec

/-- The angle is reported as valid exactly if the source of commutation has one. -/
def ValidWhenActive (c : PosConfig) (s : PosStatus) : Prop :=
  s.out.thetaValid = (s.sources c.comm).activeTheta

end Spec

open Spec

/-! ## The update of one source -/

section

variable {A : Ar}

/-- A source of type `index` never has a velocity. -/
def Plain (c : SourceConfig) (s : SourceStatus) : Prop :=
  c.type = .index → c.debugOverride < 0 → s.activeVelocity = false

theorem track_active (c : SourceConfig) (old s : SourceStatus) :
    (track A c old s).activeTheta = s.activeTheta ∧
    (track A c old s).activeVelocity = s.activeVelocity := by
  unfold track
  by_cases h1 : old.activeVelocity = false ∧ s.activeVelocity = true
  · simp only [if_pos h1, and_self]
  · by_cases h2 : old.activeTheta = false ∧ s.activeTheta = true
    · simp only [if_neg h1, if_pos h2, and_self]
    · by_cases h3 : Fl.beq c.pllHz (.fin 0) = false
      · simp only [if_neg h1, if_neg h2, if_pos h3, and_self]
      · simp only [if_neg h1, if_neg h2, if_neg h3, and_self]

/-- After `settle` the source has what was acquired, or (after the timeout) nothing. -/
theorem settle_active (c : SourceConfig) (dt : Fl) (old : SourceStatus) (a : Acquired) :
    ((settle A c dt old a).activeTheta = a.status.activeTheta ∧
      (settle A c dt old a).activeVelocity = a.status.activeVelocity) ∨
    ((settle A c dt old a).activeTheta = false ∧ (settle A c dt old a).activeVelocity = false) := by
  unfold settle
  by_cases h1 : a.status.activeTheta = false ∧ a.status.activeVelocity = false
  · simp only [if_pos h1]
    exact Or.inl ⟨trivial, trivial⟩
  · simp only [if_neg h1]
    by_cases h2 : a.updated = true
    · left
      simp only [if_pos h2]
      exact track_active c old _
    · by_cases h3 : Fl.blt c.timeout (A.add a.status.sinceUpdate dt) = true
      · right
        simp only [if_neg h2, if_pos h3, and_self]
      · left
        simp only [if_neg h2, if_neg h3, and_self]

theorem updateAbsolute_active (nonce value : ℕ) (offset sign : ℤ) (cpr : ℕ) (s : SourceStatus) :
    (updateAbsolute nonce value offset sign cpr s).1.activeTheta = false → s.activeTheta = false := by
  unfold updateAbsolute
  by_cases h : nonce = s.nonce
  · simp only [if_pos h, imp_self]
  · simp only [if_neg h, reduceCtorEq, false_implies]

theorem acquire_active {c : SourceConfig} {poles : ℕ} {r : Reading} {s : SourceStatus} {a : Acquired}
    (ha : acquire c poles r s = some a) (hp : c.type = .index → s.activeVelocity = false) :
    (c.type = .index → a.status.activeVelocity = false) ∧
    (a.status.activeTheta = false → s.activeTheta = true → a.status.activeVelocity = false) := by
  have same : ∀ b : Acquired, b.status = s → (c.type = .index → b.status.activeVelocity = false) ∧
      (b.status.activeTheta = false → s.activeTheta = true → b.status.activeVelocity = false) := by
    intro b e
    rw [e]
    exact ⟨hp, fun h1 h2 => by rw [h1] at h2; cases h2⟩
  unfold acquire at ha
  have abs : ∀ (nonce value : ℕ) (offset sign : ℤ) (cpr : ℕ) (s' : SourceStatus) (b : Bool),
      s'.activeTheta = s.activeTheta → c.type ≠ .index →
      a = ⟨{ (updateAbsolute nonce value offset sign cpr s').1 with activeAbsolute := b },
        (updateAbsolute nonce value offset sign cpr s').2, false⟩ →
      (c.type = .index → a.status.activeVelocity = false) ∧
      (a.status.activeTheta = false → s.activeTheta = true → a.status.activeVelocity = false) := by
    intro nonce value offset sign cpr s' b h1 h2 h3
    subst h3
    refine ⟨fun h => absurd h h2, fun h4 h5 => ?_⟩
    have := updateAbsolute_active _ _ _ _ _ _ h4
    rw [h1, h5] at this
    cases this
  by_cases hr : r.active = true
  · cases ht : c.type <;> rw [ht] at abs <;>
      simp only [ht, hr, Bool.not_true, Bool.false_eq_true, if_false, Option.some.injEq,
        reduceCtorEq] at ha
    · exact abs _ _ _ _ _ { s with raw := r.value } _ rfl (by simp) ha.symm
    · exact abs _ _ _ _ _ { s with raw := r.value } _ rfl (by simp) ha.symm
    · refine ⟨fun h => (by cases h), fun h1 h2 => ?_⟩
      rw [if_neg (by rw [h2]; simp)] at ha
      simp only [Option.some.injEq] at ha
      subst ha
      rw [show s.activeTheta = false from h1] at h2
      cases h2
    · exact abs _ _ _ _ _ { s with raw := r.bits } _ rfl (by simp) ha.symm
    · have hv := hp ht
      by_cases hi : r.index = true
      · rw [if_pos hi] at ha
        simp only [Option.some.injEq] at ha
        subst ha
        exact ⟨fun _ => hv, fun _ _ => hv⟩
      · rw [if_neg hi] at ha
        simp only [Option.some.injEq] at ha
        subst ha
        exact ⟨fun _ => hv, fun _ _ => hv⟩
    · exact abs _ _ _ _ _ { s with raw := r.value } _ rfl (by simp) ha.symm
    · exact abs _ _ _ _ _ { s with raw := r.value } _ rfl (by simp) ha.symm
  · cases ht : c.type <;> rw [ht] at same <;>
      simp only [ht, hr, Bool.not_false, if_true, Option.some.injEq, reduceCtorEq] at ha <;>
      exact same a (by rw [← ha])

/-- A source that loses its angle in an update has no velocity either. -/
theorem update_active {c : SourceConfig} {poles : ℕ} {dt : Fl} {r : Reading} {s : SourceStatus}
    {st : SourceStep} (h : updateSource A c poles dt r s = some st) (hp : Plain c s) :
    Plain c st.status ∧
    (st.status.activeTheta = false → s.activeTheta = true → st.status.activeVelocity = false) := by
  unfold updateSource at h
  by_cases h1 : c.type = .none
  · simp only [if_pos h1, Option.some.injEq] at h
    subst h
    exact ⟨hp, fun h2 h3 => by rw [h2] at h3; cases h3⟩
  simp only [if_neg h1] at h
  by_cases h2 : r.error = true
  · simp only [if_pos h2, Option.some.injEq] at h
    subst h
    exact ⟨fun _ _ => rfl, fun _ _ => rfl⟩
  simp only [if_neg h2] at h
  cases ha : acquire c poles r s with
  | none => rw [ha] at h; cases h
  | some a =>
  rw [ha] at h
  simp only [Option.some.injEq] at h
  subst h
  by_cases hd : 0 ≤ c.debugOverride
  · have e : (compensate A c a).status.activeTheta = true ∧
        (compensate A c a).updated = true := by
      unfold compensate
      simp only [if_pos hd, and_self]
    refine ⟨fun _ h => by omega, fun h3 _ => ?_⟩
    rcases settle_active (A := A) c dt s (compensate A c a) with h4 | h4
    · rw [h4.1, e.1] at h3; cases h3
    · exact h4.2
  · have e : (compensate A c a).status.activeTheta = a.status.activeTheta ∧
        (compensate A c a).status.activeVelocity = a.status.activeVelocity := by
      unfold compensate
      simp only [if_neg hd]
      by_cases h4 : c.compEnabled = true
      · simp only [if_pos h4, and_self]
      · simp only [if_neg h4, and_self]
    have key : (c.type = .index → a.status.activeVelocity = false) ∧
        (a.status.activeTheta = false → s.activeTheta = true → a.status.activeVelocity = false) := by
      have hp' : c.type = .index → s.activeVelocity = false := fun h => hp h (by omega)
      exact acquire_active ha hp'
    rcases settle_active (A := A) c dt s (compensate A c a) with h4 | h4
    · rw [e.1, e.2] at h4
      refine ⟨fun h5 h6 => h4.2.trans (key.1 h5), fun h5 h6 => h4.2.trans (key.2 (h4.1 ▸ h5) h6)⟩
    · exact ⟨fun _ _ => h4.2, fun _ _ => h4.2⟩

/-! ## Runs -/

/-- What holds after every operation, if one source serves commutation and output. -/
structure KeptAngle (c : PosConfig) (s : PosStatus) : Prop where
  plain : ∀ i, Plain (c.sources i) (s.sources i)
  valid : s.error = .none → s.out.thetaValid = true → (s.sources c.comm).activeTheta = true

theorem indexed_valid (c : PosConfig) (i : Fin 3) (st : SourceStep) (o : OutputStatus) :
    (indexed A c i st o).thetaValid = o.thetaValid := by
  unfold indexed
  cases st.indexed with
  | none => rfl
  | some old =>
    simp only
    by_cases h : i = c.out
    · rw [if_pos h]; rfl
    · rw [if_neg h]

/-- The loop over the sources: the angle is not touched, the error is kept, and
a source that loses its angle loses its velocity. -/
theorem sources_step {c : PosConfig} {dt : Fl} {r : Fin 3 → Reading} (l : List (Fin 3)) :
    ∀ {s s' : PosStatus}, l.foldlM (updateOne A c dt r) s = some s' →
      (∀ i, Plain (c.sources i) (s.sources i)) →
      (∀ i, Plain (c.sources i) (s'.sources i)) ∧
      s'.out.thetaValid = s.out.thetaValid ∧ s'.theta = s.theta ∧
      (s'.error = .none → s.error = .none) ∧
      (l.Nodup → ∀ i, (s'.sources i).activeTheta = false → (s.sources i).activeTheta = true →
        (s'.sources i).activeVelocity = false) ∧
      (∀ i, i ∉ l → s'.sources i = s.sources i) := by
  induction l with
  | nil =>
    intro s s' h hp
    simp only [List.foldlM, pure, Option.some.injEq] at h
    subst h
    exact ⟨hp, rfl, rfl, id, fun _ i h1 h2 => (by rw [h1] at h2; cases h2), fun _ _ => rfl⟩
  | cons j l ih =>
    intro s s' h hp
    simp only [List.foldlM_cons] at h
    unfold updateOne at h
    cases hu : updateSource A (c.sources j) c.poles dt (r j) (s.sources j) with
    | none => rw [hu] at h; cases h
    | some st =>
    rw [hu] at h
    simp only [Option.map_some, bind, Option.bind] at h
    obtain ⟨u1, u2⟩ := update_active hu (hp j)
    have hp' : ∀ i, Plain (c.sources i) (Function.update s.sources j st.status i) := by
      intro i
      by_cases hi : i = j
      · subst hi; rw [Function.update_self]; exact u1
      · rw [Function.update_of_ne hi]; exact hp i
    obtain ⟨k1, k2, k3, k4, k5, k6⟩ := ih h hp'
    refine ⟨k1, k2.trans (indexed_valid c j st s.out), k3, fun he => ?_, fun hn i h1 h2 => ?_,
      fun i hi => ?_⟩
    · have := k4 he
      simp only at this
      by_cases hf : st.failed = true
      · rw [if_pos hf] at this; cases this
      · rwa [if_neg hf] at this
    · rw [List.nodup_cons] at hn
      by_cases hi : i = j
      · subst hi
        have e := k6 i hn.1
        simp only [Function.update_self] at e
        rw [e] at h1 ⊢
        exact u2 h1 h2
      · refine k5 hn.2 i h1 ?_
        simp only [Function.update_of_ne hi]
        exact h2
    · rw [List.mem_cons, not_or] at hi
      rw [k6 i hi.2]
      simp only [Function.update_of_ne hi.1]

theorem follow_valid (c : OutputConfig) (src : SourceStatus) (o : OutputStatus) :
    (follow A c src o).thetaValid = o.thetaValid := rfl

theorem setNearest_valid (c : OutputConfig) (src ref : SourceStatus) (v : Fl) (o : OutputStatus) :
    (setNearest A c src ref v o).thetaValid = o.thetaValid := by
  unfold setNearest
  split <;> rfl

/-- `ISR_UpdateOutput` clears the validity of the angle exactly if the output
source has neither velocity nor angle. -/
theorem updateOutput_valid (c : OutputConfig) (src ref : SourceStatus) (o : OutputStatus) :
    (updateOutput A c src ref o).thetaValid =
      (o.thetaValid && (src.activeVelocity || src.activeTheta)) := by
  have key : ∀ o : OutputStatus, (reference A c src ref o).thetaValid =
      (o.thetaValid && (src.activeVelocity || src.activeTheta)) := by
    intro o
    unfold reference
    by_cases h : src.activeVelocity = false ∧ src.activeTheta = false
    · rw [if_pos h]; simp [h.1, h.2]
    · rw [if_neg h]
      have h' : (src.activeVelocity || src.activeTheta) = true := by
        cases h1 : src.activeVelocity <;> cases h2 : src.activeTheta <;> simp_all
      rw [h', Bool.and_true]
      simp only
      cases c.reference with
      | none => rfl
      | some cpr =>
        simp only
        split
        · split <;> rfl
        · rfl
  unfold updateOutput
  rw [key]
  split <;> rfl

/-- What one control cycle does to the angle. -/
theorem isrUpdate_angle {c : PosConfig} {dt : Fl} {r : Fin 3 → Reading} {s s' : PosStatus}
    (h : isrUpdate A c dt r s = some s') (hp : ∀ i, Plain (c.sources i) (s.sources i)) :
    (∀ i, Plain (c.sources i) (s'.sources i)) ∧
    (s'.error ≠ .none → s'.theta = s.theta ∧ s'.out.thetaValid = s.out.thetaValid) ∧
    (s'.error = .none →
      s.error = .none ∧
      s'.theta = (if (s'.sources c.comm).activeTheta then angle A c (s'.sources c.comm).filtered
        else s.theta) ∧
      s'.out.thetaValid = ((s.out.thetaValid || (s'.sources c.comm).activeTheta) &&
        ((s'.sources c.out).activeVelocity || (s'.sources c.out).activeTheta)) ∧
      ∀ i, (s'.sources i).activeTheta = false → (s.sources i).activeTheta = true →
        (s'.sources i).activeVelocity = false) := by
  unfold isrUpdate at h
  cases h1 : [0, 1, 2].foldlM (updateOne A c dt r) s with
  | none => rw [h1] at h; cases h
  | some t =>
  rw [h1, Option.map_some, Option.some.injEq] at h
  obtain ⟨k1, k2, k3, k4, k5, -⟩ := sources_step [0, 1, 2] h1 hp
  replace k5 := k5 (by decide)
  unfold updateState at h
  by_cases he : t.error ≠ .none
  · rw [if_pos he] at h
    subst h
    exact ⟨k1, fun _ => ⟨k3, k2⟩, fun h => absurd h he⟩
  · rw [if_neg he] at h
    rw [not_not] at he
    subst h
    unfold updateCommutation
    by_cases ha : (t.sources c.comm).activeTheta = true
    · rw [if_pos ha]
      refine ⟨k1, fun h => absurd he h, fun _ => ⟨k4 he, (if_pos ha).symm, ?_, k5⟩⟩
      simp only [updateOutput_valid, ha, Bool.or_true]
    · rw [if_neg ha]
      refine ⟨k1, fun h => absurd he h, fun _ => ⟨k4 he, k3.trans (if_neg ha).symm, ?_, k5⟩⟩
      simp only [updateOutput_valid, k2, Bool.eq_false_iff.mpr ha, Bool.or_false]

/-- **C68, the value (any state, any sources).** After a control cycle without an
error of the position module, a commutation source that has an angle is the one
that is used: the reported angle is computed from its value of this cycle, and
is reported as valid unless the output source has no data. -/
theorem C68_current {c : PosConfig} {dt : Fl} {r : Fin 3 → Reading} {s s' : PosStatus}
    (h : isrUpdate A c dt r s = some s') (hp : ∀ i, Plain (c.sources i) (s.sources i))
    (he : s'.error = .none) (ha : (s'.sources c.comm).activeTheta = true) :
    s'.theta = angle A c (s'.sources c.comm).filtered ∧
    s'.out.thetaValid = ((s'.sources c.out).activeVelocity || (s'.sources c.out).activeTheta) := by
  obtain ⟨-, k2, k3, -⟩ := (isrUpdate_angle h hp).2.2 he
  rw [ha] at k2 k3
  rw [Bool.or_true, Bool.true_and] at k3
  exact ⟨k2, k3⟩

theorem kept_init (c : PosConfig) : KeptAngle c .init :=
  ⟨fun _ _ _ => rfl, fun _ h => by cases h⟩

theorem kept_apply {c : PosConfig} (hc : c.comm = c.out) {dt : Fl} {s s' : PosStatus} (op : PosOp)
    (hs : KeptAngle c s) (h : op.apply A c dt s = some s') : KeptAngle c s' := by
  cases op with
  | update r =>
    have h' : isrUpdate A c dt r s = some s' := h
    obtain ⟨k1, -, k3⟩ := isrUpdate_angle h' hs.plain
    refine ⟨k1, fun he hv => ?_⟩
    obtain ⟨e0, -, e2, e3⟩ := k3 he
    by_contra hn
    rw [Bool.not_eq_true] at hn
    rw [hn, Bool.or_false, ← hc, hn, Bool.or_false, hv] at e2
    have h4 := (Bool.and_eq_true_iff.mp e2.symm)
    rw [e3 c.comm hn (hs.valid e0 h4.1)] at h4
    cases h4.2
  | setExact v =>
    simp only [PosOp.apply, Option.some.injEq] at h
    subst h
    exact ⟨hs.plain, hs.valid⟩
  | setNearest v =>
    simp only [PosOp.apply, Option.some.injEq] at h
    subst h
    refine ⟨hs.plain, fun he hv => hs.valid he ?_⟩
    simpa only [setNearest_valid] using hv
  | reindex =>
    simp only [PosOp.apply, Option.some.injEq] at h
    subst h
    exact ⟨hs.plain, fun _ hv => by cases hv⟩

theorem kept_run {c : PosConfig} (hc : c.comm = c.out) {dt : Fl} (ops : List PosOp) :
    ∀ {s s' : PosStatus}, KeptAngle c s → runPos A c dt s ops = some s' → KeptAngle c s' := by
  induction ops with
  | nil =>
    intro s s' hs h
    simp only [runPos, List.foldlM, pure, Option.some.injEq] at h
    exact h ▸ hs
  | cons op ops ih =>
    intro s s' hs h
    unfold runPos at h
    rw [List.foldlM_cons] at h
    cases ho : op.apply A c dt s with
    | none => rw [ho] at h; cases h
    | some t =>
      rw [ho] at h
      exact ih (kept_apply hc op hs ho) h

/-- **C68, validity (one source for commutation and output).** In every run of
control cycles, position requests and index requests from a configuration
change on: as long as the position module has no error, the angle is reported
as valid only while the source has an angle, and after a control cycle exactly
then. -/
theorem C68_valid_partial {c : PosConfig} (hc : c.comm = c.out) {dt : Fl} (ops : List PosOp)
    {s : PosStatus} (h : runPos A c dt .init ops = some s) (he : s.error = .none) :
    (s.out.thetaValid = true → (s.sources c.comm).activeTheta = true) ∧
    ∀ (r : Fin 3 → Reading) (s' : PosStatus), isrUpdate A c dt r s = some s' → s'.error = .none →
      ValidWhenActive c s' := by
  have k := kept_run hc ops (kept_init c) h
  refine ⟨k.valid he, fun r s' hu he' => ?_⟩
  have k' : KeptAngle c s' := kept_apply hc (.update r) k hu
  unfold ValidWhenActive
  cases ha : (s'.sources c.comm).activeTheta with
  | true =>
    rw [(C68_current hu k.plain he' ha).2, ← hc, ha, Bool.or_true]
  | false =>
    cases hv : s'.out.thetaValid with
    | false => rfl
    | true => rw [k'.valid he' hv] at ha; cases ha

/-- **C68, index request.** After it the angle is not valid, the position is
only relative, and no source has an angle, in every state; nothing else
changes. -/
theorem C68_reindex (c : PosConfig) (dt : Fl) (s : PosStatus) :
    ∃ t, PosOp.apply A c dt s .reindex = some t ∧ t.out.thetaValid = false ∧ t.out.homed = .relative ∧
      (∀ i, (t.sources i).activeTheta = false) ∧ t.theta = s.theta ∧ t.error = s.error ∧
      (∀ i, { t.sources i with activeTheta := (s.sources i).activeTheta } = s.sources i) ∧
      { t.out with thetaValid := s.out.thetaValid, homed := s.out.homed } = s.out :=
  ⟨_, rfl, rfl, rfl, fun _ => rfl, rfl, rfl, fun _ => rfl, rfl⟩

end

/-! ## Examples and violations -/

/-- Two encoders: the first one for commutation, the second one for the output;
both are given up after 1/16 s. -/
def twoEncoders : PosConfig where
  sources := fun i => if i = 2 then { exampleSource 16384 0 1 (1 / 16) with type := .none }
    else exampleSource 16384 0 1 (1 / 16)
  rotor := fun _ => true
  comm := 0
  out := 1
  ref := none
  offset := .fin 0
  forward := true
  ratio := .fin 1
  poles := 14
  phase := fun _ => .fin 0

/-- One encoder for everything. -/
def oneEncoder : PosConfig := { twoEncoders with out := 0 }

/-- The reading of a working encoder. -/
def reading (value nonce : ℕ) : Reading := ⟨false, true, value, nonce, 0, false⟩

/-- Both encoders answer. -/
def both (v n : ℕ) : PosOp := .update fun _ => reading v n

/-- The second encoder answers, the first one repeats its first answer. -/
def second (v n : ℕ) : PosOp := .update fun i => if i = 0 then reading 100 1 else reading v n

/-- The port of the encoders reports an error. -/
def broken : PosOp := .update fun _ => { reading 100 1 with error := true }

/-- A run with one encoder: the angle is valid, then lost after the timeout. -/
example :
    ∃ s t, runPos .single oneEncoder (.fin (1 / 32)) .init [both 100 1, both 300 2] = some s ∧
      s.error = .none ∧ s.out.thetaValid = true ∧ s.theta = angle .single oneEncoder (.fin 300) ∧
      runPos .single oneEncoder (.fin (1 / 32)) s [second 0 0, second 0 0, second 0 0, second 0 0]
        = some t ∧ t.error = .none ∧ t.out.thetaValid = false := by
  refine ⟨_, _, rfl, ?_, ?_, ?_, rfl, ?_, ?_⟩ <;> decide +kernel

/-- **C68 is violated with two encoders.** The encoder for commutation stops
answering, that of the output works and moves on by a quarter turn, which is
1.75 electrical turns.  The commutation source is given up after its timeout,
but the angle is still reported as valid, with the old value, and there is no
error. -/
theorem C68_frozen_refuted :
    ∃ s t, runPos .single twoEncoders (.fin (1 / 32)) .init [both 100 1] = some s ∧
      runPos .single twoEncoders (.fin (1 / 32)) s
        [second 1100 2, second 2100 3, second 3100 4, second 4196 5] = some t ∧
      (t.sources 0).activeTheta = false ∧ (t.sources 1).filtered = .fin 4196 ∧
      t.error = .none ∧ t.out.thetaValid = true ∧ t.theta = s.theta ∧
      angle .single twoEncoders (.fin 4196) ≠ t.theta := by
  refine ⟨_, _, rfl, rfl, ?_, ?_, ?_, ?_, ?_, ?_⟩ <;> decide +kernel

/-- The controller with this position module. -/
def inOf (s : PosStatus) : In :=
  { okIn with
    thetaValid := s.out.thetaValid
    relativeValid := s.out.relativeValid
    position := s.out.position
    encoderError := decide (s.error ≠ .none) }

/-- **C68 is violated after an error of the encoder port.** The angle keeps its
last value and is still reported as valid; only position control looks at the
error, in current mode the motor is still driven with the old angle. -/
theorem C68_error_refuted :
    ∃ s t, runPos .single oneEncoder (.fin (1 / 32)) .init [both 100 1] = some s ∧
      runPos .single oneEncoder (.fin (1 / 32)) s [broken, broken, broken] = some t ∧
      (t.sources 0).activeTheta = false ∧ t.error = .sourceError ∧
      t.out.thetaValid = true ∧ t.theta = s.theta ∧
      (let u := runWhole Ar.single {} (startUp .current ++ [.cycle (inOf t), .cycle (inOf t)])
       u.mode = .current ∧ u.power = true ∧ u.duty = (100, 110, 120)) ∧
      (runWhole Ar.single {} (startUp .position ++ [.cycle (inOf t)])).mode = .fault := by
  refine ⟨_, _, rfl, rfl, ?_, ?_, ?_, ?_, ?_, ?_⟩
  iterate 4 decide +kernel
  · rw [← runWholeF_eq]; decide +kernel
  · rw [← runWholeF_eq]; decide +kernel

end Verif.Fw
