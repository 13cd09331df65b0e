import Verif.Fw.RegUnits
import Verif.Commands.Props
import Mathlib.Tactic.IntervalCases

/-!
# The registers of a command, and the effect of one access

The documented table for C13 and C44, and the switch of `Write` against it.
-/

namespace Verif.Fw.Registers

open Verif Verif.Float Verif.Multiplex Verif.Multiplex.Spec Verif.Commands Verif.Commands.Spec

/-! ## Specification -/

/-- docs/reference.md:739-1000: the registers that set each parameter of a
command. -/
def regsOf : Field → List Nat
  | .pwmA => [0x010] | .pwmB => [0x011] | .pwmC => [0x012]
  | .phaseA => [0x014] | .phaseB => [0x015] | .phaseC => [0x016]
  | .theta => [0x018] | .voltage => [0x019] | .thetaRate => [0x01e]
  | .dV => [0x01a] | .qV => [0x01b]
  | .iQ => [0x01c] | .iD => [0x01d]
  | .position => [0x020] | .velocity => [0x021]
  | .feedforward => [0x022, 0x042]
  | .kpScale => [0x023, 0x043] | .kdScale => [0x024, 0x044]
  | .maxTorque => [0x025, 0x045]
  | .stopPosition => [0x026]
  | .timeout => [0x027, 0x046]
  | .velocityLimit => [0x028] | .accelLimit => [0x029]
  | .fixedVoltage => [0x02a]
  | .ilimitScale => [0x02b, 0x047]
  | .fixedCurrent => [0x02c]
  | .boundsMin => [0x040] | .boundsMax => [0x041]

/-- The documented unit of each parameter. -/
def unitOf : Field → Kind
  | .pwmA | .pwmB | .pwmC | .theta | .kpScale | .kdScale | .ilimitScale => .pwm
  | .phaseA | .phaseB | .phaseC | .voltage | .dV | .qV | .fixedVoltage => .voltage
  | .thetaRate | .velocity | .velocityLimit => .velocity
  | .iQ | .iD | .fixedCurrent => .current
  | .position | .stopPosition | .boundsMin | .boundsMax => .position
  | .feedforward | .maxTorque => .torque
  | .timeout => .time
  | .accelLimit => .accel

/-- The angles are sent in units of pi. -/
def isAngle : Field → Bool
  | .theta | .thetaRate => true
  | _ => false

/-- docs/reference.md:739-1000: the value of a parameter that is not sent.
For the maximum torque the reference names the "system-wide configured maximum
torque"; there is no such setting, the firmware uses 100 Nm. -/
def defaultOf : Field → Fl
  | .kpScale | .kdScale | .ilimitScale => .fin 1
  | .stopPosition | .velocityLimit | .accelLimit | .fixedVoltage | .fixedCurrent => .nan
  | .maxTorque => .fin 100
  | _ => .fin 0

/-- The write of an access to one of these registers. -/
def writeTo (regs : List Nat) : Access → Option (Res × Bytes)
  | .write reg r b => if reg ∈ regs then some (r, b) else none
  | _ => none

/-- The last write to one of these registers. -/
def lastWrite (regs : List Nat) (l : List Access) : Option (Res × Bytes) :=
  (l.filterMap (writeTo regs)).getLast?

/-- The number that a write to the parameter gives. -/
def decodeTo (f : Field) (p : Res × Bytes) : Fl :=
  if isAngle f then Ar.single.mul (readScale (unitOf f) (.ofBytes p.1 p.2)) kPi
  else readScale (unitOf f) (.ofBytes p.1 p.2)

/-- The parameter after these writes, starting from its default. -/
def paramOf (f : Field) (l : List Access) : Fl :=
  match lastWrite (regsOf f) l with
  | some p => decodeTo f p
  | none => defaultOf f

/-- The bounds are ignored: the last write to 0x02d or 0x048 is not zero. -/
def ignoreOf (l : List Access) : Bool :=
  match lastWrite [0x02d, 0x048] l with
  | some p => readInt (.ofBytes p.1 p.2) != 0
  | none => false

/-- A mode number that the controller takes. -/
def ModeOk (r : Res) (b : Bytes) : Prop := readInt (.ofBytes r b) ≤ 16

/-- No access of the list selects a mode. -/
def NoMode (l : List Access) : Prop := ∀ r b, Access.write 0x000 r b ∈ l → ¬ ModeOk r b

/-- Every UUID mask in the list is the one of this controller. -/
def Addressed (uuid : Bytes) (l : List Access) : Prop :=
  ∀ i < 4, ∀ r b, Access.write (0x154 + i) r b ∈ l → readInt32 (.ofBytes r b) = uuidWord uuid i

/-- What a write does at once, without a command: outputs, clock trim and
position reference. -/
def direct : Access → Option Effect
  | .write 0x05c r b => some (.digitalOut 1 (readInt (.ofBytes r b)))
  | .write 0x05d r b => some (.digitalOut 2 (readInt (.ofBytes r b)))
  | .write 0x071 r b => some (.setTrim (readInt (.ofBytes r b)))
  | .write 0x130 r b => some (.setNearest (readScale .position (.ofBytes r b)))
  | .write 0x131 r b => some (.setExact (readScale .position (.ofBytes r b)))
  | .write 0x132 _ _ => some .requireReindex
  | .write 0x133 _ _ => some .recapture
  | .write reg r b =>
    if 0x076 ≤ reg ∧ reg ≤ 0x07a then some (.pwmOut 1 (reg - 0x076) (readScale .pwm (.ofBytes r b)))
    else if 0x07b ≤ reg ∧ reg ≤ 0x07f then some (.pwmOut 2 (reg - 0x07b) (readScale .pwm (.ofBytes r b)))
    else none
  | _ => none

/-! ## The table of registers -/

def Field.all : List Field :=
  [.pwmA, .pwmB, .pwmC, .phaseA, .phaseB, .phaseC, .theta, .voltage, .thetaRate, .dV, .qV,
   .iD, .iQ, .position, .velocity, .maxTorque, .stopPosition, .feedforward,
   .kpScale, .kdScale, .ilimitScale, .velocityLimit, .accelLimit, .fixedVoltage, .fixedCurrent,
   .timeout, .boundsMin, .boundsMax]

theorem Field.mem_all (f : Field) : f ∈ Field.all := by cases f <;> decide

theorem lookup_mem {α β : Type} [BEq α] [LawfulBEq α] {l : List (α × β)} {a : α} {b : β}
    (h : l.lookup a = some b) : (a, b) ∈ l := by
  induction l with
  | nil => cases h
  | cons x l ih =>
    obtain ⟨x1, x2⟩ := x
    rw [List.lookup_cons] at h
    split at h
    · rename_i e
      injection h with h
      rw [eq_of_beq e, h]
      exact List.mem_cons_self
    · exact List.mem_cons_of_mem _ (ih h)

theorem lookup_none {α β : Type} [BEq α] [LawfulBEq α] {l : List (α × β)} {a : α}
    (h : l.lookup a = none) : ∀ b, (a, b) ∉ l := by
  induction l with
  | nil => intro b; simp
  | cons x l ih =>
    obtain ⟨x1, x2⟩ := x
    rw [List.lookup_cons] at h
    split at h
    · cases h
    · rename_i e
      intro b hb
      rcases List.mem_cons.mp hb with hb | hb
      · injection hb with h1 h2
        rw [h1] at e
        simp at e
      · exact ih h b hb

/-- The switch of `Write` against the documented table. -/
theorem table : ∀ p ∈ writable,
    (∀ f ∈ Field.all, (p.1 ∈ regsOf f ↔
      p.2 = .param f (unitOf f) ∧ isAngle f = false ∨ p.2 = .paramPi f (unitOf f) ∧ isAngle f = true)) ∧
    (p.1 ∈ [0x02d, 0x048] ↔ p.2 = .ignoreBounds) ∧
    (p.1 = 0x000 ↔ p.2 = .mode) := by
  decide +kernel

theorem table_regs : ∀ f ∈ Field.all, ∀ reg ∈ regsOf f, ∃ t ∈ writable, t.1 = reg := by
  decide +kernel

theorem table_params : ∀ p ∈ writable,
    (∀ f ∈ Field.all, ∀ k ∈ ([.current, .torque, .voltage, .temperature, .time, .position, .velocity,
      .accel, .pwm, .power] : List Kind), (p.2 = .param f k → p.1 ∈ regsOf f) ∧
        (p.2 = .paramPi f k → p.1 ∈ regsOf f)) := by
  decide +kernel

theorem target_some {reg : Nat} {t : Target} (h : (reg, t) ∈ writable) : target reg = t := by
  have key : ∀ p ∈ writable, target p.1 = p.2 := by decide +kernel
  exact key _ h

/-- A register outside the table has no effect. -/
theorem target_other {reg : Nat} (h : ∀ t, (reg, t) ∉ writable) :
    (target reg = .readOnly ∨ target reg = .unknown) ∧ (∀ f, reg ∉ regsOf f) ∧
    reg ∉ [0x02d, 0x048] ∧ reg ≠ 0 ∧ (∀ i < 4, reg ≠ 0x154 + i) ∧
    ∀ r b, direct (.write reg r b) = none := by
  have hne : ∀ p ∈ writable, reg ≠ p.1 := fun p hp e => h p.2 (by rw [e]; exact hp)
  refine ⟨?_, ?_, ?_, hne (0x000, .mode) (by decide), ?_, ?_⟩
  · unfold target
    have : writable.lookup reg = none := by
      cases e : writable.lookup reg with
      | none => rfl
      | some t => exact absurd (lookup_mem e) (h t)
    rw [this]
    dsimp only
    by_cases hr : reg ∈ readOnlyRegisters
    · exact .inl (if_pos hr)
    · exact .inr (if_neg hr)
  · intro f hf
    obtain ⟨t, ht, e⟩ := table_regs f f.mem_all reg hf
    exact hne t ht e.symm
  · intro hi
    simp only [List.mem_cons, List.not_mem_nil, or_false] at hi
    rcases hi with rfl | rfl
    · exact hne (0x02d, .ignoreBounds) (by decide) rfl
    · exact hne (0x048, .ignoreBounds) (by decide) rfl
  · intro i hi e
    have : ∀ i < 4, (0x154 + i, Target.mask i) ∈ writable := by decide
    exact hne _ (this i hi) e
  · intro r b
    have hp : ∀ n, 0x076 ≤ n → n ≤ 0x07f → ∃ t, (n, t) ∈ writable := by
      intro n h1 h2
      have key : ∀ i < 10, ∃ t ∈ writable, t.1 = 0x076 + i := by decide
      obtain ⟨t, ht, e⟩ := key (n - 0x076) (by omega)
      refine ⟨t.2, ?_⟩
      rw [show n = t.1 by omega]
      exact ht
    unfold direct
    split
    · rename_i e; injection e with e; exact absurd e (hne (0x05c, .gpio 1) (by decide))
    · rename_i e; injection e with e; exact absurd e (hne (0x05d, .gpio 2) (by decide))
    · rename_i e; injection e with e; exact absurd e (hne (0x071, .trim) (by decide))
    · rename_i e; injection e with e; exact absurd e (hne (0x130, .nearest) (by decide))
    · rename_i e; injection e with e; exact absurd e (hne (0x131, .exact) (by decide))
    · rename_i e; injection e with e; exact absurd e (hne (0x132, .reindex) (by decide))
    · rename_i e; injection e with e; exact absurd e (hne (0x133, .recapture) (by decide))
    · rename_i e
      injection e with e1 e2 e3
      subst e1
      rw [if_neg, if_neg]
      · rintro ⟨h1, h2⟩
        obtain ⟨t, ht⟩ := hp _ (by omega) h2
        exact h t ht
      · rintro ⟨h1, h2⟩
        obtain ⟨t, ht⟩ := hp _ h1 (by omega)
        exact h t ht
    · rfl

/-! ## One access -/

/-- The effect of one access that is addressed to this controller and selects
no mode. -/
structure Step (s s' : St) (a : Access) : Prop where
  keeps : s'.discardAll = false
  log : s'.log = s.log ++ (direct a).toList
  valid : s'.commandValid = s.commandValid
  mode : s'.command.mode = s.command.mode
  val : ∀ f, s'.command.val f = ((writeTo (regsOf f) a).map (decodeTo f)).getD (s.command.val f)
  ignore : s'.command.ignoreBounds =
    ((writeTo [0x02d, 0x048] a).map fun p => readInt (.ofBytes p.1 p.2) != 0).getD s.command.ignoreBounds

theorem writeTo_none {reg : Nat} {regs : List Nat} (h : reg ∉ regs) (r : Res) (b : Bytes) :
    writeTo regs (.write reg r b) = none := if_neg h

theorem writeTo_some {reg : Nat} {regs : List Nat} (h : reg ∈ regs) (r : Res) (b : Bytes) :
    writeTo regs (.write reg r b) = some (r, b) := if_pos h

/-- A write that leaves the command alone. -/
theorem Step.of_call {s s' : St} {reg : Nat} {t : Target} (hm : (reg, t) ∈ writable)
    (hp : ∀ f k, t ≠ .param f k ∧ t ≠ .paramPi f k) (hi : t ≠ .ignoreBounds) (r : Res) (b : Bytes)
    (h1 : s'.discardAll = false) (h2 : s'.log = s.log ++ (direct (.write reg r b)).toList)
    (h3 : s'.commandValid = s.commandValid) (h4 : s'.command = s.command) :
    Step s s' (.write reg r b) := by
  have tb := table _ hm
  refine ⟨h1, h2, h3, by rw [h4], ?_, ?_⟩
  · intro f
    rw [writeTo_none, h4]; · rfl
    intro h
    rcases (tb.1 f f.mem_all).mp h with h | h
    · exact (hp _ _).1 h.1
    · exact (hp _ _).2 h.1
  · rw [writeTo_none, h4]; · rfl
    intro h
    exact hi (tb.2.1.mp h)

theorem Step.of_param {s : St} {reg : Nat} {f : Field} {k : Kind} {x : Fl} {r : Res} {b : Bytes}
    {t : Target} (hm : (reg, t) ∈ writable) (ht : t = .param f k ∨ t = .paramPi f k)
    (hd : s.discardAll = false) (hdir : direct (.write reg r b) = none)
    (hx : x = decodeTo f (r, b)) :
    Step s { s with command := s.command.set f x } (.write reg r b) := by
  have tb := table _ hm
  have hf : reg ∈ regsOf f := by
    have hk : k ∈ ([.current, .torque, .voltage, .temperature, .time, .position, .velocity,
      .accel, .pwm, .power] : List Kind) := by cases k <;> decide
    rcases ht with ht | ht
    · exact ((table_params _ hm f f.mem_all k hk).1 ht)
    · exact ((table_params _ hm f f.mem_all k hk).2 ht)
  refine ⟨hd, by rw [hdir]; simp, rfl, rfl, ?_, ?_⟩
  · intro g
    show (if g = f then x else s.command.val g) = _
    by_cases hg : g = f
    · rw [if_pos hg, hg, writeTo_some hf]
      exact hx
    · rw [if_neg hg, writeTo_none]
      · rfl
      intro h
      rcases (tb.1 g g.mem_all).mp h with h | h <;> rcases ht with ht | ht <;> rw [ht] at h <;>
        first | (injection h.1 with e; exact hg e.symm) | cases h.1
  · rw [writeTo_none]; · rfl
    intro h
    have := tb.2.1.mp h
    rcases ht with ht | ht <;> rw [ht] at this <;> cases this

theorem direct_table : ∀ p ∈ writable, ∀ f ∈ Field.all, ∀ k ∈ ([.current, .torque, .voltage, .temperature,
    .time, .position, .velocity, .accel, .pwm, .power] : List Kind),
    (p.2 = .param f k ∨ p.2 = .paramPi f k) → k = unitOf f ∧ (isAngle f ↔ p.2 = .paramPi f k) := by
  decide +kernel

/-- The same by the cases of the switch. -/
def directOf : Target → Value → Option Effect
  | .gpio port, v => some (.digitalOut port (readInt v))
  | .trim, v => some (.setTrim (readInt v))
  | .auxPwm port pin, v => some (.pwmOut port pin (readScale .pwm v))
  | .nearest, v => some (.setNearest (readScale .position v))
  | .exact, v => some (.setExact (readScale .position v))
  | .reindex, _ => some .requireReindex
  | .recapture, _ => some .recapture
  | _, _ => none

theorem direct_eq {reg : Nat} {t : Target} (hm : (reg, t) ∈ writable) (r : Res) (b : Bytes) :
    direct (.write reg r b) = directOf t (.ofBytes r b) := by
  have key : ∀ p ∈ writable, direct (.write p.1 r b) = directOf p.2 (.ofBytes r b) := by
    unfold writable
    simp only [List.forall_mem_cons]
    repeat refine ⟨rfl, ?_⟩
    simp
  exact key _ hm

theorem mask_table : ∀ p ∈ writable, ∀ i < 4, p.2 = .mask i → p.1 = 0x154 + i := by decide +kernel
def Target.inRange : Target → Bool
  | .mask i => decide (i < 4)
  | .readOnly | .unknown => false
  | _ => true

theorem mask_range : ∀ p ∈ writable, p.2.inRange = true := by decide +kernel

theorem access_step (env : Env) (s : St) (a : Access) (hd : s.discardAll = false)
    (ha : Addressed env.uuid [a]) (hn : NoMode [a]) : Step s (access env s a).1 a := by
  have nil : ∀ s' : St, s' = s → (∀ regs, writeTo regs a = none) → direct a = none → Step s s' a := by
    intro s' e h1 h2
    subst e
    exact ⟨hd, by rw [h2]; simp, rfl, rfl, fun f => by rw [h1]; rfl, by rw [h1]; rfl⟩
  cases a with
  | read reg r =>
    apply nil _ _ (fun _ => rfl) rfl
    show (match Registers.read env.uuid (env.board s.log) s reg r with
      | .ok v => (s, [Reply.value reg v])
      | .error e => (s, [Reply.readError reg e])).1 = s
    cases Registers.read env.uuid (env.board s.log) s reg r <;> rfl
  | reply reg r b => exact nil _ rfl (fun _ => rfl) rfl
  | error => exact nil _ rfl (fun _ => rfl) rfl
  | write reg r b =>
    have hacc : (access env s (.write reg r b)).1 = (write env.uuid s reg (.ofBytes r b)).1 := rfl
    rw [hacc]
    unfold write
    rw [if_neg (by rw [hd]; exact Bool.false_ne_true)]
    by_cases hm : ∃ t, (reg, t) ∈ writable
    · obtain ⟨t, hm⟩ := hm
      have hk : ∀ k : Kind, k ∈ ([.current, .torque, .voltage, .temperature, .time, .position, .velocity,
        .accel, .pwm, .power] : List Kind) := by intro k; cases k <;> decide
      have hdir := direct_eq hm r b
      rw [target_some hm]
      cases t with
      | mode =>
        have e : reg = 0 := (table _ hm).2.2.mpr rfl
        subst e
        have := hn r b List.mem_cons_self
        unfold ModeOk at this
        dsimp only
        rw [if_pos (by omega)]
        exact Step.of_call hm (by simp) (by simp) r b hd (by simp [direct]) rfl rfl
      | param f k =>
        have h1 := direct_table _ hm f f.mem_all k (hk k) (.inl rfl)
        refine Step.of_param hm (.inl rfl) hd hdir ?_
        have h2 : isAngle f = false := by
          cases e : isAngle f with
          | false => rfl
          | true => have := h1.2.mp e; cases this
        unfold decodeTo
        rw [h2, ← h1.1]; rfl
      | paramPi f k =>
        have h1 := direct_table _ hm f f.mem_all k (hk k) (.inr rfl)
        refine Step.of_param hm (.inr rfl) hd hdir ?_
        unfold decodeTo
        rw [h1.2.mpr rfl, ← h1.1]; rfl
      | ignoreBounds =>
        have tb := table _ hm
        refine ⟨hd, by rw [hdir]; simp [directOf], rfl, rfl, ?_, ?_⟩
        · intro f
          rw [writeTo_none]; · rfl
          intro h
          rcases (tb.1 f f.mem_all).mp h with h | h <;> cases h.1
        · rw [writeTo_some (tb.2.1.mpr rfl)]; rfl
      | mask i =>
        have hi : i < 4 := of_decide_eq_true (mask_range _ hm)
        have e := mask_table _ hm i hi rfl
        have := ha i hi r b (by rw [← e]; exact List.mem_cons_self)
        dsimp only
        rw [if_neg (by rw [this]; simp)]
        exact Step.of_call hm (by simp) (by simp) r b hd (by rw [hdir]; simp [directOf]) rfl rfl
      | readOnly => exact absurd (mask_range _ hm) Bool.false_ne_true
      | unknown => exact absurd (mask_range _ hm) Bool.false_ne_true
      | _ => exact Step.of_call hm (by simp) (by simp) r b hd (by rw [hdir]; rfl) rfl rfl
    · have ho := target_other (fun t ht => hm ⟨t, ht⟩)
      have e : ∀ regs, reg ∉ regs → writeTo regs (.write reg r b) = none := fun _ h => if_neg h
      have fin : Step s s (.write reg r b) :=
        ⟨hd, by rw [ho.2.2.2.2.2]; simp, rfl, rfl, fun f => by rw [e _ (ho.2.1 f)]; rfl,
          by rw [e _ ho.2.2.1]; rfl⟩
      rcases ho.1 with h | h <;> rw [h] <;> exact fin

end Verif.Fw.Registers
