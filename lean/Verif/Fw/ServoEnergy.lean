import Verif.Fw.ServoLatch

/-!
# When the motor is driven

Property C31, and the transition table of a control cycle on which C32 rests.
-/

namespace Verif.Fw

open Verif.Float

variable {A : Ar}

/-- The modes in which the motor is driven. -/
def Mode.active : Mode → Bool
  | .pwm | .voltage | .voltageFoc | .voltageDq | .current | .position | .positionTimeout
  | .zeroVelocity | .stayWithinBounds | .measureInductance | .brake => true
  | _ => false

/-- The modes from which a driven mode may be entered. -/
def Mode.ready : Mode → Bool
  | .calibrationComplete | .pwm | .voltage | .voltageFoc | .voltageDq | .current | .position
  | .zeroVelocity | .stayWithinBounds | .measureInductance | .brake => true
  | _ => false

/-- Everything but the mode, the code, the times, the cooldown and the command. -/
structure Same (s s' : St) : Prop where
  duty : s'.duty = s.duty
  power : s'.power = s.power
  drv : s'.drv = s.drv
  pin : s'.pin = s.pin
  written : s'.written = s.written
  count : s'.count = s.count
  sum1 : s'.sum1 = s.sum1
  sum2 : s'.sum2 = s.sum2
  sum3 : s'.sum3 = s.sum3
  offset1 : s'.offset1 = s.offset1
  offset2 : s'.offset2 = s.offset2
  offset3 : s'.offset3 = s.offset3
  epoch : s'.epoch = s.epoch
  todo : s'.todo = s.todo

/-- Close a goal `Same s s'` field by field. -/
macro "same" : term => `(by constructor <;> rfl)

theorem Same.refl (s : St) : Same s s := same

theorem Same.trans {a b c : St} (h : Same a b) (k : Same b c) : Same a c :=
  ⟨k.duty.trans h.duty, k.power.trans h.power, k.drv.trans h.drv, k.pin.trans h.pin,
   k.written.trans h.written, k.count.trans h.count, k.sum1.trans h.sum1, k.sum2.trans h.sum2,
   k.sum3.trans h.sum3, k.offset1.trans h.offset1, k.offset2.trans h.offset2,
   k.offset3.trans h.offset3, k.epoch.trans h.epoch, k.todo.trans h.todo⟩

theorem Same.put (s : St) (m : Mode) (c : Code) (t u : Fl) : Same s (s.put m c t u) :=
  same

theorem Same.fail (s : St) (c : Code) : Same s (s.fail c) := same

/-- `ISR_MaybeChangeMode`: it fails an assertion, starts the enable sequence from
stopped mode, or changes the mode only. -/
theorem changeMode_cases (i : In) (s : St) (hh : s.halted = false) :
    (changeMode i s).halted = true ∧ (changeMode i s).mode = s.mode ∧
      (changeMode i s).cooldown = s.cooldown ∧ Same s (changeMode i s) ∨
    s.mode = .stopped ∧ changeMode i s = startCalibrating i s ∧ s.cur.mode.active = true ∨
    (changeMode i s).halted = false ∧ (changeMode i s).cooldown = s.cooldown ∧
      Same s (changeMode i s) ∧
      ((changeMode i s).mode = s.mode ∨
       (changeMode i s).mode = .stopped ∧ s.cur.mode = .stopped ∨
       s.mode.ready = true ∧
         ((changeMode i s).mode = .fault ∨
          (changeMode i s).mode = s.cur.mode ∧ s.cur.mode.active = true)) := by
  have ha : ∀ m : Mode, m = s.cur.mode → m.active = true →
      (activate m i s).halted = true ∧ (activate m i s).mode = s.mode ∧
        (activate m i s).cooldown = s.cooldown ∧ Same s (activate m i s) ∨
      s.mode = .stopped ∧ activate m i s = startCalibrating i s ∧ s.cur.mode.active = true ∨
      (activate m i s).halted = false ∧ (activate m i s).cooldown = s.cooldown ∧
        Same s (activate m i s) ∧
        ((activate m i s).mode = s.mode ∨
         (activate m i s).mode = .stopped ∧ s.cur.mode = .stopped ∨
         s.mode.ready = true ∧
           ((activate m i s).mode = .fault ∨
            (activate m i s).mode = s.cur.mode ∧ s.cur.mode.active = true)) := by
    intro m hm hma
    have hen : (enterMode m i s).halted = false ∧ (enterMode m i s).cooldown = s.cooldown ∧
        Same s (enterMode m i s) ∧
        ((enterMode m i s).mode = .fault ∨ (enterMode m i s).mode = s.cur.mode) := by
      unfold enterMode
      split
      · exact ⟨hh, rfl, same, .inl rfl⟩
      · exact ⟨hh, rfl, same, .inr hm⟩
    obtain ⟨e1, e2, e3, e4⟩ := hen
    have hca : s.cur.mode.active = true := by rw [← hm]; exact hma
    have key : s.mode.ready = true →
        (enterMode m i s).halted = false ∧ (enterMode m i s).cooldown = s.cooldown ∧
        Same s (enterMode m i s) ∧
        ((enterMode m i s).mode = s.mode ∨
         (enterMode m i s).mode = .stopped ∧ s.cur.mode = .stopped ∨
         s.mode.ready = true ∧
           ((enterMode m i s).mode = .fault ∨
            (enterMode m i s).mode = s.cur.mode ∧ s.cur.mode.active = true)) := by
      intro h
      refine ⟨e1, e2, e3, .inr (.inr ⟨h, ?_⟩)⟩
      rcases e4 with e4 | e4
      · exact .inl e4
      · exact .inr ⟨e4, hca⟩
    have keep : activate m i s = s →
        (activate m i s).halted = false ∧ (activate m i s).cooldown = s.cooldown ∧
        Same s (activate m i s) ∧
        ((activate m i s).mode = s.mode ∨
         (activate m i s).mode = .stopped ∧ s.cur.mode = .stopped ∨
         s.mode.ready = true ∧
           ((activate m i s).mode = .fault ∨
            (activate m i s).mode = s.cur.mode ∧ s.cur.mode.active = true)) := by
      intro h
      rw [h]
      exact ⟨hh, rfl, same, .inl rfl⟩
    cases hmm : s.mode
    case stopped =>
      exact .inr (.inl ⟨rfl, by unfold activate; rw [hmm], hca⟩)
    case numModes =>
      have e : activate m i s = { s with halted := true } := by unfold activate; rw [hmm]
      rw [e]
      exact .inl ⟨rfl, hmm, rfl, same⟩
    case fault | enabling | calibrating | positionTimeout | bad =>
      have := keep (by unfold activate; rw [hmm])
      rw [hmm] at this
      exact .inr (.inr this)
    all_goals
      have e : activate m i s = enterMode m i s := by unfold activate; rw [hmm]
      rw [e]
      have := key (by rw [hmm]; rfl)
      rw [hmm] at this
      exact .inr (.inr this)
  by_cases hsame : s.cur.mode = s.mode
  · have e : changeMode i s = s := by unfold changeMode; rw [if_pos hsame]
    rw [e]
    exact .inr (.inr ⟨hh, rfl, same, .inl rfl⟩)
  · cases hc : s.cur.mode
    case stopped =>
      have e : changeMode i s = { s with mode := .stopped } := by
        unfold changeMode; rw [if_neg hsame, hc]
      rw [e]
      exact .inr (.inr ⟨hh, rfl, same, .inr (.inl ⟨rfl, rfl⟩)⟩)
    case fault | calibrating | calibrationComplete | numModes =>
      have e : changeMode i s = { s with halted := true } := by
        unfold changeMode; rw [if_neg hsame, hc]
      rw [e]
      exact .inl ⟨rfl, rfl, rfl, same⟩
    case enabling | bad =>
      have e : changeMode i s = s := by unfold changeMode; rw [if_neg hsame, hc]
      rw [e]
      exact .inr (.inr ⟨hh, rfl, same, .inl rfl⟩)
    all_goals
      have e : changeMode i s = activate s.cur.mode i s := by
        unfold changeMode; rw [if_neg hsame, hc]
      have := ha _ hc.symm rfl
      rw [e]
      rw [hc] at this ⊢
      exact this

theorem persistent_cases (i : In) (s : St) :
    Same s (persistent i s) ∧ (persistent i s).halted = s.halted ∧
    (persistent i s).cooldown = s.cooldown ∧ (persistent i s).timeout = s.timeout ∧
    (persistent i s).cur = s.cur ∧
    ((persistent i s).mode = s.mode ∧ (persistent i s).code = s.code ∨
     (persistent i s).mode = .fault ∧ s.mode ≠ .stopped ∧ s.mode ≠ .fault) := by
  unfold persistent
  split
  · exact ⟨Same.refl s, rfl, rfl, rfl, rfl, .inl ⟨rfl, rfl⟩⟩
  · rename_i h
    rw [not_or] at h
    have step : ∀ (b : Bool) (c : Code) (s' : St),
        (Same s s' ∧ s'.halted = s.halted ∧ s'.cooldown = s.cooldown ∧ s'.timeout = s.timeout ∧
          s'.cur = s.cur ∧
          (s'.mode = s.mode ∧ s'.code = s.code ∨
            s'.mode = .fault ∧ s.mode ≠ .stopped ∧ s.mode ≠ .fault)) →
        (Same s (if b then s'.fail c else s') ∧ (if b then s'.fail c else s').halted = s.halted ∧
          (if b then s'.fail c else s').cooldown = s.cooldown ∧
          (if b then s'.fail c else s').timeout = s.timeout ∧
          (if b then s'.fail c else s').cur = s.cur ∧
          ((if b then s'.fail c else s').mode = s.mode ∧ (if b then s'.fail c else s').code = s.code ∨
            (if b then s'.fail c else s').mode = .fault ∧ s.mode ≠ .stopped ∧ s.mode ≠ .fault)) := by
      intro b c s' hs
      cases b
      · exact hs
      · exact ⟨hs.1.trans (Same.fail s' c), hs.2.1, hs.2.2.1, hs.2.2.2.1, hs.2.2.2.2.1, .inr ⟨rfl, h.1, h.2⟩⟩
    exact step _ _ _ (step _ _ _ (step _ _ _ (step _ _ _ (step _ _ _
      ⟨Same.refl s, rfl, rfl, rfl, rfl, .inl ⟨rfl, rfl⟩⟩))))

/-- The stages after `ISR_MaybeChangeMode`. -/
theorem judge_cases (i : In) (s : St) :
    Same s (judge i s) ∧ (judge i s).halted = s.halted ∧
    ((judge i s).cooldown = s.cooldown ∨ (judge i s).mode.active = true) ∧
    ((judge i s).mode = s.mode ∨
     (judge i s).mode = .fault ∧ s.mode ≠ .stopped ∨
     (judge i s).mode = .positionTimeout ∧ s.mode.ready = true) := by
  obtain ⟨p1, p2, p3, p4, p5, p6⟩ := persistent_cases i s
  unfold judge
  generalize persistent i s = s1 at *
  have hw : Same s1 (watchdog s1) ∧ (watchdog s1).halted = s1.halted ∧
      (watchdog s1).cooldown = s1.cooldown ∧
      ((watchdog s1).mode = s1.mode ∨
       (watchdog s1).mode = .positionTimeout ∧ s1.mode.ready = true) := by
    unfold watchdog
    split
    · rename_i h
      refine ⟨same, rfl, rfl, .inr ⟨rfl, ?_⟩⟩
      rcases h.1 with h | h <;> rw [h] <;> rfl
    · exact ⟨same, rfl, rfl, .inl rfl⟩
  obtain ⟨w1, w2, w3, w4⟩ := hw
  generalize watchdog s1 = s2 at *
  have hc : Same s2 (clearCode s2) ∧ (clearCode s2).halted = s2.halted ∧
      (clearCode s2).cooldown = s2.cooldown ∧ (clearCode s2).mode = s2.mode := by
    unfold clearCode
    split <;> exact ⟨same, rfl, rfl, rfl⟩
  obtain ⟨c1, c2, c3, c4⟩ := hc
  generalize clearCode s2 = s3 at *
  have hr : Same s3 (reload i s3) ∧ (reload i s3).halted = s3.halted ∧
      (reload i s3).mode = s3.mode ∧
      ((reload i s3).cooldown = s3.cooldown ∨ s3.mode.active = true) := by
    unfold reload
    split
    · rename_i h
      refine ⟨same, rfl, rfl, .inr ?_⟩
      revert h
      cases s3.mode <;> simp [currentControl, Mode.active]
    · exact ⟨same, rfl, rfl, .inl rfl⟩
  obtain ⟨r1, r2, r3, r4⟩ := hr
  refine ⟨((p1.trans w1).trans c1).trans r1, by rw [r2, c2, w2, p2], ?_, ?_⟩
  · rw [r3]
    rcases r4 with r4 | r4
    · exact .inl (by rw [r4, c3, w3, p3])
    · exact .inr r4
  · rw [r3, c4]
    rcases w4 with w4 | ⟨w4, w5⟩
    · rw [w4]
      rcases p6 with p6 | p6
      · exact .inl p6.1
      · exact .inr (.inl ⟨p6.1, p6.2.1⟩)
    · rcases p6 with p6 | p6
      · exact .inr (.inr ⟨w4, by rw [← p6.1]; exact w5⟩)
      · rw [p6.1] at w5
        simp [Mode.ready] at w5

/-- The cycle up to the dispatch. -/
theorem decide_cases (A : Ar) (i : In) (s : St) (hh : s.halted = false) :
    (decideMode A i s).halted = true ∧ Same s (decideMode A i s) ∧
      ((decideMode A i s).mode = s.mode ∨ (decideMode A i s).mode = .fault) ∨
    s.mode = .stopped ∧ (decideMode A i s).halted = false ∧
      ((decideMode A i s).mode = .enabling ∨ (decideMode A i s).mode = .fault) ∧
      (decideMode A i s).cooldown = s.cooldown ∧ Same (startCalibrating i s) (decideMode A i s) ∨
    (decideMode A i s).halted = false ∧ Same s (decideMode A i s) ∧
      ((decideMode A i s).cooldown = s.cooldown ∨ (decideMode A i s).mode.active = true) ∧
      ((decideMode A i s).mode = s.mode ∨ (decideMode A i s).mode = .fault ∨
       (decideMode A i s).mode = .stopped ∨
       (decideMode A i s).mode.active = true ∧
         s.mode.ready = true) := by
  obtain ⟨m, c, t, u, e, hm⟩ := sense_keeps A i s
  have hmf : m = s.mode ∨ m = .fault := by
    rcases hm with h | h
    · exact .inl h.1
    · exact .inr h.1
  rw [decideMode_eq, e]
  have cc := changeMode_cases i (s.put m c t u) hh
  have jc := judge_cases i (changeMode i (s.put m c t u))
  have sp : Same s (s.put m c t u) := same
  rcases cc with ⟨h1, h2, h3, h4⟩ | ⟨h1, h2, h3⟩ | ⟨h1, h2, h3, h4⟩
  · rw [if_pos h1]
    refine .inl ⟨h1, sp.trans h4, ?_⟩
    rw [h2]
    exact hmf
  · rw [h2] at jc ⊢
    have h0 : (startCalibrating i (s.put m c t u)).halted = false := hh
    rw [if_neg (by rw [h0]; simp)]
    have h1' : m = .stopped := h1
    have hs : s.mode = .stopped := by
      rcases hmf with h | h
      · rw [← h]; exact h1'
      · rw [h1'] at h; cases h
    obtain ⟨j1, j2, j3, j4⟩ := jc
    have hmode : (judge i (startCalibrating i (s.put m c t u))).mode = .enabling ∨
        (judge i (startCalibrating i (s.put m c t u))).mode = .fault := by
      rcases j4 with j4 | j4 | j4
      · exact .inl j4
      · exact .inr j4.1
      · have : (startCalibrating i (s.put m c t u)).mode = .enabling := rfl
        rw [this] at j4
        simp [Mode.ready] at j4
    refine .inr (.inl ⟨hs, by rw [j2]; exact hh, hmode, ?_, ?_⟩)
    · rcases j3 with j3 | j3
      · exact j3
      · rcases hmode with h | h <;> rw [h] at j3 <;> simp [Mode.active] at j3
    · have : Same (startCalibrating i s) (startCalibrating i (s.put m c t u)) := same
      exact this.trans j1
  · rw [if_neg (by rw [h1]; simp)]
    obtain ⟨j1, j2, j3, j4⟩ := jc
    refine .inr (.inr ⟨j2.trans h1, (sp.trans h3).trans j1, ?_, ?_⟩)
    · rcases j3 with j3 | j3
      · exact .inl (j3.trans h2)
      · exact .inr j3
    · generalize changeMode i (s.put m c t u) = s1 at *
      have hact : (s.put m c t u).mode.ready = true → s.mode.ready = true := by
        intro h
        change m.ready = true at h
        rcases hmf with h' | h' <;> rw [h'] at h
        · exact h
        · simp [Mode.ready] at h
      have hs1 : s1.mode = s.mode ∨ s1.mode = .fault ∨ s1.mode = .stopped ∨
          s1.mode.active = true ∧ s.mode.ready = true := by
        rcases h4 with h4 | ⟨h4, -⟩ | ⟨h4, h5 | ⟨h5, h6⟩⟩
        · rw [h4]
          change m = _ ∨ m = _ ∨ _
          rcases hmf with h | h
          · exact .inl h
          · exact .inr (.inl h)
        · exact .inr (.inr (.inl h4))
        · exact .inr (.inl h5)
        · exact .inr (.inr (.inr ⟨by rw [h5]; exact h6, hact h4⟩))
      rcases j4 with j4 | ⟨j4, -⟩ | ⟨j4, j5⟩
      · rw [j4]; exact hs1
      · exact .inr (.inl j4)
      · refine .inr (.inr (.inr ⟨by rw [j4]; rfl, ?_⟩))
        rcases hs1 with h | h | h | h
        · rw [h] at j5; exact j5
        · rw [h] at j5; simp [Mode.ready] at j5
        · rw [h] at j5; simp [Mode.ready] at j5
        · exact h.2

/-- What the dispatch leaves alone in a driven mode. -/
structure Kept (s s' : St) : Prop where
  count : s'.count = s.count
  sum1 : s'.sum1 = s.sum1
  sum2 : s'.sum2 = s.sum2
  sum3 : s'.sum3 = s.sum3
  offset1 : s'.offset1 = s.offset1
  offset2 : s'.offset2 = s.offset2
  offset3 : s'.offset3 = s.offset3
  epoch : s'.epoch = s.epoch
  todo : s'.todo = s.todo
  halted : s'.halted = s.halted

theorem Kept.trans {a b c : St} (h : Kept a b) (k : Kept b c) : Kept a c :=
  ⟨k.count.trans h.count, k.sum1.trans h.sum1, k.sum2.trans h.sum2,
   k.sum3.trans h.sum3, k.offset1.trans h.offset1, k.offset2.trans h.offset2,
   k.offset3.trans h.offset3, k.epoch.trans h.epoch, k.todo.trans h.todo, k.halted.trans h.halted⟩

/-- The gate driver is left alone. -/
def DrvKept (s s' : St) : Prop := s'.drv = s.drv ∧ s'.pin = s.pin ∧ s'.written = s.written

/-- The mode is kept, or one of the faults that the control functions raise occurs. -/
def ModeOr (s s' : St) : Prop :=
  s'.mode = s.mode ∧ s'.code = s.code ∨
  s'.mode = .fault ∧ (s'.code = .motorNotConfigured ∨ s'.code = .thetaInvalid ∨
    s'.code = .configChanged ∨ s'.code = .positionInvalid ∨ s'.code = .encoderFault)

theorem phaseVoltage_drive (i : In) (s : St) :
    Kept s (drive i (phaseVoltage i s)) ∧ DrvKept s (drive i (phaseVoltage i s)) ∧
    ModeOr s (drive i (phaseVoltage i s)) := by
  unfold phaseVoltage
  split
  · exact ⟨same, ⟨rfl, rfl, rfl⟩, .inr ⟨rfl, .inr (.inr (.inl rfl))⟩⟩
  · exact ⟨same, ⟨rfl, rfl, rfl⟩, .inl ⟨rfl, rfl⟩⟩

theorem doCurrent_facts (i : In) (s : St) :
    Kept s (doCurrent i s) ∧ DrvKept s (doCurrent i s) ∧ ModeOr s (doCurrent i s) := by
  unfold doCurrent
  split
  · exact ⟨same, ⟨rfl, rfl, rfl⟩, .inr ⟨rfl, .inl rfl⟩⟩
  split
  · exact ⟨same, ⟨rfl, rfl, rfl⟩, .inr ⟨rfl, .inr (.inl rfl)⟩⟩
  exact phaseVoltage_drive i s

theorem doPosition_facts (fv fc : Bool) (i : In) (s : St) :
    Kept s (doPosition fv fc i s) ∧ DrvKept s (doPosition fv fc i s) ∧
    ModeOr s (doPosition fv fc i s) := by
  unfold doPosition
  split
  · split
    · exact doCurrent_facts i s
    · exact phaseVoltage_drive i s
  split
  · exact ⟨same, ⟨rfl, rfl, rfl⟩, .inr ⟨rfl, .inr (.inr (.inr (.inl rfl)))⟩⟩
  split
  · exact ⟨same, ⟨rfl, rfl, rfl⟩, .inr ⟨rfl, .inr (.inr (.inr (.inr rfl)))⟩⟩
  exact doCurrent_facts i s

/-- `ISR_DoStopped`: the gate driver is left alone or disabled. -/
theorem doStopped_facts (i : In) (s : St) :
    Kept s (doStopped i s) ∧ ModeOr s (doStopped i s) ∧
    (DrvKept s (doStopped i s) ∨ (doStopped i s).drv = .disabled ∧ (doStopped i s).pin = false ∧
      (doStopped i s).written = false) ∧
    (s.cooldown = 0 → (doStopped i s).duty = (0, 0, 0) ∧ (doStopped i s).power = false ∧
      (doStopped i s).mode = s.mode ∧ (doStopped i s).code = s.code) := by
  unfold doStopped
  split
  · rename_i h
    obtain ⟨h1, h2, h3⟩ := doCurrent_facts i { s with cooldown := s.cooldown - 1 }
    exact ⟨⟨h1.1, h1.2, h1.3, h1.4, h1.5, h1.6, h1.7, h1.8, h1.9, h1.10⟩, h3, .inl h2,
      fun h' => absurd h' h⟩
  · exact ⟨same, .inl ⟨rfl, rfl⟩, .inr ⟨rfl, rfl, rfl⟩, fun _ => ⟨rfl, rfl, rfl, rfl⟩⟩

theorem dispatch_active (i : In) {s : St} (h : s.mode.active = true) :
    Kept s (dispatch i s) ∧ ModeOr s (dispatch i s) ∧
    (DrvKept s (dispatch i s) ∨ s.mode = .positionTimeout ∧ (dispatch i s).drv = .disabled ∧
      (dispatch i s).pin = false ∧ (dispatch i s).written = false) := by
  have ofPos : ∀ fv fc, dispatch i s = doPosition fv fc i s →
      Kept s (dispatch i s) ∧ ModeOr s (dispatch i s) ∧
      (DrvKept s (dispatch i s) ∨ s.mode = .positionTimeout ∧ (dispatch i s).drv = .disabled ∧
        (dispatch i s).pin = false ∧ (dispatch i s).written = false) := by
    intro fv fc e
    rw [e]
    obtain ⟨h1, h2, h3⟩ := doPosition_facts fv fc i s
    exact ⟨h1, h3, .inl h2⟩
  have ofPlain : dispatch i s = drive i s ∨ dispatch i s = doBrake s →
      Kept s (dispatch i s) ∧ ModeOr s (dispatch i s) ∧
      (DrvKept s (dispatch i s) ∨ s.mode = .positionTimeout ∧ (dispatch i s).drv = .disabled ∧
        (dispatch i s).pin = false ∧ (dispatch i s).written = false) := by
    intro e
    rcases e with e | e <;> rw [e] <;>
      exact ⟨same, .inl ⟨rfl, rfl⟩, .inl ⟨rfl, rfl, rfl⟩⟩
  cases hm : s.mode
  case pwm | voltage | voltageFoc =>
    have := ofPlain (.inl (by unfold dispatch; rw [hm]))
    rw [hm] at this; exact this
  case brake =>
    have := ofPlain (.inr (by unfold dispatch; rw [hm]))
    rw [hm] at this; exact this
  case voltageDq | current =>
    have e : dispatch i s = doCurrent i s := by unfold dispatch; rw [hm]
    obtain ⟨h1, h2, h3⟩ := doCurrent_facts i s
    rw [e]
    exact ⟨h1, h3, .inl h2⟩
  case position | stayWithinBounds =>
    have := ofPos _ _ (by unfold dispatch; rw [hm])
    rw [hm] at this; exact this
  case zeroVelocity =>
    have := ofPos _ _ (by unfold dispatch; rw [hm])
    rw [hm] at this; exact this
  case measureInductance =>
    have e : dispatch i s = drive i (phaseVoltage i s) := by unfold dispatch; rw [hm]
    obtain ⟨h1, h2, h3⟩ := phaseVoltage_drive i s
    rw [e]
    exact ⟨h1, h3, .inl h2⟩
  case positionTimeout =>
    have e : dispatch i s = doTimeout i s := by unfold dispatch; rw [hm]
    have hstop : Kept s (doStopped i s) ∧ ModeOr s (doStopped i s) ∧
        (DrvKept s (doStopped i s) ∨ Mode.positionTimeout = .positionTimeout ∧
          (doStopped i s).drv = .disabled ∧ (doStopped i s).pin = false ∧
          (doStopped i s).written = false) := by
      obtain ⟨h1, h2, h3, -⟩ := doStopped_facts i s
      refine ⟨h1, h2, ?_⟩
      rcases h3 with h3 | h3
      · exact .inl h3
      · exact .inr ⟨rfl, h3⟩
    have hpos := doPosition_facts false false i s
    rw [e]
    unfold doTimeout
    split
    · exact hstop
    split
    · exact ⟨hpos.1, hpos.2.2, .inl hpos.2.1⟩
    split
    · exact ⟨hpos.1, hpos.2.2, .inl hpos.2.1⟩
    split
    · exact ⟨same, .inl ⟨rfl, rfl⟩, .inl ⟨rfl, rfl, rfl⟩⟩
    · exact hstop
  all_goals (rw [hm] at h; simp [Mode.active] at h)

theorem cycle_eq (A : Ar) (i : In) {s : St} (h : (cycle A i s).halted = false) :
    s.halted = false ∧ (decideMode A i s).halted = false ∧
    cycle A i s = dispatch i (decideMode A i s) := by
  unfold cycle at h ⊢
  cases h1 : s.halted
  · cases h2 : (decideMode A i s).halted
    · simp [h2]
    · simp [h1, h2] at h
  · simp [h1] at h

theorem doCalibrating_facts (i : In) {s : St} (h : s.mode = .calibrating) :
    (doCalibrating i s).duty = s.duty ∧ (doCalibrating i s).power = s.power ∧
    DrvKept s (doCalibrating i s) ∧ (doCalibrating i s).todo = s.todo ∧
    ((doCalibrating i s).mode = .calibrating ∧ (doCalibrating i s).count = s.count + 1 ∧
        s.count + 1 < 256 ∧ (doCalibrating i s).sum1 = s.sum1 + i.adc1 ∧
        (doCalibrating i s).sum2 = s.sum2 + i.adc2 ∧ (doCalibrating i s).sum3 = s.sum3 + i.adc3 ∨
     (doCalibrating i s).mode = .fault ∧ (doCalibrating i s).code = .calibrationFault ∨
     (doCalibrating i s).mode = .calibrationComplete ∧ 256 ≤ s.count + 1 ∧
       (doCalibrating i s).offset1 = (s.sum1 + i.adc1) / 256 ∧
       (doCalibrating i s).offset2 = (s.sum2 + i.adc2) / 256 ∧
       (doCalibrating i s).offset3 = (s.sum3 + i.adc3) / 256 ∧
       offsetBad ((s.sum1 + i.adc1) / 256) = false ∧ offsetBad ((s.sum2 + i.adc2) / 256) = false ∧
       offsetBad ((s.sum3 + i.adc3) / 256) = false) := by
  unfold doCalibrating
  dsimp only
  split
  · rename_i h'
    exact ⟨rfl, rfl, ⟨rfl, rfl, rfl⟩, rfl, .inl ⟨h, rfl, h', rfl, rfl, rfl⟩⟩
  split
  · exact ⟨rfl, rfl, ⟨rfl, rfl, rfl⟩, rfl, .inr (.inl ⟨rfl, rfl⟩)⟩
  · rename_i h1 h2
    simp only [Bool.or_eq_true, not_or, Bool.not_eq_true] at h2
    exact ⟨rfl, rfl, ⟨rfl, rfl, rfl⟩, rfl,
      .inr (.inr ⟨rfl, by omega, rfl, rfl, rfl, h2.1.1, h2.1.2, h2.2⟩)⟩

/-- The output stage is off. -/
def St.off (s : St) : Prop := s.duty = (0, 0, 0) ∧ s.power = false

/-- **C31.**  From every state, a cycle that ends in fault leaves the output stage
off, with two exceptions: the cycle in which one of the control functions itself
raises the fault, and the cycle that ends an unsuccessful calibration, which
leaves the output stage as it was. -/
theorem C31_fault_cycle_partial (A : Ar) (i : In) (s : St) (hh : (cycle A i s).halted = false)
    (hm : (cycle A i s).mode = .fault) :
    (cycle A i s).off ∨
    (s.mode ≠ .fault ∨ s.cur.mode = .stopped) ∧
      ((cycle A i s).code = .motorNotConfigured ∨ (cycle A i s).code = .thetaInvalid ∨
       (cycle A i s).code = .configChanged ∨ (cycle A i s).code = .positionInvalid ∨
       (cycle A i s).code = .encoderFault) ∨
    s.mode = .calibrating ∧ (cycle A i s).code = .calibrationFault ∧
      (cycle A i s).duty = s.duty ∧ (cycle A i s).power = s.power := by
  have hq : s.mode = .fault ∧ s.cur.mode ≠ .stopped → (cycle A i s).off := by
    intro h
    exact (cycle_fault A i h.1 h.2).2.2.2.2 hh
  by_cases hf : s.mode = .fault ∧ s.cur.mode ≠ .stopped
  · exact .inl (hq hf)
  have hf' : s.mode ≠ .fault ∨ s.cur.mode = .stopped := by
    by_cases h : s.mode = .fault
    · right
      by_contra h'
      exact hf ⟨h, h'⟩
    · exact .inl h
  obtain ⟨h1, h2, e⟩ := cycle_eq A i hh
  have dc := decide_cases A i s h1
  rw [e] at hm ⊢
  generalize decideMode A i s = d at *
  cases hd : d.mode
  case fault =>
    have : dispatch i d = doFault d := by unfold dispatch; rw [hd]
    rw [this]
    exact .inl ⟨rfl, rfl⟩
  case stopped | numModes =>
    have e' : dispatch i d = doStopped i d := by unfold dispatch; rw [hd]
    rw [e'] at hm ⊢
    obtain ⟨-, k2, -⟩ := doStopped_facts i d
    rcases k2 with k2 | k2
    · rw [k2.1, hd] at hm; cases hm
    · exact .inr (.inl ⟨hf', k2.2⟩)
  case enabling | calibrationComplete | bad =>
    have e' : dispatch i d = d := by unfold dispatch; rw [hd]
    rw [e', hd] at hm; cases hm
  case calibrating =>
    have e' : dispatch i d = doCalibrating i d := by unfold dispatch; rw [hd]
    obtain ⟨k1, k2, -, -, k3⟩ := doCalibrating_facts i hd
    have hs : Same s d ∧ s.mode = .calibrating := by
      rcases dc with dc | dc | dc
      · rw [dc.1] at h2; cases h2
      · rw [hd] at dc; simp at dc
      · refine ⟨dc.2.1, ?_⟩
        rcases dc.2.2.2 with h | h | h | h
        · rw [← h]; exact hd
        · rw [hd] at h; cases h
        · rw [hd] at h; cases h
        · rw [hd] at h; simp [Mode.active] at h
    rw [e'] at hm ⊢
    rw [k1, k2, hs.1.duty, hs.1.power]
    rcases k3 with k3 | k3 | k3
    · rw [k3.1] at hm; cases hm
    · exact .inr (.inr ⟨hs.2, k3.2, rfl, rfl⟩)
    · rw [k3.1] at hm; cases hm
  all_goals
    obtain ⟨-, k2, -⟩ := dispatch_active i (s := d) (by rw [hd]; rfl)
    rcases k2 with k2 | k2
    · rw [k2.1, hd] at hm; cases hm
    · exact .inr (.inl ⟨hf', k2.2⟩)

/-- **C31.**  From every state, a cycle that ends in stopped mode leaves the output
stage off unless there are cooldown cycles left. -/
theorem C31_stopped_cycle_partial (A : Ar) (i : In) (s : St) (hh : (cycle A i s).halted = false)
    (hm : (cycle A i s).mode = .stopped) (hc : s.cooldown = 0) : (cycle A i s).off := by
  obtain ⟨h1, h2, e⟩ := cycle_eq A i hh
  have dc := decide_cases A i s h1
  rw [e] at hm ⊢
  generalize decideMode A i s = d at *
  cases hd : d.mode
  case fault =>
    have : dispatch i d = doFault d := by unfold dispatch; rw [hd]
    rw [this]
    exact ⟨rfl, rfl⟩
  case stopped | numModes =>
    have e' : dispatch i d = doStopped i d := by unfold dispatch; rw [hd]
    obtain ⟨-, -, -, k4⟩ := doStopped_facts i d
    have hcd : d.cooldown = 0 := by
      rcases dc with dc | dc | dc
      · rw [dc.1] at h2; cases h2
      · rw [dc.2.2.2.1]; exact hc
      · rcases dc.2.2.1 with h | h
        · rw [h]; exact hc
        · rw [hd] at h; simp [Mode.active] at h
    rw [e']
    exact ⟨(k4 hcd).1, (k4 hcd).2.1⟩
  case enabling | calibrationComplete | bad =>
    have e' : dispatch i d = d := by unfold dispatch; rw [hd]
    rw [e', hd] at hm; cases hm
  case calibrating =>
    have e' : dispatch i d = doCalibrating i d := by unfold dispatch; rw [hd]
    obtain ⟨-, -, -, -, k3⟩ := doCalibrating_facts i hd
    rw [e'] at hm
    rcases k3 with k3 | k3 | k3 <;> (rw [k3.1] at hm; cases hm)
  all_goals
    obtain ⟨-, k2, -⟩ := dispatch_active i (s := d) (by rw [hd]; rfl)
    rcases k2 with k2 | k2
    · rw [k2.1, hd] at hm; cases hm
    · rw [k2.1] at hm; cases hm

/-- **C31.**  A fault that has been reported keeps the output stage off: a cycle that
starts in fault without a stop command ends in fault with the output stage off. -/
theorem C31_fault_stays_off (A : Ar) (i : In) {s : St} (h : s.mode = .fault)
    (hc : s.cur.mode ≠ .stopped) (hh : (cycle A i s).halted = false) :
    (cycle A i s).mode = .fault ∧ (cycle A i s).off :=
  ⟨(cycle_fault A i h hc).1, (cycle_fault A i h hc).2.2.2.2 hh⟩

end Verif.Fw
