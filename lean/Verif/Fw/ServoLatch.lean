import Verif.Fw.ServoRuns

/-!
# A fault latches

Property C30, for every interleaving of the interrupt and the main loop.
-/

namespace Verif.Fw

open Verif.Float

variable {A : Ar}

/-- A cycle in fault mode without a stop command changes neither the mode nor the
code, and turns the output stage off. -/
theorem cycle_fault (A : Ar) (i : In) {s : St} (h : s.mode = .fault) (hc : s.cur.mode ≠ .stopped) :
    (cycle A i s).mode = .fault ∧ (cycle A i s).code = s.code ∧
    (cycle A i s).cur.mode = s.cur.mode ∧ (cycle A i s).todo = s.todo ∧
    ((cycle A i s).halted = false → (cycle A i s).duty = (0, 0, 0) ∧ (cycle A i s).power = false) := by
  obtain ⟨m, c, t, u, e, hm⟩ := sense_keeps A i s
  have hm' : m = .fault ∧ c = s.code := by
    rcases hm with ⟨h1, h2⟩ | ⟨-, -, h3, -⟩
    · exact ⟨h1.trans h, h2⟩
    · exact absurd h h3
  obtain ⟨rfl, rfl⟩ := hm'
  have hj : ∀ s' : St, s'.mode = .fault → judge i s' = s' := by
    intro s' h'
    have h1 : persistent i s' = s' := by unfold persistent; rw [if_pos (.inr h')]
    have h2 : watchdog s' = s' := by unfold watchdog; rw [if_neg (by rw [h']; simp)]
    have h3 : clearCode s' = s' := by unfold clearCode; rw [if_neg (by rw [h']; simp)]
    have h4 : reload i s' = s' := by unfold reload; rw [h']; rfl
    unfold judge
    rw [h1, h2, h3, h4]
  have hch : changeMode i (s.put .fault s.code t u) = s.put .fault s.code t u ∨
      changeMode i (s.put .fault s.code t u) = { s.put .fault s.code t u with halted := true } := by
    unfold changeMode
    split
    · exact .inl rfl
    · simp only [put_cur]
      cases hq : s.cur.mode <;> simp [activate, hq] at hc ⊢
  cases hh : s.halted with
  | true =>
    have : cycle A i s = s := by simp [cycle, hh]
    rw [this]
    exact ⟨h, rfl, rfl, rfl, by simp [hh]⟩
  | false =>
    rcases hch with hch | hch
    · have hd : decideMode A i s = s.put .fault s.code t u := by
        rw [decideMode_eq, e, hch, hj _ rfl, ite_self]
      have : cycle A i s = doFault (s.put .fault s.code t u) := by
        unfold cycle
        simp [hh, hd, dispatch]
      rw [this]
      simp [doFault]
    · have hd : decideMode A i s = { s.put .fault s.code t u with halted := true } := by
        rw [decideMode_eq, e, hch]
        simp
      have : cycle A i s = { s.put .fault s.code t u with halted := true } := by
        unfold cycle
        simp [hh, hd]
      rw [this]
      simp

/-- An access of the main loop that cannot take the controller out of fault: not the
end of the enable sequence, and not the handing over of a stop command. -/
def Act.harmless : Act → Bool
  | .result => false
  | .setMode m => m == .fault
  | .load c => c.mode != .stopped
  | _ => true

/-- The event is not a stop command. -/
def Ev.noStop : Ev → Bool
  | .command c _ => c.cmd.mode != .stopped
  | _ => true

theorem enableActs_harmless (d : Drv) (e c : Bool) : ∀ b ∈ enableActs d e c, b.harmless = true := by
  cases d <;> cases e <;> cases c <;> decide

/-- A call that is not under way in the middle of the enable sequence leaves a fault
in place. -/
theorem exec_fault (A : Ar) {s : St} {e : Ev} (h : s.mode = .fault) (hc : s.cur.mode ≠ .stopped)
    (ht : ∀ b ∈ s.todo, Act.harmless b = true) (he : e.noStop = true) :
    (exec A s e).mode = .fault ∧ (exec A s e).cur.mode ≠ .stopped ∧
    (∀ b ∈ (exec A s e).todo, Act.harmless b = true) := by
  cases e with
  | cycle i =>
    obtain ⟨h1, h2, h3, h4, -⟩ := cycle_fault A i h hc
    simp only [exec]
    rw [h1, h3, h4]
    exact ⟨rfl, hc, ht⟩
  | step =>
    simp only [exec]
    split
    · exact ⟨h, hc, ht⟩
    cases hs : s.todo with
    | nil => exact ⟨h, hc, ht⟩
    | cons a rest =>
      have ha := ht a (by rw [hs]; simp)
      have hr : ∀ b ∈ rest, Act.harmless b = true := fun b hb => ht b (by rw [hs]; simp [hb])
      simp only
      cases a with
      | readMode e c =>
        refine ⟨h, hc, ?_⟩
        simp only [act, h]
        exact hr
      | advance e c =>
        refine ⟨h, hc, fun b hb => ?_⟩
        simp only [act, List.mem_append] at hb
        rcases hb with hb | hb
        · exact enableActs_harmless _ _ _ b hb
        · exact hr b hb
      | result => simp [Act.harmless] at ha
      | setMode m =>
        have : m = .fault := by simpa [Act.harmless] using ha
        exact ⟨this, hc, hr⟩
      | load c =>
        have : c.mode ≠ .stopped := by simpa [Act.harmless] using ha
        exact ⟨h, this, hr⟩
      | _ => exact ⟨h, hc, hr⟩
  | command c k =>
    simp only [exec]
    split
    · exact ⟨h, hc, ht⟩
    · refine ⟨h, hc, fun b hb => ?_⟩
      have hs : c.cmd.mode ≠ .stopped := by simpa [Ev.noStop] using he
      have : ∀ b ∈ commandActs c k, Act.harmless b = true := by
        unfold commandActs
        split
        · simp
        · have hl : Act.harmless (.load (loaded c k)) = true := by simp [Act.harmless, loaded, hs]
          cases stopRefused c k <;> cases bemfRefused c k <;> simp [Act.harmless] <;>
            simpa [Act.harmless] using hl
      exact this b hb
  | poll e c =>
    simp only [exec]
    split
    · exact ⟨h, hc, ht⟩
    · refine ⟨h, hc, fun b hb => ?_⟩
      simp only [List.mem_singleton] at hb
      rw [hb]; rfl
  | raise c =>
    simp only [exec]
    split
    · exact ⟨h, hc, ht⟩
    · rw [if_neg (by simp [h])]
      exact ⟨h, hc, ht⟩

/-- **C30.**  A controller in fault whose last command is not a stop stays in fault,
for every interleaving of cycles with any sensor readings, commands other than
stop, polls and fault reports.  Missing: the main loop must not be at the end of
the enable sequence of the gate driver when the fault occurs. -/
theorem C30_latched_partial (A : Ar) (evs : List Ev) {s : St} (h : s.mode = .fault)
    (hc : s.cur.mode ≠ .stopped) (ht : ∀ b ∈ s.todo, Act.harmless b = true)
    (he : ∀ e ∈ evs, Ev.noStop e = true) : (run A s evs).mode = .fault := by
  induction evs generalizing s with
  | nil => exact h
  | cons e evs ih =>
    obtain ⟨h1, h2, h3⟩ := exec_fault A h hc ht (he e (by simp))
    rw [run_cons]
    exact ih h1 h2 h3 fun e' h' => he e' (by simp [h'])

/-- A command that `Command` does not refuse. -/
def Ev.accepted : Ev → Bool
  | .command c k => !stopRefused c k && !bemfRefused c k
  | _ => true

def Act.isCode : Act → Bool
  | .setCode _ => true
  | _ => false

/-- **C30.**  The code of the fault stays, too, as long as no command is refused
for its stop position or for its missing acceleration limit. -/
theorem C30_code_partial (A : Ar) (evs : List Ev) {s : St} (h : s.mode = .fault)
    (hc : s.cur.mode ≠ .stopped)
    (ht : ∀ b ∈ s.todo, Act.harmless b = true ∧ Act.isCode b = false)
    (he : ∀ e ∈ evs, Ev.noStop e = true ∧ Ev.accepted e = true) :
    (run A s evs).mode = .fault ∧ (run A s evs).code = s.code := by
  induction evs generalizing s with
  | nil => exact ⟨h, rfl⟩
  | cons e evs ih =>
    obtain ⟨h1, h2, h3⟩ := exec_fault A h hc (fun b hb => (ht b hb).1) (he e (by simp)).1
    have hk : (exec A s e).code = s.code ∧ ∀ b ∈ (exec A s e).todo, Act.isCode b = false := by
      cases e with
      | cycle i =>
        obtain ⟨-, k2, -, k4, -⟩ := cycle_fault A i h hc
        simp only [exec]
        rw [k2, k4]
        exact ⟨rfl, fun b hb => (ht b hb).2⟩
      | step =>
        simp only [exec]
        split
        · exact ⟨rfl, fun b hb => (ht b hb).2⟩
        cases hs : s.todo with
        | nil => exact ⟨rfl, fun b hb => (ht b hb).2⟩
        | cons a rest =>
          have ha := ht a (by rw [hs]; simp)
          have hr : ∀ b ∈ rest, Act.isCode b = false := fun b hb => (ht b (by rw [hs]; simp [hb])).2
          simp only
          cases a with
          | readMode e c =>
            refine ⟨rfl, ?_⟩
            simp only [act, h]
            exact hr
          | advance e c =>
            refine ⟨rfl, fun b hb => ?_⟩
            simp only [act, List.mem_append] at hb
            rcases hb with hb | hb
            · have : ∀ (d : Drv) (e c : Bool), ∀ b ∈ enableActs d e c, Act.isCode b = false := by
                intro d e c
                cases d <;> cases e <;> cases c <;> decide
              exact this _ _ _ b hb
            · exact hr b hb
          | result => simp [Act.harmless] at ha
          | setCode c => simp [Act.isCode] at ha
          | _ => exact ⟨rfl, hr⟩
      | command c k =>
        simp only [exec]
        split
        · exact ⟨rfl, fun b hb => (ht b hb).2⟩
        · refine ⟨rfl, fun b hb => ?_⟩
          have ha := (he (.command c k) (by simp)).2
          simp only [Ev.accepted, Bool.and_eq_true, Bool.not_eq_true'] at ha
          simp only [commandActs, ha.1, ha.2] at hb
          split at hb
          · simp at hb
          · simp at hb
            rw [hb]; rfl
      | poll e c =>
        simp only [exec]
        split
        · exact ⟨rfl, fun b hb => (ht b hb).2⟩
        · refine ⟨rfl, fun b hb => ?_⟩
          simp only [List.mem_singleton] at hb
          rw [hb]; rfl
      | raise c =>
        simp only [exec]
        split
        · exact ⟨rfl, fun b hb => (ht b hb).2⟩
        · rw [if_neg (by simp [h])]
          exact ⟨rfl, fun b hb => (ht b hb).2⟩
    rw [run_cons]
    obtain ⟨q1, q2⟩ := ih h1 h2 (fun b hb => ⟨h3 b hb, hk.2 b hb⟩)
      (fun e' h' => he e' (by simp [h']))
    exact ⟨q1, q2.trans hk.1⟩

/-- **C30.**  After a stop the controller reports no fault: in the first cycle that
follows, unless the motor current still has to be brought to zero and cannot be
controlled. -/
theorem C30_cleared (A : Ar) {s : St} (ht : s.todo = [])
    (hh : s.halted = false) (c : CmdIn) (k : CmdCfg) (hc : c.cmd.mode = .stopped) (i : In)
    (hi : s.cooldown = 0 ∨ (i.poles ≠ 0 ∧ i.thetaValid = true ∧ i.epoch = s.epoch)) :
    (runWhole A s [.command c k, .cycle i]).mode = .stopped ∧
    (runWhole A s [.command c k, .cycle i]).code = .success := by
  have e2 : runWhole A s [.command c k, .cycle i] = cycle A i (commandEffect c k s) := by
    rw [← command_whole A ht hh]
    unfold runWhole
    rw [List.flatMap_cons, run_append]
    rfl
  have hig : ignored c.cmd.mode = false := by rw [hc]; rfl
  have e3 : (commandEffect c k s).cur.mode = .stopped ∧ (commandEffect c k s).halted = false ∧
      (commandEffect c k s).cooldown = s.cooldown ∧ (commandEffect c k s).epoch = s.epoch := by
    unfold commandEffect
    rw [hig]
    exact ⟨hc, hh, rfl, rfl⟩
  rw [e2]
  obtain ⟨-, -, -, -, -, k6, k7, -⟩ := cycle_stop A i e3.1 e3.2.1
  rw [e3.2.2.1] at k6 k7
  by_cases h0 : s.cooldown = 0
  · exact ⟨(k6 h0).1, (k6 h0).2.1⟩
  · refine k7 h0 ?_
    rcases hi with hi | ⟨h1, h2, h3⟩
    · exact absurd hi h0
    · rintro (h' | h' | h')
      · exact h1 h'
      · rw [h2] at h'; cases h'
      · exact h' (h3.trans e3.2.2.2.symm)

/-- A fault in position mode, and the hypotheses of the theorems above. -/
def faulted : List Whole := startUp .position ++ [.cycle { okIn with encoderError := true }]

example : (runWhole Ar.single {} faulted).mode = .fault ∧
    (runWhole Ar.single {} faulted).code = .encoderFault ∧
    (runWhole Ar.single {} faulted).cur.mode = .position ∧
    (runWhole Ar.single {} faulted).todo = [] ∧
    (runWhole Ar.single {} faulted).halted = false ∧
    Ev.accepted (.command (ask .position) okCfg) = true := by
  rw [← runWholeF_eq]
  decide +kernel

/-- **C30 is violated: the code of the first fault is lost.**  A refused command
overwrites it. -/
theorem C30_code_refuted :
    (runWhole Ar.single {} faulted).code = .encoderFault ∧
    (runWhole Ar.single {} (faulted ++
      [.command { ask .position with stopPosition := .fin 1, accelLimit := .fin 1 } okCfg])).mode
        = .fault ∧
    (runWhole Ar.single {} (faulted ++
      [.command { ask .position with stopPosition := .fin 1, accelLimit := .fin 1 } okCfg])).code
        = .stopPositionDeprecated := by
  rw [← runWholeF_eq, ← runWholeF_eq]
  decide +kernel

/-- The enable sequence, up to the last access of the main loop. -/
def almostEnabled : List Ev :=
  ([.command (ask .position) okCfg, .cycle okIn, .poll false true, .poll true true,
    .poll true true] : List Whole).flatMap Whole.events ++
  (.poll true true :: List.replicate 5 .step)

/-- **C30 is violated: a fault is overwritten.**  When the interrupt raises a fault
just before the main loop writes the new mode at the end of the enable sequence,
the fault disappears and the motor is driven without any stop command. -/
theorem C30_race_refuted :
    (run Ar.single {} (almostEnabled ++ [.cycle { okIn with busV := .fin 2 }])).mode = .fault ∧
    (run Ar.single {} (almostEnabled ++ [.cycle { okIn with busV := .fin 2 }])).code
      = .underVoltage ∧
    (run Ar.single {} (almostEnabled ++ [.cycle { okIn with busV := .fin 2 }, .step])).mode
      = .calibrating ∧
    (run Ar.single {} (almostEnabled ++ [.cycle { okIn with busV := .fin 2 }, .step] ++
      List.replicate 257 (.cycle okIn))).mode = .position ∧
    (run Ar.single {} (almostEnabled ++ [.cycle { okIn with busV := .fin 2 }, .step] ++
      List.replicate 257 (.cycle okIn))).power = true ∧
    (∀ e ∈ almostEnabled ++ [.cycle { okIn with busV := .fin 2 }, .step] ++
      List.replicate 257 (.cycle okIn), Ev.noStop e = true) := by
  refine ⟨?_, ?_, ?_, ?_, ?_, ?_⟩
  iterate 5 (rw [← runF_eq]; decide +kernel)
  decide +kernel

/-- **C30 is violated: a fault without a code.**  When the interrupt comes between
the two writes by which `Command` reports a refused command, it clears the code
before the mode becomes fault. -/
theorem C30_no_code_refuted :
    let s := run Ar.single (runWhole Ar.single {} (startUp .position))
      [.command { ask .position with stopPosition := .fin 1, accelLimit := .fin 1 } okCfg, .step,
       .cycle okIn, .step, .step, .cycle okIn]
    s.mode = .fault ∧ s.code = .success := by
  rw [← runWholeF_eq, ← runF_eq]
  decide +kernel

/-- **C30 is violated: a fault while stopped.**  If the last command was a stop, a
fault is gone after one cycle although no further stop command has arrived. -/
theorem C30_stopped_refuted :
    let s := runWhole Ar.single {} [.command (ask .stopped) okCfg, .cycle okIn,
      .raise .timingViolation]
    (s.mode = .fault ∧ s.code = .timingViolation) ∧
    (runWhole Ar.single s [.cycle okIn]).mode = .stopped ∧
    (runWhole Ar.single s [.cycle okIn]).code = .success := by
  rw [← runWholeF_eq]
  decide +kernel

end Verif.Fw
