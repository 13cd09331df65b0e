import Verif.Fw.Servo

/-!
# A stop command is obeyed

Property C34, for every interleaving of the interrupt and the main loop.
-/

namespace Verif.Fw

open Verif.Float

variable {A : Ar}

/-! ### What the stages of a cycle leave alone -/

/-- The state with another mode, code, watchdog time and watchdog time of the
command. -/
def St.put (s : St) (m : Mode) (c : Code) (t u : Fl) : St :=
  { s with mode := m, code := c, timeout := t, cur := { s.cur with timeout := u } }

section
variable (s : St) (m : Mode) (c : Code) (t u : Fl)
@[simp] theorem put_mode : (s.put m c t u).mode = m := rfl
@[simp] theorem put_code : (s.put m c t u).code = c := rfl
@[simp] theorem put_timeout : (s.put m c t u).timeout = t := rfl
@[simp] theorem put_cur : (s.put m c t u).cur = { s.cur with timeout := u } := rfl
@[simp] theorem put_cooldown : (s.put m c t u).cooldown = s.cooldown := rfl
@[simp] theorem put_duty : (s.put m c t u).duty = s.duty := rfl
@[simp] theorem put_power : (s.put m c t u).power = s.power := rfl
@[simp] theorem put_drv : (s.put m c t u).drv = s.drv := rfl
@[simp] theorem put_pin : (s.put m c t u).pin = s.pin := rfl
@[simp] theorem put_written : (s.put m c t u).written = s.written := rfl
@[simp] theorem put_count : (s.put m c t u).count = s.count := rfl
@[simp] theorem put_sum1 : (s.put m c t u).sum1 = s.sum1 := rfl
@[simp] theorem put_sum2 : (s.put m c t u).sum2 = s.sum2 := rfl
@[simp] theorem put_sum3 : (s.put m c t u).sum3 = s.sum3 := rfl
@[simp] theorem put_offset1 : (s.put m c t u).offset1 = s.offset1 := rfl
@[simp] theorem put_offset2 : (s.put m c t u).offset2 = s.offset2 := rfl
@[simp] theorem put_offset3 : (s.put m c t u).offset3 = s.offset3 := rfl
@[simp] theorem put_epoch : (s.put m c t u).epoch = s.epoch := rfl
@[simp] theorem put_todo : (s.put m c t u).todo = s.todo := rfl
@[simp] theorem put_halted : (s.put m c t u).halted = s.halted := rfl
@[simp] theorem put_put (m' : Mode) (c' : Code) (t' u' : Fl) :
    (s.put m c t u).put m' c' t' u' = s.put m' c' t' u' := rfl
theorem put_self : s.put s.mode s.code s.timeout s.cur.timeout = s := rfl
theorem fail_put (c' : Code) : (s.put m c t u).fail c' = s.put .fault c' t u := rfl
theorem fail_eq (c' : Code) : s.fail c' = s.put .fault c' s.timeout s.cur.timeout := rfl
end


theorem senseTimeout_keeps (s : St) : ∃ t u, senseTimeout s = s.put s.mode s.code t u := by
  unfold senseTimeout; split
  · exact ⟨_, _, rfl⟩
  · exact ⟨s.timeout, s.cur.timeout, rfl⟩

theorem tick_keeps (i : In) (s : St) :
    ∃ t, tick A i s = s.put s.mode s.code t s.cur.timeout := by
  unfold tick; split
  · exact ⟨_, rfl⟩
  · exact ⟨s.timeout, rfl⟩

/-- The stages before `ISR_MaybeChangeMode`. -/
def sense (A : Ar) (i : In) (s : St) : St := tick A i (senseTimeout (senseCritical i s))

/-- The stages after it. -/
def judge (i : In) (s : St) : St := reload i (clearCode (watchdog (persistent i s)))

theorem decideMode_eq (A : Ar) (i : In) (s : St) :
    decideMode A i s = if (changeMode i (sense A i s)).halted then changeMode i (sense A i s)
      else judge i (changeMode i (sense A i s)) := rfl

/-- Before `ISR_MaybeChangeMode` only the watchdog time and the mode (to fault)
may have changed. -/
theorem sense_keeps (A : Ar) (i : In) (s : St) :
    ∃ m c t u, sense A i s = s.put m c t u ∧
      ((m = s.mode ∧ c = s.code) ∨ (m = .fault ∧ c = .pwmCycleOverrun ∧ s.mode ≠ .fault ∧
        i.phaseHigh = true)) := by
  have e1 : ∃ m c, senseCritical i s = s.put m c s.timeout s.cur.timeout ∧
      ((m = s.mode ∧ c = s.code) ∨ (m = .fault ∧ c = .pwmCycleOverrun ∧ s.mode ≠ .fault ∧
        i.phaseHigh = true)) := by
    unfold senseCritical; split
    · rename_i h; exact ⟨_, _, rfl, .inr ⟨rfl, rfl, h.1, h.2⟩⟩
    · exact ⟨_, _, rfl, .inl ⟨rfl, rfl⟩⟩
  obtain ⟨m, c, e, hm⟩ := e1
  obtain ⟨t, u, e2⟩ := senseTimeout_keeps (senseCritical i s)
  obtain ⟨t', e3⟩ := tick_keeps (A := A) i (senseTimeout (senseCritical i s))
  refine ⟨m, c, t', u, ?_, hm⟩
  unfold sense
  rw [e3, e2, e]
  rfl

theorem changeMode_stop (i : In) {s : St} (h : s.cur.mode = .stopped) :
    changeMode i s = s.put .stopped s.code s.timeout s.cur.timeout := by
  unfold changeMode
  split
  · rename_i h'
    rw [h] at h'
    rw [h']
    rfl
  · rw [h]
    rfl

theorem judge_stopped (i : In) {s : St} (h : s.mode = .stopped) :
    judge i s = s.put .stopped .success s.timeout s.cur.timeout := by
  have h1 : persistent i s = s := by unfold persistent; rw [if_pos (.inl h)]
  have h2 : watchdog s = s := by unfold watchdog; rw [if_neg (by rw [h]; simp)]
  have h3 : clearCode s = s.put .stopped .success s.timeout s.cur.timeout := by
    unfold clearCode
    rw [if_pos (by rw [h]; simp)]
    rw [← h]; rfl
  unfold judge
  rw [h1, h2, h3]
  rfl

/-- What a commanded stop does to the mode, whatever the state. -/
theorem decide_stop (A : Ar) (i : In) {s : St} (h : s.cur.mode = .stopped)
    (hh : s.halted = false) : ∃ t u, decideMode A i s = s.put .stopped .success t u := by
  obtain ⟨m, c, t, u, e, hm⟩ := sense_keeps A i s
  refine ⟨t, u, ?_⟩
  rw [decideMode_eq, e, changeMode_stop i (by exact h), put_put]
  rw [if_neg (by simp [hh]), judge_stopped i (by simp)]
  rfl

/-- The cooldown current cannot be controlled: `ISR_DoCurrent` raises a fault. -/
def CannotControl (i : In) (s : St) : Prop :=
  i.poles = 0 ∨ i.thetaValid = false ∨ i.epoch ≠ s.epoch

theorem doCurrent_mode (i : In) (s : St) :
    (doCurrent i s).mode = s.mode ∧ (doCurrent i s).code = s.code ∧ ¬ CannotControl i s ∨
    (doCurrent i s).mode = .fault ∧ CannotControl i s := by
  unfold doCurrent CannotControl
  by_cases h1 : i.poles = 0
  · simp [h1, St.fail]
  by_cases h2 : i.thetaValid = false
  · simp [h1, h2, St.fail]
  by_cases h3 : i.epoch = s.epoch
  · simp [h1, h2, h3, drive, phaseVoltage]
  · simp [h1, h2, h3, drive, phaseVoltage, St.fail]

theorem doCurrent_keeps (i : In) (s : St) :
    (doCurrent i s).cur = s.cur ∧ (doCurrent i s).todo = s.todo ∧
    (doCurrent i s).cooldown = s.cooldown ∧ (doCurrent i s).halted = s.halted ∧
    (doCurrent i s).epoch = s.epoch := by
  unfold doCurrent phaseVoltage drive St.fail
  split
  · simp
  split
  · simp
  split <;> simp

/-- What one cycle does while a stop is commanded. -/
theorem cycle_stop (A : Ar) (i : In) {s : St} (h : s.cur.mode = .stopped)
    (hh : s.halted = false) :
    (cycle A i s).cur.mode = .stopped ∧ (cycle A i s).halted = false ∧
    (cycle A i s).cooldown = s.cooldown - 1 ∧ (cycle A i s).todo = s.todo ∧
    (cycle A i s).epoch = s.epoch ∧
    (s.cooldown = 0 → (cycle A i s).mode = .stopped ∧ (cycle A i s).code = .success ∧
      (cycle A i s).duty = (0, 0, 0) ∧ (cycle A i s).power = false ∧
      (cycle A i s).pin = false ∧ (cycle A i s).drv = .disabled) ∧
    (s.cooldown ≠ 0 → ¬ CannotControl i s →
      (cycle A i s).mode = .stopped ∧ (cycle A i s).code = .success) ∧
    (s.cooldown ≠ 0 → CannotControl i s → (cycle A i s).mode = .fault) := by
  obtain ⟨t, u, e⟩ := decide_stop A i h hh
  have e2 : cycle A i s = doStopped i (s.put .stopped .success t u) := by
    unfold cycle
    simp [hh, e, dispatch]
  rw [e2]
  unfold doStopped
  by_cases hc : s.cooldown = 0
  · rw [if_neg (by simp [hc])]
    simp [hc, disableDriver, h, hh]
  · rw [if_pos (by simpa using hc)]
    generalize hs : ({ s.put .stopped .success t u with cooldown := (s.put .stopped .success t u).cooldown - 1 } : St) = s1
    obtain ⟨k1, k2, k3, k4, k5⟩ := doCurrent_keeps i s1
    have m := doCurrent_mode i s1
    have ce : CannotControl i s1 ↔ CannotControl i s := by rw [← hs]; rfl
    refine ⟨by rw [k1, ← hs]; exact h, by rw [k4, ← hs]; exact hh, by rw [k3, ← hs]; rfl,
      by rw [k2, ← hs]; rfl, by rw [k5, ← hs]; rfl, fun h' => absurd h' hc, ?_, ?_⟩
    · intro _ hn
      rcases m with m | m
      · rw [m.1, m.2.1, ← hs]; exact ⟨rfl, rfl⟩
      · exact absurd (ce.1 m.2) hn
    · intro _ hn
      rcases m with m | m
      · exact absurd (ce.2 hn) m.2.2
      · exact m.1

/-- The event is not a command and the main loop has none under way. -/
def Ev.isCommand : Ev → Bool
  | .command _ _ => true
  | _ => false

def Act.isLoad : Act → Bool
  | .load _ => true
  | _ => false

theorem commandActs_load (c : CmdIn) (k : CmdCfg) (h : ignored c.cmd.mode = false) :
    .load (loaded c k) ∈ commandActs c k := by
  simp [commandActs, h]

def Ev.isCycle : Ev → Bool
  | .cycle _ => true
  | _ => false

/-- The number of control cycles in a run. -/
def cycles (evs : List Ev) : ℕ := evs.countP Ev.isCycle

theorem act_stop (a : Act) (rest : List Act) {s : St} (ha : a.isLoad = false)
    (hr : ∀ b ∈ rest, Act.isLoad b = false) :
    (act a rest s).cur = s.cur ∧ (act a rest s).halted = s.halted ∧
    (act a rest s).cooldown = s.cooldown ∧ (∀ b ∈ (act a rest s).todo, Act.isLoad b = false) := by
  cases a with
  | readMode e c =>
    refine ⟨rfl, rfl, rfl, fun b hb => ?_⟩
    simp only [act] at hb
    split at hb
    · simp only [List.cons_append, List.nil_append, List.mem_cons] at hb
      rcases hb with h | h | h | h <;> first | (rw [h]; rfl) | exact hr b h
    · exact hr b hb
  | advance e c =>
    refine ⟨rfl, rfl, rfl, fun b hb => ?_⟩
    simp only [act, List.mem_append] at hb
    rcases hb with h | h
    · have : ∀ (d : Drv) (e c : Bool), ∀ b ∈ enableActs d e c, Act.isLoad b = false := by
        intro d e c
        cases d <;> cases e <;> cases c <;> decide
      exact this _ _ _ b h
    · exact hr b h
  | result =>
    refine ⟨rfl, rfl, rfl, fun b hb => ?_⟩
    simp only [act, List.mem_append] at hb
    rcases hb with h | h
    · revert h; cases s.drv <;> simp only [resultActs, List.mem_cons, List.not_mem_nil, or_false,
        false_imp_iff]
      · rintro rfl; rfl
      · rintro (rfl | rfl) <;> rfl
    · exact hr b h
  | load c => simp [Act.isLoad] at ha
  | _ => exact ⟨rfl, rfl, rfl, hr⟩

theorem halted_exec (A : Ar) {s : St} (h : s.halted = true) (e : Ev) : exec A s e = s := by
  cases e <;> simp [exec, cycle, h]

/-- A failed assertion is final. -/
theorem halted_run (A : Ar) {s : St} (h : s.halted = true) (evs : List Ev) : run A s evs = s := by
  induction evs with
  | nil => rfl
  | cons e evs ih => unfold run at *; rw [List.foldl_cons, halted_exec A h]; exact ih

theorem run_append (A : Ar) (s : St) (a b : List Ev) : run A s (a ++ b) = run A (run A s a) b := by
  unfold run; rw [List.foldl_append]

theorem run_cons (A : Ar) (s : St) (e : Ev) (evs : List Ev) :
    run A s (e :: evs) = run A (exec A s e) evs := rfl

/-! ### Main loop calls that are not interrupted -/

/-- The effect of a call of `Command` as a whole. -/
def commandEffect (c : CmdIn) (k : CmdCfg) (s : St) : St :=
  if ignored c.cmd.mode then s else
  { s with
    mode := if stopRefused c k || bemfRefused c k then .fault else s.mode
    code := if bemfRefused c k then .bemfFeedforwardNoAccelLimit
            else if stopRefused c k then .stopPositionDeprecated else s.code
    cur := loaded c k }

theorem command_whole (A : Ar) {s : St} (ht : s.todo = []) (hh : s.halted = false) (c : CmdIn)
    (k : CmdCfg) : run A s (Whole.command c k).events = commandEffect c k s := by
  obtain ⟨m, q, t, cd, du, po, dr, pi, wr, ct, s1, s2, s3, o1, o2, o3, ep, cu, td, ha⟩ := s
  cases ht
  cases hh
  cases hi : ignored c.cmd.mode <;> cases h1 : stopRefused c k <;> cases h2 : bemfRefused c k <;>
    simp [Whole.events, run, List.replicate, exec, act, commandActs, commandEffect, hi, h1, h2]

/-- The state of the gate driver after one more call of `StartEnable(true)`. -/
def nextDrv (d : Drv) (elapsed calOk : Bool) : Drv :=
  match d with
  | .disabled => .enabling1
  | .enabling1 => if elapsed then .enabling2 else .enabling1
  | .enabling2 => .enabling3
  | .enabling3 => if calOk then .enabled else .calibrateFailed
  | .enabled => .enabled
  | .calibrateFailed => .calibrateFailed

/-- The effect of a call of `PollMillisecond` as a whole. -/
def pollEffect (e c : Bool) (s : St) : St :=
  if s.mode = .enabling then
    { s with
      pin := true
      drv := nextDrv s.drv e c
      written := s.written || (s.drv == .enabling1 && e)
      mode := if nextDrv s.drv e c = .enabled then .calibrating
              else if nextDrv s.drv e c = .calibrateFailed then .fault else .enabling
      code := if nextDrv s.drv e c = .calibrateFailed then .driverEnableFault else s.code }
  else s

theorem poll_whole (A : Ar) {s : St} (ht : s.todo = []) (hh : s.halted = false) (e c : Bool) :
    run A s (Whole.poll e c).events = pollEffect e c s := by
  obtain ⟨m, q, t, cd, du, po, dr, pi, wr, ct, s1, s2, s3, o1, o2, o3, ep, cu, td, ha⟩ := s
  cases ht
  cases hh
  by_cases hm : m = .enabling
  · subst hm
    cases dr <;> cases e <;> cases c <;>
      simp [Whole.events, run, List.replicate, exec, act, enableActs, resultActs, pollEffect,
        nextDrv]
  · simp [Whole.events, run, List.replicate, exec, act, pollEffect, hm]

/-- Events that bring no new command leave a stop standing, and the cooldown runs
down with the cycles. -/
theorem exec_stop (A : Ar) {s : St} {e : Ev} (h : s.cur.mode = .stopped) (hh : s.halted = false)
    (ht : ∀ b ∈ s.todo, Act.isLoad b = false) (he : e.isCommand = false) :
    (exec A s e).cur.mode = .stopped ∧ (exec A s e).halted = false ∧
    (∀ b ∈ (exec A s e).todo, Act.isLoad b = false) ∧
    (exec A s e).cooldown = s.cooldown - cycles [e] := by
  cases e with
  | cycle i =>
    obtain ⟨h1, h2, h3, h4, -⟩ := cycle_stop A i h hh
    refine ⟨h1, h2, ?_, h3⟩
    simp only [exec]
    rw [h4]
    exact ht
  | step =>
    cases hs : s.todo with
    | nil => simp [exec, hh, hs, h, cycles, Ev.isCycle]
    | cons a rest =>
      have ha := ht a (by rw [hs]; simp)
      have hr : ∀ b ∈ rest, Act.isLoad b = false := fun b hb => ht b (by rw [hs]; simp [hb])
      obtain ⟨h1, h2, h3, h4⟩ := act_stop a rest (s := s) ha hr
      have e : exec A s .step = act a rest s := by simp [exec, hh, hs]
      rw [e, h1, h2, h3]
      exact ⟨h, hh, h4, rfl⟩
  | command c k => simp [Ev.isCommand] at he
  | poll e c =>
    simp only [exec]
    split
    · exact ⟨h, hh, ht, rfl⟩
    · refine ⟨h, hh, ?_, rfl⟩
      intro b hb
      simp only [List.mem_singleton] at hb
      rw [hb]; rfl
  | raise c =>
    simp only [exec]
    split
    · exact ⟨h, hh, ht, rfl⟩
    · split <;> exact ⟨h, hh, ht, rfl⟩

theorem run_stop (A : Ar) (evs : List Ev) {s : St} (h : s.cur.mode = .stopped)
    (hh : s.halted = false) (ht : ∀ b ∈ s.todo, Act.isLoad b = false)
    (he : ∀ e ∈ evs, Ev.isCommand e = false) :
    (run A s evs).cur.mode = .stopped ∧ (run A s evs).halted = false ∧
    (∀ b ∈ (run A s evs).todo, Act.isLoad b = false) ∧
    (run A s evs).cooldown = s.cooldown - cycles evs := by
  induction evs generalizing s with
  | nil => exact ⟨h, hh, ht, rfl⟩
  | cons e evs ih =>
    obtain ⟨h1, h2, h3, h4⟩ := exec_stop A h hh ht (he e (by simp))
    obtain ⟨k1, k2, k3, k4⟩ := ih h1 h2 h3 (fun e' h' => he e' (by simp [h']))
    refine ⟨k1, k2, k3, ?_⟩
    have : (run A s (e :: evs)) = run A (exec A s e) evs := rfl
    rw [this, k4, h4]
    have : cycles (e :: evs) = cycles [e] + cycles evs := by
      unfold cycles
      rw [← List.countP_append]
      rfl
    omega

/-- **C34.**  Whatever the state the controller is in, once the main loop has
handed a stop command to the interrupt (`Command` reaches its last statement)
every following control cycle ends in stopped mode with no fault, for every
interleaving with the main loop that brings no other command.  The one exception
is a cycle of the cooldown in which the current cannot be controlled. -/
theorem C34_obeyed_partial (A : Ar) {s : St} {c : Cmd} (hc : c.mode = .stopped)
    (ht : s.todo = [.load c]) (hh : s.halted = false) (evs : List Ev)
    (he : ∀ e ∈ evs, Ev.isCommand e = false) (i : In) :
    let s' := run A s (.step :: evs ++ [.cycle i])
    (s'.mode = .stopped ∧ s'.code = .success) ∨
    (s'.mode = .fault ∧ cycles evs < s.cooldown ∧ CannotControl i s') := by
  have e0 : exec A s .step = { s with cur := c, todo := [] } := by simp [exec, hh, ht, act]
  have e1 : run A s (.step :: evs ++ [.cycle i]) =
      cycle A i (run A { s with cur := c, todo := [] } evs) := by
    rw [run_append, run_cons, run_cons, e0]
    rfl
  rw [e1]
  obtain ⟨h1, h2, h3, h4⟩ := run_stop A evs (s := { s with cur := c, todo := [] }) hc hh
    (by simp) he
  obtain ⟨-, -, -, -, k5, k6, k7, k8⟩ := cycle_stop A i h1 h2
  by_cases h0 : (run A { s with cur := c, todo := [] } evs).cooldown = 0
  · exact .inl ⟨(k6 h0).1, (k6 h0).2.1⟩
  · by_cases hcc : CannotControl i (run A { s with cur := c, todo := [] } evs)
    · refine .inr ⟨k8 h0 hcc, ?_, ?_⟩
      · rw [h4] at h0
        change s.cooldown - cycles evs ≠ 0 at h0
        omega
      · unfold CannotControl at *
        rw [k5]
        exact hcc
    · exact .inl (k7 h0 hcc)

/-- **C34.**  Once the cooldown has run down the controller is stopped, the output
stage is off, and the gate driver is disabled, for as long as no command
arrives. -/
theorem C34_at_rest (A : Ar) {s : St} {c : Cmd} (hc : c.mode = .stopped)
    (ht : s.todo = [.load c]) (hh : s.halted = false) (evs : List Ev)
    (he : ∀ e ∈ evs, Ev.isCommand e = false) (hn : s.cooldown ≤ cycles evs) (i : In) :
    let s' := run A s (.step :: evs ++ [.cycle i])
    s'.mode = .stopped ∧ s'.code = .success ∧ s'.duty = (0, 0, 0) ∧ s'.power = false ∧
    s'.pin = false ∧ s'.drv = .disabled := by
  have e0 : exec A s .step = { s with cur := c, todo := [] } := by simp [exec, hh, ht, act]
  have e1 : run A s (.step :: evs ++ [.cycle i]) =
      cycle A i (run A { s with cur := c, todo := [] } evs) := by
    rw [run_append, run_cons, run_cons, e0]
    rfl
  rw [e1]
  obtain ⟨h1, h2, h3, h4⟩ := run_stop A evs (s := { s with cur := c, todo := [] }) hc hh
    (by simp) he
  obtain ⟨-, -, -, -, k5, k6, k7, k8⟩ := cycle_stop A i h1 h2
  refine k6 ?_
  rw [h4]
  change s.cooldown - cycles evs = 0
  omega

/-- **C34.**  A stop command is always handed on: in every state in which the main
loop can call `Command`, at most five accesses later the stop is in place. -/
theorem C34_handed_on (A : Ar) {s : St} (ht : s.todo = []) (hh : s.halted = false) (c : CmdIn)
    (k : CmdCfg) (hc : c.cmd.mode = .stopped) :
    ∃ n ≤ 4, (run A s (.command c k :: List.replicate n .step)).todo = [.load (loaded c k)] ∧
      (run A s (.command c k :: List.replicate n .step)).halted = false ∧
      (loaded c k).mode = .stopped := by
  have hi : ignored c.cmd.mode = false := by rw [hc]; rfl
  have hl : (loaded c k).mode = .stopped := hc
  cases h1 : stopRefused c k <;> cases h2 : bemfRefused c k
  · refine ⟨0, by omega, ?_, ?_, hl⟩ <;>
      simp [run, ht, exec, commandActs, hi, h1, h2, hh]
  · refine ⟨2, by omega, ?_, ?_, hl⟩ <;>
      simp [run, List.replicate, ht, exec, act, commandActs, hi, h1, h2, hh]
  · refine ⟨2, by omega, ?_, ?_, hl⟩ <;>
      simp [run, List.replicate, ht, exec, act, commandActs, hi, h1, h2, hh]
  · refine ⟨4, by omega, ?_, ?_, hl⟩ <;>
      simp [run, List.replicate, ht, exec, act, commandActs, hi, h1, h2, hh]

/-- The modes that only the controller itself enters. -/
def Internal (m : Mode) : Prop :=
  m = .fault ∨ m = .enabling ∨ m = .calibrating ∨ m = .calibrationComplete

/-- **C34.**  A command that asks for an internal mode is without effect: whatever
the state and what follows, everything goes on as if it had not been sent.  Every
other command is handed on to the interrupt. -/
theorem C34_internal_modes (A : Ar) (s : St) (c : CmdIn) (k : CmdCfg) (evs : List Ev) :
    (Internal c.cmd.mode → run A s (.command c k :: evs) = run A s evs) ∧
    (¬ Internal c.cmd.mode → s.halted = false → s.todo = [] →
      Act.load (loaded c k) ∈ (exec A s (.command c k)).todo) := by
  constructor
  · intro h
    have hi : ignored c.cmd.mode = true := by
      rcases h with h | h | h | h <;> rw [h] <;> rfl
    rw [run_cons]
    congr 1
    show (if (s.halted || !s.todo.isEmpty) = true then s
      else { s with todo := commandActs c k }) = s
    split
    · rfl
    · rename_i hn
      have : s.todo = [] := by
        simp at hn
        exact hn.2
      rw [commandActs, hi, if_pos rfl, ← this]
  · intro h hh ht
    have hi : ignored c.cmd.mode = false := by
      unfold Internal at h
      cases hm : c.cmd.mode <;> simp_all [ignored]
    simp [exec, hh, ht, commandActs, hi]

example : Internal .enabling ∧ ¬ Internal .position := by
  unfold Internal
  decide

end Verif.Fw
