import Verif.Fw.ServoEnergy

/-!
# Leaving stop goes through calibration

Property C32 and the part of C31 about the modes on the way to a driven mode, for
runs in which the interrupt does not come inside a main loop call.
-/

namespace Verif.Fw

open Verif.Float

variable {A : Ar}

/-- What an observer sees of a run. -/
inductive Obs
  /-- a control cycle: the mode before and after, and the three current samples -/
  | cycle (before after : Mode) (adc1 adc2 adc3 : ℕ)
  /-- the gate driver has been found enabled -/
  | driverEnabled
deriving DecidableEq

/-- What an event shows. -/
def observe (A : Ar) (s : St) : Whole → List Obs
  | .cycle i =>
    if (cycle A i s).halted then []
    else [.cycle s.mode (cycle A i s).mode i.adc1 i.adc2 i.adc3]
  | .poll e c =>
    if s.mode = .enabling ∧ (run A s (Whole.poll e c).events).drv = .enabled then [.driverEnabled]
    else []
  | .command _ _ | .raise _ => []

/-- A run with its observations, the latest first. -/
def runLog (A : Ar) : List Whole → St × List Obs → St × List Obs
  | [], x => x
  | w :: ws, x => runLog A ws (run A x.1 w.events, observe A x.1 w ++ x.2)

/-- The state of `runLog` is the state of `runWhole`. -/
theorem runLog_fst (A : Ar) (ws : List Whole) (s : St) (log : List Obs) :
    (runLog A ws (s, log)).1 = runWhole A s ws := by
  induction ws generalizing s log with
  | nil => rfl
  | cons w ws ih =>
    unfold runLog
    rw [ih]
    unfold runWhole
    rw [List.flatMap_cons, run_append]

/-- A calibration sample. -/
def Obs.isSample : Obs → Bool
  | .cycle .calibrating after _ _ _ => after == .calibrating || after == .calibrationComplete
  | _ => false

/-- A cycle that ends in a driven mode or with the calibration complete. -/
def Obs.isOn : Obs → Bool
  | .cycle _ after _ _ _ => after.active || after == .calibrationComplete
  | _ => false

def Obs.adc1 : Obs → ℕ
  | .cycle _ _ a _ _ => a
  | _ => 0

def Obs.adc2 : Obs → ℕ
  | .cycle _ _ _ a _ => a
  | _ => 0

def Obs.adc3 : Obs → ℕ
  | .cycle _ _ _ _ a => a
  | _ => 0

/-- The mean of the samples is the offset in use, and is within the accepted range. -/
def Offset (samples : List ℕ) (offset : ℕ) : Prop :=
  offset = samples.sum / 256 ∧ 1848 ≤ offset ∧ offset ≤ 2248

/-- The observations, from the latest on: cycles with the motor driven or ready to be,
before them all the samples of a calibration with acceptable means, before them
the gate driver was found enabled. -/
def Calibrated (log : List Obs) (o1 o2 o3 : ℕ) : Prop :=
  ∃ newer samples older, log = newer ++ (samples ++ .driverEnabled :: older) ∧
    (∀ r ∈ newer, Obs.isOn r = true) ∧ samples.length = 256 ∧
    (∀ r ∈ samples, Obs.isSample r = true) ∧ Offset (samples.map Obs.adc1) o1 ∧
    Offset (samples.map Obs.adc2) o2 ∧ Offset (samples.map Obs.adc3) o3

/-- The invariant of runs. -/
structure Inv (s : St) (log : List Obs) : Prop where
  todo : s.todo = []
  quiet : s.mode = .enabling ∨ s.mode = .calibrating ∨ s.mode = .calibrationComplete → s.off
  zero : s.mode = .enabling → s.count = 0 ∧ s.sum1 = 0 ∧ s.sum2 = 0 ∧ s.sum3 = 0
  drvOk : s.drv ≠ .disabled → s.drv ≠ .enabling1 → s.pin = true ∧ s.written = true
  on : s.mode = .calibrating ∨ s.mode.ready = true → s.drv = .enabled
  cal : s.mode = .calibrating → s.count < 256 ∧ ∃ samples older,
    log = samples ++ .driverEnabled :: older ∧ samples.length = s.count ∧
    (∀ r ∈ samples, Obs.isSample r = true) ∧ s.sum1 = (samples.map Obs.adc1).sum ∧
    s.sum2 = (samples.map Obs.adc2).sum ∧ s.sum3 = (samples.map Obs.adc3).sum
  done : s.mode = .calibrationComplete ∨ s.mode.active = true →
    Calibrated log s.offset1 s.offset2 s.offset3

theorem offset_ok {samples : List ℕ} (h : offsetBad (samples.sum / 256) = false) :
    Offset samples (samples.sum / 256) := by
  unfold offsetBad at h
  rw [decide_eq_false_iff_not] at h
  refine ⟨rfl, ?_, ?_⟩ <;> omega

theorem ready_or (m : Mode) : m.ready = true → m = .calibrationComplete ∨ m.active = true := by
  cases m <;> simp [Mode.ready, Mode.active]

/-- A mode about which the invariant says nothing but what it says of the driver. -/
theorem Inv.of_idle {s : St} {log : List Obs} (ht : s.todo = [])
    (hm : s.mode = .fault ∨ s.mode = .stopped ∨ s.mode = .numModes ∨ s.mode = .bad)
    (hd : s.drv ≠ .disabled → s.drv ≠ .enabling1 → s.pin = true ∧ s.written = true) :
    Inv s log := by
  constructor
  · exact ht
  · intro h; rcases hm with hm | hm | hm | hm <;> rw [hm] at h <;> simp at h
  · intro h; rcases hm with hm | hm | hm | hm <;> rw [hm] at h <;> simp at h
  · exact hd
  · intro h; rcases hm with hm | hm | hm | hm <;> rw [hm] at h <;> simp [Mode.ready] at h
  · intro h; rcases hm with hm | hm | hm | hm <;> rw [hm] at h <;> simp at h
  · intro h; rcases hm with hm | hm | hm | hm <;> rw [hm] at h <;> simp [Mode.active] at h

theorem Calibrated.cons {log : List Obs} {o1 o2 o3 : ℕ} (h : Calibrated log o1 o2 o3) {r : Obs}
    (hr : r.isOn = true) : Calibrated (r :: log) o1 o2 o3 := by
  obtain ⟨n, sa, o, e, h1, h2⟩ := h
  refine ⟨r :: n, sa, o, by rw [e]; rfl, ?_, h2⟩
  intro r' hr'
  rcases List.mem_cons.1 hr' with h | h
  · rw [h]; exact hr
  · exact h1 r' h

theorem drvOk_of {s s' : St} (h : DrvKept s s')
    (k : s.drv ≠ .disabled → s.drv ≠ .enabling1 → s.pin = true ∧ s.written = true) :
    s'.drv ≠ .disabled → s'.drv ≠ .enabling1 → s'.pin = true ∧ s'.written = true := by
  obtain ⟨h1, h2, h3⟩ := h
  rw [h1, h2, h3]
  exact k

/-- A control cycle keeps the invariant. -/
theorem Inv.cycle {s : St} {log : List Obs} (h : Inv s log) (i : In) :
    (Verif.Fw.cycle A i s).halted = true ∧ (s.halted = true → Verif.Fw.cycle A i s = s) ∨
    Inv (Verif.Fw.cycle A i s) (.cycle s.mode (Verif.Fw.cycle A i s).mode i.adc1 i.adc2 i.adc3 :: log) := by
  cases hh : (Verif.Fw.cycle A i s).halted
  swap
  · left
    refine ⟨rfl, fun h' => ?_⟩
    simp [Verif.Fw.cycle, h']
  right
  obtain ⟨h1, h2, e⟩ := cycle_eq A i hh
  have dc := decide_cases A i s h1
  rw [e]
  generalize decideMode A i s = d at *
  have hdk : DrvKept s d := by
    rcases dc with dc | dc | dc
    · rw [dc.1] at h2; cases h2
    · exact ⟨dc.2.2.2.2.drv, dc.2.2.2.2.pin, dc.2.2.2.2.written⟩
    · exact ⟨dc.2.1.drv, dc.2.1.pin, dc.2.1.written⟩
  have hdt : d.todo = [] := by
    rcases dc with dc | dc | dc
    · rw [dc.1] at h2; cases h2
    · rw [dc.2.2.2.2.todo]; exact h.todo
    · rw [dc.2.1.todo]; exact h.todo
  have hdo := drvOk_of hdk h.drvOk
  cases hd : d.mode
  case fault =>
    have e' : dispatch i d = doFault d := by unfold dispatch; rw [hd]
    rw [e']
    exact Inv.of_idle hdt (.inl hd) hdo
  case stopped | numModes =>
    have e' : dispatch i d = doStopped i d := by unfold dispatch; rw [hd]
    rw [e']
    obtain ⟨k1, k2, k3, -⟩ := doStopped_facts i d
    refine Inv.of_idle (k1.todo.trans hdt) ?_ ?_
    · rcases k2 with k2 | k2
      · rw [k2.1, hd]; simp
      · exact .inl k2.1
    · rcases k3 with k3 | k3
      · exact drvOk_of k3 hdo
      · intro hx; exact absurd k3.1 hx
  case bad =>
    have e' : dispatch i d = d := by unfold dispatch; rw [hd]
    rw [e']
    exact Inv.of_idle hdt (.inr (.inr (.inr hd))) hdo
  case enabling =>
    have e' : dispatch i d = d := by unfold dispatch; rw [hd]
    rw [e']
    have hq : d.off ∧ d.count = 0 ∧ d.sum1 = 0 ∧ d.sum2 = 0 ∧ d.sum3 = 0 := by
      rcases dc with dc | dc | dc
      · rw [dc.1] at h2; cases h2
      · obtain ⟨-, -, -, -, q⟩ := dc
        exact ⟨⟨q.duty, q.power⟩, q.count, q.sum1, q.sum2, q.sum3⟩
      · have hs : s.mode = .enabling := by
          rcases dc.2.2.2 with x | x | x | x
          · rw [← x]; exact hd
          · rw [hd] at x; cases x
          · rw [hd] at x; cases x
          · rw [hd] at x; simp [Mode.active] at x
        have q := dc.2.1
        obtain ⟨z1, z2, z3, z4⟩ := h.zero hs
        have o := h.quiet (.inl hs)
        exact ⟨⟨q.duty.trans o.1, q.power.trans o.2⟩, q.count.trans z1, q.sum1.trans z2,
          q.sum2.trans z3, q.sum3.trans z4⟩
    constructor
    · exact hdt
    · exact fun _ => hq.1
    · exact fun _ => hq.2
    · exact hdo
    · intro x; rw [hd] at x; simp [Mode.ready] at x
    · intro x; rw [hd] at x; cases x
    · intro x; rw [hd] at x; simp [Mode.active] at x
  case calibrating =>
    have e' : dispatch i d = doCalibrating i d := by unfold dispatch; rw [hd]
    have hs : Same s d ∧ s.mode = .calibrating := by
      rcases dc with dc | dc | dc
      · rw [dc.1] at h2; cases h2
      · rw [hd] at dc; simp at dc
      · refine ⟨dc.2.1, ?_⟩
        rcases dc.2.2.2 with h | h | h | h
        · rw [← h]; exact hd
        · rw [hd] at h; cases h
        · rw [hd] at h; cases h
        · rw [hd] at h; simp [Mode.active] at h
    obtain ⟨q, hs⟩ := hs
    obtain ⟨o1, o2⟩ := h.quiet (.inr (.inl hs))
    obtain ⟨c1, samples, older, c2, c3, c4, c5, c6, c7⟩ := h.cal hs
    obtain ⟨k1, k2, k3, k4, k5⟩ := doCalibrating_facts i hd
    have hdrv := h.on (.inl hs)
    rw [e']
    have hdo' := drvOk_of k3 hdo
    have hdrv' : (doCalibrating i d).drv = .enabled := by rw [k3.1, hdk.1]; exact hdrv
    have hoff : (doCalibrating i d).off := ⟨by rw [k1, q.duty]; exact o1, by rw [k2, q.power]; exact o2⟩
    rw [q.count, q.sum1, q.sum2, q.sum3, c5, c6, c7] at k5
    rcases k5 with ⟨m, n, n', a1, a2, a3⟩ | ⟨m, -⟩ | ⟨m, n, a1, a2, a3, b1, b2, b3⟩
    · constructor
      · rw [k4]; exact hdt
      · exact fun _ => hoff
      · intro x; rw [m] at x; cases x
      · exact hdo'
      · exact fun _ => hdrv'
      · intro _
        refine ⟨by omega, .cycle s.mode (doCalibrating i d).mode i.adc1 i.adc2 i.adc3 :: samples, older,
          by rw [c2]; rfl, ?_, ?_, ?_, ?_, ?_⟩
        · rw [List.length_cons, c3, n]
        · intro r hr
          rcases List.mem_cons.1 hr with x | x
          · rw [x, hs, m]; rfl
          · exact c4 r x
        · rw [a1, List.map_cons, List.sum_cons]; exact Nat.add_comm _ _
        · rw [a2, List.map_cons, List.sum_cons]; exact Nat.add_comm _ _
        · rw [a3, List.map_cons, List.sum_cons]; exact Nat.add_comm _ _
      · intro x; rw [m] at x; simp [Mode.active] at x
    · exact Inv.of_idle (k4.trans hdt) (.inl m) hdo'
    · constructor
      · rw [k4]; exact hdt
      · exact fun _ => hoff
      · intro x; rw [m] at x; cases x
      · exact hdo'
      · exact fun _ => hdrv'
      · intro x; rw [m] at x; cases x
      · intro _
        refine ⟨[], .cycle s.mode (doCalibrating i d).mode i.adc1 i.adc2 i.adc3 :: samples, older,
          by rw [c2]; rfl, by simp, ?_, ?_, ?_, ?_, ?_⟩
        · rw [List.length_cons, c3]; omega
        · intro r hr
          rcases List.mem_cons.1 hr with x | x
          · rw [x, hs, m]; rfl
          · exact c4 r x
        · rw [a1, Nat.add_comm, show i.adc1 + (samples.map Obs.adc1).sum =
            ((Obs.cycle s.mode (doCalibrating i d).mode i.adc1 i.adc2 i.adc3 :: samples).map
              Obs.adc1).sum from rfl]
          apply offset_ok
          rw [List.map_cons, List.sum_cons, Nat.add_comm]
          exact b1
        · rw [a2, Nat.add_comm, show i.adc2 + (samples.map Obs.adc2).sum =
            ((Obs.cycle s.mode (doCalibrating i d).mode i.adc1 i.adc2 i.adc3 :: samples).map
              Obs.adc2).sum from rfl]
          apply offset_ok
          rw [List.map_cons, List.sum_cons, Nat.add_comm]
          exact b2
        · rw [a3, Nat.add_comm, show i.adc3 + (samples.map Obs.adc3).sum =
            ((Obs.cycle s.mode (doCalibrating i d).mode i.adc1 i.adc2 i.adc3 :: samples).map
              Obs.adc3).sum from rfl]
          apply offset_ok
          rw [List.map_cons, List.sum_cons, Nat.add_comm]
          exact b3
  case calibrationComplete =>
    have e' : dispatch i d = d := by unfold dispatch; rw [hd]
    rw [e']
    have hs : Same s d ∧ s.mode = .calibrationComplete := by
      rcases dc with dc | dc | dc
      · rw [dc.1] at h2; cases h2
      · rw [hd] at dc; simp at dc
      · refine ⟨dc.2.1, ?_⟩
        rcases dc.2.2.2 with h | h | h | h
        · rw [← h]; exact hd
        · rw [hd] at h; cases h
        · rw [hd] at h; cases h
        · rw [hd] at h; simp [Mode.active] at h
    obtain ⟨q, hs⟩ := hs
    obtain ⟨o1, o2⟩ := h.quiet (.inr (.inr hs))
    constructor
    · exact hdt
    · exact fun _ => ⟨q.duty.trans o1, q.power.trans o2⟩
    · intro x; rw [hd] at x; cases x
    · exact hdo
    · intro _; rw [hdk.1]; exact h.on (.inr (by rw [hs]; rfl))
    · intro x; rw [hd] at x; cases x
    · intro _
      rw [q.offset1, q.offset2, q.offset3]
      exact (h.done (.inl hs)).cons (by rw [hd]; rfl)
  all_goals
    have hact : d.mode.active = true := by rw [hd]; rfl
    obtain ⟨k1, k2, k3⟩ := dispatch_active i hact
    have hs : Same s d ∧ (s.mode.ready = true ∨ s.mode = d.mode) := by
      rcases dc with dc | dc | dc
      · rw [dc.1] at h2; cases h2
      · rw [hd] at dc; simp at dc
      · refine ⟨dc.2.1, ?_⟩
        rcases dc.2.2.2 with h | h | h | h
        · exact .inr h.symm
        · rw [hd] at h; cases h
        · rw [hd] at h; cases h
        · exact .inl h.2
    obtain ⟨q, hs⟩ := hs
    have hdone : Calibrated log s.offset1 s.offset2 s.offset3 := by
      apply h.done
      rcases hs with hs | hs
      · exact ready_or _ hs
      · exact .inr (by rw [hs]; exact hact)
    have hdo' : (dispatch i d).drv ≠ .disabled → (dispatch i d).drv ≠ .enabling1 →
        (dispatch i d).pin = true ∧ (dispatch i d).written = true := by
      rcases k3 with k3 | k3
      · exact drvOk_of k3 hdo
      · intro hx; exact absurd k3.2.1 hx
    rcases k2 with k2 | k2
    · have hmm := k2.1
      rw [hd] at hmm
      constructor
      · exact k1.todo.trans hdt
      · intro x; rw [hmm] at x; simp at x
      · intro x; rw [hmm] at x; cases x
      · exact hdo'
      · intro x
        rw [hmm] at x
        first
        | (exfalso; simp [Mode.ready] at x; done)
        | (rcases k3 with k3 | k3
           · rw [k3.1, hdk.1]
             apply h.on
             right
             rcases hs with hs | hs
             · exact hs
             · rw [hs, hd]; rfl
           · rw [hd] at k3; simp at k3)
      · intro x; rw [hmm] at x; cases x
      · intro _
        rw [k1.offset1, k1.offset2, k1.offset3, q.offset1, q.offset2, q.offset3]
        exact hdone.cons (by rw [hmm]; rfl)
    · exact Inv.of_idle (k1.todo.trans hdt) (.inl k2.1) hdo'

/-- Only the mode, the code and the command may differ, and the mode only by being
fault. -/
theorem Inv.of_fault_or {s s' : St} {log : List Obs} (h : Inv s log) (q : Same s s')
    (hm : s'.mode = s.mode ∨ s'.mode = .fault) : Inv s' log := by
  have hd : DrvKept s s' := ⟨q.drv, q.pin, q.written⟩
  rcases hm with hm | hm
  · constructor
    · rw [q.todo]; exact h.todo
    · rw [hm]; intro x; exact ⟨q.duty.trans (h.quiet x).1, q.power.trans (h.quiet x).2⟩
    · rw [hm, q.count, q.sum1, q.sum2, q.sum3]; exact h.zero
    · exact drvOk_of hd h.drvOk
    · rw [hm, q.drv]; exact h.on
    · rw [hm, q.count, q.sum1, q.sum2, q.sum3]; exact h.cal
    · rw [hm, q.offset1, q.offset2, q.offset3]; exact h.done
  · exact Inv.of_idle (q.todo.trans h.todo) (.inl hm) (drvOk_of hd h.drvOk)

theorem Inv.poll {s : St} {log : List Obs} (h : Inv s log) (e c : Bool) :
    Inv (pollEffect e c s)
      ((if s.mode = .enabling ∧ (pollEffect e c s).drv = .enabled then [.driverEnabled] else [])
        ++ log) := by
  unfold pollEffect
  split
  swap
  · rename_i hm
    rw [if_neg (fun x => hm x.1)]
    exact h
  rename_i hm
  obtain ⟨o1, o2⟩ := h.quiet (.inl hm)
  obtain ⟨z1, z2, z3, z4⟩ := h.zero hm
  have hdo : nextDrv s.drv e c ≠ .disabled → nextDrv s.drv e c ≠ .enabling1 →
      True ∧ (s.written || (s.drv == .enabling1 && e)) = true := by
    intro x y
    refine ⟨trivial, ?_⟩
    by_cases hd : s.drv ≠ .disabled ∧ s.drv ≠ .enabling1
    · rw [(h.drvOk hd.1 hd.2).2]; rfl
    · have : s.drv = .disabled ∨ s.drv = .enabling1 := by
        by_contra hx
        rw [not_or] at hx
        exact hd hx
      rcases this with hx | hx
      · rw [hx] at y; exact absurd rfl y
      · rw [hx] at y ⊢
        cases e
        · exact absurd rfl y
        · simp
  by_cases h1 : nextDrv s.drv e c = .enabled
  · dsimp only
    rw [show (if s.mode = .enabling ∧ nextDrv s.drv e c = .enabled then [Obs.driverEnabled]
      else []) = [.driverEnabled] from if_pos ⟨hm, h1⟩]
    constructor
    · exact h.todo
    · exact fun _ => ⟨o1, o2⟩
    · intro x; simp [h1] at x
    · intro x y; exact ⟨rfl, (hdo x y).2⟩
    · exact fun _ => h1
    · intro _
      refine ⟨by rw [z1]; omega, [], log, rfl, by simp [z1], by simp, ?_, ?_, ?_⟩
      · exact z2
      · exact z3
      · exact z4
    · intro x; simp [h1, Mode.active] at x
  · dsimp only
    rw [show (if s.mode = .enabling ∧ nextDrv s.drv e c = .enabled then [Obs.driverEnabled]
      else []) = [] from if_neg (fun x => h1 x.2)]
    by_cases h2 : nextDrv s.drv e c = .calibrateFailed
    · refine Inv.of_idle h.todo (.inl ?_) ?_
      · simp [h2]
      · intro x y; exact ⟨rfl, (hdo x y).2⟩
    · constructor
      · exact h.todo
      · exact fun _ => ⟨o1, o2⟩
      · intro _; exact ⟨z1, z2, z3, z4⟩
      · intro x y; exact ⟨rfl, (hdo x y).2⟩
      · intro x; simp [h1, h2, Mode.ready] at x
      · intro x; simp [h1, h2] at x
      · intro x; simp [h1, h2, Mode.active] at x

/-- A call that the interrupt does not come into keeps the invariant. -/
theorem Inv.whole {s : St} {log : List Obs} (h : s.halted = true ∨ Inv s log) (w : Whole) :
    (run A s w.events).halted = true ∨ Inv (run A s w.events) (observe A s w ++ log) := by
  cases hh : s.halted
  swap
  · left
    rw [halted_run A hh]
    exact hh
  have h : Inv s log := by
    rcases h with h | h
    · rw [hh] at h; cases h
    · exact h
  cases w with
  | cycle i =>
    have e : run A s (Whole.cycle i).events = Verif.Fw.cycle A i s := rfl
    rw [e]
    rcases h.cycle (A := A) i with x | x
    · exact .inl x.1
    · cases hc : (Verif.Fw.cycle A i s).halted
      · right
        have eo : observe A s (.cycle i) = [.cycle s.mode (Verif.Fw.cycle A i s).mode
            i.adc1 i.adc2 i.adc3] := by
          unfold observe
          dsimp only
          rw [hc]
          rfl
        rw [eo]
        exact x
      · exact .inl rfl
  | command c k =>
    right
    rw [command_whole A h.todo hh]
    refine h.of_fault_or ?_ ?_
    · unfold commandEffect
      split <;> exact same
    · unfold commandEffect
      split
      · exact .inl rfl
      · dsimp only
        split
        · exact .inr rfl
        · exact .inl rfl
  | poll e c =>
    right
    have eo : observe A s (.poll e c) = (if s.mode = .enabling ∧ (pollEffect e c s).drv = .enabled
        then [.driverEnabled] else []) := by
      unfold observe
      dsimp only
      rw [poll_whole A h.todo hh]
    rw [poll_whole A h.todo hh, eo]
    exact h.poll e c
  | raise c =>
    right
    have e : run A s (Whole.raise c).events = if s.mode ≠ .fault then s.fail c else s := by
      simp [Whole.events, run, exec, hh, h.todo]
    rw [e]
    refine h.of_fault_or ?_ ?_
    · split <;> exact same
    · split
      · exact .inr rfl
      · exact .inl rfl

theorem inv_reset : Inv {} [] :=
  Inv.of_idle rfl (.inr (.inl rfl)) (fun h => absurd rfl h)

theorem inv_runLog (A : Ar) (ws : List Whole) (x : St × List Obs)
    (h : x.1.halted = true ∨ Inv x.1 x.2) :
    (runLog A ws x).1.halted = true ∨ Inv (runLog A ws x).1 (runLog A ws x).2 := by
  induction ws generalizing x with
  | nil => exact h
  | cons w ws ih => exact ih _ (Inv.whole h w)

/-- **C31.**  In every run from reset in which the interrupt does not come inside a
main loop call, the output stage is off in enabling, calibrating and calibration
complete mode. -/
theorem C31_quiet_partial (A : Ar) (ws : List Whole)
    (hh : (runWhole A {} ws).halted = false)
    (hm : (runWhole A {} ws).mode = .enabling ∨ (runWhole A {} ws).mode = .calibrating ∨
      (runWhole A {} ws).mode = .calibrationComplete) :
    (runWhole A {} ws).off := by
  have h := inv_runLog A ws ({}, []) (.inr inv_reset)
  rw [runLog_fst] at h
  rcases h with h | h
  · rw [hh] at h; cases h
  · exact h.quiet hm

/-- **C32.**  In every run from reset in which the interrupt does not come inside a
main loop call, whenever the controller is in a driven mode (or ready for one)
the latest observations are: cycles in driven modes, preceded by 256 calibration
samples whose means are in use and within the accepted range, preceded by the
gate driver having been found enabled. -/
theorem C32_calibrated_partial (A : Ar) (ws : List Whole)
    (hh : (runWhole A {} ws).halted = false)
    (hm : (runWhole A {} ws).mode = .calibrationComplete ∨
      (runWhole A {} ws).mode.active = true) :
    Calibrated (runLog A ws ({}, [])).2 (runWhole A {} ws).offset1 (runWhole A {} ws).offset2
      (runWhole A {} ws).offset3 := by
  have h := inv_runLog A ws ({}, []) (.inr inv_reset)
  rw [runLog_fst] at h
  rcases h with h | h
  · rw [hh] at h; cases h
  · exact h.done hm

/-- **C32.**  In such a run the gate driver is enabled and has its configuration in
every driven mode but the timeout mode (which may itself turn it off), and while
the samples are taken. -/
theorem C32_driver_partial (A : Ar) (ws : List Whole)
    (hh : (runWhole A {} ws).halted = false)
    (hm : (runWhole A {} ws).mode = .calibrating ∨ (runWhole A {} ws).mode.ready = true) :
    (runWhole A {} ws).drv = .enabled ∧ (runWhole A {} ws).pin = true ∧
    (runWhole A {} ws).written = true := by
  have h := inv_runLog A ws ({}, []) (.inr inv_reset)
  rw [runLog_fst] at h
  rcases h with h | h
  · rw [hh] at h; cases h
  · have hd := h.on hm
    exact ⟨hd, h.drvOk (by rw [hd]; simp) (by rw [hd]; simp)⟩

/-- **C32.**  Between a cycle that ends in stopped or fault mode and a later driven
mode there are all the samples of a calibration. -/
theorem C32_between_partial (A : Ar) (ws : List Whole)
    (hh : (runWhole A {} ws).halted = false) (hm : (runWhole A {} ws).mode.active = true)
    {newer older : List Obs} {b a : Mode} {x y z : ℕ}
    (hl : (runLog A ws ({}, [])).2 = newer ++ .cycle b a x y z :: older)
    (ha : a = .stopped ∨ a = .fault) :
    ∃ samples, samples.length = 256 ∧ (∀ r ∈ samples, Obs.isSample r = true) ∧
      samples ++ [.driverEnabled] <:+: newer ∧
      Offset (samples.map Obs.adc1) (runWhole A {} ws).offset1 ∧
      Offset (samples.map Obs.adc2) (runWhole A {} ws).offset2 ∧
      Offset (samples.map Obs.adc3) (runWhole A {} ws).offset3 := by
  obtain ⟨n, sa, o, e, h1, h2, h3, h4⟩ := C32_calibrated_partial A ws hh (.inr hm)
  refine ⟨sa, h2, h3, ?_, h4⟩
  rw [hl] at e
  have hno : ∀ r ∈ n ++ (sa ++ [.driverEnabled]), r ≠ .cycle b a x y z := by
    rintro r hr rfl
    simp only [List.mem_append, List.mem_singleton] at hr
    rcases hr with hr | hr | hr
    · have := h1 _ hr
      rcases ha with rfl | rfl <;> simp [Obs.isOn, Mode.active] at this
    · have := h3 _ hr
      rcases ha with rfl | rfl <;> cases b <;> simp [Obs.isSample] at this
    · cases hr
  have e2 : newer ++ .cycle b a x y z :: older = (n ++ (sa ++ [.driverEnabled])) ++ o := by
    rw [e]; simp
  have hp : (n ++ (sa ++ [.driverEnabled])) <+: newer := by
    rcases List.append_eq_append_iff.1 e2 with ⟨c, k1, k2⟩ | ⟨c, k1, k2⟩
    · cases c with
      | nil => rw [k1]; simp
      | cons r c =>
        exfalso
        have hr : r = .cycle b a x y z := by
          have := congrArg List.head? k2
          simp at this
          exact this.symm
        exact hno r (by rw [k1]; simp) hr
    · rw [k1]; exact List.prefix_append _ _
  obtain ⟨t, ht⟩ := hp
  exact ⟨n, t, by rw [← ht]⟩

/-- The hypotheses hold after a start-up with two earlier stopped cycles. -/
def restart : List Whole :=
  startUp .position ++ [.command (ask .stopped) okCfg] ++
  List.replicate 257 (.cycle okIn) ++ startUp .position

example : (runWhole Ar.single {} restart).halted = false ∧
    (runWhole Ar.single {} restart).mode = .position := by
  rw [← runWholeF_eq]
  decide +kernel

/-- The hypotheses of `C31_stopped_cycle_partial`: the cooldown is over. -/
example :
    let s := runWhole Ar.single {} (startUp .position ++ [.command (ask .stopped) okCfg] ++
      List.replicate 256 (.cycle okIn))
    s.cooldown = 0 ∧ (cycle Ar.single okIn s).mode = .stopped ∧
    (cycle Ar.single okIn s).halted = false := by
  rw [← runWholeF_eq]
  decide +kernel

/-- The hypotheses of `C31_fault_cycle_partial` and `C31_fault_stays_off`. -/
example :
    let s := runWhole Ar.single {} (startUp .position ++ [.cycle { okIn with busV := .fin 2 }])
    s.mode = .fault ∧ s.cur.mode ≠ .stopped ∧ (cycle Ar.single okIn s).halted = false ∧
    s.off := by
  rw [← runWholeF_eq]
  unfold St.off
  decide +kernel

/-- The hypotheses of `C31_quiet_partial`: half way through the calibration. -/
example :
    let s := runWhole Ar.single {} ((startUp .position).take 100)
    s.mode = .calibrating ∧ s.halted = false := by
  rw [← runWholeF_eq]
  decide +kernel

/-- **C31 is violated in the cooldown.**  After a stop from position mode the phases
are driven and the power stage is on in stopped mode. -/
theorem C31_cooldown_refuted :
    let s := runWhole Ar.single {} (startUp .position ++ [.command (ask .stopped) okCfg,
      .cycle okIn])
    s.mode = .stopped ∧ s.power = true ∧ s.duty = (100, 110, 120) := by
  rw [← runWholeF_eq]
  decide +kernel

/-- **C31 is violated in the first cycle of a fault.**  When the angle of the rotor
becomes invalid the phases stay driven in the cycle that ends in fault. -/
theorem C31_fault_refuted :
    let s := runWhole Ar.single {} (startUp .current ++ [.cycle { okIn with thetaValid := false }])
    s.mode = .fault ∧ s.power = true ∧ s.duty = (100, 110, 120) := by
  rw [← runWholeF_eq]
  decide +kernel

/-- A stop and a new start while the main loop is at the end of the enable sequence;
`n` memory accesses precede the writing of the mode. -/
def stopInPoll (n : ℕ) : List Ev :=
  ([.command (ask .stopped) okCfg] : List Whole).flatMap Whole.events ++
  (.poll true true :: List.replicate n .step) ++ [.cycle okIn, .step] ++
  ([.command (ask .position) okCfg] : List Whole).flatMap Whole.events

/-- From reset to the point where only the last poll is missing. -/
def beforeEnabled : List Ev :=
  ([.command (ask .position) okCfg, .cycle okIn, .poll false true, .poll true true,
    .poll true true] : List Whole).flatMap Whole.events

/-- **C32 is violated by an interleaving.**  A stop command that the interrupt obeys
just before the main loop writes the new mode at the end of the enable sequence is
undone by that write; with a new command before the next cycle the controller
goes on to drive the motor while the gate driver is not enabled and has no
configuration. -/
theorem C32_race_refuted :
    (run Ar.single {} (beforeEnabled ++ (stopInPoll 5).take 13)).mode = .stopped ∧
    (let s := run Ar.single {} (beforeEnabled ++ stopInPoll 5 ++ List.replicate 257 (.cycle okIn))
     s.mode = .position ∧ s.power = true ∧ s.drv = .disabled ∧ s.pin = false ∧
     s.written = false) := by
  constructor
  · rw [← runF_eq]; decide +kernel
  · rw [← runF_eq]; decide +kernel

/-- From reset, a stop that the interrupt obeys while the main loop is about to
write the configuration of the gate driver, and a new start before the next cycle. -/
def stopInConfig : List Ev :=
  ([.command (ask .position) okCfg, .cycle okIn, .poll false true,
    .command (ask .stopped) okCfg] : List Whole).flatMap Whole.events ++
  (.poll true true :: List.replicate 4 .step) ++ [.cycle okIn, .step, .step, .step] ++
  ([.command (ask .position) okCfg, .cycle okIn, .poll true true, .poll true true] :
    List Whole).flatMap Whole.events

/-- **C32 is violated by an interleaving.**  In that run the motor is driven with an
enabled gate driver that was switched off while its configuration was written. -/
theorem C32_config_refuted :
    let s := run Ar.single {} (stopInConfig ++ List.replicate 258 (.cycle okIn))
    s.mode = .position ∧ s.power = true ∧ s.drv = .enabled ∧ s.pin = true ∧
     s.written = false := by
  rw [← runF_eq]; decide +kernel

/-- **C31 is violated by the first interleaving.**  If the stop comes during a
cooldown the whole calibration takes place with the phases driven. -/
theorem C31_race_refuted :
    let s := run Ar.single (runWhole Ar.single {} (startUp .position ++
        [.command (ask .stopped) okCfg, .cycle okIn, .command (ask .position) okCfg,
          .cycle okIn]))
      (stopInPoll 4 ++ [.cycle okIn])
    s.mode = .calibrating ∧ s.power = true ∧ s.duty = (100, 110, 120) := by
  rw [← runWholeF_eq, ← runF_eq]
  decide +kernel

end Verif.Fw
