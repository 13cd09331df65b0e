import Verif.Fw.ServoEnergy
import Verif.Fw.ServoLatch
import Verif.Fw.Pwm

/-!
# The watchdog

Property C33.  The time left is that of the last command, from which every cycle
takes one period.
-/

namespace Verif.Fw

open Verif.Float

variable {A : Ar}

/-- The modes the watchdog is for. -/
def Mode.guarded : Mode → Bool
  | .position | .stayWithinBounds => true
  | _ => false

/-- The time that is left before the next cycle: that of a command not yet taken in,
or what is left of the earlier one. -/
def St.left (s : St) : Fl :=
  if s.cur.timeout.isNan || !(s.cur.timeout.beq (.fin 0)) then s.cur.timeout else s.timeout

/-- The time left after one more cycle. -/
def pass (A : Ar) (p t : Fl) : Fl :=
  if !t.isNan && Fl.blt (.fin 0) t then Fl.max (.fin 0) (A.sub t p) else t

/-- The time is up. -/
def expired (t : Fl) : Bool := !t.isNan && Fl.ble t (.fin 0)

/-- Neither the time nor the command changes. -/
def Clock (s s' : St) : Prop := s'.timeout = s.timeout ∧ s'.cur = s.cur

theorem Clock.trans {a b c : St} (h : Clock a b) (k : Clock b c) : Clock a c :=
  ⟨k.1.trans h.1, k.2.trans h.2⟩

theorem activate_clock (m : Mode) (i : In) (s : St) : Clock s (activate m i s) := by
  have he : Clock s (enterMode m i s) := by unfold enterMode; split <;> exact ⟨rfl, rfl⟩
  unfold activate
  cases s.mode <;> first | exact he | exact ⟨rfl, rfl⟩

theorem changeMode_clock (i : In) (s : St) : Clock s (changeMode i s) := by
  unfold changeMode
  split
  · exact ⟨rfl, rfl⟩
  cases s.cur.mode <;> first | exact activate_clock _ _ _ | exact ⟨rfl, rfl⟩

theorem persistent_clock (i : In) (s : St) : Clock s (persistent i s) := by
  have f : ∀ (b : Bool) (c : Code) (x : St), Clock s x → Clock s (if b then x.fail c else x) := by
    intro b c x h
    cases b
    · exact h
    · exact h
  unfold persistent
  split
  · exact ⟨rfl, rfl⟩
  exact f _ _ _ (f _ _ _ (f _ _ _ (f _ _ _ (f _ _ _ ⟨rfl, rfl⟩))))

/-- What comes after the change of mode leaves the time alone, and no mode the
watchdog is for remains when the time is up. -/
theorem judge_clock (i : In) (s : St) : Clock s (judge i s) ∧
    ((judge i s).mode.guarded = true → expired s.timeout = false) := by
  have h1 := persistent_clock i s
  unfold judge
  generalize persistent i s = a at *
  have h2 : Clock a (watchdog a) ∧ ((watchdog a).mode.guarded = true → expired a.timeout = false) := by
    unfold watchdog
    split
    · exact ⟨⟨rfl, rfl⟩, fun h => by simp [Mode.guarded] at h⟩
    · rename_i h
      refine ⟨⟨rfl, rfl⟩, fun h' => ?_⟩
      have : a.mode = .position ∨ a.mode = .stayWithinBounds := by
        cases hm : a.mode <;> rw [hm] at h' <;> simp [Mode.guarded] at h' ⊢
      cases hx : expired a.timeout
      · rfl
      · exact absurd ⟨this, hx⟩ h
  generalize watchdog a = b at *
  have h3 : Clock b (clearCode b) ∧ (clearCode b).mode = b.mode := by
    unfold clearCode; split <;> exact ⟨⟨rfl, rfl⟩, rfl⟩
  generalize clearCode b = c at *
  have h4 : Clock c (reload i c) ∧ (reload i c).mode = c.mode := by
    unfold reload; split <;> exact ⟨⟨rfl, rfl⟩, rfl⟩
  refine ⟨((h1.trans h2.1).trans h3.1).trans h4.1, fun h => ?_⟩
  rw [h4.2, h3.2] at h
  have := h2.2 h
  rw [h1.1] at this
  exact this

theorem doCurrent_clock (i : In) (s : St) : Clock s (doCurrent i s) ∧
    ((doCurrent i s).mode = s.mode ∨ (doCurrent i s).mode = .fault) := by
  unfold doCurrent
  split
  · exact ⟨⟨rfl, rfl⟩, .inr rfl⟩
  split
  · exact ⟨⟨rfl, rfl⟩, .inr rfl⟩
  unfold drive phaseVoltage
  split
  · exact ⟨⟨rfl, rfl⟩, .inr rfl⟩
  · exact ⟨⟨rfl, rfl⟩, .inl rfl⟩

theorem doPosition_clock (fv fc : Bool) (i : In) (s : St) : Clock s (doPosition fv fc i s) ∧
    ((doPosition fv fc i s).mode = s.mode ∨ (doPosition fv fc i s).mode = .fault) := by
  unfold doPosition
  split
  · split
    · exact doCurrent_clock i s
    · unfold drive phaseVoltage
      split
      · exact ⟨⟨rfl, rfl⟩, .inr rfl⟩
      · exact ⟨⟨rfl, rfl⟩, .inl rfl⟩
  split
  · exact ⟨⟨rfl, rfl⟩, .inr rfl⟩
  split
  · exact ⟨⟨rfl, rfl⟩, .inr rfl⟩
  exact doCurrent_clock i s

theorem doStopped_clock (i : In) (s : St) : Clock s (doStopped i s) ∧
    ((doStopped i s).mode = s.mode ∨ (doStopped i s).mode = .fault) := by
  unfold doStopped
  split
  · exact doCurrent_clock i { s with cooldown := s.cooldown - 1 }
  · exact ⟨⟨rfl, rfl⟩, .inl rfl⟩

/-- The control functions leave the time alone; they keep the mode or raise a
fault, or a calibration ends. -/
theorem dispatch_clock (i : In) (s : St) : Clock s (dispatch i s) ∧
    ((dispatch i s).mode = s.mode ∨ (dispatch i s).mode = .fault ∨
     (dispatch i s).mode = .calibrationComplete ∧ s.mode = .calibrating) := by
  have w : ∀ x : St, (Clock s x ∧ (x.mode = s.mode ∨ x.mode = .fault)) →
      (Clock s x ∧ (x.mode = s.mode ∨ x.mode = .fault ∨
        x.mode = .calibrationComplete ∧ s.mode = .calibrating)) := by
    rintro x ⟨h, h' | h'⟩
    · exact ⟨h, .inl h'⟩
    · exact ⟨h, .inr (.inl h')⟩
  have keep : Clock s s ∧ (s.mode = s.mode ∨ s.mode = .fault) := ⟨⟨rfl, rfl⟩, .inl rfl⟩
  cases hm : s.mode
  case stopped | numModes =>
    have e : dispatch i s = doStopped i s := by unfold dispatch; rw [hm]
    rw [e, ← hm]; exact w _ (doStopped_clock i s)
  case fault =>
    have e : dispatch i s = doFault s := by unfold dispatch; rw [hm]
    rw [e]; exact ⟨⟨rfl, rfl⟩, .inl hm⟩
  case enabling | calibrationComplete | bad =>
    have e : dispatch i s = s := by unfold dispatch; rw [hm]
    rw [e]; exact ⟨⟨rfl, rfl⟩, .inl hm⟩
  case pwm | voltage | voltageFoc =>
    have e : dispatch i s = drive i s := by unfold dispatch; rw [hm]
    rw [e, ← hm]; exact w _ keep
  case voltageDq | current =>
    have e : dispatch i s = doCurrent i s := by unfold dispatch; rw [hm]
    rw [e, ← hm]; exact w _ (doCurrent_clock i s)
  case position | stayWithinBounds =>
    have e : dispatch i s = doPosition s.cur.fixedVoltage s.cur.fixedCurrent i s := by
      unfold dispatch; rw [hm]
    rw [e, ← hm]; exact w _ (doPosition_clock _ _ i s)
  case zeroVelocity =>
    have e : dispatch i s = doPosition false false i s := by unfold dispatch; rw [hm]
    rw [e, ← hm]; exact w _ (doPosition_clock _ _ i s)
  case measureInductance =>
    have e : dispatch i s = drive i (phaseVoltage i s) := by unfold dispatch; rw [hm]
    rw [e, ← hm]
    refine w _ ?_
    unfold drive phaseVoltage
    split
    · exact ⟨⟨rfl, rfl⟩, .inr rfl⟩
    · exact ⟨⟨rfl, rfl⟩, .inl rfl⟩
  case brake =>
    have e : dispatch i s = doBrake s := by unfold dispatch; rw [hm]
    rw [e, ← hm]; exact w _ keep
  case positionTimeout =>
    have e : dispatch i s = doTimeout i s := by unfold dispatch; rw [hm]
    rw [e, ← hm]
    refine w _ ?_
    unfold doTimeout
    split
    · exact doStopped_clock i s
    split
    · exact doPosition_clock _ _ i s
    split
    · exact doPosition_clock _ _ i s
    split
    · exact keep
    · exact doStopped_clock i s
  case calibrating =>
    have e : dispatch i s = doCalibrating i s := by unfold dispatch; rw [hm]
    rw [e]
    unfold doCalibrating
    dsimp only
    split
    · exact ⟨⟨rfl, rfl⟩, .inl hm⟩
    split
    · exact ⟨⟨rfl, rfl⟩, .inr (.inl rfl)⟩
    · exact ⟨⟨rfl, rfl⟩, .inr (.inr ⟨rfl, rfl⟩)⟩

theorem sense_clock (A : Ar) (i : In) (s : St) :
    (sense A i s).timeout = pass A i.period s.left ∧ (sense A i s).left = pass A i.period s.left := by
  have h1 : Clock s (senseCritical i s) := by
    unfold senseCritical; split <;> exact ⟨rfl, rfl⟩
  have h2 : (senseTimeout (senseCritical i s)).timeout = s.left ∧
      (senseTimeout (senseCritical i s)).cur.timeout.isNan = false ∧
      (senseTimeout (senseCritical i s)).cur.timeout.beq (.fin 0) = true := by
    unfold senseTimeout St.left
    rw [← h1.1, ← h1.2]
    generalize senseCritical i s = s at *
    cases h : (s.cur.timeout.isNan || !(s.cur.timeout.beq (.fin 0)))
    · rw [if_neg Bool.false_ne_true, if_neg Bool.false_ne_true]
      simp only [Bool.or_eq_false_iff, Bool.not_eq_false'] at h
      exact ⟨rfl, h.1, h.2⟩
    · rw [if_pos rfl, if_pos rfl]
      exact ⟨rfl, rfl, rfl⟩
  unfold sense
  generalize senseTimeout (senseCritical i s) = a at *
  have h3 : (tick A i a).timeout = pass A i.period a.timeout ∧ (tick A i a).cur = a.cur := by
    unfold tick pass; split <;> exact ⟨rfl, rfl⟩
  refine ⟨by rw [h3.1, h2.1], ?_⟩
  unfold St.left
  rw [h3.2, h2.2.1, h2.2.2, h3.1, h2.1]
  rfl

/-- One cycle takes one period off the time left, and ends in a mode the watchdog is
for only if time remains. -/
theorem cycle_clock (A : Ar) (i : In) {s : St} (hh : s.halted = false) :
    (cycle A i s).left = pass A i.period s.left ∧
    (cycle A i s).cur.mode = s.cur.mode ∧
    ((cycle A i s).halted = false → (cycle A i s).mode.guarded = true →
      expired (pass A i.period s.left) = false) := by
  have h1 := sense_clock A i s
  have hcm : (sense A i s).cur.mode = s.cur.mode := by
    obtain ⟨m, c, t, u, e, -⟩ := sense_keeps A i s
    rw [e]; rfl
  have h2 := changeMode_clock i (sense A i s)
  have hl : ∀ {a b : St}, Clock a b → b.left = a.left := by
    intro a b h
    unfold St.left
    rw [h.1, h.2]
  have hd : decideMode A i s = (if (changeMode i (sense A i s)).halted then
      changeMode i (sense A i s) else judge i (changeMode i (sense A i s))) := decideMode_eq A i s
  have hq : Clock (sense A i s) (decideMode A i s) ∧ ((decideMode A i s).halted = false →
      (decideMode A i s).mode.guarded = true → expired (sense A i s).timeout = false) := by
    rw [hd]
    cases hx : (changeMode i (sense A i s)).halted
    · rw [if_neg Bool.false_ne_true]
      obtain ⟨j1, j2⟩ := judge_clock i (changeMode i (sense A i s))
      exact ⟨h2.trans j1, fun _ h => by rw [← h2.1]; exact j2 h⟩
    · rw [if_pos rfl]
      exact ⟨h2, fun h => by rw [hx] at h; cases h⟩
  unfold cycle
  rw [hh, if_neg Bool.false_ne_true]
  dsimp only
  cases hx : (decideMode A i s).halted
  · rw [if_neg Bool.false_ne_true]
    obtain ⟨d1, d2⟩ := dispatch_clock i (decideMode A i s)
    refine ⟨?_, ?_, fun _ h => ?_⟩
    · rw [hl d1, hl hq.1, h1.2]
    · rw [d1.2, hq.1.2, hcm]
    · rw [← h1.1]
      refine hq.2 hx ?_
      rcases d2 with d2 | d2 | d2
      · rw [← d2]; exact h
      · rw [d2] at h; cases h
      · rw [d2.1] at h; cases h
  · rw [if_pos rfl]
    refine ⟨by rw [hl hq.1, h1.2], by rw [hq.1.2, hcm], fun h => ?_⟩
    rw [hx] at h; cases h

/-- No command is being handed over. -/
def Act.quiet : Act → Bool
  | .load _ => false
  | .result => false
  | .setMode m => m == .fault
  | _ => true

/-- Modes from which the watchdog is reached or has been. -/
def Mode.watched : Mode → Bool
  | .position | .stayWithinBounds | .positionTimeout | .fault => true
  | _ => false

structure Guard (s : St) : Prop where
  mode : s.mode.watched = true
  cur : s.cur.mode.guarded = true
  todo : ∀ b ∈ s.todo, Act.quiet b = true
  halted : s.halted = false

theorem guard_cycle (A : Ar) (i : In) {s : St} (h : Guard s) : Guard (cycle A i s) := by
  have hc : s.cur.mode = .position ∨ s.cur.mode = .stayWithinBounds := by
    have := h.cur
    cases hm : s.cur.mode <;> rw [hm] at this <;> simp [Mode.guarded] at this ⊢
  have hw : ∀ x : Mode, x.watched = true →
      x = .position ∨ x = .stayWithinBounds ∨ x = .positionTimeout ∨ x = .fault := by
    intro x hx
    cases x <;> simp [Mode.watched] at hx ⊢
  obtain ⟨m, c, t, u, e, hm⟩ := sense_keeps A i s
  have hm1 : m.watched = true := by
    rcases hm with ⟨h1, -⟩ | ⟨h1, -⟩
    · rw [h1]; exact h.mode
    · rw [h1]; rfl
  have hch : (changeMode i (s.put m c t u)).halted = false ∧
      (changeMode i (s.put m c t u)).mode.watched = true ∧
      (changeMode i (s.put m c t u)).todo = s.todo := by
    unfold changeMode
    split
    · exact ⟨h.halted, hm1, rfl⟩
    · have : ∀ x, x = Mode.position ∨ x = .stayWithinBounds →
          (activate x i (s.put m c t u)).halted = false ∧
          (activate x i (s.put m c t u)).mode.watched = true ∧
          (activate x i (s.put m c t u)).todo = s.todo := by
        intro x hx
        have en : (enterMode x i (s.put m c t u)).halted = false ∧
          (enterMode x i (s.put m c t u)).mode.watched = true ∧
          (enterMode x i (s.put m c t u)).todo = s.todo := by
          unfold enterMode
          split
          · exact ⟨h.halted, rfl, rfl⟩
          · refine ⟨h.halted, ?_, rfl⟩
            rcases hx with rfl | rfl <;> rfl
        rcases hw m hm1 with rfl | rfl | rfl | rfl
        · exact en
        · exact en
        · exact ⟨h.halted, rfl, rfl⟩
        · exact ⟨h.halted, rfl, rfl⟩
      simp only [put_cur]
      rcases hc with hc | hc
      · rw [hc]; exact this _ (.inl rfl)
      · rw [hc]; exact this _ (.inr rfl)
  have hd : decideMode A i s = judge i (changeMode i (s.put m c t u)) := by
    rw [decideMode_eq, e, hch.1]; rfl
  obtain ⟨j1, j2, -, j4⟩ := judge_cases i (changeMode i (s.put m c t u))
  have hdm : (decideMode A i s).mode.watched = true := by
    rw [hd]
    rcases j4 with j | j | j
    · rw [j]; exact hch.2.1
    · rw [j.1]; rfl
    · rw [j.1]; rfl
  have hdh : (decideMode A i s).halted = false := by rw [hd, j2, hch.1]
  have hdt : (decideMode A i s).todo = s.todo := by rw [hd, j1.todo, hch.2.2]
  have ec : cycle A i s = dispatch i (decideMode A i s) := by
    unfold cycle
    rw [h.halted, if_neg Bool.false_ne_true]
    dsimp only
    rw [hdh, if_neg Bool.false_ne_true]
  have hk : (dispatch i (decideMode A i s)).todo = s.todo ∧
      (dispatch i (decideMode A i s)).halted = false := by
    rcases hw _ hdm with hx | hx | hx | hx
    · obtain ⟨k, -⟩ := dispatch_active i (s := decideMode A i s) (by rw [hx]; rfl)
      exact ⟨k.todo.trans hdt, k.halted.trans hdh⟩
    · obtain ⟨k, -⟩ := dispatch_active i (s := decideMode A i s) (by rw [hx]; rfl)
      exact ⟨k.todo.trans hdt, k.halted.trans hdh⟩
    · obtain ⟨k, -⟩ := dispatch_active i (s := decideMode A i s) (by rw [hx]; rfl)
      exact ⟨k.todo.trans hdt, k.halted.trans hdh⟩
    · have : dispatch i (decideMode A i s) = doFault (decideMode A i s) := by
        unfold dispatch; rw [hx]
      rw [this]
      exact ⟨hdt, hdh⟩
  constructor
  · rw [ec]
    rcases (dispatch_clock i (decideMode A i s)).2 with d | d | d
    · rw [d]; exact hdm
    · rw [d]; rfl
    · rw [d.2] at hdm; cases hdm
  · rw [(cycle_clock A i h.halted).2.1]; exact h.cur
  · rw [ec, hk.1]; exact h.todo
  · rw [ec]; exact hk.2

/-- What happens besides cycles and commands takes no time, and can only end in a
fault. -/
theorem guard_exec (A : Ar) {s : St} {e : Ev} (h : Guard s) (he : e.isCommand = false)
    (hc : e.isCycle = false) :
    Guard (exec A s e) ∧ (exec A s e).left = s.left ∧
    ((exec A s e).mode = s.mode ∨ (exec A s e).mode = .fault) := by
  have me : s.mode ≠ .enabling := by
    intro x
    have := h.mode
    rw [x] at this; cases this
  cases e with
  | cycle i => simp [Ev.isCycle] at hc
  | command c k => simp [Ev.isCommand] at he
  | step =>
    simp only [exec, h.halted]
    rw [if_neg Bool.false_ne_true]
    cases hs : s.todo with
    | nil => exact ⟨h, rfl, .inl rfl⟩
    | cons a rest =>
      have ha := h.todo a (by rw [hs]; simp)
      have hr : ∀ b ∈ rest, Act.quiet b = true := fun b hb => h.todo b (by rw [hs]; simp [hb])
      simp only
      cases a with
      | readMode e c =>
        refine ⟨⟨h.mode, h.cur, ?_, h.halted⟩, rfl, .inl rfl⟩
        simp only [act, me]
        exact hr
      | advance e c =>
        refine ⟨⟨h.mode, h.cur, fun b hb => ?_, h.halted⟩, rfl, .inl rfl⟩
        simp only [act, List.mem_append] at hb
        rcases hb with hb | hb
        · have : ∀ (d : Drv) (e c : Bool), ∀ b ∈ enableActs d e c, Act.quiet b = true := by
            intro d e c
            cases d <;> cases e <;> cases c <;> decide
          exact this _ _ _ b hb
        · exact hr b hb
      | result => simp [Act.quiet] at ha
      | load c => simp [Act.quiet] at ha
      | setMode m =>
        have : m = .fault := by simpa [Act.quiet] using ha
        subst this
        exact ⟨⟨rfl, h.cur, hr, h.halted⟩, rfl, .inr rfl⟩
      | _ => exact ⟨⟨h.mode, h.cur, hr, h.halted⟩, rfl, .inl rfl⟩
  | poll e c =>
    simp only [exec]
    split
    · exact ⟨h, rfl, .inl rfl⟩
    · refine ⟨⟨h.mode, h.cur, fun b hb => ?_, h.halted⟩, rfl, .inl rfl⟩
      simp only [List.mem_singleton] at hb
      rw [hb]; rfl
  | raise c =>
    simp only [exec]
    split
    · exact ⟨h, rfl, .inl rfl⟩
    · split
      · exact ⟨⟨rfl, h.cur, h.todo, h.halted⟩, rfl, .inr rfl⟩
      · exact ⟨h, rfl, .inl rfl⟩

/-- The time that is left after `n` more cycles is `pass` taken `n` times, and a mode
the watchdog is for remains after at least one cycle only if it is not up. -/
theorem guard_run (A : Ar) (p : Fl) (evs : List Ev) {s : St} (h : Guard s)
    (he : ∀ e ∈ evs, Ev.isCommand e = false)
    (hp : ∀ e ∈ evs, ∀ i, e = .cycle i → i.period = p) :
    Guard (run A s evs) ∧ (run A s evs).left = (pass A p)^[cycles evs] s.left ∧
    (1 ≤ cycles evs → (run A s evs).mode.guarded = true →
      expired ((pass A p)^[cycles evs] s.left) = false) := by
  induction evs using List.reverseRecOn with
  | nil => exact ⟨h, rfl, fun x => by simp [cycles] at x⟩
  | append_singleton evs e ih =>
    obtain ⟨g, l, w⟩ := ih (fun e' h' => he e' (by simp [h'])) (fun e' h' => hp e' (by simp [h']))
    have er : run A s (evs ++ [e]) = exec A (run A s evs) e := by
      rw [run_append]; rfl
    rw [er]
    cases hc : e.isCycle
    · have en : cycles (evs ++ [e]) = cycles evs := by
        simp [cycles, List.countP_append, hc]
      rw [en]
      obtain ⟨x, y, z⟩ := guard_exec A g (he e (by simp)) hc
      refine ⟨x, y.trans l, fun h1 h2 => w h1 ?_⟩
      rcases z with z | z
      · rw [← z]; exact h2
      · rw [z] at h2; cases h2
    · have en : cycles (evs ++ [e]) = cycles evs + 1 := by
        simp [cycles, List.countP_append, hc]
      cases e with
      | cycle i =>
        have hpi := hp (.cycle i) (by simp) i rfl
        obtain ⟨c1, -, c3⟩ := cycle_clock A i g.halted
        have gc := guard_cycle A i g
        rw [hpi, l, ← Function.iterate_succ_apply' (pass A p)] at c1
        rw [hpi, l, ← Function.iterate_succ_apply' (pass A p)] at c3
        rw [en]
        exact ⟨gc, c1, fun _ h2 => c3 gc.halted h2⟩
      | _ => simp [Ev.isCycle] at hc

/-- Every cycle takes at least `d` off a time of at most `T`. -/
def Drops (A : Ar) (p d T : ℚ) : Prop :=
  ∀ x : ℚ, A.Rep x → 0 < x → x ≤ T →
    ∃ y : ℚ, A.rnd (x - p) = .fin y ∧ A.Rep y ∧ y ≤ x - d

theorem pass_drops {p d T : ℚ} (rz : A.Rep 0) (h : Drops A p d T) (hd : 0 ≤ d) (n : ℕ) {t : ℚ}
    (rt : A.Rep t) (ht : t ≤ T) :
    ∃ y : ℚ, (pass A (.fin p))^[n] (.fin t) = .fin y ∧ A.Rep y ∧
      (y ≤ 0 ∨ 0 < y ∧ y ≤ t - n * d) := by
  induction n with
  | zero =>
    refine ⟨t, rfl, rt, ?_⟩
    rcases le_or_gt t 0 with h' | h'
    · exact .inl h'
    · exact .inr ⟨h', by simp⟩
  | succ n ih =>
    obtain ⟨y, e, ry, hy⟩ := ih
    rw [Function.iterate_succ_apply', e]
    unfold pass
    rw [Fl.blt_fin]
    rcases hy with hy | ⟨h0, hy⟩
    · refine ⟨y, ?_, ry, .inl hy⟩
      rw [decide_eq_false (not_lt.2 hy)]
      rfl
    · rw [decide_eq_true h0]
      have hn : (0 : ℚ) ≤ n * d := mul_nonneg (Nat.cast_nonneg n) hd
      obtain ⟨z, hz, rz', hzd⟩ := h y ry h0 (by linarith)
      rw [sub_fin, hz, Fl_max_fin]
      refine ⟨max 0 z, by rfl, ?_, ?_⟩
      · rcases max_cases 0 z with ⟨e, -⟩ | ⟨e, -⟩ <;> rw [e]
        · exact rz
        · exact rz'
      · rcases le_or_gt z 0 with h' | h'
        · exact .inl (by rw [max_eq_left h'])
        · refine .inr ⟨by rw [max_eq_right h'.le]; exact h', ?_⟩
          rw [max_eq_right h'.le]
          push_cast
          linarith

/-- If no command arrives the mode is left for the timeout mode (or fault) after at
most as many cycles as it takes to use up the time. -/
theorem expires {p d T : ℚ} (rz : A.Rep 0) (h : Drops A p d T) (hd : 0 ≤ d) (evs : List Ev)
    {s : St} (g : Guard s) (he : ∀ e ∈ evs, Ev.isCommand e = false)
    (hp : ∀ e ∈ evs, ∀ i, e = .cycle i → i.period = .fin p) {t : ℚ} (rt : A.Rep t)
    (hs : s.left = .fin t) (ht : t ≤ T) (h1 : 1 ≤ cycles evs) (hn : t ≤ cycles evs * d) :
    (run A s evs).mode = .positionTimeout ∨ (run A s evs).mode = .fault := by
  obtain ⟨g', -, w⟩ := guard_run A (.fin p) evs g he hp
  obtain ⟨y, e, -, hy⟩ := pass_drops rz h hd (cycles evs) rt ht
  have hy0 : y ≤ 0 := by
    rcases hy with hy | hy
    · exact hy
    · linarith [hy.1, hy.2]
  have hx : expired ((pass A (.fin p))^[cycles evs] s.left) = true := by
    rw [hs, e]
    unfold expired
    rw [Fl.ble_fin, decide_eq_true hy0]
    rfl
  have hng : (run A s evs).mode.guarded ≠ true := by
    intro h2
    rw [w h1 h2] at hx
    cases hx
  have hw := g'.mode
  cases hm : (run A s evs).mode <;> rw [hm] at hw hng <;> simp [Mode.watched, Mode.guarded] at hw hng ⊢

/-- **C33.**  In exact arithmetic: in a position type mode with `t` seconds left, when
no command arrives for `n` cycles of `p` seconds with `n ≥ t / p`, the controller
is in timeout mode or in fault, whatever the sensor readings and however the main
loop's polls and fault reports fall between the cycles. -/
theorem C33_expires_exact {p t : ℚ} (hp : 0 ≤ p) (evs : List Ev) {s : St} (g : Guard s)
    (he : ∀ e ∈ evs, Ev.isCommand e = false)
    (hi : ∀ e ∈ evs, ∀ i, e = .cycle i → i.period = .fin p)
    (hs : s.left = .fin t) (h1 : 1 ≤ cycles evs) (hn : t ≤ cycles evs * p) :
    (run .exact s evs).mode = .positionTimeout ∨ (run .exact s evs).mode = .fault := by
  refine expires (T := t) (d := p) ⟨rfl, rfl⟩ ?_ hp evs g he hi ⟨rfl, rfl⟩ hs le_rfl h1 hn
  intro x _ _ _
  exact ⟨x - p, rfl, ⟨rfl, rfl⟩, le_rfl⟩

/-- One rounding costs at most half of `2^k` when the number is at most `2^(24+k)`. -/
theorem rnd_unit_error (hA : A.Law2) {k : ℤ} (k1 : -100 ≤ k) (k2 : k ≤ 0) {x : ℚ}
    (h : |x| ≤ 16777216 * pow2 k) :
    ∃ y, A.rnd x = .fin y ∧ A.Rep y ∧ |y - x| ≤ pow2 k / 2 := by
  have hp := pow2_pos k
  have rt : A.Rep (16777216 * pow2 k) := by
    have := hA.unscale (n := 16777216) (k := k) (by norm_num) k1 k2
    exact_mod_cast this
  obtain ⟨q, e, rq, -, -⟩ := rnd_between hA (hA.rep_neg rt) rt (abs_le.mp h).1 (abs_le.mp h).2
  refine ⟨q, e, rq, ?_⟩
  have hq : A.rq x = q := by
    unfold Ar.rnd at e
    split at e
    · cases e
    · injection e
  rw [← hq]
  have f1 := floor_le' (x / pow2 k + 1 / 2)
  have f2 := lt_floor_succ' (x / pow2 k + 1 / 2)
  generalize hn : (x / pow2 k + 1 / 2).floor = n at *
  have hx : |x / pow2 k| ≤ 16777216 := by
    rw [abs_div, abs_of_pos hp, div_le_iff₀ hp]; exact h
  rw [abs_le] at hx
  have b1 : n ≤ 2 ^ 24 := by
    have : (n : ℚ) < 16777217 := by linarith
    have : n < 16777217 := by exact_mod_cast this
    omega
  have b2 : -(2 ^ 24) ≤ n := by
    have : (-16777217 : ℚ) < n := by linarith
    have : (-16777217 : ℤ) < n := by exact_mod_cast this
    omega
  have r := hA.unscale (n := n) (k := k) (abs_le.mpr ⟨b2, b1⟩) k1 k2
  refine (hA.nearest r x).trans ?_
  have ex : x = x / pow2 k * pow2 k := by field_simp
  generalize x / pow2 k = z at *
  rw [ex, ← sub_mul, abs_mul, abs_of_pos hp]
  have : |(n : ℚ) - z| ≤ 1 / 2 := by rw [abs_le]; constructor <;> linarith
  nlinarith

/-- **C33.**  In any arithmetic (binary32 in particular) with `t` seconds left and a
period of `p` seconds, both at most `2^(24+k)`, the watchdog acts after at most
`t / (p - 2^k / 2)` cycles. -/
theorem C33_expires_partial (hA : A.Law2) {k : ℤ} (k1 : -100 ≤ k) (k2 : k ≤ 0) {p t : ℚ}
    (hp : pow2 k / 2 ≤ p) (hp' : p ≤ 16777216 * pow2 k) (evs : List Ev) {s : St} (g : Guard s)
    (he : ∀ e ∈ evs, Ev.isCommand e = false)
    (hi : ∀ e ∈ evs, ∀ i, e = .cycle i → i.period = .fin p)
    (rt : A.Rep t) (ht : t ≤ 16777216 * pow2 k)
    (hs : s.left = .fin t) (h1 : 1 ≤ cycles evs) (hn : t ≤ cycles evs * (p - pow2 k / 2)) :
    (run A s evs).mode = .positionTimeout ∨ (run A s evs).mode = .fault := by
  have h0 := pow2_pos k
  refine expires (T := 16777216 * pow2 k) (d := p - pow2 k / 2) hA.toLaw.rep_zero ?_ (by linarith)
    evs g he hi rt hs ht h1 hn
  intro x _ x0 x1
  obtain ⟨y, e, ry, hy⟩ := rnd_unit_error hA k1 k2 (x := x - p)
    (abs_le.mpr ⟨by linarith, by linarith⟩)
  refine ⟨y, e, ry, ?_⟩
  have := (abs_le.mp hy).2
  linarith

/-- The timeout mode is left only for a fault, in every run without a stop command. -/
theorem exec_timeout (A : Ar) {s : St} {e : Ev} (h : s.mode = .positionTimeout)
    (hc : s.cur.mode ≠ .stopped) (ht : ∀ b ∈ s.todo, Act.harmless b = true)
    (he : e.noStop = true) :
    ((exec A s e).mode = .positionTimeout ∨ (exec A s e).mode = .fault) ∧
    (exec A s e).cur.mode ≠ .stopped ∧
    (∀ b ∈ (exec A s e).todo, Act.harmless b = true) := by
  cases e with
  | cycle i =>
    simp only [exec]
    cases hh : s.halted
    swap
    · have : cycle A i s = s := by simp [cycle, hh]
      rw [this]
      exact ⟨.inl h, hc, ht⟩
    obtain ⟨m, c, t, u, e, hm⟩ := sense_keeps A i s
    have hmm : m = .positionTimeout ∨ m = .fault := by
      rcases hm with ⟨h1, -⟩ | ⟨h1, -⟩
      · exact .inl (h1.trans h)
      · exact .inr h1
    have hch : ((changeMode i (s.put m c t u)).mode = .positionTimeout ∨
        (changeMode i (s.put m c t u)).mode = .fault) ∧
        (changeMode i (s.put m c t u)).todo = s.todo := by
      have ha : ∀ x : Mode, ((activate x i (s.put m c t u)).mode = .positionTimeout ∨
          (activate x i (s.put m c t u)).mode = .fault) ∧
          (activate x i (s.put m c t u)).todo = s.todo := by
        intro x
        rcases hmm with rfl | rfl
        · exact ⟨.inl rfl, rfl⟩
        · exact ⟨.inr rfl, rfl⟩
      unfold changeMode
      split
      · exact ⟨hmm, rfl⟩
      · simp only [put_cur]
        cases hq : s.cur.mode <;> simp only [hq, ne_eq, not_true_eq_false] at hc <;>
          first | exact ha _ | exact ⟨hmm, rfl⟩
    have hd : ((decideMode A i s).mode = .positionTimeout ∨ (decideMode A i s).mode = .fault) ∧
        (decideMode A i s).todo = s.todo := by
      rw [decideMode_eq, e]
      split
      · exact hch
      · obtain ⟨j1, -, -, j4⟩ := judge_cases i (changeMode i (s.put m c t u))
        refine ⟨?_, j1.todo.trans hch.2⟩
        rcases j4 with j | j | j
        · rw [j]; exact hch.1
        · exact .inr j.1
        · exact .inl j.1
    have hx : ((cycle A i s).mode = .positionTimeout ∨ (cycle A i s).mode = .fault) ∧
        (cycle A i s).todo = s.todo := by
      unfold cycle
      rw [hh, if_neg Bool.false_ne_true]
      dsimp only
      split
      · exact hd
      · rcases hd.1 with h1 | h1
        · obtain ⟨k1, k2, -⟩ := dispatch_active i (s := decideMode A i s) (by rw [h1]; rfl)
          refine ⟨?_, k1.todo.trans hd.2⟩
          rcases k2 with k2 | k2
          · exact .inl (k2.1.trans h1)
          · exact .inr k2.1
        · have : dispatch i (decideMode A i s) = doFault (decideMode A i s) := by
            unfold dispatch; rw [h1]
          rw [this]
          exact ⟨.inr h1, hd.2⟩
    refine ⟨hx.1, ?_, ?_⟩
    · rw [(cycle_clock A i hh).2.1]; exact hc
    · rw [hx.2]; exact ht
  | step =>
    simp only [exec]
    split
    · exact ⟨.inl h, hc, ht⟩
    cases hs : s.todo with
    | nil => exact ⟨.inl h, hc, ht⟩
    | cons a rest =>
      have ha := ht a (by rw [hs]; simp)
      have hr : ∀ b ∈ rest, Act.harmless b = true := fun b hb => ht b (by rw [hs]; simp [hb])
      simp only
      cases a with
      | readMode e c =>
        refine ⟨.inl h, hc, ?_⟩
        simp only [act, h]
        exact hr
      | advance e c =>
        refine ⟨.inl h, hc, fun b hb => ?_⟩
        simp only [act, List.mem_append] at hb
        rcases hb with hb | hb
        · exact enableActs_harmless _ _ _ b hb
        · exact hr b hb
      | result => simp [Act.harmless] at ha
      | setMode m =>
        have : m = .fault := by simpa [Act.harmless] using ha
        exact ⟨.inr this, hc, hr⟩
      | load c =>
        have : c.mode ≠ .stopped := by simpa [Act.harmless] using ha
        exact ⟨.inl h, this, hr⟩
      | _ => exact ⟨.inl h, hc, hr⟩
  | command c k =>
    simp only [exec]
    split
    · exact ⟨.inl h, hc, ht⟩
    · refine ⟨.inl h, hc, fun b hb => ?_⟩
      have hs : c.cmd.mode ≠ .stopped := by simpa [Ev.noStop] using he
      have : ∀ b ∈ commandActs c k, Act.harmless b = true := by
        unfold commandActs
        split
        · simp
        · have hl : Act.harmless (.load (loaded c k)) = true := by simp [Act.harmless, loaded, hs]
          cases stopRefused c k <;> cases bemfRefused c k <;> simp [Act.harmless] <;>
            simpa [Act.harmless] using hl
      exact this b hb
  | poll e c =>
    simp only [exec]
    split
    · exact ⟨.inl h, hc, ht⟩
    · refine ⟨.inl h, hc, fun b hb => ?_⟩
      simp only [List.mem_singleton] at hb
      rw [hb]; rfl
  | raise c =>
    simp only [exec]
    split
    · exact ⟨.inl h, hc, ht⟩
    · split
      · exact ⟨.inr rfl, hc, ht⟩
      · exact ⟨.inl h, hc, ht⟩

/-- **C33.**  Once in timeout mode the controller stays there, or goes into fault,
whatever happens, until a stop command. -/
theorem C33_no_return (A : Ar) (evs : List Ev) {s : St}
    (h : s.mode = .positionTimeout ∨ s.mode = .fault)
    (hc : s.cur.mode ≠ .stopped) (ht : ∀ b ∈ s.todo, Act.harmless b = true)
    (he : ∀ e ∈ evs, Ev.noStop e = true) :
    (run A s evs).mode = .positionTimeout ∨ (run A s evs).mode = .fault := by
  induction evs generalizing s with
  | nil => exact h
  | cons e evs ih =>
    have hx : ((exec A s e).mode = .positionTimeout ∨ (exec A s e).mode = .fault) ∧
        (exec A s e).cur.mode ≠ .stopped ∧ (∀ b ∈ (exec A s e).todo, Act.harmless b = true) := by
      rcases h with h | h
      · exact exec_timeout A h hc ht (he e (by simp))
      · obtain ⟨x, y⟩ := exec_fault A h hc ht (he e (by simp))
        exact ⟨.inr x, y⟩
    rw [run_cons]
    exact ih hx.1 hx.2.1 hx.2.2 fun e' h' => he e' (by simp [h'])

/-- The period of the 30 kHz control rate in binary32. -/
def rate30 : In := { okIn with period := .fin (9162597 / 274877906944) }

example : Ar.single.rnd (1 / 30000) = rate30.period := by decide +kernel

/-- A command to hold a position for `t` seconds. -/
def hold (t : Fl) : CmdIn := { ask .position with cmd := ⟨.position, t, false, false, false⟩ }

/-- The hypotheses of `C33_expires_partial` after a command with a tenth of a second,
of which 2^-27 is a suitable unit: the bound is 3001 cycles. -/
example :
    let s := runWhole Ar.single {} (startUp .position ++ [.command (hold (.fin (13421773 / 134217728)))
      okCfg])
    s.mode.watched = true ∧ s.cur.mode.guarded = true ∧ s.todo = [] ∧ s.halted = false ∧
    s.left = .fin (13421773 / 134217728) ∧
    Ar.single.rnd (1 / 10) = .fin (13421773 / 134217728) ∧
    (13421773 / 134217728 : ℚ) ≤ 16777216 * pow2 (-27) ∧
    pow2 (-27) / 2 ≤ (9162597 / 274877906944 : ℚ) ∧
    (13421773 / 134217728 : ℚ) ≤ 3001 * (9162597 / 274877906944 - pow2 (-27) / 2) := by
  rw [← runWholeF_eq]
  decide +kernel

/-- It does act: with two periods left the second cycle ends in timeout mode. -/
example : (runWhole Ar.single {} (startUp .position ++
      [.command (hold (.fin (9162597 / 137438953472))) okCfg, .cycle rate30])).mode = .position ∧
    (runWhole Ar.single {} (startUp .position ++
      [.command (hold (.fin (9162597 / 137438953472))) okCfg, .cycle rate30, .cycle rate30])).mode
      = .positionTimeout := by
  rw [← runWholeF_eq, ← runWholeF_eq]
  decide +kernel

/-- The state in position mode after a command with a time of `t`. -/
def holding (t : Fl) : St :=
  runWhole Ar.single {} (startUp .position ++ [.command (hold t) okCfg, .cycle rate30])

theorem run_fixed {A : Ar} {i : In} {s : St} (h : cycle A i s = s) (n : ℕ) :
    run A s (List.replicate n (.cycle i)) = s := by
  induction n with
  | zero => rfl
  | succ n ih =>
    rw [List.replicate_succ, run_cons]
    show run A (cycle A i s) _ = _
    rw [h, ih]

/-- **C33 is violated for long times.**  After a command with a timeout of 2048
seconds at 30 kHz the watchdog never acts, because taking one period off such a
time leaves it as it is. -/
theorem C33_long_refuted (n : ℕ) :
    (run Ar.single (holding (.fin 2048)) (List.replicate n (.cycle rate30))).mode = .position ∧
    (run Ar.single (holding (.fin 2048)) (List.replicate n (.cycle rate30))).power = true := by
  rw [run_fixed]
  · unfold holding
    rw [← runWholeF_eq]
    decide +kernel
  · unfold holding
    rw [← runWholeF_eq]
    decide +kernel

/-- **C33 is violated for an infinite time**, which is not the documented NaN. -/
theorem C33_infinite_refuted (n : ℕ) :
    (run Ar.single (holding (.inf false)) (List.replicate n (.cycle rate30))).mode = .position := by
  rw [run_fixed]
  · unfold holding
    rw [← runWholeF_eq]
    decide +kernel
  · unfold holding
    rw [← runWholeF_eq]
    decide +kernel

/-- NaN disables the watchdog. -/
theorem C33_disabled (n : ℕ) :
    (run Ar.single (holding .nan) (List.replicate n (.cycle rate30))).mode = .position := by
  rw [run_fixed]
  · unfold holding
    rw [← runWholeF_eq]
    decide +kernel
  · unfold holding
    rw [← runWholeF_eq]
    decide +kernel

end Verif.Fw
