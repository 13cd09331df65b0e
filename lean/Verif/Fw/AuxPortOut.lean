import Verif.Fw.AuxPortProps

/-!
# Digital outputs, the debug UART and changes while interrupts run
-/

namespace Verif.Fw.Aux

open Flow

/-! ## Digital inputs and outputs -/

/-- The level last written for pin `i` since a configuration was taken. -/
def lastOut (i : Nat) : List Op → Bool
  | [] => false
  | os@(_ :: _) =>
    match os.reverse.findSome? fun | .out v => some (v.testBit i) | _ => none with
    | some b => b
    | none => false

theorem lastOut_append (i : Nat) (ops : List Op) (o : Op) :
    lastOut i (ops ++ [o]) = match o with
      | .out v => v.testBit i
      | _ => lastOut i ops := by
  cases ops with
  | nil => cases o <;> simp [lastOut]
  | cons a ops => cases o <;> simp [lastOut]

theorem addBoth_pins {b t s s'} (h : (addBoth b t s).st = some s') :
    s'.pins = s.pins ∧ s'.cfg = s.cfg := by
  unfold addBoth at h
  split at h
  · split at h
    · simp [Flow.st] at h
    · unfold addFin at h
      rw [if_pos rfl] at h
      split at h
      · simp [Flow.st] at h
      · simp only [Flow.st, Option.some.injEq] at h; subst h; exact ⟨rfl, rfl⟩
  · simp only [Flow.st, Option.some.injEq] at h; subst h; exact ⟨rfl, rfl⟩

theorem startAs_pins {ms s s'} (h : startAs ms s = some s') :
    s'.pins = s.pins ∧ s'.cfg = s.cfg := by
  unfold startAs at h
  split at h
  · have := addBoth_pins h; exact this
  · simp only [Option.some.injEq] at h; subst h; exact ⟨rfl, rfl⟩

theorem startMa_pins {ms e s s'} (h : startMa ms e s = some s') :
    s'.pins = s.pins ∧ s'.cfg = s.cfg := by
  unfold startMa at h
  split at h
  · split at h
    · simp only [Option.some.injEq] at h; subst h; exact ⟨rfl, rfl⟩
    · have := addBoth_pins h; exact this
  · simp only [Option.some.injEq] at h; subst h; exact ⟨rfl, rfl⟩

theorem pollMs_pins {ms e s s'} (h : pollMs ms e s = some s') :
    s'.pins = s.pins ∧ s'.cfg = s.cfg := by
  simp only [pollMs, Option.bind_eq_some_iff] at h
  obtain ⟨m, h1, h2⟩ := h
  obtain ⟨a, b⟩ := startAs_pins h1
  obtain ⟨a', b'⟩ := startMa_pins h2
  exact ⟨a'.trans a, b'.trans b⟩

theorem pins_run {hw pm c} {i : Fin 5} (ops : List Op) : ∀ {pre s s'}, s.cfg = c →
    (c.pins i).mode = .dOut → s.pins i = lastOut i pre → NoUpdate ops →
    run hw pm s ops = some s' → s'.cfg = c ∧ s'.pins i = lastOut i (pre ++ ops) := by
  induction ops with
  | nil =>
    intro pre s s' hc _ hp _ hr
    simp only [run, Option.some.injEq] at hr
    subst hr
    simpa using ⟨hc, hp⟩
  | cons o ops ih =>
    intro pre s s' hc hm hp hn hr
    simp only [run, Option.bind_eq_some_iff] at hr
    obtain ⟨m, hs, hr⟩ := hr
    have hn' : NoUpdate ops := fun c mk hc => hn c mk (List.mem_cons_of_mem _ hc)
    have : m.cfg = c ∧ m.pins i = lastOut i (pre ++ [o]) := by
      rw [lastOut_append]
      cases o with
      | update c mk => exact absurd (by simp) (hn c mk)
      | poll ms e =>
        obtain ⟨a, b⟩ := pollMs_pins hs
        exact ⟨b.trans hc, by rw [a]; exact hp⟩
      | cycle input =>
        simp only [step, Option.map_eq_some_iff] at hs
        obtain ⟨⟨m', l, l'⟩, h', rfl⟩ := hs
        rcases finish_st (cycle_some h').2 with rfl | rfl
        · exact ⟨hc, hp⟩
        · refine ⟨hc, ?_⟩
          simp only [gpio, hc, hm]
          simpa using hp
      | out v =>
        simp only [step, Option.some.injEq] at hs
        subst hs
        refine ⟨hc, ?_⟩
        simp [writeOut, hc, hm]
    have := ih (pre := pre ++ [o]) this.1 hm this.2 hn' hr
    simpa using this

/-- After a configuration that reports no error, each control cycle drives
every digital output to the level last written (low before that), and reports
every digital input as it is. -/
theorem C91_levels (hw : Hw) (pm : PinMap) (s0 s1 s s' : St) (c : Cfg) (mk : Mk) (ops : List Op)
    (input : Fin 5 → Bool) (l l' : List ST)
    (h1 : step hw pm s0 (.update c mk) = some s1) (he : s1.error = .none)
    (hn : NoUpdate ops) (hr : run hw pm s1 ops = some s)
    (hc : cycle input s = some (s', l, l')) (i : Fin 5) :
    ((c.pins i).mode = .dOut → s'.line i = lastOut i ops ∧ s'.pins i = lastOut i ops) ∧
      ((c.pins i).mode = .dIn → s'.pins i = input i) := by
  have ht := update_taken h1 he
  have tr := track_run (pre := []) ops (taken_track ht) hn hr
  have hg : (c.pins i).mode = .dOut ∨ (c.pins i).mode = .dIn → s' = gpio input s := by
    intro hm
    have := (C91_sampled hw pm s0 s1 s s' c mk ops input l l' h1 he hn hr hc .gpio).1
      ⟨⟨i, by tauto⟩, trivial⟩
    have hin : ST.gpio ∈ l' := List.count_pos_iff.1 (by omega)
    have hf := (cycle_some hc).2
    unfold isrFinish at hf
    split at hf
    · split at hf
      · simp at hf
      split at hf
      · simp only [Option.some.injEq, Prod.mk.injEq] at hf
        obtain ⟨rfl, rfl⟩ := hf
        rw [if_pos hin]
      · simp at hf
    · simp only [Option.some.injEq, Prod.mk.injEq] at hf
      obtain ⟨-, rfl⟩ := hf
      simp at hin
  constructor
  · intro hm
    obtain ⟨hcf, hp⟩ := pins_run (pre := []) ops ht.cfg hm (by rw [ht.pins]; rfl) hn hr
    simp only [List.nil_append] at hp
    rw [hg (Or.inl hm)]
    simp [gpio, hcf, hm, hp]
  · intro hm
    have hcf : s.cfg = c := by rw [tr.cfg, ht.cfg]
    rw [hg (Or.inr hm)]
    simp [gpio, hcf, hm]

/-- Pin 2 of the second port is an output, pin 3 an input. -/
def outCfg (p : Pull) : Cfg :=
  { spi := .disabled, pins := fun i => if i.val = 2 then { mode := .dOut, pull := p } else
      if i.val = 3 then { mode := .dIn } else {} }

example : ∃ s1 s q, step aux2Family0 (fun _ _ _ => none) {} (.update (outCfg .none) {}) = some s1 ∧
    s1.error = .none ∧ run aux2Family0 (fun _ _ _ => none) s1 [.out 4, .poll 1 false] = some s ∧
    cycle (fun _ => true) s = some q ∧ q.1.line 2 = true ∧ q.1.pins 3 = true := by
  obtain ⟨s1, e1, hp⟩ := wit (o := step aux2Family0 (fun _ _ _ => none) {}
      (.update (outCfg .none) {}))
    (fun s1 => decide (s1.error = .none) &&
      (run aux2Family0 (fun _ _ _ => none) s1 [.out 4, .poll 1 false]).elim false fun s =>
        (cycle (fun _ => true) s).elim false fun q => q.1.line 2 && q.1.pins 3)
    (by decide +kernel)
  rw [Bool.and_eq_true, decide_eq_true_eq] at hp
  obtain ⟨he, hp⟩ := hp
  obtain ⟨s, e2, hp⟩ := wit _ hp
  obtain ⟨q, e3, hp⟩ := wit _ hp
  exact ⟨s1, s, q, e1, he, e2, e3, by simpa using hp⟩

/-- An output is not low until something is written: with a pull direction
configured it is driven high from the configuration to the next cycle. -/
theorem C91_first_level_refuted :
    ¬ ∀ hw ∈ boards, ∀ pm s0 s1 c mk i, step hw pm s0 (.update c mk) = some s1 →
      s1.error = .none → (c.pins i).mode = .dOut → s1.line i = false := by
  intro h
  obtain ⟨s1, e1, hp⟩ := wit (o := step aux2Family0 (fun _ _ _ => none) {}
      (.update (outCfg .down) {}))
    (fun s1 => decide (s1.error = .none) && s1.line 2) (by decide +kernel)
  rw [Bool.and_eq_true, decide_eq_true_eq] at hp
  have := h aux2Family0 (by simp [boards]) _ _ _ _ _ 2 e1 hp.1 (by decide)
  rw [hp.2] at this
  exact absurd this (by simp)

/-- Without a pull direction it is low from the start. -/
theorem C91_first_level_partial (hw : Hw) (pm : PinMap) (s0 s1 : St) (c : Cfg) (mk : Mk)
    (h1 : step hw pm s0 (.update c mk) = some s1) (he : s1.error = .none) (i : Fin 5)
    (hp : (c.pins i).pull = .none) : s1.line i = false := by
  rw [(update_taken h1 he).line]
  simp [hp]

/-! ## The debug UART -/

theorem poll_uart {ms e s s'} (h : pollMs ms e s = some s') :
    s'.uart = s.uart ∧ s'.cfg = s.cfg := by
  have hb : ∀ {b t s s'}, (addBoth b t s).st = some s' → s'.uart = s.uart ∧ s'.cfg = s.cfg := by
    intro b t s s' h
    unfold addBoth at h
    split at h
    · split at h
      · simp [Flow.st] at h
      · unfold addFin at h
        rw [if_pos rfl] at h
        split at h
        · simp [Flow.st] at h
        · simp only [Flow.st, Option.some.injEq] at h; subst h; exact ⟨rfl, rfl⟩
    · simp only [Flow.st, Option.some.injEq] at h; subst h; exact ⟨rfl, rfl⟩
  simp only [pollMs, Option.bind_eq_some_iff] at h
  obtain ⟨m, h1, h2⟩ := h
  have a : m.uart = s.uart ∧ m.cfg = s.cfg := by
    unfold startAs at h1
    split at h1
    · have := hb h1; exact this
    · simp only [Option.some.injEq] at h1; subst h1; exact ⟨rfl, rfl⟩
  have b : s'.uart = m.uart ∧ s'.cfg = m.cfg := by
    unfold startMa at h2
    split at h2
    · split at h2
      · simp only [Option.some.injEq] at h2; subst h2; exact ⟨rfl, rfl⟩
      · have := hb h2; exact this
    · simp only [Option.some.injEq] at h2; subst h2; exact ⟨rfl, rfl⟩
  exact ⟨b.1.trans a.1, b.2.trans a.2⟩

theorem uart_run {hw pm} (ops : List Op) : ∀ {s s'}, NoUpdate ops →
    run hw pm s ops = some s' → s'.cfg = s.cfg ∧ s'.uart = s.uart := by
  induction ops with
  | nil =>
    intro s s' _ hr
    simp only [run, Option.some.injEq] at hr
    subst hr
    exact ⟨rfl, rfl⟩
  | cons o ops ih =>
    intro s s' hn hr
    simp only [run, Option.bind_eq_some_iff] at hr
    obtain ⟨m, hs, hr⟩ := hr
    have hn' : NoUpdate ops := fun c mk hc => hn c mk (List.mem_cons_of_mem _ hc)
    obtain ⟨a, b⟩ := ih hn' hr
    have : m.cfg = s.cfg ∧ m.uart = s.uart := by
      cases o with
      | update c mk => exact absurd (by simp) (hn c mk)
      | poll ms e => exact (poll_uart hs).symm
      | cycle input =>
        simp only [step, Option.map_eq_some_iff] at hs
        obtain ⟨⟨m', l, l'⟩, h', rfl⟩ := hs
        rcases finish_st (cycle_some h').2 with rfl | rfl
        · exact ⟨rfl, rfl⟩
        · exact ⟨rfl, rfl⟩
      | out v =>
        simp only [step, Option.some.injEq] at hs
        subst hs
        exact ⟨rfl, rfl⟩
    exact ⟨a.trans this.1, b.trans this.2⟩

/-- After a configuration that reports no error, the servo is given the debug
output of this port exactly if the configuration asks for it. -/
theorem C91_debug_partial (hw : Hw) (pm : PinMap) (s0 s1 s : St) (c : Cfg) (mk : Mk)
    (ops : List Op) (h1 : step hw pm s0 (.update c mk) = some s1) (he : s1.error = .none)
    (hn : NoUpdate ops) (hr : run hw pm s1 ops = some s) :
    debugUart s = some (decide (c.uart = .debug)) := by
  have ht := update_taken h1 he
  obtain ⟨a, b⟩ := uart_run ops hn hr
  unfold debugUart
  rw [a, b, ht.cfg, ht.uart]
  by_cases hu : c.uart = .debug
  · simp [hu]
  · simp [hu]

/-- A refused configuration that asks for it makes the servo use a UART that
is not there. -/
theorem C91_debug_refuted :
    ¬ ∀ hw ∈ boards, ∀ pm s0 s1 c mk, step hw pm s0 (.update c mk) = some s1 →
      (debugUart s1).isSome = true := by
  intro h
  obtain ⟨s1, e1, hp⟩ := wit (o := step aux2Family0 (fun _ _ _ => none) {}
      (.update { spi := .disabled, uart := .debug } {}))
    (fun s1 => (debugUart s1).isNone) (by decide +kernel)
  have := h aux2Family0 (by simp [boards]) _ _ _ _ _ e1
  cases hd : debugUart s1 <;> simp_all

/-! ## Interrupts between the lines of the main program -/

/-- A value of `config_` is changed first, and the port is told afterwards
(the persistent configuration calls `HandleConfigUpdate` when it has written
the value).  A control cycle in between samples with the new modes and the old
objects: a pin that becomes an output is driven through an output that is not
there. -/
theorem C91_change_race_refuted :
    ¬ ∀ hw ∈ boards, ∀ pm s0 s1 c mk c' input, step hw pm s0 (.update c mk) = some s1 →
      Fine hw c → Fine hw c' → (cycle input { s1 with cfg := c' }).isSome = true := by
  intro h
  obtain ⟨s1, e1, hp⟩ := wit (o := step aux2Family0 (fun _ _ _ => none) {}
      (.update { spi := .disabled, pins := fun i => if i.val = 3 then { mode := .dIn } else {} } {}))
    (fun s1 => (cycle (fun _ => false) { s1 with cfg := outCfg .none }).isNone) (by decide +kernel)
  have := h aux2Family0 (by simp [boards]) _ _ _ _ _ (outCfg .none) (fun _ => false) e1
    ⟨by decide, by decide, by decide, by decide⟩ ⟨by decide, by decide, by decide, by decide⟩
  cases hd : cycle (fun _ => false) { s1 with cfg := outCfg .none } <;> simp_all

/-- aux_port.h:777-799: `HandleConfigUpdate` after the SPI sensors were taken
away; the lists of what is sampled are cleared in line 819. -/
def resetHalf (s : St) : St :=
  { s with
    anyIsr := false, error := .none, epoch := (s.epoch + 1) % 256
    gpioBits := fun _ => false, pins := fun _ => false
    i2c := false, as5047 := false, as5047Opt := false, ma732 := false, ma732Opt := false }

/-- A control cycle at that moment starts a sample of a sensor that is not
there: `ISR_MaybeStartSample` does not ask whether interrupts are enabled. -/
theorem C91_reset_race_refuted :
    ¬ ∀ hw ∈ boards, ∀ pm ops s input, run hw pm {} ops = some s →
      (cycle input (resetHalf s)).isSome = true := by
  intro h
  obtain ⟨s, e1, hp⟩ := wit (o := run (aux1Family12 true) pmOnboard {}
      [.update {} {}, .poll 11 false])
    (fun s => (cycle (fun _ => false) (resetHalf s)).isNone) (by decide +kernel)
  have := h (aux1Family12 true) (by simp [boards]) _ _ _ (fun _ => false) e1
  cases hd : cycle (fun _ => false) (resetHalf s) <;> simp_all

/-- If that moment is left alone, and without one of these sensors, the cycle
is harmless. -/
theorem C91_reset_race_partial (s : St) (input : Fin 5 → Bool) (hi : Inv s)
    (hl : ST.as5047 ∉ s.start ∧ ST.ma732 ∉ s.start) :
    (cycle input (resetHalf s)).isSome = true := by
  obtain ⟨⟨us, uf, hs, hf, nu, nf, ou, of_, cu, cf⟩, hsc⟩ := hi
  have hst : isrStart (resetHalf s) = some us := by
    unfold isrStart
    rw [show (resetHalf s).start = s.start from rfl, hs, scan_pad us ou (len_lt us nu ou)]
    have : us.all (canStart (resetHalf s)) = true := by
      rw [List.all_eq_true]
      intro t ht
      have h1 := cu t ht
      have hm : t ∈ s.start := by rw [hs]; simp [pad, ht]
      cases t
      case as5047 => exact absurd hm hl.1
      case ma732 => exact absurd hm hl.2
      all_goals exact h1
    simp [this]
  have hfi : isrFinish input (resetHalf s) = some (resetHalf s, []) := by
    unfold isrFinish
    rw [if_neg (by simp [resetHalf])]
  have ha : isrAnalog (resetHalf s) = some () := by
    unfold isrAnalog
    split
    · next h =>
      have := hsc h.1 h.2
      rw [if_pos (by exact this)]
    · rfl
  unfold cycle
  rw [hst, hfi]
  simp only [ha]
  rfl

example : ∃ s, run aux2Family0 (fun _ _ _ => none) {} [.update (outCfg .up) {}] = some s ∧
    ST.as5047 ∉ s.start ∧ ST.ma732 ∉ s.start := by
  obtain ⟨s, e1, hp⟩ := wit (o := run aux2Family0 (fun _ _ _ => none) {} [.update (outCfg .up) {}])
    (fun s => decide (ST.as5047 ∉ s.start) && decide (ST.ma732 ∉ s.start)) (by decide +kernel)
  exact ⟨s, e1, by simpa using hp⟩

end Verif.Fw.Aux
