import Verif.Fw.AuxPortLemmas
import Mathlib.Data.List.Count

/-!
# What the auxiliary ports do
-/

namespace Verif.Fw.Aux

open Flow

/-! ## No interrupt uses an object that is not there -/

/-- What holds between operations. -/
structure Inv (s : St) : Prop where
  lists : ∃ us uf, s.start = pad us ∧ s.fin = pad uf ∧ us.Nodup ∧ uf.Nodup ∧
    ST.none ∉ us ∧ ST.none ∉ uf ∧ (∀ t ∈ us, canStart s t = true) ∧
    (∀ t ∈ uf, canFinish s t = true)
  sc : s.anyAdc = true → s.cfg.sc = true → s.sine.isSome = true ∧ s.cosine.isSome = true

theorem order_nodup : order.Nodup := by decide

theorem taken_inv {hw mk c s0 s} (hc : Fine hw c) (h : Taken hw mk c s0 s) : Inv s := by
  refine ⟨⟨_, _, h.start, h.fin, ?_, ?_, ?_, ?_, ?_, ?_⟩, ?_⟩
  · exact List.Nodup.filter _ (by decide)
  · exact List.Nodup.filter _ order_nodup
  · exact none_filter _ _ (by decide)
  · exact none_filter _ _ (by decide)
  · intro t ht
    rw [List.mem_filter] at ht
    cases t <;> simp_all [canStart, wants]
  · intro t ht
    rw [List.mem_filter] at ht
    obtain ⟨_, hw'⟩ := ht
    cases t
    case gpio =>
      simp only [canFinish, decide_eq_true_eq]
      intro i
      unfold canPin
      rw [h.cfg]
      split <;> simp_all [h.dIn, h.dOut, h.pwm]
    case hall =>
      have hh : c.hall = true := by rw [← h.cfg]; exact hw'
      have h3 := hc.hallPins hh
      have hp := hc.polarity hh
      simp only [canFinish, Bool.and_eq_true, decide_eq_true_eq, h.halls hh, h.cfg]
      omega
    all_goals first
      | exact hw'
      | simp [wants] at hw'
  · intro _ hs
    exact h.sc (by rw [← h.cfg]; exact hs)

theorem refused_inv {c s0 s} (h : Refused c s0 s) : Inv s :=
  ⟨⟨[], [], h.start, h.fin, by simp, by simp, by simp, by simp, by simp, by simp⟩,
    fun ha hs => h.sc ha (by rw [← h.cfg]; exact hs)⟩

theorem step_update_inv {hw pm mk c s0} (ht : TwoTimers hw) (hc : Fine hw c) :
    ∃ s, step hw pm s0 (.update c mk) = some s ∧ Inv s := by
  have hd := handle_alive (pm := pm) (mk := mk) (s0 := s0) ht hc
  cases h : handle hw pm mk c s0 with
  | go s => exact ⟨s, by simp [step, h, Flow.st], taken_inv hc (handle_go h)⟩
  | ret s => exact ⟨s, by simp [step, h, Flow.st], refused_inv (handle_ret h)⟩
  | die => exact absurd h hd

/-- Adding a type that is not there yet. -/
theorem add_inv {s : St} (t : ST) (hi : Inv s)
    (hnew : ∀ us uf, s.start = pad us → s.fin = pad uf → (∀ x ∈ us, canStart s x = true) →
      (∀ x ∈ uf, canFinish s x = true) → t ∉ us ∧ t ∉ uf) (ht : t ≠ .none) (s1 : St)
    (hs1 : s1.start = s.start) (hf1 : s1.fin = s.fin)
    (hst : ∀ x, canStart s x = true → canStart s1 x = true)
    (hfi : ∀ x, canFinish s x = true → canFinish s1 x = true)
    (h1 : canStart s1 t = true) (h2 : canFinish s1 t = true)
    (hsc : s1.anyAdc = true → s1.cfg.sc = true → s1.sine.isSome = true ∧ s1.cosine.isSome = true) :
    ∃ s', addBoth true t s1 = go s' ∧ Inv s' := by
  obtain ⟨⟨us, uf, hs, hf, nu, nf, ou, of_, cu, cf⟩, _⟩ := hi
  obtain ⟨mu, mf⟩ := hnew us uf hs hf cu cf
  have e := addBoth_eq true t us uf s1 (hs1.trans hs) (hf1.trans hf) ou (len_lt us nu ou) of_
    (len_lt uf nf of_)
  refine ⟨_, e, ⟨⟨us ++ [t], uf ++ [t], by simp, by simp, ?_, ?_, ?_, ?_, ?_, ?_⟩, hsc⟩⟩
  · rw [List.nodup_append]
    refine ⟨nu, by simp, ?_⟩
    intro a ha b hb; simp at hb; subst hb; rintro rfl; exact mu ha
  · rw [List.nodup_append]
    refine ⟨nf, by simp, ?_⟩
    intro a ha b hb; simp at hb; subst hb; rintro rfl; exact mf ha
  · simpa using ⟨ou, Ne.symm ht⟩
  · simpa using ⟨of_, Ne.symm ht⟩
  · intro x hx
    have : canStart s1 x = true := by
      rcases List.mem_append.1 hx with hx | hx
      · exact hst x (cu x hx)
      · simp at hx; subst hx; exact h1
    cases x <;> exact this
  · intro x hx
    have : canFinish s1 x = true := by
      rcases List.mem_append.1 hx with hx | hx
      · exact hfi x (cf x hx)
      · simp at hx; subst hx; exact h2
    cases x <;> exact this

theorem pollMs_inv {ms e s} (hi : Inv s) : ∃ s', pollMs ms e s = some s' ∧ Inv s' := by
  have h1 : ∃ s', startAs ms s = some s' ∧ Inv s' := by
    unfold startAs
    split
    · next hc =>
      obtain ⟨s', e', i'⟩ := add_inv .as5047 hi (by
          intro us uf _ _ cu cf
          constructor
          · intro hm; have := cu _ hm; simp [canStart, hc.1] at this
          · intro hm; have := cf _ hm; simp [canFinish, hc.1] at this)
        (by simp) { s with error := .none, as5047 := true } rfl rfl
        (by intro x hx; cases x <;> first | exact hx | rfl)
        (by intro x hx; cases x <;> first | exact hx | rfl) rfl rfl hi.sc
      exact ⟨s', by rw [e']; rfl, i'⟩
    · exact ⟨s, rfl, hi⟩
  obtain ⟨s1, e1, i1⟩ := h1
  unfold pollMs
  rw [e1]
  simp only [Option.bind_some]
  unfold startMa
  split
  · next hc =>
    split
    · refine ⟨_, rfl, ⟨?_, i1.sc⟩⟩
      obtain ⟨us, uf, hs, hf, nu, nf, ou, of_, cu, cf⟩ := i1.lists
      refine ⟨us, uf, hs, hf, nu, nf, ou, of_, ?_, ?_⟩
      · intro t ht; have := cu t ht; cases t <;> first | exact this | rfl
      · intro t ht; have := cf t ht; cases t <;> first | exact this | rfl
    · obtain ⟨s', e', i'⟩ := add_inv .ma732 i1 (by
          intro us uf _ _ cu cf
          constructor
          · intro hm; have := cu _ hm; simp [canStart, hc.1] at this
          · intro hm; have := cf _ hm; simp [canFinish, hc.1] at this)
        (by simp) { s1 with error := .none, ma732 := true } rfl rfl
        (by intro x hx; cases x <;> first | exact hx | rfl)
        (by intro x hx; cases x <;> first | exact hx | rfl) rfl rfl i1.sc
      exact ⟨s', by rw [e']; rfl, i'⟩
  · exact ⟨s1, rfl, i1⟩

theorem cycle_inv {input s} (hi : Inv s) : ∃ s' l l', cycle input s = some (s', l, l') ∧ Inv s' := by
  obtain ⟨us, uf, hs, hf, nu, nf, ou, of_, cu, cf⟩ := hi.lists
  have e1 : isrStart s = some us := by
    unfold isrStart
    rw [hs, scan_pad us ou (len_lt us nu ou)]
    simp only [List.all_eq_true]
    rw [if_pos cu]
  have ig : Inv (gpio input s) := by
    refine ⟨⟨us, uf, hs, hf, nu, nf, ou, of_, ?_, ?_⟩, hi.sc⟩
    · intro t ht; have := cu t ht; cases t <;> exact this
    · intro t ht; have := cf t ht; cases t <;> exact this
  have e2 : ∃ s' l', isrFinish input s = some (s', l') ∧ Inv s' := by
    unfold isrFinish
    split
    · rw [hf, scan_pad uf of_ (len_lt uf nf of_)]
      simp only [List.all_eq_true]
      rw [if_pos cf]
      refine ⟨_, _, rfl, ?_⟩
      split
      · exact ig
      · exact hi
    · exact ⟨s, [], rfl, hi⟩
  obtain ⟨s', l', e2, i2⟩ := e2
  have e3 : isrAnalog s' = some () := by
    unfold isrAnalog
    split
    · next h => rw [if_pos (i2.sc h.1 h.2)]
    · rfl
  refine ⟨s', us, l', ?_, i2⟩
  unfold cycle
  rw [e1]
  simp only
  rw [e2]
  simp only
  rw [e3]

theorem out_inv {v s} (hi : Inv s) : Inv (writeOut v s) := by
  obtain ⟨us, uf, hs, hf, nu, nf, ou, of_, cu, cf⟩ := hi.lists
  refine ⟨⟨us, uf, hs, hf, nu, nf, ou, of_, ?_, ?_⟩, hi.sc⟩
  · intro t ht; have := cu t ht; cases t <;> exact this
  · intro t ht; have := cf t ht; cases t <;> exact this

/-- Every board has at most two timers on a port. -/
theorem boards_timers : ∀ hw ∈ boards, TwoTimers hw := by
  intro hw h
  simp only [boards, List.mem_cons, List.not_mem_nil, or_false] at h
  rcases h with rfl | rfl | rfl | rfl | rfl
  · exact ⟨0, 0, by simp [aux1Family0]⟩
  · exact ⟨2, 3, by simp [aux1Family12]⟩
  · exact ⟨2, 3, by simp [aux1Family12]⟩
  · exact ⟨0, 0, by simp [aux2Family0]⟩
  · exact ⟨4, 4, by simp [aux2Family12]⟩

theorem run_inv {hw pm} (ht : TwoTimers hw) (ops : List Op) :
    ∀ s, Inv s → (∀ c mk, Op.update c mk ∈ ops → Fine hw c) →
      ∃ s', run hw pm s ops = some s' ∧ Inv s' := by
  induction ops with
  | nil => intro s hi _; exact ⟨s, rfl, hi⟩
  | cons o ops ih =>
    intro s hi hf
    have : ∃ s', step hw pm s o = some s' ∧ Inv s' := by
      cases o with
      | update c mk => exact step_update_inv ht (hf c mk (by simp))
      | poll ms e => exact pollMs_inv hi
      | cycle input =>
        obtain ⟨s', l, l', e, i⟩ := cycle_inv (input := input) hi
        exact ⟨s', by simp [step, e], i⟩
      | out v => exact ⟨_, rfl, out_inv hi⟩
    obtain ⟨s1, e1, i1⟩ := this
    obtain ⟨s2, e2, i2⟩ := ih s1 i1 (fun c mk h => hf c mk (List.mem_cons_of_mem _ h))
    exact ⟨s2, by simp [run, e1, e2], i2⟩

theorem init_inv : Inv {} :=
  ⟨⟨[], [], rfl, rfl, by simp, by simp, by simp, by simp, by simp, by simp⟩, by simp⟩

/-- On every board, whatever the alternate function tables, and whatever
order configurations, polls, control cycles and writes come in: no interrupt
uses an object that is not there, no table is left, and the controller does
not stop, provided that each configuration is `Fine`. -/
theorem C91_safe_partial (hw : Hw) (hb : hw ∈ boards) (pm : PinMap) (ops : List Op)
    (hf : ∀ c mk, Op.update c mk ∈ ops → Fine hw c) : (run hw pm {} ops).isSome = true := by
  obtain ⟨s, e, _⟩ := run_inv (pm := pm) (boards_timers hw hb) ops {} init_inv hf
  rw [e]; rfl

theorem wit {α : Type} {o : Option α} (p : α → Bool) (h : o.elim false p = true) :
    ∃ s, o = some s ∧ p s = true := by
  cases o with
  | none => simp at h
  | some s => exact ⟨s, rfl, h⟩

/-- Alternate functions of the pins of the boards with the onboard encoder. -/
def pmOnboard : PinMap := fun r p a =>
  match r, p, a with
  | .sclk, 0x05, 0 => some 1
  | .miso, 0x14, 0 => some 1
  | .mosi, 0x07, 0 => some 1
  | .sclk, 0x1d, 0 => some 2
  | .miso, 0x1e, 0 => some 2
  | .mosi, 0x1f, 0 => some 2
  | .tx, 0x13, 0 => some 2
  | .rx, 0x0f, 0 => some 2
  | _, _, _ => none

/-- A configuration with three hall pins, two quadrature pins. -/
def hallCfg : Cfg :=
  { spi := .disabled, hall := true,
    pins := fun i => if i.val < 3 then { mode := .hall } else {} }

example : Fine aux1Family0 hallCfg :=
  ⟨by decide, by decide, by decide, by decide⟩

example : (run aux1Family0 pmOnboard {}
    [.update {} {}, .poll 11 false, .cycle fun _ => true, .update hallCfg {},
      .cycle fun _ => true]).isSome = true := by decide +kernel

/-- Without the conditions it is wrong: hall sensors without hall pins set an
error, and the next control interrupt uses a sensor that is not there. -/
theorem C91_hall_count_refuted :
    ¬ ∀ hw ∈ boards, ∀ pm ops, (∀ c mk, Op.update c mk ∈ ops → c.polarity < 8) →
      (run hw pm {} ops).isSome = true := by
  intro h
  have := h aux2Family0 (by simp [boards]) (fun _ _ _ => none)
    [.update { spi := .disabled, hall := true } {}, .cycle fun _ => false]
    (by simp)
  revert this
  decide +kernel

/-- The configuration with three hall pins of which the last is not on this
port stops the controller. -/
theorem C91_hall_missing_refuted :
    ¬ ∀ hw ∈ boards, ∀ pm c mk, c.hall = true → hallCount c = 3 → c.polarity < 8 →
      (step hw pm {} (.update c mk)).isSome = true := by
  intro h
  have := h aux2Family0 (by simp [boards]) (fun _ _ _ => none)
    { spi := .disabled, hall := true, pins := fun i => if 2 ≤ i.val then { mode := .hall } else {} }
    {} rfl (by decide) (by decide)
  revert this
  decide +kernel

/-- A polarity above 7 is accepted without error, and the next control
interrupt reads past the end of the hall table. -/
theorem C91_hall_polarity_refuted :
    ¬ ∀ hw ∈ boards, ∀ pm c mk s input, hallCount c = 3 →
      step hw pm {} (.update c mk) = some s → s.error = .none →
      (cycle input s).isSome = true := by
  intro h
  have hs : ∃ s, step aux2Family0 (fun _ _ _ => none) {}
      (.update { hallCfg with polarity := 8 } {}) = some s ∧ s.error = .none ∧
      (cycle (fun _ => false) s).isSome = false := by
    obtain ⟨s, e, hp⟩ := wit (o := step aux2Family0 (fun _ _ _ => none) {}
      (.update { hallCfg with polarity := 8 } {}))
      (fun s => decide (s.error = .none) && !(cycle (fun _ => false) s).isSome) (by decide +kernel)
    exact ⟨s, e, by simpa using hp⟩
  obtain ⟨s, e1, e2, e3⟩ := hs
  have := h aux2Family0 (by simp [boards]) (fun _ _ _ => none) _ {} s (fun _ => false)
    (by decide) e1 e2
  rw [e3] at this
  exact absurd this (by simp)

/-! ## What is sampled -/

/-- Whether a configuration asks for this function. -/
def enabled (c : Cfg) : ST → Prop
  | .none => False
  | .as5047 => c.spi = .onboard ∨ c.spi = .as5047
  | .ma732 => c.spi = .ma732 ∨ c.spi = .ma600
  | .icPz => c.spi = .icPz
  | .gpio => ∃ i, (c.pins i).mode = .dIn ∨ (c.pins i).mode = .dOut ∨ (c.pins i).mode = .pwmOut
  | .hall => c.hall = true
  | .quad => c.quad = true
  | .index => c.index = true
  | .aksim2 => c.uart = .aksim2
  | .cuiAmt21 => c.uart = .cuiAmt21
  | .i2c => ∃ d ∈ c.devices, d ≠ 0

/-- The first poll after the sensors may be started, and whether the MA732
then refused its configuration. -/
def began : List Op → Option Bool
  | [] => none
  | .poll ms e :: os => if 10 < ms then some e else began os
  | _ :: os => began os

/-- Whether a function can be sampled after these operations: two of the SPI
sensors must have been started. -/
def ready (ops : List Op) : ST → Prop
  | .as5047 => began ops ≠ none
  | .ma732 => began ops = some false
  | _ => True

def NoUpdate (ops : List Op) : Prop := ∀ c mk, Op.update c mk ∉ ops

/-- The SPI sensor that was started. -/
def extra (c : Cfg) (k : Option Bool) : List ST :=
  (if isAs c.spi = true ∧ k ≠ none then [.as5047] else []) ++
    (if isMa c.spi = true ∧ k = some false then [.ma732] else [])

/-- What holds after a configuration was taken and some operations followed. -/
structure Track (s1 : St) (k : Option Bool) (s : St) : Prop where
  cfg : s.cfg = s1.cfg
  epoch : s.epoch = s1.epoch
  anyIsr : s.anyIsr = s1.anyIsr
  asOpt : s.as5047Opt = isAs s1.cfg.spi
  maOpt : s.ma732Opt = isMa s1.cfg.spi
  as_ : s.as5047 = (isAs s1.cfg.spi && k.isSome)
  ma : s.ma732 = (isMa s1.cfg.spi && k.isSome)
  start : s.start = pad ([ST.icPz].filter (wants s1) ++ extra s1.cfg k)
  fin : s.fin = pad (order.filter (wants s1) ++ extra s1.cfg k)

theorem isAs_isMa (m : SpiMode) : ¬ (isAs m = true ∧ isMa m = true) := by
  cases m <;> simp [isAs, isMa]

theorem extra_none (c : Cfg) (k) : ST.none ∉ extra c k := by
  unfold extra
  split <;> split <;> simp

theorem extra_len (c : Cfg) (k) : (extra c k).length ≤ 2 := by
  unfold extra
  split <;> split <;> simp

theorem list_nodup (l : List ST) (hl : l.Nodup) (h1 : ST.as5047 ∉ l) (h2 : ST.ma732 ∉ l)
    (p : ST → Bool) (c : Cfg) (k) : (l.filter p ++ extra c k).Nodup := by
  rw [List.nodup_append]
  refine ⟨hl.filter _, ?_, ?_⟩
  · unfold extra
    split <;> split <;> simp
  · intro a ha b hb
    rintro rfl
    have ha := (List.mem_filter.1 ha).1
    unfold extra at hb
    rcases List.mem_append.1 hb with hb | hb
    · split at hb <;> simp at hb
      subst hb; exact h1 ha
    · split at hb <;> simp at hb
      subst hb; exact h2 ha

theorem began_append (ops : List Op) (o : Op) :
    began (ops ++ [o]) = (began ops).orElse (fun _ => began [o]) := by
  induction ops with
  | nil => simp [began]
  | cons a ops ih =>
    cases a <;> simp only [List.cons_append, began, ih]
    split <;> simp

theorem track_poll {s1 k s ms e} (h : Track s1 k s) :
    ∃ s', pollMs ms e s = some s' ∧
      Track s1 (k.orElse fun _ => if 10 < ms then some e else none) s' := by
  have hw1 : ST.none ∉ [ST.icPz].filter (wants s1) ++ extra s1.cfg k := by
    simp only [List.mem_append, not_or]
    exact ⟨none_filter _ _ (by decide), extra_none _ _⟩
  have hw2 : ST.none ∉ order.filter (wants s1) ++ extra s1.cfg k := by
    simp only [List.mem_append, not_or]
    exact ⟨none_filter _ _ (by decide), extra_none _ _⟩
  have hl1 : ([ST.icPz].filter (wants s1) ++ extra s1.cfg k).length < 11 :=
    len_lt _ (list_nodup [.icPz] (by decide) (by decide) (by decide) _ _ _) hw1
  have hl2 : (order.filter (wants s1) ++ extra s1.cfg k).length < 11 :=
    len_lt _ (list_nodup order order_nodup (by decide) (by decide) _ _ _) hw2
  have hx := isAs_isMa s1.cfg.spi
  cases k with
  | some b =>
    refine ⟨s, ?_, by simpa using h⟩
    unfold pollMs startAs
    rw [if_neg (by rw [h.as_, h.asOpt]; cases isAs s1.cfg.spi <;> simp)]
    simp only [Option.bind_some]
    unfold startMa
    rw [if_neg (by rw [h.ma, h.maOpt]; cases isMa s1.cfg.spi <;> simp)]
  | none =>
    have ha : s.as5047 = false := by rw [h.as_]; simp
    have hm : s.ma732 = false := by rw [h.ma]; simp
    by_cases hms : 10 < ms
    · simp only [hms, if_true, Option.orElse]
      by_cases h1 : isAs s1.cfg.spi = true
      · have h2 : isMa s1.cfg.spi = false := by
          cases hq : isMa s1.cfg.spi
          · rfl
          · exact absurd ⟨h1, hq⟩ hx
        have e1 := addBoth_eq true .as5047 _ _ { s with error := .none, as5047 := true }
          h.start h.fin hw1 hl1 hw2 hl2
        refine ⟨?w0, ?_, ?_⟩
        rotate_left
        · unfold pollMs startAs
          rw [if_pos ⟨ha, by rw [h.asOpt]; exact h1, hms⟩, e1]
          simp only [Flow.st, Option.bind_some]
          unfold startMa
          rw [if_neg (by simp [h.maOpt, h2])]
        · constructor
          · exact h.cfg
          · exact h.epoch
          · exact h.anyIsr
          · exact h.asOpt
          · exact h.maOpt
          · simp [h1]
          · simp [h2, hm]
          · simp [extra, h1, h2]
          · simp [extra, h1, h2]
      · have h1 : isAs s1.cfg.spi = false := by simpa using h1
        have ea : startAs ms s = some s := by
          unfold startAs
          rw [if_neg (by simp [h.asOpt, h1])]
        by_cases h2 : isMa s1.cfg.spi = true
        · cases e
          · have e1 := addBoth_eq true .ma732 _ _ { s with error := .none, ma732 := true }
              h.start h.fin hw1 hl1 hw2 hl2
            refine ⟨?w1, ?_, ?_⟩
            rotate_left
            · unfold pollMs
              rw [ea]
              simp only [Option.bind_some]
              unfold startMa
              rw [if_pos ⟨hm, by rw [h.maOpt]; exact h2, hms⟩, if_neg (by simp), e1]
              rfl
            · constructor
              · exact h.cfg
              · exact h.epoch
              · exact h.anyIsr
              · exact h.asOpt
              · exact h.maOpt
              · simp [h1, ha]
              · simp [h2]
              · simp [extra, h1, h2]
              · simp [extra, h1, h2]
          · refine ⟨?w2, ?_, ?_⟩
            rotate_left
            · unfold pollMs
              rw [ea]
              simp only [Option.bind_some]
              unfold startMa
              rw [if_pos ⟨hm, by rw [h.maOpt]; exact h2, hms⟩, if_pos rfl]
            · constructor
              · exact h.cfg
              · exact h.epoch
              · exact h.anyIsr
              · exact h.asOpt
              · exact h.maOpt
              · simp [h1, ha]
              · simp [h2]
              · have := h.start
                simpa [extra, h1, h2] using this
              · have := h.fin
                simpa [extra, h1, h2] using this
        · have h2 : isMa s1.cfg.spi = false := by simpa using h2
          refine ⟨s, ?_, ?_⟩
          · unfold pollMs
            rw [ea]
            simp only [Option.bind_some]
            unfold startMa
            rw [if_neg (by simp [h.maOpt, h2])]
          · constructor
            · exact h.cfg
            · exact h.epoch
            · exact h.anyIsr
            · exact h.asOpt
            · exact h.maOpt
            · simp [h1, ha]
            · simp [h2, hm]
            · have := h.start
              simpa [extra, h1, h2] using this
            · have := h.fin
              simpa [extra, h1, h2] using this
    · refine ⟨s, ?_, by simpa [hms] using h⟩
      unfold pollMs startAs
      rw [if_neg (by simp [hms])]
      simp only [Option.bind_some]
      unfold startMa
      rw [if_neg (by simp [hms])]

theorem cycle_some {input s s' l l'} (h : cycle input s = some (s', l, l')) :
    isrStart s = some l ∧ isrFinish input s = some (s', l') := by
  unfold cycle at h
  split at h
  · simp at h
  next l1 e1 =>
  split at h
  · simp at h
  next s2 l2 e2 =>
  split at h
  · simp at h
  · simp only [Option.some.injEq, Prod.mk.injEq] at h
    obtain ⟨rfl, rfl, rfl⟩ := h
    exact ⟨e1, e2⟩

theorem finish_st {input s s' l'} (h : isrFinish input s = some (s', l')) :
    s' = s ∨ s' = gpio input s := by
  unfold isrFinish at h
  split at h
  · split at h
    · simp at h
    split at h
    · simp only [Option.some.injEq, Prod.mk.injEq] at h
      rw [← h.1]
      split
      · exact Or.inr rfl
      · exact Or.inl rfl
    · simp at h
  · simp only [Option.some.injEq, Prod.mk.injEq] at h
    exact Or.inl h.1.symm

theorem track_run {hw pm s1} (ops : List Op) : ∀ {pre s s'}, Track s1 (began pre) s →
    NoUpdate ops → run hw pm s ops = some s' → Track s1 (began (pre ++ ops)) s' := by
  induction ops with
  | nil => intro pre s s' h _ hr; simp only [run, Option.some.injEq] at hr; subst hr; simpa using h
  | cons o ops ih =>
    intro pre s s' h hn hr
    simp only [run, Option.bind_eq_some_iff] at hr
    obtain ⟨m, hm, hr⟩ := hr
    have hn' : NoUpdate ops := fun c mk hc => hn c mk (List.mem_cons_of_mem _ hc)
    have : Track s1 (began (pre ++ [o])) m := by
      rw [began_append]
      cases o with
      | update c mk => exact absurd (by simp) (hn c mk)
      | poll ms e =>
        obtain ⟨m', hm', ht⟩ := track_poll (ms := ms) (e := e) h
        simp only [step] at hm
        rw [hm'] at hm
        simp only [Option.some.injEq] at hm
        subst hm
        simpa [began] using ht
      | cycle input =>
        simp only [step, Option.map_eq_some_iff] at hm
        obtain ⟨⟨m', l, l'⟩, hc, rfl⟩ := hm
        have hf := finish_st (cycle_some hc).2
        simp only [began]
        have hk : ((began pre).orElse fun _ => none) = began pre := by cases began pre <;> rfl
        rw [hk]
        rcases hf with rfl | rfl
        · exact h
        · exact ⟨h.cfg, h.epoch, h.anyIsr, h.asOpt, h.maOpt, h.as_, h.ma, h.start, h.fin⟩
      | out v =>
        simp only [step, Option.some.injEq] at hm
        subst hm
        simp only [began]
        have hk : ((began pre).orElse fun _ => none) = began pre := by cases began pre <;> rfl
        rw [hk]
        exact ⟨h.cfg, h.epoch, h.anyIsr, h.asOpt, h.maOpt, h.as_, h.ma, h.start, h.fin⟩
    have := ih (pre := pre ++ [o]) this hn' hr
    simpa using this

theorem taken_track {hw mk c s0 s} (h : Taken hw mk c s0 s) : Track s (began []) s := by
  constructor
  · rfl
  · rfl
  · rfl
  · rw [h.cfg]; exact h.as5047Opt
  · rw [h.cfg]; exact h.ma732Opt
  · simp [began, h.as5047]
  · simp [began, h.ma732]
  · rw [h.start]; simp [extra, began]
  · rw [h.fin]; simp [extra, began]

/-- Without an error, every function that is asked for is wanted. -/
theorem wants_enabled {hw mk c s0 s} (h : Taken hw mk c s0 s) (he : s.error = .none) (t : ST)
    (h1 : t ≠ .as5047) (h2 : t ≠ .ma732) : wants s t = true ↔ enabled c t := by
  obtain ⟨-, e2, e3⟩ := h.error.1 he
  cases t
  case as5047 => exact absurd rfl h1
  case ma732 => exact absurd rfl h2
  case none => simp [wants, enabled]
  case icPz => simp [wants, enabled, h.icPz]
  case gpio => simp [wants, enabled, h.bits, isGpio]
  case hall => simp [wants, enabled, h.cfg]
  case quad =>
    simp only [wants, enabled, h.quad]
    cases hq : c.quad
    · simp
    · simpa [Option.isSome_iff_ne_none] using e2 hq
  case index =>
    simp only [wants, enabled, h.index]
    cases hi : c.index
    · simp
    · simpa using e3 hi
  case aksim2 => simp [wants, enabled, h.aksim2]
  case cuiAmt21 => simp [wants, enabled, h.cuiAmt21]
  case i2c => simp [wants, enabled, h.i2c, anyI2c]

theorem step_update {hw pm mk c s0 s} (h : step hw pm s0 (.update c mk) = some s) :
    Taken hw mk c s0 s ∨ Refused c s0 s := by
  simp only [step] at h
  cases hh : handle hw pm mk c s0 with
  | go x =>
    rw [hh] at h
    simp only [Flow.st, Option.some.injEq] at h
    subst h
    exact Or.inl (handle_go hh)
  | ret x =>
    rw [hh] at h
    simp only [Flow.st, Option.some.injEq] at h
    subst h
    exact Or.inr (handle_ret hh)
  | die => rw [hh] at h; simp [Flow.st] at h

theorem update_taken {hw pm mk c s0 s} (h : step hw pm s0 (.update c mk) = some s)
    (he : s.error = .none) : Taken hw mk c s0 s := by
  rcases step_update h with h | h
  · exact h
  · exact absurd he h.error

/-- A configuration that reports no error is one that the board can do: pull-ups of the
I2C bus and an onboard encoder only where there are some, exactly one index pin, and
the quadrature pins are two of the same kind, for the hardware kind with the same
timer. -/
theorem C91_possible (hw : Hw) (pm : PinMap) (s0 s : St) (c : Cfg) (mk : Mk)
    (h : step hw pm s0 (.update c mk) = some s) (he : s.error = .none) :
    ((∃ d ∈ c.devices, d ≠ 0) → c.pullup = true → hw.i2cPullup = true) ∧
    (c.spi = .onboard → hw.onboardSpi = true) ∧
    (c.index = true → ((List.finRange 5).filter fun i =>
      (c.pins i).mode = .index ∧ (firstRow hw i).isSome = true).length = 1) ∧
    (c.quad = true →
      let there := fun i => ((c.pins i).mode = .quadSw ∨ (c.pins i).mode = .quadHw) ∧
        (firstRow hw i).isSome = true
      ((List.finRange 5).filter fun i => there i).length = 2 ∧
      ∀ i j, there i → there j → (c.pins i).mode = (c.pins j).mode ∧
        ((c.pins i).mode = .quadHw → ∃ t, (firstRow hw i).bind Row.timer = some t ∧
          (firstRow hw j).bind Row.timer = some t)) := by
  have hT := update_taken h he
  obtain ⟨x, hh⟩ : ∃ x, handle hw pm mk c s0 = .go x := by
    cases hh : handle hw pm mk c s0 with
    | go x => exact ⟨x, rfl⟩
    | ret x =>
      simp only [step, hh, Flow.st, Option.some.injEq] at h
      subst h
      exact absurd he (handle_ret hh).error
    | die => simp [step, hh, Flow.st] at h
  unfold handle at hh
  simp only [bind_go] at hh
  obtain ⟨m1, h1, m2, h2, -⟩ := hh
  refine ⟨fun hd hp => ?_, fun ho => ?_, fun hx => ?_, fun hq => ?_⟩
  · have ha : anyI2c (reset c s0).cfg = true := by
      unfold anyI2c
      rw [List.any_eq_true]
      obtain ⟨d, hd, hne⟩ := hd
      exact ⟨d, hd, by simpa using hne⟩
    unfold i2cSec at h1
    rw [if_pos ha] at h1
    split at h1
    · by_contra hn
      rw [if_pos ⟨hp, by simpa using hn⟩] at h1
      cases h1
    · cases h1
  · have e1 := i2c_go h1
    simp only [reset] at e1
    unfold spiSec at h2
    by_contra hn
    rw [if_pos ⟨by rw [e1]; exact ho, by simpa using hn⟩] at h2
    cases h2
  · have hi := ((hT.error).1 he).2.2 hx
    have all : ∀ l : List (Fin 5), indexLoop hw mk l true = true → l = [] := by
      intro l hl
      cases l with
      | nil => rfl
      | cons i l => simp [indexLoop] at hl
    have one : ∀ l : List (Fin 5), indexLoop hw mk l false = true →
        (l.filter fun i => (firstRow hw i).isSome).length = 1 := by
      intro l
      induction l with
      | nil => intro hl; simp [indexLoop] at hl
      | cons i l ih =>
        intro hl
        unfold indexLoop at hl
        rw [if_neg (by simp)] at hl
        split at hl
        · rename_i hr
          simpa [List.filter_cons, hr] using ih hl
        · rename_i r hr
          split at hl
          · rw [all l hl]; simp [hr]
          · cases hl
    have := one _ hi
    unfold pinsOf at this
    rw [List.filter_filter] at this
    rw [← this]
    congr 1
    apply List.filter_congr
    intro i _
    by_cases a : (c.pins i).mode = .index <;> by_cases b : (firstRow hw i).isSome = true <;> simp [a, b]
  · have hm := ((hT.error).1 he).2.1 hq
    intro there
    have hlen : ((List.finRange 5).filter fun i => there i).length = (quadPins hw c).length := by
      unfold quadPins pinsOf
      generalize List.finRange 5 = l
      induction l with
      | nil => rfl
      | cons i l ih =>
        by_cases h1 : (c.pins i).mode = .quadSw ∨ (c.pins i).mode = .quadHw
        · cases h2 : firstRow hw i with
          | none => simpa [there, h1, h2, List.filter_cons, List.filterMap_cons] using ih
          | some r => simpa [there, h1, h2, List.filter_cons, List.filterMap_cons] using ih
        · simpa [there, h1, List.filter_cons] using ih
    have hmem : ∀ i, there i → ∃ r, firstRow hw i = some r ∧ (r, (c.pins i).mode) ∈ quadPins hw c := by
      rintro i ⟨h1, h2⟩
      obtain ⟨r, hr⟩ := Option.isSome_iff_exists.1 h2
      refine ⟨r, hr, ?_⟩
      unfold quadPins pinsOf
      rw [List.mem_filterMap]
      exact ⟨i, by simpa using h1, by rw [hr]; rfl⟩
    unfold quadMake at hm
    split at hm
    · rename_i ra ma rb mb hl
      rw [hl] at hlen hmem
      refine ⟨hlen, ?_⟩
      split at hm
      · exact absurd rfl hm
      · rename_i hab
        have hab : ma = mb := by simpa using hab
        subst hab
        intro i j hi hj
        obtain ⟨r, hr, mr⟩ := hmem i hi
        obtain ⟨r', hr', mr'⟩ := hmem j hj
        simp only [List.mem_cons, List.not_mem_nil, or_false, Prod.mk.injEq] at mr mr'
        have ei : (c.pins i).mode = ma := by rcases mr with ⟨-, e⟩ | ⟨-, e⟩ <;> exact e
        have ej : (c.pins j).mode = ma := by rcases mr' with ⟨-, e⟩ | ⟨-, e⟩ <;> exact e
        refine ⟨by rw [ei, ej], fun hw' => ?_⟩
        rw [ei] at hw'
        subst hw'
        rw [if_neg (by simp)] at hm
        split at hm
        · exact absurd rfl hm
        · rename_i ht
          push Not at ht
          obtain ⟨t, et⟩ := Option.ne_none_iff_exists'.1 ht.2
          refine ⟨t, ?_, ?_⟩
          · rw [hr]; rcases mr with ⟨rfl, -⟩ | ⟨rfl, -⟩
            · exact et
            · rw [ht.1] at et; exact et
          · rw [hr']; rcases mr' with ⟨rfl, -⟩ | ⟨rfl, -⟩
            · exact et
            · rw [ht.1] at et; exact et
    · exact absurd rfl hm

/-- Such a configuration: hardware quadrature at pins 2 and 3 of the second port. -/
example : ∃ s, step aux2Family12 (fun _ _ _ => none) {} (.update { quad := true, spi := .disabled, pins := fun i =>
    if i = 2 ∨ i = 3 then { mode := .quadHw } else {} } {}) = some s ∧ s.error = .none := by
  obtain ⟨s, e, hp⟩ := wit (o := step aux2Family12 (fun _ _ _ => none) {} (.update { quad := true, spi := .disabled, pins := fun i =>
    if i = 2 ∨ i = 3 then { mode := .quadHw } else {} } {})) (fun s => decide (s.error = .none))
    (by decide +kernel)
  exact ⟨s, e, by simpa using hp⟩

theorem mem_extra (c : Cfg) (ops : List Op) (t : ST) :
    t ∈ extra c (began ops) ↔ (t = .as5047 ∨ t = .ma732) ∧ enabled c t ∧ ready ops t := by
  cases t <;> simp [extra, enabled, ready, isAs, isMa]

/-- After a configuration that reports no error, each control cycle samples
every function that the configuration asks for exactly once and nothing else;
the SPI sensors other than the iC-PZ from the moment on when they were
started. -/
theorem C91_sampled (hw : Hw) (pm : PinMap) (s0 s1 s s' : St) (c : Cfg) (mk : Mk) (ops : List Op)
    (input : Fin 5 → Bool) (l l' : List ST)
    (h1 : step hw pm s0 (.update c mk) = some s1) (he : s1.error = .none)
    (hn : NoUpdate ops) (hr : run hw pm s1 ops = some s)
    (hc : cycle input s = some (s', l, l')) (t : ST) :
    (enabled c t ∧ ready ops t → l'.count t = 1) ∧
      (¬ (enabled c t ∧ ready ops t) → l'.count t = 0) := by
  have ht := update_taken h1 he
  have tr := track_run (pre := []) ops (taken_track ht) hn hr
  simp only [List.nil_append] at tr
  obtain ⟨-, hf⟩ := cycle_some hc
  have hw2 : ST.none ∉ order.filter (wants s1) ++ extra s1.cfg (began ops) := by
    simp only [List.mem_append, not_or]
    exact ⟨none_filter _ _ (by decide), extra_none _ _⟩
  have hnd : (order.filter (wants s1) ++ extra s1.cfg (began ops)).Nodup :=
    list_nodup order order_nodup (by decide) (by decide) _ _ _
  have hmem : ∀ t, t ∈ order.filter (wants s1) ++ extra s1.cfg (began ops) ↔
      enabled c t ∧ ready ops t := by
    intro t
    rw [List.mem_append, mem_extra, ht.cfg, List.mem_filter]
    by_cases a1 : t = .as5047
    · subst a1; simp [order]
    by_cases a2 : t = .ma732
    · subst a2; simp [order]
    rw [wants_enabled ht he t a1 a2]
    cases t <;> simp_all [order, ready, enabled]
  by_cases ha : s.anyIsr = true
  · unfold isrFinish at hf
    rw [if_pos ha, tr.fin, scan_pad _ hw2 (len_lt _ hnd hw2)] at hf
    simp only at hf
    split at hf
    · simp only [Option.some.injEq, Prod.mk.injEq] at hf
      obtain ⟨-, rfl⟩ := hf
      constructor
      · intro h
        exact List.count_eq_one_of_mem hnd ((hmem t).2 h)
      · intro h
        exact List.count_eq_zero_of_not_mem (fun hm => h ((hmem t).1 hm))
    · simp at hf
  · have ha : s.anyIsr = false := by simpa using ha
    unfold isrFinish at hf
    rw [if_neg (by simp [ha])] at hf
    simp only [Option.some.injEq, Prod.mk.injEq] at hf
    obtain ⟨-, rfl⟩ := hf
    refine ⟨fun h => ?_, fun _ => rfl⟩
    exfalso
    have h0 : s1.anyIsr = false := by rw [← tr.anyIsr]; exact ha
    rw [ht.anyIsr] at h0
    simp only [Bool.or_eq_false_iff, decide_eq_false_iff_not, not_not, List.any_eq_false,
      Bool.not_eq_true] at h0
    obtain ⟨⟨⟨⟨⟨⟨⟨a1, a2⟩, a3⟩, a4⟩, a5⟩, a6⟩, a7⟩, a8⟩ := h0
    obtain ⟨-, e2, e3⟩ := ht.error.1 he
    obtain ⟨h, -⟩ := h
    cases t
    case none => exact h
    case as5047 => simp [enabled, a2] at h
    case ma732 => simp [enabled, a2] at h
    case icPz => simp [enabled, a2] at h
    case gpio =>
      obtain ⟨i, hi⟩ := h
      have := (a8 i (List.mem_finRange i)).1
      simp [isGpio] at this
      rcases hi with hi | hi | hi
      · exact this.1 hi
      · exact this.2.1 hi
      · exact this.2.2 hi
    case hall => simp [enabled, a3] at h
    case quad =>
      have h : c.quad = true := h
      have := e2 h
      rw [h] at a4
      cases hq : quadMake hw mk c <;> simp_all
    case index =>
      have h : c.index = true := h
      have := e3 h
      simp [h, this] at a5
    case aksim2 => simp [enabled, a7] at h
    case cuiAmt21 => simp [enabled, a7] at h
    case i2c =>
      obtain ⟨d, hd, hne⟩ := h
      have : anyI2c c = true := by simp only [anyI2c, List.any_eq_true]; exact ⟨d, hd, by simpa using hne⟩
      rw [this] at a1
      simp at a1

/-- The same for what is started: the SPI sensors. -/
theorem C91_started (hw : Hw) (pm : PinMap) (s0 s1 s s' : St) (c : Cfg) (mk : Mk) (ops : List Op)
    (input : Fin 5 → Bool) (l l' : List ST)
    (h1 : step hw pm s0 (.update c mk) = some s1) (he : s1.error = .none)
    (hn : NoUpdate ops) (hr : run hw pm s1 ops = some s)
    (hc : cycle input s = some (s', l, l')) (t : ST)
    (hs : t = .as5047 ∨ t = .ma732 ∨ t = .icPz) : l.count t = l'.count t := by
  have ht := update_taken h1 he
  have tr := track_run (pre := []) ops (taken_track ht) hn hr
  simp only [List.nil_append] at tr
  have hsm := C91_sampled hw pm s0 s1 s s' c mk ops input l l' h1 he hn hr hc t
  obtain ⟨hst, -⟩ := cycle_some hc
  have hw2 : ST.none ∉ [ST.icPz].filter (wants s1) ++ extra s1.cfg (began ops) := by
    simp only [List.mem_append, not_or]
    exact ⟨none_filter _ _ (by decide), extra_none _ _⟩
  have hnd : ([ST.icPz].filter (wants s1) ++ extra s1.cfg (began ops)).Nodup :=
    list_nodup [.icPz] (by decide) (by decide) (by decide) _ _ _
  unfold isrStart at hst
  rw [tr.start, scan_pad _ hw2 (len_lt _ hnd hw2)] at hst
  simp only at hst
  split at hst
  · simp only [Option.some.injEq] at hst
    subst hst
    have hmem : t ∈ [ST.icPz].filter (wants s1) ++ extra s1.cfg (began ops) ↔
        enabled c t ∧ ready ops t := by
      rw [List.mem_append, mem_extra, ht.cfg, List.mem_filter]
      rcases hs with rfl | rfl | rfl
      · simp
      · simp
      · rw [wants_enabled ht he _ (by simp) (by simp)]
        simp [ready]
    by_cases hm : enabled c t ∧ ready ops t
    · rw [hsm.1 hm, List.count_eq_one_of_mem hnd (hmem.2 hm)]
    · rw [hsm.2 hm, List.count_eq_zero_of_not_mem (fun h => hm (hmem.1 h))]
  · simp at hst

/-- A configuration with the onboard encoder, two inputs and an index. -/
def goodCfg : Cfg :=
  { index := true, pins := fun i => if i.val = 3 then { mode := .dIn } else
      if i.val = 4 then { mode := .index } else {} }

example : ∃ s1 s q, step (aux1Family12 true) pmOnboard {} (.update goodCfg {}) = some s1 ∧
    s1.error = .none ∧ run (aux1Family12 true) pmOnboard s1 [.poll 11 false] = some s ∧
    cycle (fun _ => true) s = some q ∧ q.2.1 = [.as5047] ∧ q.2.2 = [.gpio, .index, .as5047] := by
  obtain ⟨s1, e1, hp⟩ := wit (o := step (aux1Family12 true) pmOnboard {} (.update goodCfg {}))
    (fun s1 => decide (s1.error = .none) &&
      (run (aux1Family12 true) pmOnboard s1 [.poll 11 false]).elim false fun s =>
        (cycle (fun _ => true) s).elim false fun q =>
          decide (q.2.1 = [.as5047]) && decide (q.2.2 = [.gpio, .index, .as5047]))
    (by decide +kernel)
  simp only [Bool.and_eq_true, decide_eq_true_eq] at hp
  obtain ⟨he, hp⟩ := hp
  obtain ⟨s, e2, hp⟩ := wit _ hp
  obtain ⟨q, e3, hp⟩ := wit _ hp
  exact ⟨s1, s, q, e1, he, e2, e3, by simpa using hp⟩

/-! ## Errors -/

/-- A configuration that was refused stays reported until the next
configuration, if it has none of the SPI sensors that are started later. -/
theorem C91_error_stays_partial (hw : Hw) (pm : PinMap) (s0 s1 s : St) (c : Cfg) (mk : Mk)
    (ops : List Op) (h1 : step hw pm s0 (.update c mk) = some s1)
    (hspi : ¬ enabled c .as5047 ∧ ¬ enabled c .ma732)
    (hn : NoUpdate ops) (hr : run hw pm s1 ops = some s) : s.error = s1.error := by
  have ho : s1.as5047Opt = false ∧ s1.ma732Opt = false := by
    have ha : isAs c.spi = false := by
      have := hspi.1
      simpa [enabled, isAs] using this
    have hm : isMa c.spi = false := by
      have := hspi.2
      simpa [enabled, isMa] using this
    rcases step_update h1 with h | h
    · exact ⟨by rw [h.as5047Opt, ha], by rw [h.ma732Opt, hm]⟩
    · constructor
      · by_contra hc
        have := h.as5047Opt (by simpa using hc)
        rw [ha] at this; simp at this
      · by_contra hc
        have := h.ma732Opt (by simpa using hc)
        rw [hm] at this; simp at this
  clear h1
  induction ops generalizing s1 with
  | nil => simp only [run, Option.some.injEq] at hr; subst hr; rfl
  | cons o ops ih =>
    simp only [run, Option.bind_eq_some_iff] at hr
    obtain ⟨m, hm, hr⟩ := hr
    have hn' : NoUpdate ops := fun c mk hc => hn c mk (List.mem_cons_of_mem _ hc)
    have key : m.error = s1.error ∧ m.as5047Opt = false ∧ m.ma732Opt = false := by
      cases o with
      | update c mk => exact absurd (by simp) (hn c mk)
      | poll ms e =>
        have : pollMs ms e s1 = some s1 := by
          unfold pollMs startAs
          rw [if_neg (by simp [ho.1])]
          simp only [Option.bind_some]
          unfold startMa
          rw [if_neg (by simp [ho.2])]
        simp only [step, this, Option.some.injEq] at hm
        subst hm
        exact ⟨rfl, ho⟩
      | cycle input =>
        simp only [step, Option.map_eq_some_iff] at hm
        obtain ⟨⟨m', l, l'⟩, hc, rfl⟩ := hm
        rcases finish_st (cycle_some hc).2 with rfl | rfl
        · exact ⟨rfl, ho⟩
        · exact ⟨rfl, ho⟩
      | out v =>
        simp only [step, Option.some.injEq] at hm
        subst hm
        exact ⟨rfl, ho⟩
    rw [ih m hn' hr key.2, key.1]

example : ∃ s1, step aux2Family0 (fun _ _ _ => none) {}
    (.update { spi := .disabled, uart := .aksim2 } {}) = some s1 ∧ s1.error = .uartPin := by
  obtain ⟨s, e, hp⟩ := wit (o := step aux2Family0 (fun _ _ _ => none) {}
    (.update { spi := .disabled, uart := .aksim2 } {})) (fun s => decide (s.error = .uartPin))
    (by decide +kernel)
  exact ⟨s, e, by simpa using hp⟩

/-- In general it is wrong.  With the onboard encoder, which is the default of
the first port, a configuration is refused for lack of UART pins; the next
poll erases the error, while nothing is sampled, the encoder included. -/
theorem C91_error_erased_refuted :
    ¬ ∀ hw ∈ boards, ∀ pm c mk s1 s2, step hw pm {} (.update c mk) = some s1 → s1.error ≠ .none →
      step hw pm s1 (.poll 11 false) = some s2 → s2.error ≠ .none := by
  intro h
  have hs : ∃ s1 s2, step (aux1Family12 true) pmOnboard {} (.update { uart := .aksim2 } {}) = some s1 ∧
      s1.error ≠ .none ∧ step (aux1Family12 true) pmOnboard s1 (.poll 11 false) = some s2 ∧
      s2.error = .none := by
    obtain ⟨s1, e1, hp⟩ := wit (o := step (aux1Family12 true) pmOnboard {}
      (.update { uart := .aksim2 } {})) (fun s1 => decide (s1.error ≠ .none) &&
        (step (aux1Family12 true) pmOnboard s1 (.poll 11 false)).elim false fun s2 =>
          decide (s2.error = .none)) (by decide +kernel)
    rw [Bool.and_eq_true, decide_eq_true_eq] at hp
    obtain ⟨s2, e2, hq⟩ := wit _ hp.2
    exact ⟨s1, s2, e1, hp.1, e2, by simpa using hq⟩
  obtain ⟨s1, s2, e1, e2, e3, e4⟩ := hs
  exact h _ (by simp [boards]) _ _ _ s1 s2 e1 e2 e3 e4

/-- And no error does not mean that the encoder is sampled. -/
theorem C91_error_none_refuted :
    ¬ ∀ hw ∈ boards, ∀ pm c mk s1 s2 s3 l l', step hw pm {} (.update c mk) = some s1 →
      enabled c .as5047 → step hw pm s1 (.poll 11 false) = some s2 → s2.error = .none →
      cycle (fun _ => false) s2 = some (s3, l, l') → ST.as5047 ∈ l' := by
  intro h
  have hs : ∃ s1 s2 s3 l l', step (aux1Family12 true) pmOnboard {} (.update { uart := .aksim2 } {}) =
      some s1 ∧ step (aux1Family12 true) pmOnboard s1 (.poll 11 false) = some s2 ∧
      s2.error = .none ∧ cycle (fun _ => false) s2 = some (s3, l, l') ∧ ST.as5047 ∉ l' := by
    obtain ⟨s1, e1, hp⟩ := wit (o := step (aux1Family12 true) pmOnboard {}
      (.update { uart := .aksim2 } {})) (fun s1 =>
        (step (aux1Family12 true) pmOnboard s1 (.poll 11 false)).elim false fun s2 =>
          decide (s2.error = .none) && (cycle (fun _ => false) s2).elim false fun q =>
            decide (ST.as5047 ∉ q.2.2)) (by decide +kernel)
    obtain ⟨s2, e2, hp⟩ := wit _ hp
    rw [Bool.and_eq_true, decide_eq_true_eq] at hp
    obtain ⟨q, e3, hq⟩ := wit _ hp.2
    exact ⟨s1, s2, q.1, q.2.1, q.2.2, e1, e2, hp.1, e3, by simpa using hq⟩
  obtain ⟨s1, s2, s3, l, l', e1, e2, e3, e4, e5⟩ := hs
  exact e5 (h _ (by simp [boards]) _ _ _ s1 s2 s3 l l' e1 (Or.inl rfl) e2 e3 e4)

/-- A refused configuration stops all sampling of the port. -/
theorem C91_refused_nothing (hw : Hw) (pm : PinMap) (s0 s1 s s' : St) (c : Cfg) (mk : Mk)
    (ops : List Op) (input : Fin 5 → Bool) (l l' : List ST)
    (h1 : handle hw pm mk c s0 = .ret s1) (hn : NoUpdate ops)
    (hr : run hw pm s1 ops = some s) (hc : cycle input s = some (s', l, l')) : l' = [] := by
  have hr1 := handle_ret h1
  have ha : s.anyIsr = false := by
    have h0 := hr1.anyIsr
    clear hr1 h1 hc
    induction ops generalizing s1 with
    | nil => simp only [run, Option.some.injEq] at hr; subst hr; exact h0
    | cons o ops ih =>
      simp only [run, Option.bind_eq_some_iff] at hr
      obtain ⟨m, hm, hr⟩ := hr
      refine ih m (fun c mk hc => hn c mk (List.mem_cons_of_mem _ hc)) hr ?_
      cases o with
      | update c mk => exact absurd (by simp) (hn c mk)
      | poll ms e =>
        have hadd : ∀ (t : ST) (x y : St), (addBoth true t x).st = some y → y.anyIsr = x.anyIsr := by
          intro t x y hxy
          unfold addBoth at hxy
          rw [if_pos rfl] at hxy
          split at hxy
          · simp [Flow.st] at hxy
          unfold addFin at hxy
          rw [if_pos rfl] at hxy
          split at hxy
          · simp [Flow.st] at hxy
          simp only [Flow.st, Option.some.injEq] at hxy
          subst hxy; rfl
        simp only [step, pollMs, Option.bind_eq_some_iff] at hm
        obtain ⟨q, hq, hm⟩ := hm
        have hq' : q.anyIsr = false := by
          unfold startAs at hq
          split at hq
          · rw [hadd _ _ _ hq]; exact h0
          · simp only [Option.some.injEq] at hq; subst hq; exact h0
        unfold startMa at hm
        split at hm
        · split at hm
          · simp only [Option.some.injEq] at hm; subst hm; exact hq'
          · rw [hadd _ _ _ hm]; exact hq'
        · simp only [Option.some.injEq] at hm; subst hm; exact hq'
      | cycle input =>
        simp only [step, Option.map_eq_some_iff] at hm
        obtain ⟨⟨m', l, l'⟩, hc, rfl⟩ := hm
        rcases finish_st (cycle_some hc).2 with rfl | rfl <;> exact h0
      | out v =>
        simp only [step, Option.some.injEq] at hm
        subst hm; exact h0
  obtain ⟨-, hf⟩ := cycle_some hc
  unfold isrFinish at hf
  rw [if_neg (by simp [ha])] at hf
  simp only [Option.some.injEq, Prod.mk.injEq] at hf
  exact hf.2.symm

def Flow.isRet : Flow → Bool
  | .ret _ => true
  | _ => false

example : ∃ s1, handle (aux1Family12 true) pmOnboard {} { uart := .aksim2 } {} = .ret s1 := by
  have h : (handle (aux1Family12 true) pmOnboard {} { uart := .aksim2 } {}).isRet = true := by
    decide +kernel
  cases hh : handle (aux1Family12 true) pmOnboard {} { uart := .aksim2 } {} with
  | ret s => exact ⟨s, rfl⟩
  | go s => rw [hh] at h; simp [Flow.isRet] at h
  | die => rw [hh] at h; simp [Flow.isRet] at h

/-- A digital input on a pin that the port does not have is accepted, and
reported as an active input. -/
theorem C91_missing_pin_refuted :
    ¬ ∀ hw ∈ boards, ∀ pm c mk s1 i, step hw pm {} (.update c mk) = some s1 → s1.error = .none →
      s1.gpioBits i = true → ∃ r ∈ hw.rows, r.number = i := by
  intro h
  have hs : ∃ s1, step aux2Family0 (fun _ _ _ => none) {}
      (.update { spi := .disabled, pins := fun i => if i.val = 4 then { mode := .dIn } else {} } {}) =
        some s1 ∧ s1.error = .none ∧ s1.gpioBits 4 = true := by
    obtain ⟨s, e, hp⟩ := wit (o := step aux2Family0 (fun _ _ _ => none) {}
      (.update { spi := .disabled, pins := fun i => if i.val = 4 then { mode := .dIn } else {} } {}))
      (fun s => decide (s.error = .none) && s.gpioBits 4) (by decide +kernel)
    exact ⟨s, e, by simpa using hp⟩
  obtain ⟨s1, e1, e2, e3⟩ := hs
  have := h aux2Family0 (by simp [boards]) _ _ _ s1 4 e1 e2 e3
  revert this
  simp [aux2Family0]

/-! ## Epoch -/

/-- Every configuration advances the epoch by one; nothing else changes it. -/
theorem C91_epoch (hw : Hw) (pm : PinMap) (s s' : St) (o : Op) (h : step hw pm s o = some s') :
    s'.epoch = match o with
      | .update _ _ => (s.epoch + 1) % 256
      | _ => s.epoch := by
  cases o with
  | update c mk =>
    rcases step_update h with h | h
    · exact h.epoch
    · exact h.epoch
  | poll ms e =>
    have hadd : ∀ (t : ST) (x y : St), (addBoth true t x).st = some y → y.epoch = x.epoch := by
      intro t x y hxy
      unfold addBoth at hxy
      rw [if_pos rfl] at hxy
      split at hxy
      · simp [Flow.st] at hxy
      unfold addFin at hxy
      rw [if_pos rfl] at hxy
      split at hxy
      · simp [Flow.st] at hxy
      simp only [Flow.st, Option.some.injEq] at hxy
      subst hxy; rfl
    simp only [step, pollMs, Option.bind_eq_some_iff] at h
    obtain ⟨q, hq, hm⟩ := h
    have hq' : q.epoch = s.epoch := by
      unfold startAs at hq
      split at hq
      · rw [hadd _ _ _ hq]
      · simp only [Option.some.injEq] at hq; subst hq; rfl
    simp only
    unfold startMa at hm
    split at hm
    · split at hm
      · simp only [Option.some.injEq] at hm; subst hm; exact hq'
      · rw [hadd _ _ _ hm]; exact hq'
    · simp only [Option.some.injEq] at hm; subst hm; exact hq'
  | cycle input =>
    simp only [step, Option.map_eq_some_iff] at h
    obtain ⟨⟨m', l, l'⟩, hc, rfl⟩ := h
    rcases finish_st (cycle_some hc).2 with rfl | rfl <;> rfl
  | out v =>
    simp only [step, Option.some.injEq] at h
    subst h; rfl

example : ∃ s', step aux2Family0 (fun _ _ _ => none) { epoch := 255 }
    (.update { spi := .disabled } {}) = some s' ∧ s'.epoch = 0 := by
  obtain ⟨s, e, hp⟩ := wit (o := step aux2Family0 (fun _ _ _ => none) { epoch := 255 }
    (.update { spi := .disabled } {})) (fun s => decide (s.epoch = 0)) (by decide +kernel)
  exact ⟨s, e, by simpa using hp⟩

end Verif.Fw.Aux
