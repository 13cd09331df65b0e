import Verif.Fw.AuxPwm
import Verif.Fw.AuxPortProps
import Verif.Float.Approx

/-!
# What the PWM outputs do (C94)
-/

namespace Verif.Fw.AuxPwm

open Verif.Float

/-! ## Setting up a timer -/

/-- Clocks in a period, and the factor of the prescaler. -/
def wantedTicks (clock period : ℕ) : ℕ := clock * period / 1000000
def factor (clock period : ℕ) : ℕ := wantedTicks clock period / 65536 + 1

theorem factor_pos (clock period : ℕ) : 0 < factor clock period := by unfold factor; omega

theorem count_lt (clock period : ℕ) : wantedTicks clock period / factor clock period < 65536 := by
  rw [Nat.div_lt_iff_lt_mul (factor_pos _ _)]
  unfold factor
  omega

theorem setup_eq {clock period : ℕ} {t : Tim} (v : Valid t)
    (hT : wantedTicks clock period < 2 ^ 32) :
    setup clock period t = some { t with
      on := false
      psc := factor clock period - 1
      arr := wantedTicks clock period / factor clock period
      pwm := fun _ => false
      en := fun _ => false } := by
  have e1 : ((clock : ℤ) * (period : ℤ)).tdiv 1000000 = (wantedTicks clock period : ℕ) := by
    rw [Int.tdiv_eq_ediv_of_nonneg (by positivity)]
    unfold wantedTicks
    push_cast
    rfl
  have e2 : ((wantedTicks clock period : ℕ) : ℤ).tdiv 65536 + 1 = (factor clock period : ℕ) := by
    rw [Int.tdiv_eq_ediv_of_nonneg (by positivity)]
    unfold factor
    push_cast
    rfl
  have e3 : ((wantedTicks clock period : ℕ) : ℤ).tdiv (factor clock period : ℕ)
      = (wantedTicks clock period / factor clock period : ℕ) := by
    rw [Int.tdiv_eq_ediv_of_nonneg (by positivity)]
    push_cast
    rfl
  have hp := factor_pos clock period
  have hf : factor clock period ≤ 65536 := by unfold factor; omega
  have hc := count_lt clock period
  have hw := two16 v.width
  unfold setup
  simp only [e1, e2, e3]
  rw [if_neg (by omega)]
  congr 2
  · rw [Int.emod_eq_of_lt (by omega) (by omega)]; omega
  · rw [show (2 : ℤ) ^ t.width = ((2 ^ t.width : ℕ) : ℤ) by push_cast; rfl, ← Int.natCast_mod,
      Int.toNat_natCast, Nat.mod_eq_of_lt (by omega)]

/-! ## Configuring a port -/

/-- A timer with the values of a configuration. -/
structure Ready (clock period : ℕ) (t : Tim) : Prop where
  valid : Valid t
  psc : t.psc = factor clock period - 1
  arr : t.arr = wantedTicks clock period / factor clock period

/-- A configuration changes neither the counters nor the prescaler in force. -/
structure Keeps (a b : Tim) : Prop where
  cnt : b.cnt = a.cnt
  sub : b.sub = a.sub
  now : b.pscNow = a.pscNow
  width : b.width = a.width

/-- The port after some pins. -/
structure Added (hw : Aux.Hw) (ch : ChannelMap) (clock period : ℕ) (s : Aux.St) (q0 : ℕ → Tim)
    (don : Fin 5 → Prop) (p : Port) : Prop where
  keep : ∀ t, Keeps (q0 t) (p.tims t)
  valid : ∀ t, Valid (p.tims t)
  used : ∀ t ∈ p.used, Ready clock period (p.tims t)
  outs : ∀ i o, p.outs i = some o → don i ∧ (s.cfg.pins i).mode = .pwmOut ∧
    o.timer ∈ p.used ∧ o.counts = wantedTicks clock period / factor clock period ∧
    (p.tims o.timer).en o.chan = true ∧ (p.tims o.timer).pwm o.chan = true ∧
    p.wire i = some (o.timer, o.chan) ∧
    ∃ r, Aux.firstRow hw i = some r ∧ Aux.pwmTimer hw s i = some o.timer ∧
      o.chan = ch r.mbed o.timer
  all : ∀ i, don i → (s.cfg.pins i).mode = .pwmOut → (Aux.pwmTimer hw s i).isSome = true →
    (Aux.firstRow hw i).isSome = true → (p.outs i).isSome = true
  value : ∀ i, p.value i = .fin 0

theorem Valid.off {t : Tim} (h : Valid t) (b : Bool) : Valid { t with on := b } :=
  ⟨h.width, h.cnt, h.arr, h.sub, h.now, h.psc⟩

theorem Valid.attach {t : Tim} (h : Valid t) (k : Fin 4) : Valid (attach k t) :=
  ⟨h.width, h.cnt, h.arr, h.sub, h.now, h.psc⟩

theorem clear_added (hw ch) {clock period : ℕ} (s) {p : Port} (v : ∀ t, Valid (p.tims t)) :
    Added hw ch clock period s p.tims (fun _ => False) (clear p) where
  keep := by
    intro t
    simp only [clear]
    split <;> exact ⟨rfl, rfl, rfl, rfl⟩
  valid := by
    intro t
    simp only [clear]
    split
    · exact (v t).off false
    · exact v t
  used := by simp [clear]
  outs := by simp [clear]
  all := by simp
  value := by simp [clear]

theorem addPin_added {hw ch} {clock period : ℕ} {s : Aux.St} {q0 : ℕ → Tim} {don : Fin 5 → Prop}
    {p : Port} (hT : wantedTicks clock period < 2 ^ 32) (h : Added hw ch clock period s q0 don p) (i : Fin 5)
    (hi : ¬ don i) :
    ∃ q, addPin hw ch clock period s i p = some q ∧
      Added hw ch clock period s q0 (fun j => don j ∨ j = i) q := by
  have none_i : p.outs i = none := by
    cases e : p.outs i with
    | none => rfl
    | some o => exact absurd (h.outs i o e).1 hi
  unfold addPin
  split
  · rename_i hm
    split
    · rename_i t r ht hr
      -- the timer before the pin is attached
      obtain ⟨y, hy, hyr, hen, hk⟩ : ∃ y,
          (if t ∈ p.used then some (p.tims t) else setup clock period (p.tims t)) = some y ∧
          Ready clock period y ∧ (t ∈ p.used → y = p.tims t) ∧ Keeps (p.tims t) y := by
        by_cases e : t ∈ p.used
        · exact ⟨p.tims t, by rw [if_pos e], h.used t e, fun _ => rfl,
            ⟨rfl, rfl, rfl, rfl⟩⟩
        · rw [if_neg e, setup_eq (h.valid t) hT]
          have v := h.valid t
          have hf : factor clock period ≤ 65536 := by unfold factor; omega
          have hc := count_lt clock period
          have hw := two16 v.width
          exact ⟨_, rfl, ⟨⟨v.width, v.cnt, by simp only; omega, v.sub, v.now, by simp only; omega⟩,
            rfl, rfl⟩, fun c => absurd c e, ⟨rfl, rfl, rfl, rfl⟩⟩
      simp only [hy, Option.map_some]
      refine ⟨_, rfl, ?_⟩
      have ready_a : Ready clock period (attach (ch r.mbed t) y) :=
        ⟨hyr.valid.attach _, hyr.psc, hyr.arr⟩
      have mem : ∀ t', t' ∈ (if t ∈ p.used then p.used else p.used ++ [t]) ↔ t' ∈ p.used ∨ t' = t := by
        intro t'
        split
        · constructor
          · exact Or.inl
          · rintro (e | rfl)
            · exact e
            · assumption
        · simp
      constructor
      · intro t'
        simp only [Function.update_apply]
        split
        · rename_i e
          subst e
          have k := h.keep t'
          exact ⟨hk.cnt.trans k.cnt, hk.sub.trans k.sub, hk.now.trans k.now, hk.width.trans k.width⟩
        · exact h.keep t'
      · intro t'
        simp only [Function.update_apply]
        split
        · exact ready_a.valid
        · exact h.valid t'
      · intro t' ht'
        simp only [mem] at ht'
        simp only [Function.update_apply]
        split
        · exact ready_a
        · rename_i e
          exact h.used t' (ht'.resolve_right e)
      · intro j o ho
        simp only [Function.update_apply] at ho ⊢
        by_cases e : j = i
        · subst e
          rw [if_pos rfl] at ho
          injection ho with ho; subst ho
          refine ⟨Or.inr rfl, hm, (mem t).2 (Or.inr rfl), hyr.arr, ?_, ?_, by simp, r, hr, ht, rfl⟩
            <;> simp [attach]
        · rw [if_neg e] at ho
          obtain ⟨h1, h2, h3, h4, h5, h6, h7, h8⟩ := h.outs j o ho
          refine ⟨Or.inl h1, h2, (mem _).2 (Or.inl h3), h4, ?_, ?_, by rw [if_neg e, h7], h8⟩
          · by_cases e2 : o.timer = t
            · rw [if_pos e2]
              have := hen (e2 ▸ h3)
              simp only [attach, Function.update_apply]
              split
              · rfl
              · rw [this, ← e2, h5]
            · rw [if_neg e2, h5]
          · by_cases e2 : o.timer = t
            · rw [if_pos e2]
              have := hen (e2 ▸ h3)
              simp only [attach, Function.update_apply]
              split
              · rfl
              · rw [this, ← e2, h6]
            · rw [if_neg e2, h6]
      · intro j hj h2 h3 h4
        simp only [Function.update_apply]
        by_cases e : j = i
        · rw [if_pos e]; rfl
        · rw [if_neg e]; exact h.all j (hj.resolve_right e) h2 h3 h4
      · exact h.value
    · rename_i hno
      refine ⟨p, rfl, ⟨h.keep, h.valid, h.used, ?_, ?_, h.value⟩⟩
      · intro j o ho
        obtain ⟨h1, h2⟩ := h.outs j o ho
        exact ⟨Or.inl h1, h2⟩
      · intro j hj h2 h3 h4
        rcases hj with hj | rfl
        · exact h.all j hj h2 h3 h4
        · obtain ⟨t, ht⟩ := Option.isSome_iff_exists.1 h3
          obtain ⟨r, hr⟩ := Option.isSome_iff_exists.1 h4
          exact absurd hr (hno t r ht)
  · rename_i hm
    have all' : ∀ j, don j ∨ j = i → (s.cfg.pins j).mode = .pwmOut →
        (Aux.pwmTimer hw s j).isSome = true → (Aux.firstRow hw j).isSome = true →
        (p.outs j).isSome = true := by
      intro j hj h2 h3 h4
      rcases hj with hj | rfl
      · exact h.all j hj h2 h3 h4
      · exact absurd h2 hm
    split
    · refine ⟨p, rfl, ⟨h.keep, h.valid, h.used, ?_, all', h.value⟩⟩
      intro j o ho
      obtain ⟨h1, h2⟩ := h.outs j o ho
      exact ⟨Or.inl h1, h2⟩
    · refine ⟨_, rfl, ⟨h.keep, h.valid, h.used, ?_, all', h.value⟩⟩
      intro j o ho
      obtain ⟨h1, h2, h3, h4, h5, h6, h7, h8⟩ := h.outs j o ho
      refine ⟨Or.inl h1, h2, h3, h4, h5, h6, ?_, h8⟩
      have : j ≠ i := by rintro rfl; rw [none_i] at ho; cases ho
      simp only [Function.update_apply]
      rw [if_neg this, h7]

theorem addPins_added {hw ch} {clock period : ℕ} {s : Aux.St}
    (hT : wantedTicks clock period < 2 ^ 32) (l : List (Fin 5)) :
    ∀ {q0 : ℕ → Tim} {don : Fin 5 → Prop} {p : Port}, Added hw ch clock period s q0 don p → l.Nodup →
    (∀ i ∈ l, ¬ don i) →
    ∃ q, addPins hw ch clock period s l p = some q ∧
      Added hw ch clock period s q0 (fun j => don j ∨ j ∈ l) q := by
  induction l with
  | nil => intro q0 don p h _ _; exact ⟨p, rfl, by simpa using h⟩
  | cons i l ih =>
    intro q0 don p h hn hd
    rw [List.nodup_cons] at hn
    obtain ⟨q, e, hq⟩ := addPin_added hT h i (hd i (by simp))
    obtain ⟨q', e', hq'⟩ := ih hq hn.2 (by
      intro j hj c
      rcases c with c | rfl
      · exact hd j (by simp [hj]) c
      · exact hn.1 hj)
    refine ⟨q', by simp [addPins, e, e'], ?_⟩
    have : (fun j => (don j ∨ j = i) ∨ j ∈ l) = fun j => don j ∨ j ∈ i :: l := by
      funext j; simp [or_assoc]
    rw [← this]; exact hq'

/-- An output that works. -/
structure Works (clock period : ℕ) (p : Port) (i : Fin 5) (t : ℕ) (k : Fin 4) : Prop where
  out : p.outs i = some ⟨t, k, wantedTicks clock period / factor clock period⟩
  wire : p.wire i = some (t, k)
  ready : Ready clock period (p.tims t)
  on : (p.tims t).on = true
  en : (p.tims t).en k = true
  pwm : (p.tims t).pwm k = true
  apart : ∀ j o, j ≠ i → p.outs j = some o → o.timer = t → o.chan ≠ k

theorem configure_works {hw ch} {clock period : ℕ} {s : Aux.St} {p0 : Port}
    (hT : wantedTicks clock period < 2 ^ 32) (v : ∀ t, Valid (p0.tims t)) :
    ∃ p, configure hw ch clock period s p0 = some p ∧ (∀ i, p.value i = .fin 0) ∧
      (∀ t, Keeps (p0.tims t) (p.tims t) ∧ Valid (p.tims t)) ∧
      ∀ i t r, (s.cfg.pins i).mode = .pwmOut → Aux.pwmTimer hw s i = some t →
        Aux.firstRow hw i = some r →
        (∀ j r', j ≠ i → (s.cfg.pins j).mode = .pwmOut → Aux.pwmTimer hw s j = some t →
          Aux.firstRow hw j = some r' → ch r'.mbed t ≠ ch r.mbed t) →
        t ∈ p.used ∧ Works clock period p i t (ch r.mbed t) := by
  obtain ⟨q, e, h⟩ := addPins_added hT (List.finRange 5) (clear_added hw ch s v)
    (List.nodup_finRange 5) (by simp)
  refine ⟨begin_ q, by simp [configure, e], h.value, ?_, ?_⟩
  · intro t
    have k := h.keep t
    simp only [begin_]
    split
    · have v := h.valid t
      exact ⟨⟨k.cnt, k.sub, k.now, k.width⟩, ⟨v.width, v.cnt, v.arr, v.sub, v.now, v.psc⟩⟩
    · exact ⟨k, h.valid t⟩
  intro i t r hm ht hr ha
  obtain ⟨o, ho⟩ := Option.isSome_iff_exists.1
    (h.all i (by simp) hm (by rw [ht]; rfl) (by rw [hr]; rfl))
  obtain ⟨-, -, h3, h4, h5, h6, h7, r', h8, h9, h10⟩ := h.outs i o ho
  rw [hr] at h8
  injection h8 with h8; subst h8
  rw [ht] at h9
  injection h9 with h9; subst h9
  have rd := h.used _ h3
  refine ⟨h3, ?_⟩
  constructor
  · show q.outs i = _
    rw [ho, ← h4, ← h10]
  · show q.wire i = _
    rw [h7, h10]
  · simp only [begin_]
    rw [if_pos h3]
    exact ⟨rd.valid.off true, rd.psc, rd.arr⟩
  · simp only [begin_]; rw [if_pos h3]
  · simp only [begin_]; rw [if_pos h3, ← h10]; exact h5
  · simp only [begin_]; rw [if_pos h3, ← h10]; exact h6
  · intro j o' hj ho' et
    obtain ⟨-, g2, -, -, -, -, -, r'', g8, g9, g10⟩ := h.outs j o' ho'
    rw [g10, et]
    exact ha j r'' hj g2 (et ▸ g9) g8

/-! ## While it runs -/

/-- Clocks in a sequence. -/
def clocks : List Ev → ℕ
  | [] => 0
  | .clock :: l => clocks l + 1
  | _ :: l => clocks l

/-- The clocks during which the pin is high. -/
def highs (A : Ar) (i : Fin 5) : Port → List Ev → ℕ
  | _, [] => 0
  | p, .clock :: l => highs A i (step A p .clock) l + if pinLevel p i then 1 else 0
  | p, e :: l => highs A i (step A p e) l

/-- Only other pins are written. -/
def Quiet (i : Fin 5) (l : List Ev) : Prop :=
  ∀ pin v, Ev.write pin v ∈ l → 0 ≤ pin ∧ pin ≤ 4 ∧ pin ≠ i

theorem clampPin_eq {pin : ℤ} (h0 : 0 ≤ pin) (h4 : pin ≤ 4) : (clampPin pin : ℤ) = pin := by
  unfold clampPin; omega

/-- Equal but for the other compare registers. -/
def Like (k : Fin 4) (a b : Tim) : Prop := b = { a with ccr := b.ccr } ∧ b.ccr k = a.ccr k

theorem Like.tick {k a b} (h : Like k a b) : Like k (tick a) (tick b) := by
  obtain ⟨h1, h2⟩ := h
  generalize b.ccr = c at h1 h2
  subst h1
  unfold AuxPwm.tick
  split_ifs <;> exact ⟨rfl, h2⟩

theorem Like.level {k a b} (h : Like k a b) : level b k = level a k := by
  obtain ⟨h1, h2⟩ := h
  unfold AuxPwm.level
  rw [h2, h1]

section Cycle

variable {A : Ar} {i : Fin 5} {t : ℕ} {k : Fin 4} {c : ℕ}

theorem fold_write (l : List (Fin 5)) : ∀ {p : Port}, p.outs i = some ⟨t, k, c⟩ →
    (∀ j o, j ≠ i → p.outs j = some o → o.timer = t → o.chan ≠ k) →
    (l.foldl (writePin A) p).outs = p.outs ∧ (l.foldl (writePin A) p).wire = p.wire ∧
    (l.foldl (writePin A) p).value = p.value ∧
    (l.foldl (writePin A) p).tims t
      = { p.tims t with ccr := ((l.foldl (writePin A) p).tims t).ccr } ∧
    ((l.foldl (writePin A) p).tims t).ccr k
      = if i ∈ l then compare A c (p.value i) else (p.tims t).ccr k := by
  induction l with
  | nil => intro p _ _; exact ⟨rfl, rfl, rfl, rfl, by simp⟩
  | cons j l ih =>
    intro p ho ha
    have f1 : (writePin A p j).outs = p.outs := by unfold writePin; split <;> rfl
    have f2 : (writePin A p j).wire = p.wire := by unfold writePin; split <;> rfl
    have f3 : (writePin A p j).value = p.value := by unfold writePin; split <;> rfl
    have f4 : (writePin A p j).tims t = { p.tims t with ccr := ((writePin A p j).tims t).ccr } := by
      unfold writePin
      split
      · rfl
      · simp only [Function.update_apply]
        split
        · rename_i e; rw [e]
        · rfl
    have f5 : ((writePin A p j).tims t).ccr k
        = if j = i then compare A c (p.value i) else (p.tims t).ccr k := by
      by_cases e : j = i
      · subst e
        rw [if_pos rfl]
        unfold writePin
        rw [ho]
        simp
      · rw [if_neg e]
        unfold writePin
        split
        · rfl
        · rename_i o ho'
          simp only [Function.update_apply]
          split
          · rename_i e2
            have := ha j o e ho' e2.symm
            simp only [Function.update_apply]
            rw [if_neg (Ne.symm this), ← e2]
          · rfl
    obtain ⟨g1, g2, g3, g4, g5⟩ := ih (p := writePin A p j) (by rw [f1]; exact ho)
      (by rw [f1]; exact ha)
    rw [List.foldl_cons]
    refine ⟨g1.trans f1, g2.trans f2, g3.trans f3, ?_, ?_⟩
    · rw [g4, f4]
    · rw [g5, f3, f5]
      by_cases e : i ∈ l
      · simp [e]
      · rw [if_neg e]
        by_cases e2 : j = i
        · simp [e2]
        · rw [if_neg e2, if_neg (by simp [e, Ne.symm e2])]

end Cycle

section Run

variable {A : Ar} {clock period : ℕ} {i : Fin 5} {t : ℕ} {k : Fin 4}

theorem cycle_facts {p : Port} (h : Works clock period p i t k) :
    Works clock period (cycle A p) i t k ∧ (cycle A p).value = p.value ∧
    (cycle A p).tims t = { p.tims t with ccr := ((cycle A p).tims t).ccr } ∧
    ((cycle A p).tims t).ccr k
      = compare A (wantedTicks clock period / factor clock period) (p.value i) := by
  obtain ⟨g1, g2, g3, g4, g5⟩ := fold_write (A := A) (List.finRange 5) h.out h.apart
  rw [if_pos (by simp)] at g5
  have g4' : (cycle A p).tims t = { p.tims t with ccr := ((cycle A p).tims t).ccr } := g4
  refine ⟨⟨?_, ?_, ?_, ?_, ?_, ?_, ?_⟩, g3, g4, g5⟩
  · show (cycle A p).outs i = _
    rw [show (cycle A p).outs = p.outs from g1]; exact h.out
  · rw [show (cycle A p).wire = p.wire from g2]; exact h.wire
  · rw [g4']
    have r := h.ready
    exact ⟨⟨r.valid.width, r.valid.cnt, r.valid.arr, r.valid.sub, r.valid.now, r.valid.psc⟩,
      r.psc, r.arr⟩
  · rw [g4']; exact h.on
  · rw [g4']; exact h.en
  · rw [g4']; exact h.pwm
  · rw [show (cycle A p).outs = p.outs from g1]; exact h.apart

theorem clock_works {p : Port} (h : Works clock period p i t k) :
    Works clock period (step A p .clock) i t k := by
  obtain ⟨f1, f2, f3, f4, f5, f6, f7⟩ := tick_fixed (p.tims t)
  exact ⟨h.out, h.wire, ⟨tick_valid h.ready.valid, f1.trans h.ready.psc, f2.trans h.ready.arr⟩,
    f6.trans h.on, by simp only [step]; rw [f4]; exact h.en,
    by simp only [step]; rw [f5]; exact h.pwm, h.apart⟩

theorem write_works {p : Port} (h : Works clock period p i t k) (pin : ℤ) (v : Fl) :
    Works clock period (step A p (.write pin v)) i t k :=
  ⟨h.out, h.wire, h.ready, h.on, h.en, h.pwm, h.apart⟩

theorem run_works (l : List Ev) : ∀ {p : Port}, Works clock period p i t k →
    Works clock period (run A p l) i t k := by
  induction l with
  | nil => intro p h; exact h
  | cons e l ih =>
    intro p h
    show Works clock period (run A (step A p e) l) i t k
    apply ih
    cases e with
    | clock => exact clock_works h
    | cycle => exact (cycle_facts h).1
    | write pin v => exact write_works h pin v

theorem quiet_cons {e : Ev} {l : List Ev} (h : Quiet i (e :: l)) : Quiet i l :=
  fun pin v hm => h pin v (List.mem_cons_of_mem _ hm)

theorem step_quiet {p : Port} {pin : ℤ} {v : Fl} (h : 0 ≤ pin ∧ pin ≤ 4 ∧ pin ≠ i) :
    (step A p (.write pin v)).value i = p.value i := by
  simp only [step]
  rw [if_neg]
  intro c
  have := clampPin_eq h.1 h.2.1
  rw [← c] at this
  exact h.2.2 this.symm

theorem run_quiet (l : List Ev) : ∀ {p : Port}, Works clock period p i t k → Quiet i l →
    (run A p l).value i = p.value i ∧
    (Ev.cycle ∈ l ∨ ((p.tims t).ccr k
      = compare A (wantedTicks clock period / factor clock period) (p.value i)) →
      ((run A p l).tims t).ccr k
        = compare A (wantedTicks clock period / factor clock period) (p.value i)) := by
  induction l with
  | nil =>
    intro p _ _
    refine ⟨rfl, ?_⟩
    rintro (h | h)
    · simp at h
    · exact h
  | cons e l ih =>
    intro p h hq
    show (run A (step A p e) l).value i = _ ∧ (_ → ((run A (step A p e) l).tims t).ccr k = _)
    cases e with
    | clock =>
      obtain ⟨i1, i2⟩ := ih (clock_works (A := A) h) (quiet_cons hq)
      refine ⟨i1, fun hc => i2 ?_⟩
      rcases hc with hc | hc
      · exact Or.inl (by simpa using hc)
      · right
        show (tick (p.tims t)).ccr k = _
        rw [(tick_fixed _).2.2.1]; exact hc
    | cycle =>
      obtain ⟨c1, c2, c3, c4⟩ := cycle_facts (A := A) h
      obtain ⟨i1, i2⟩ := ih (p := step A p .cycle) c1 (quiet_cons hq)
      have cv : (step A p .cycle).value = p.value := c2
      rw [cv] at i1 i2
      exact ⟨i1, fun _ => i2 (Or.inr c4)⟩
    | write pin v =>
      have hv := step_quiet (A := A) (p := p) (v := v) (hq pin v (by simp))
      obtain ⟨i1, i2⟩ := ih (write_works (A := A) h pin v) (quiet_cons hq)
      rw [hv] at i1 i2
      refine ⟨i1, fun hc => i2 ?_⟩
      rcases hc with hc | hc
      · exact Or.inl (by simpa using hc)
      · exact Or.inr hc

/-- The timer counts clocks, whatever else happens. -/
theorem run_clocks (l : List Ev) : ∀ {p : Port}, Works clock period p i t k →
    (run A p l).tims t = { ticks (p.tims t) (clocks l) with ccr := ((run A p l).tims t).ccr } := by
  induction l with
  | nil => intro p _; rfl
  | cons e l ih =>
    intro p h
    show (run A (step A p e) l).tims t
      = { ticks (p.tims t) (clocks (e :: l)) with ccr := ((run A (step A p e) l).tims t).ccr }
    have ccr_irrel : ∀ (n : ℕ) (a : Tim) (c : Fin 4 → ℕ),
        ticks { a with ccr := c } n = { ticks a n with ccr := c } := by
      intro n a c
      induction n with
      | zero => rfl
      | succ n ihn =>
        rw [ticks_succ, ticks_succ, ihn]
        unfold tick
        split_ifs <;> rfl
    cases e with
    | clock =>
      have e : ticks (p.tims t) (clocks (Ev.clock :: l))
          = ticks ((step A p .clock).tims t) (clocks l) := by
        show ticks _ (clocks l + 1) = _
        rw [Nat.add_comm, ticks_add]
        rfl
      rw [e]
      exact ih (clock_works (A := A) h)
    | cycle =>
      obtain ⟨c1, c2, c3, c4⟩ := cycle_facts (A := A) h
      have := ih (p := step A p .cycle) c1
      rw [this]
      have e3 : (step A p .cycle).tims t
        = { p.tims t with ccr := ((step A p .cycle).tims t).ccr } := c3
      rw [e3, ccr_irrel]
      rfl
    | write pin v => exact ih (write_works (A := A) h pin v)

theorem window (l : List Ev) : ∀ {p : Port} {tm : Tim}, Works clock period p i t k →
    Like k tm (p.tims t) →
    tm.ccr k = compare A (wantedTicks clock period / factor clock period) (p.value i) →
    Quiet i l →
    highs A i p l = Nat.count (fun m => level (ticks tm m) k = true) (clocks l) := by
  induction l with
  | nil => intro p tm _ _ _ _; simp [highs, clocks]
  | cons e l ih =>
    intro p tm h hl hc hq
    cases e with
    | clock =>
      show highs A i (step A p .clock) l + (if pinLevel p i then 1 else 0)
        = Nat.count _ (clocks l + 1)
      rw [Nat.count_succ']
      have e1 : pinLevel p i = level tm k := by
        unfold pinLevel
        rw [h.wire]
        exact hl.level
      have i1 := ih (p := step A p .clock) (tm := tick tm) (clock_works h) hl.tick
        (by rw [(tick_fixed _).2.2.1]; exact hc) (quiet_cons hq)
      rw [i1, e1]
      congr 1
    | cycle =>
      obtain ⟨c1, c2, c3, c4⟩ := cycle_facts (A := A) h
      refine ih (p := step A p .cycle) (tm := tm) c1 ?_ ?_ (quiet_cons hq)
      · obtain ⟨l1, l2⟩ := hl
        have e3 : (step A p .cycle).tims t
          = { p.tims t with ccr := ((step A p .cycle).tims t).ccr } := c3
        refine ⟨?_, ?_⟩
        · rw [e3, l1]
        · rw [hc]; exact c4
      · have cv : (step A p .cycle).value = p.value := c2
        rw [cv]; exact hc
    | write pin v =>
      refine ih (p := step A p (.write pin v)) (tm := tm) (write_works h pin v) hl ?_ (quiet_cons hq)
      rw [step_quiet (hq pin v (by simp))]; exact hc

end Run

/-! ## Specification -/

namespace Spec

/-- The duty cycle that a value asks for. -/
def duty : Fl → ℚ
  | .nan => 0
  | .inf neg => if neg then 0 else 1
  | .fin q => max 0 (min 1 q)

/-- A period of so many microseconds, in clocks. -/
def period (clock us : ℕ) : ℚ := clock * us / 1000000

/-- What was asked for last at a pin, and was seen by a control cycle since; 0
in the beginning. -/
def Asked (i : Fin 5) (l : List Ev) (v : Fl) : Prop :=
  (∃ a b, l = a ++ Ev.write i v :: b ∧ Quiet i b ∧ Ev.cycle ∈ b) ∨
  (v = .fin 0 ∧ Quiet i l ∧ Ev.cycle ∈ l)

/-- The pins that are PWM outputs have different channels. -/
def Apart (hw : Aux.Hw) (ch : ChannelMap) (s : Aux.St) (i : Fin 5) : Prop :=
  ∀ j t r r', j ≠ i → (s.cfg.pins j).mode = .pwmOut → Aux.pwmTimer hw s i = some t →
    Aux.pwmTimer hw s j = some t → Aux.firstRow hw i = some r → Aux.firstRow hw j = some r' →
    ch r'.mbed t ≠ ch r.mbed t

end Spec

/-! ## The value -/

section Value

variable {A : Ar}

theorem clamp_fin {v : Fl} (h : v ≠ .nan) : clampValue v = .fin (Spec.duty v) := by
  unfold clampValue Spec.duty
  rcases v with _ | ⟨_ | _⟩ | q
  · exact absurd rfl h
  · simp [Fl.max, Fl.min, Fl.blt, Fl.ble]
  · simp [Fl.max, Fl.min, Fl.blt, Fl.ble]
  · have hb : ∀ a b : ℚ, Fl.blt (.fin a) (.fin b) = decide (a < b) := by
      intro a b
      by_cases c : a < b
      · simp [Fl.blt, Fl.ble, c, c.le]
      · simp [Fl.blt, Fl.ble, c, not_lt.mp c]
    have m1 : Fl.min (.fin 1) (.fin q) = .fin (min 1 q) := by
      unfold Fl.min
      rw [hb]
      by_cases h1 : q < 1
      · rw [if_pos (by simpa using h1), min_eq_right h1.le]
      · rw [if_neg (by simpa using h1), min_eq_left (not_lt.mp h1)]
    have m2 : Fl.max (.fin 0) (.fin (min 1 q)) = .fin (max 0 (min 1 q)) := by
      unfold Fl.max
      rw [hb]
      by_cases h1 : 0 < min 1 q
      · rw [if_pos (by simpa using h1), max_eq_right h1.le]
      · rw [if_neg (by simpa using h1), max_eq_left (not_lt.mp h1)]
    rw [m1, m2]

theorem duty_range (v : Fl) : 0 ≤ Spec.duty v ∧ Spec.duty v ≤ 1 := by
  unfold Spec.duty
  rcases v with _ | ⟨_ | _⟩ | q <;> simp

/-- What is stored for a value between 0 and 1. -/
theorem compare_bounds (hA : A.Law3) {n : ℕ} (hn : n < 65536) {d : ℚ} (h0 : 0 ≤ d) (h1 : d ≤ 1) :
    |(compare A n (.fin d) : ℚ) - d * (n + 1 : ℕ)| ≤ 129 / 128 ∧ compare A n (.fin d) ≤ n + 1 ∧
    (d = 0 → compare A n (.fin d) = 0) ∧ (d = 1 → compare A n (.fin d) = min 65535 (n + 1)) := by
  have e1 : A.lit (((n + 1) % 4294967296 : ℕ) : ℚ) = .fin ((n + 1 : ℕ) : ℚ) := by
    rw [Nat.mod_eq_of_lt (by omega)]
    exact hA.lit_nat (by omega)
  have nn : (0 : ℚ) ≤ (n + 1 : ℕ) := by positivity
  have hn' : ((n + 1 : ℕ) : ℚ) ≤ 65536 := by exact_mod_cast hn
  set z : ℚ := d * (n + 1 : ℕ) with hz
  have z0 : 0 ≤ z := by positivity
  have zn : z ≤ (n + 1 : ℕ) := by rw [hz]; exact mul_le_of_le_one_left nn h1
  have rn : A.Rep ((n + 1 : ℕ) : ℚ) := by
    have := hA.rep_int (n := ((n + 1 : ℕ) : ℤ)) (by rw [abs_of_nonneg (by omega)]; omega)
    simpa using this
  have r0 : A.Rep 0 := by simpa using hA.rep_int (n := 0) (by norm_num)
  have q0 : 0 ≤ A.rq z := by have := hA.mono z0; rwa [r0.1] at this
  have qn : A.rq z ≤ (n + 1 : ℕ) := by have := hA.mono zn; rwa [rn.1] at this
  have er := Apx.rq_err hA z
  rw [abs_of_nonneg z0] at er
  have er' : |A.rq z - z| ≤ 1 / 128 := by
    refine er.trans ?_
    have : z * (1 / 16777216) ≤ 65536 * (1 / 16777216) := by
      apply mul_le_mul_of_nonneg_right (zn.trans hn') (by norm_num)
    refine (add_le_add_left this _).trans ?_
    norm_num
  have e2 : A.mul (.fin d) (.fin ((n + 1 : ℕ) : ℚ)) = .fin (A.rq z) := by
    show A.rnd (d * (n + 1 : ℕ)) = _
    unfold Ar.rnd
    rw [hA.small]
    · rfl
    · rw [abs_of_nonneg z0]
      refine (zn.trans hn').trans ?_
      decide +kernel
  have tr := (truncQ_spec (A.rq z)).1
  have tr2 := (truncQ_spec (A.rq z)).2.1 q0
  have e3 : toI32 (.fin (A.rq z)) = truncQ (A.rq z) := by
    apply toI32_trunc
    rw [abs_of_nonneg q0]
    refine (qn.trans hn').trans ?_
    norm_num
  have key : compare A n (.fin d) = (min 65535 (truncQ (A.rq z))).toNat := by
    unfold compare
    rw [e1, e2, e3]
    have := tr2.1
    rw [max_eq_right (by omega)]
  have tn : truncQ (A.rq z) ≤ (n + 1 : ℕ) := by
    have := tr2.2.trans qn
    exact_mod_cast this
  have t0 := tr2.1
  rw [key]
  refine ⟨?_, by omega, ?_, ?_⟩
  · rw [abs_le] at er' ⊢
    rw [abs_lt] at tr
    rcases le_or_gt (truncQ (A.rq z)) 65535 with c | c
    · rw [min_eq_right c]
      have e : (((truncQ (A.rq z)).toNat : ℕ) : ℚ) = (truncQ (A.rq z) : ℚ) := by
        have : (((truncQ (A.rq z)).toNat : ℕ) : ℤ) = truncQ (A.rq z) := by omega
        exact_mod_cast this
      rw [e]
      constructor <;> linarith [er'.1, er'.2, tr.1, tr2.2]
    · have e : truncQ (A.rq z) = 65536 := by omega
      rw [e] at tr2 tr ⊢
      have t2 : (65536 : ℚ) ≤ A.rq z := by exact_mod_cast tr2.2
      rw [show (min 65535 (65536 : ℤ)).toNat = 65535 from rfl]
      have zz := zn.trans hn'
      push_cast
      constructor <;> linarith [er'.1, er'.2]
  · intro hd
    have : z = 0 := by rw [hz, hd, zero_mul]
    rw [this, r0.1]
    decide +kernel
  · intro hd
    have e : z = (n + 1 : ℕ) := by rw [hz, hd, one_mul]
    rw [e, rn.1]
    have : truncQ ((n + 1 : ℕ) : ℚ) = (n + 1 : ℕ) := by
      unfold truncQ
      rw [if_pos nn]
      exact floor_unique (by push_cast; exact le_rfl) (by push_cast; linarith)
    rw [this]
    omega

end Value

/-! ## A configuration that was accepted -/

theorem pins_timer {hw : Aux.Hw} (is : List (Fin 5)) : ∀ {s s' : Aux.St},
    Aux.pinsSec hw is s = .go s' → ∀ i ∈ is, (s.cfg.pins i).mode = .pwmOut →
      (Aux.pwmTimer hw s i).isSome = true := by
  induction is with
  | nil => simp
  | cons j is ih =>
    intro s s' h i hi hm
    simp only [Aux.pinsSec, Aux.Flow.bind_go] at h
    obtain ⟨m, h1, h2⟩ := h
    have d := Aux.pin_go h1
    have ec : m.cfg = s.cfg := by rw [d.same]
    have eq : m.quad = s.quad := by rw [d.same]
    by_cases e : i = j
    · subst e
      unfold Aux.pinSec at h1
      rw [hm] at h1
      simp only [Aux.pwmSec] at h1
      cases ht : Aux.pwmTimer hw s i with
      | none => rw [ht] at h1; simp at h1
      | some t => rfl
    · have := ih h2 i ((List.mem_cons.1 hi).resolve_left e) (by rw [ec]; exact hm)
      unfold Aux.pwmTimer at this ⊢
      rw [eq] at this
      exact this

theorem addFin_same {b t} {s s' : Aux.St} (h : Aux.addFin b t s = .go s') :
    s'.cfg = s.cfg ∧ s'.quad = s.quad := by
  unfold Aux.addFin at h
  split at h
  · split at h
    · simp at h
    · injection h with h; subst h; exact ⟨rfl, rfl⟩
  · injection h with h; subst h; exact ⟨rfl, rfl⟩

theorem addBoth_same {b t} {s s' : Aux.St} (h : Aux.addBoth b t s = .go s') :
    s'.cfg = s.cfg ∧ s'.quad = s.quad := by
  unfold Aux.addBoth at h
  split at h
  · split at h
    · simp at h
    · have := addFin_same h; exact this
  · injection h with h; subst h; exact ⟨rfl, rfl⟩

theorem last_same {s s' : Aux.St} (h : Aux.lastSec s = .go s') :
    s'.cfg = s.cfg ∧ s'.quad = s.quad := by
  unfold Aux.lastSec at h
  simp only [Aux.Flow.bind_go] at h
  obtain ⟨m1, h1, m2, h2, m3, h3, m4, h4, m5, h5, m6, h6, m7, h7, m8, h8, h9⟩ := h
  have a1 := addBoth_same h1
  have a2 := addFin_same h2
  have a3 := addFin_same h3
  have a4 := addFin_same h4
  have a5 := addFin_same h5
  have a6 := addFin_same h6
  have a7 := addFin_same h7
  have a8 := addFin_same h8
  injection h9 with h9
  subst h9
  simp_all

theorem taken_timer {hw pm mk c} {s0 s : Aux.St} (h : Aux.handle hw pm mk c s0 = .go s) (i : Fin 5)
    (hm : (s.cfg.pins i).mode = .pwmOut) : (Aux.pwmTimer hw s i).isSome = true := by
  unfold Aux.handle at h
  simp only [Aux.Flow.bind_go] at h
  obtain ⟨m1, h1, m2, h2, m3, h3, m4, h4, m5, h5, m6, h6, m7, h7, m8, h8, h9⟩ := h
  have l := last_same h9
  have d := Aux.pins_go _ h8
  have ec : m8.cfg = m7.cfg := by rw [d.same]
  have eq : m8.quad = m7.quad := by rw [d.same]
  have := pins_timer _ h8 i (by simp) (by rw [← ec, ← l.1]; exact hm)
  unfold Aux.pwmTimer at this ⊢
  rw [l.2, eq]
  exact this

theorem timer_row {hw : Aux.Hw} {s : Aux.St} {i : Fin 5} {t : ℕ} (h : Aux.pwmTimer hw s i = some t) :
    ∃ r ∈ hw.rows, r.number = i ∧ r.timer = some t := by
  unfold Aux.pwmTimer at h
  obtain ⟨r, hr, e⟩ := List.exists_of_findSome?_eq_some h
  split at e
  · rename_i hn
    refine ⟨r, hr, hn, ?_⟩
    split at e
    · simp at e
    · rename_i t' ht'
      split at e
      · simp at e
      · rw [ht', e]
  · simp at e

theorem first_some {hw : Aux.Hw} {i : Fin 5} {r : Aux.Row} (h : r ∈ hw.rows) (hn : r.number = i) :
    (Aux.firstRow hw i).isSome = true := by
  unfold Aux.firstRow
  rw [List.find?_isSome]
  exact ⟨r, h, by simpa using hn⟩

theorem cast_div_le (a : ℕ) {k : ℕ} (hk : 0 < k) : ((a / k : ℕ) : ℚ) ≤ (a : ℚ) / (k : ℕ) := by
  rw [le_div_iff₀ (by exact_mod_cast hk)]
  exact_mod_cast Nat.div_mul_le_self a k

/-! ## The theorems -/

/-- The number of clocks with high level. -/
theorem highs_eq {A : Ar} (hA : A.Law3) {clock us : ℕ} {p : Port} {i : Fin 5} {t : ℕ} {k : Fin 4}
    (wk : Works clock us p i t k) (hv0 : ∀ i, p.value i = .fin 0) {v : Fl} {d : ℚ} (d0 : 0 ≤ d)
    (d1 : d ≤ 1) (hv : clampValue v = .fin d) {l w : List Ev} {n : ℕ} (hask : Spec.Asked i l v)
    (hset : settling (p.tims t) ≤ clocks l) (hq : Quiet i w)
    (hcw : clocks w
      = n * ((wantedTicks clock us / factor clock us + 1) * factor clock us)) :
    highs A i (run A p l) w
      = n * (compare A (wantedTicks clock us / factor clock us) (.fin d) * factor clock us) := by
  set R := factor clock us with hR
  set n1 := wantedTicks clock us / R with hn1
  have Rp : 0 < R := factor_pos _ _
  have n1lt : n1 < 65536 := count_lt _ _
  obtain ⟨b1, b2, b3, b4⟩ := compare_bounds hA n1lt d0 d1
  have wl := run_works (A := A) l wk
  -- the register
  have hreg : (run A p l).value i = .fin d ∧
      ((run A p l).tims t).ccr k = compare A n1 (.fin d) := by
    rcases hask with ⟨a, b, rfl, hqb, hcb⟩ | ⟨rfl, hql, hcl⟩
    · have wa := write_works (A := A) (run_works (A := A) a wk) i v
      have e : run A p (a ++ Ev.write i v :: b)
          = run A (step A (run A p a) (.write i v)) b := by
        unfold run; rw [List.foldl_append]; rfl
      obtain ⟨q1, q2⟩ := run_quiet (A := A) b wa hqb
      have ev : (step A (run A p a) (.write i v)).value i = .fin d := by
        simp only [step]
        rw [if_pos, hv]
        unfold clampPin
        have := i.2
        omega
      rw [e, q1, q2 (Or.inl hcb), ev]
      exact ⟨rfl, rfl⟩
    · obtain ⟨q1, q2⟩ := run_quiet (A := A) l wk hql
      rw [q1, q2 (Or.inl hcl), hv0]
      have : d = 0 := by
        rw [clamp_fin (by simp)] at hv
        injection hv with hv
        rw [← hv]; simp [Spec.duty]
      rw [this]
      exact ⟨rfl, rfl⟩
  -- the counter
  have st : Settled ((run A p l).tims t) := by
    obtain ⟨m, hm1, hm2⟩ := settles wk.ready.valid wk.on
    have hm3 : m ≤ clocks l := hm1.trans hset
    have := (ticks_settled (ticks_valid wk.ready.valid m) hm2 (clocks l - m)).1
    rw [← ticks_add, Nat.add_sub_cancel' hm3] at this
    have e := run_clocks (A := A) l wk
    rw [e]
    exact ⟨this.on, this.now, this.cnt⟩
  have hw' := window (A := A) (k := k) w wl ⟨rfl, rfl⟩ (by rw [hreg.1, hreg.2]) hq
  rw [hw', hcw]
  set tm := (run A p l).tims t with htm
  have fu : full tm = (n1 + 1) * R := by
    unfold full
    rw [wl.ready.arr, wl.ready.psc, show factor clock us - 1 + 1 = R by omega]
  have lv : (fun m => level (ticks tm m) k = true)
      = fun m => (pos tm + m) % ((n1 + 1) * R) < compare A n1 (.fin d) * R := by
    funext m
    obtain ⟨s1, s2⟩ := ticks_settled wl.ready.valid st m
    obtain ⟨t1, t2, t3, t4, t5, t6, t7⟩ := ticks_fixed tm m
    rw [level_pos (ticks_valid wl.ready.valid m) s1 (by rw [t4]; exact wl.en)
      (by rw [t5]; exact wl.pwm), s2, fu, t1, t3, hreg.2, wl.ready.psc,
      show factor clock us - 1 + 1 = R by omega, decide_eq_true_eq]
  have cong : ∀ (P Q : ℕ → Prop) (_ : DecidablePred P) (_ : DecidablePred Q) (_ : P = Q) (m : ℕ),
      Nat.count P m = Nat.count Q m := by
    intro P Q _ _ e m
    subst e
    congr
  rw [cong _ _ _ (fun m => inferInstance) lv, count_high, min_eq_left]
  exact Nat.mul_le_mul_right _ b2

/-- Once a configuration was taken and the timers have begun anew, a pin that is
a PWM output is high for the same number of clocks in every period, whatever
else happens, as long as no other value is written to it.  The period and the
duty cycle are those that were asked for, up to a clock and a 65536th part. -/
theorem C94_duty (A : Ar) (hA : A.Law3) (hw : Aux.Hw) (pm : Aux.PinMap) (mk : Aux.Mk) (c : Aux.Cfg)
    (s0 s : Aux.St) (taken : Aux.handle hw pm mk c s0 = .go s) (ch : ChannelMap) (clock us : ℕ)
    (range : Spec.period clock us < 2 ^ 32) (p0 : Port) (valid : ∀ t, Valid (p0.tims t)) :
    ∃ (p : Port) (full : ℕ), configure hw ch clock us s p0 = some p ∧ 0 < full ∧
      |(full : ℚ) - Spec.period clock us| ≤ Spec.period clock us / 65536 + 1 ∧
      ∀ i, (s.cfg.pins i).mode = .pwmOut → Spec.Apart hw ch s i → ∀ v, v ≠ .nan → ∃ on : ℕ,
        |(on : ℚ) - Spec.duty v * full| ≤ 129 / 128 * (Spec.period clock us / 65536 + 1) ∧
        on ≤ full ∧ (Spec.duty v = 0 → on = 0) ∧
        (Spec.duty v = 1 → on = full ∨ 65536 * on = 65535 * full) ∧
        (Spec.duty v = 1 → Spec.period clock us < 65535 → on = full) ∧
        ∀ l w n, Spec.Asked i l v → (∀ t ∈ p.used, settling (p.tims t) ≤ clocks l) → Quiet i w →
          clocks w = n * full → highs A i (run A p l) w = n * on := by
  have hT : wantedTicks clock us < 2 ^ 32 := by
    unfold wantedTicks
    rw [Nat.div_lt_iff_lt_mul (by norm_num)]
    unfold Spec.period at range
    rw [div_lt_iff₀ (by norm_num)] at range
    exact_mod_cast range
  obtain ⟨p, hp, hv0, -, hwk⟩ := configure_works (hw := hw) (ch := ch) (s := s) hT valid
  set R := factor clock us with hR
  set n1 := wantedTicks clock us / R with hn1
  have Rp : 0 < R := factor_pos _ _
  have n1lt : n1 < 65536 := count_lt _ _
  -- the period
  have pe1 : (wantedTicks clock us : ℚ) ≤ Spec.period clock us := by
    unfold wantedTicks Spec.period
    have := cast_div_le (clock * us) (k := 1000000) (by norm_num)
    push_cast at this ⊢
    exact this
  have pe2 : Spec.period clock us < wantedTicks clock us + 1 := by
    unfold wantedTicks Spec.period
    rw [div_lt_iff₀ (by norm_num)]
    have := Nat.lt_div_mul_add (a := clock * us) (b := 1000000) (by norm_num)
    have h : clock * us < (clock * us / 1000000 + 1) * 1000000 := by omega
    exact_mod_cast h
  have re : (R : ℚ) ≤ Spec.period clock us / 65536 + 1 := by
    rw [hR]; unfold factor
    have := cast_div_le (wantedTicks clock us) (k := 65536) (by norm_num)
    push_cast at this ⊢
    have h2 : (wantedTicks clock us : ℚ) / 65536 ≤ Spec.period clock us / 65536 := by
      apply div_le_div_of_nonneg_right pe1 (by norm_num)
    linarith
  have f1 : wantedTicks clock us < (n1 + 1) * R := by
    have := Nat.lt_div_mul_add (a := wantedTicks clock us) (b := R) Rp
    rw [Nat.add_mul, Nat.one_mul]
    exact this
  have f2 : (n1 + 1) * R ≤ wantedTicks clock us + R := by
    have : n1 * R ≤ _ := Nat.div_mul_le_self (wantedTicks clock us) R
    rw [Nat.add_mul, Nat.one_mul]
    omega
  refine ⟨p, (n1 + 1) * R, hp, by positivity, ?_, ?_⟩
  · have g1 : ((wantedTicks clock us : ℕ) : ℚ) + 1 ≤ ((n1 + 1) * R : ℕ) := by exact_mod_cast f1
    have g2 : (((n1 + 1) * R : ℕ) : ℚ) ≤ (wantedTicks clock us : ℕ) + (R : ℕ) := by exact_mod_cast f2
    have g3 : 0 ≤ Spec.period clock us := by unfold Spec.period; positivity
    have g4 : (1 : ℚ) ≤ R := by exact_mod_cast Rp
    generalize (n1 + 1) * R = full at g1 g2 ⊢
    rw [abs_le]
    constructor <;> linarith
  intro i hm ha v hv
  obtain ⟨t, ht⟩ := Option.isSome_iff_exists.1 (taken_timer taken i hm)
  obtain ⟨r0, hr0, hn0, -⟩ := timer_row ht
  obtain ⟨r, hr⟩ := Option.isSome_iff_exists.1 (first_some hr0 hn0)
  obtain ⟨mem, wk⟩ := hwk i t r hm ht hr (fun j r' hj h2 h3 h4 => ha j t r r' hj h2 ht h3 hr h4)
  obtain ⟨d0, d1⟩ := duty_range v
  obtain ⟨b1, b2, b3, b4⟩ := compare_bounds hA n1lt d0 d1
  refine ⟨compare A n1 (.fin (Spec.duty v)) * R, ?_, Nat.mul_le_mul_right _ b2, ?_, ?_, ?_, ?_⟩
  · have e : (((compare A n1 (.fin (Spec.duty v)) * R : ℕ) : ℚ)
        - Spec.duty v * ((n1 + 1) * R : ℕ))
        = (compare A n1 (.fin (Spec.duty v)) - Spec.duty v * (n1 + 1 : ℕ)) * R := by
      push_cast; ring
    rw [e, abs_mul, abs_of_nonneg (show (0 : ℚ) ≤ R by positivity)]
    exact mul_le_mul b1 re (by positivity) (by norm_num)
  · intro h; rw [b3 h, Nat.zero_mul]
  · intro h
    rw [b4 h]
    rcases lt_or_ge n1 65535 with c1 | c1
    · left; rw [min_eq_right (by omega)]
    · right
      rw [min_eq_left (by omega), show n1 + 1 = 65536 by omega]
      ring
  · intro h hs
    rw [b4 h]
    have : wantedTicks clock us < 65535 := by
      have := lt_of_le_of_lt pe1 hs
      exact_mod_cast this
    have : n1 ≤ wantedTicks clock us := Nat.div_le_self _ _
    rw [min_eq_right (by omega)]
  · intro l w n hask hset hq hcw
    exact highs_eq hA wk hv0 d0 d1 (clamp_fin hv) hask (hset t mem) hq hcw

/-! ### A port that works -/

/-- Both outputs of `TIM4` on the second port. -/
def pwmCfg : Aux.Cfg :=
  { spi := .disabled, pins := fun i => if i.val = 2 ∨ i.val = 3 then { mode := .pwmOut } else {} }

/-- The channels of the pins, as in the tables of docs/reference.md:287-327; PA_5
is channel 1 of `TIM2`, too. -/
def channels : ChannelMap := fun mbed _ =>
  if mbed = 0x07 ∨ mbed = 0x13 ∨ mbed = 0x17 then 1 else 0

def initial : Port where
  tims := fun t => if t = 2 then { width := 32, arr := 4294967295 } else {}

theorem initial_valid (t : ℕ) : Valid (initial.tims t) := by
  unfold initial
  simp only
  split <;> constructor <;> norm_num

/-- The pins of a board: only pins 0 and 3 of the first port share a channel,
and the pin that has the timer is the one that is used. -/
theorem C94_boards (hw : Aux.Hw) (hb : hw ∈ Aux.boards) (s : Aux.St) (i j : Fin 5) (t : ℕ)
    (r r' : Aux.Row) (hi : Aux.pwmTimer hw s i = some t) (hj : Aux.pwmTimer hw s j = some t)
    (fi : Aux.firstRow hw i = some r) (fj : Aux.firstRow hw j = some r') :
    r.timer = some t ∧
    (i ≠ j → channels r.mbed t = channels r'.mbed t →
      (i.val = 0 ∧ j.val = 3) ∨ (i.val = 3 ∧ j.val = 0)) := by
  have key : (Aux.boards.all fun hw => hw.rows.all fun x => x.timer.isNone ||
      decide ((Aux.firstRow hw x.number).map (fun y => (y.mbed, y.timer)) = some (x.mbed, x.timer)))
      = true := by decide +kernel
  have key2 : (Aux.boards.all fun hw => hw.rows.all fun x => hw.rows.all fun y =>
      x.timer.isNone || decide (x.timer ≠ y.timer) || decide (x.number = y.number) ||
      decide (channels x.mbed 0 ≠ channels y.mbed 0) ||
      decide ((x.number.val = 0 ∧ y.number.val = 3) ∨ (x.number.val = 3 ∧ y.number.val = 0)))
      = true := by decide +kernel
  rw [List.all_eq_true] at key key2
  have k := key hw hb
  have k2 := key2 hw hb
  rw [List.all_eq_true] at k k2
  obtain ⟨x, hx, nx, tx⟩ := timer_row hi
  obtain ⟨y, hy, ny, ty⟩ := timer_row hj
  have e1 := k x hx
  have e2 := k y hy
  rw [nx, tx, fi] at e1
  rw [ny, ty, fj] at e2
  simp only [Option.isNone_some, Bool.false_or, Option.map_some, decide_eq_true_eq,
    Option.some.injEq, Prod.mk.injEq] at e1 e2
  refine ⟨e1.2, fun hne hc => ?_⟩
  have k3 := k2 x hx
  rw [List.all_eq_true] at k3
  have k4 := k3 y hy
  rw [tx, ty, nx, ny, ← e1.1, ← e2.1] at k4
  have hc' : channels r.mbed 0 = channels r'.mbed 0 := hc
  simpa [hne, hc'] using k4

/-! ### Witnesses -/

def ok : Aux.Flow → Option Aux.St
  | .go s => some s
  | _ => none

theorem ok_go {x : Aux.Flow} {s : Aux.St} (h : ok x = some s) : x = .go s := by
  cases x <;> simp_all [ok]

def none3 : Aux.PinMap := fun _ _ _ => none

/-- Asking for nothing but PWM on the given pins. -/
def pwmOn (l : List ℕ) : Aux.Cfg :=
  { spi := .disabled, pins := fun i => if i.val ∈ l then { mode := .pwmOut } else {} }

theorem clocks_replicate (n : ℕ) : clocks (List.replicate n Ev.clock) = n := by
  induction n with
  | zero => rfl
  | succ n ih => rw [List.replicate_succ, clocks, ih]

theorem quiet_replicate (i : Fin 5) (n : ℕ) : Quiet i (List.replicate n Ev.clock) := by
  intro pin v h
  have := List.eq_of_mem_replicate h
  simp at this

/-- Half on for pin 2, other events, then many clocks. -/
def sampleRun : List Ev :=
  [.write 2 (.fin (1 / 2)), .write 3 (.fin 1), .cycle] ++ List.replicate 200000 .clock

/-- The case that `C94_duty` and `C94_boards` are about. -/
example : ∃ s p, Aux.handle Aux.aux2Family12 none3 {} pwmCfg {} = .go s ∧
    configure Aux.aux2Family12 channels 170000000 1000 s initial = some p ∧
    (s.cfg.pins 2).mode = .pwmOut ∧ (s.cfg.pins 3).mode = .pwmOut ∧
    Aux.pwmTimer Aux.aux2Family12 s 2 = some 4 ∧ Aux.pwmTimer Aux.aux2Family12 s 3 = some 4 ∧
    Spec.Apart Aux.aux2Family12 channels s 2 ∧ Spec.period 170000000 1000 = 170000 ∧
    Spec.Asked 2 sampleRun (.fin (1 / 2)) ∧
    ∀ t ∈ p.used, settling (p.tims t) ≤ clocks sampleRun := by
  obtain ⟨s, e, hp⟩ := Aux.wit (o := ok (Aux.handle Aux.aux2Family12 none3 {} pwmCfg {}))
    (fun s => decide ((s.cfg.pins 2).mode = .pwmOut) && decide ((s.cfg.pins 3).mode = .pwmOut) &&
      decide (Aux.pwmTimer Aux.aux2Family12 s 2 = some 4) &&
      decide (Aux.pwmTimer Aux.aux2Family12 s 3 = some 4) &&
      (configure Aux.aux2Family12 channels 170000000 1000 s initial).elim false fun p =>
        p.used.all fun t => decide (settling (p.tims t) ≤ 200000)) (by decide +kernel)
  simp only [Bool.and_eq_true, decide_eq_true_eq] at hp
  obtain ⟨⟨⟨⟨h2, h3⟩, h6⟩, h7⟩, h4⟩ := hp
  obtain ⟨p, ep, h5⟩ := Aux.wit _ h4
  refine ⟨s, p, ok_go e, ep, h2, h3, h6, h7, ?_, by norm_num [Spec.period], ?_, ?_⟩
  · intro j t r r' hne _ hi hj fi fj c
    have := (C94_boards _ (by simp [Aux.boards]) s 2 j t r r' hi hj fi fj).2 (Ne.symm hne) c.symm
    simp at this
  · refine Or.inl ⟨[], [.write 3 (.fin 1), .cycle] ++ List.replicate 200000 .clock, rfl, ?_, ?_⟩
    · intro pin v he
      rcases List.mem_append.1 he with h | h
      · simp only [List.mem_cons, Ev.write.injEq, reduceCtorEq, List.not_mem_nil, or_false] at h
        rw [h.1]; decide
      · have := List.eq_of_mem_replicate h
        simp at this
    · exact List.mem_append_left _ (by simp)
  · intro t ht
    rw [List.all_eq_true] at h5
    have := h5 t ht
    rw [decide_eq_true_eq] at this
    have e2 : clocks sampleRun = 200000 := by
      show clocks (List.replicate 200000 Ev.clock) = _
      rw [clocks_replicate]
    rw [e2]
    exact this

/-! ### What does not hold -/

/-- A port with a single PWM pin works. -/
theorem single_works {hw : Aux.Hw} {s : Aux.St} {c : Aux.Cfg} {i : Fin 5}
    (h : Aux.handle hw none3 {} c {} = .go s) (hm : (s.cfg.pins i).mode = .pwmOut)
    (ho : ∀ j, (s.cfg.pins j).mode = .pwmOut → j = i) {clock us : ℕ}
    (hT : wantedTicks clock us < 2 ^ 32) {p0 : Port} (v : ∀ t, Valid (p0.tims t)) :
    ∃ p t k, configure hw channels clock us s p0 = some p ∧ (∀ i, p.value i = .fin 0) ∧
      (∀ t, Keeps (p0.tims t) (p.tims t) ∧ Valid (p.tims t)) ∧ Aux.pwmTimer hw s i = some t ∧ t ∈ p.used ∧
      Works clock us p i t k := by
  obtain ⟨p, hp, hv0, hk, hwk⟩ := configure_works (hw := hw) (ch := channels) (s := s) hT v
  obtain ⟨t, ht⟩ := Option.isSome_iff_exists.1 (taken_timer h i hm)
  obtain ⟨r, hr, hn, -⟩ := timer_row ht
  obtain ⟨r', hf⟩ : ∃ r', Aux.firstRow hw i = some r' := by
    apply Option.isSome_iff_exists.1
    unfold Aux.firstRow
    rw [List.find?_isSome]
    exact ⟨r, hr, by simpa using hn⟩
  obtain ⟨mem, wk⟩ := hwk i t r' hm ht hf (fun j _ hne hj _ _ => absurd (ho j hj) hne)
  exact ⟨p, t, _, hp, hv0, hk, ht, mem, wk⟩

/-- Asking for PWM on one pin is accepted. -/
theorem one_pin : ∃ s, Aux.handle Aux.aux2Family12 none3 {} (pwmOn [2]) {} = .go s ∧
    (s.cfg.pins 2).mode = .pwmOut ∧ (∀ j, (s.cfg.pins j).mode = .pwmOut → j = 2) := by
  obtain ⟨s, e, hp⟩ := Aux.wit (o := ok (Aux.handle Aux.aux2Family12 none3 {} (pwmOn [2]) {}))
    (fun s => decide ((s.cfg.pins 2).mode = .pwmOut) &&
      decide (∀ j, (s.cfg.pins j).mode = .pwmOut → j = 2)) (by decide +kernel)
  simp only [Bool.and_eq_true, decide_eq_true_eq] at hp
  exact ⟨s, ok_go e, hp⟩

theorem three_pin : ∃ s, Aux.handle (Aux.aux1Family12 true) none3 {} (pwmOn [3]) {} = .go s ∧
    (s.cfg.pins 3).mode = .pwmOut ∧ (∀ j, (s.cfg.pins j).mode = .pwmOut → j = 3) ∧
    Aux.pwmTimer (Aux.aux1Family12 true) s 3 = some 2 := by
  obtain ⟨s, e, hp⟩ := Aux.wit (o := ok (Aux.handle (Aux.aux1Family12 true) none3 {} (pwmOn [3]) {}))
    (fun s => decide ((s.cfg.pins 3).mode = .pwmOut) &&
      decide (∀ j, (s.cfg.pins j).mode = .pwmOut → j = 3) &&
      decide (Aux.pwmTimer (Aux.aux1Family12 true) s 3 = some 2)) (by decide +kernel)
  simp only [Bool.and_eq_true, decide_eq_true_eq] at hp
  exact ⟨s, ok_go e, hp.1.1, hp.1.2, hp.2⟩

/-- With some periods the value 1 is not continuously on: at 771 µs the output
is low for two clocks of each period. -/
theorem C94_full_refuted (A : Ar) (hA : A.Law3) :
    ∃ s p, Aux.handle Aux.aux2Family12 none3 {} (pwmOn [2]) {} = .go s ∧
      configure Aux.aux2Family12 channels 170000000 771 s initial = some p ∧
      ∀ l w n, Spec.Asked 2 l (.fin 1) → (∀ t ∈ p.used, settling (p.tims t) ≤ clocks l) →
        Quiet 2 w → clocks w = n * 131072 → highs A 2 (run A p l) w = n * 131070 := by
  obtain ⟨s, h, hm, ho⟩ := one_pin
  have wt : wantedTicks 170000000 771 = 131070 := by decide
  have fa : factor 170000000 771 = 2 := by decide
  obtain ⟨p, t, k, hp, hv, -, -, mem, wk⟩ := single_works h hm ho (clock := 170000000) (us := 771)
    (by rw [wt]; norm_num) initial_valid
  refine ⟨s, p, h, hp, fun l w n hask hset hq hc => ?_⟩
  have cl : clampValue (.fin 1) = .fin 1 := by decide +kernel
  have := highs_eq hA wk hv (by norm_num) (le_refl _) cl hask (hset t mem) hq
    (n := n) (by rw [wt, fa]; exact hc)
  rw [this, wt, fa, (compare_bounds hA (n := 131070 / 2) (by norm_num) (by norm_num)
    (le_refl (1 : ℚ))).2.2.2 rfl]
  rfl

/-- The value NaN turns the output fully on. -/
theorem C94_nan_refuted (A : Ar) (hA : A.Law3) :
    ∃ s p, Aux.handle Aux.aux2Family12 none3 {} (pwmOn [2]) {} = .go s ∧
      configure Aux.aux2Family12 channels 170000000 100 s initial = some p ∧
      ∀ l w n, Spec.Asked 2 l .nan → (∀ t ∈ p.used, settling (p.tims t) ≤ clocks l) →
        Quiet 2 w → clocks w = n * 17001 → highs A 2 (run A p l) w = clocks w := by
  obtain ⟨s, h, hm, ho⟩ := one_pin
  have wt : wantedTicks 170000000 100 = 17000 := by decide
  have fa : factor 170000000 100 = 1 := by decide
  obtain ⟨p, t, k, hp, hv, -, -, mem, wk⟩ := single_works h hm ho (clock := 170000000) (us := 100)
    (by rw [wt]; norm_num) initial_valid
  refine ⟨s, p, h, hp, fun l w n hask hset hq hc => ?_⟩
  have cl : clampValue .nan = .fin 1 := by decide +kernel
  have := highs_eq hA wk hv (by norm_num) (le_refl _) cl hask (hset t mem) hq
    (n := n) (by rw [wt, fa]; exact hc)
  rw [this, wt, fa, (compare_bounds hA (n := 17000 / 1) (by norm_num) (by norm_num)
    (le_refl (1 : ℚ))).2.2.2 rfl, hc]
  rfl

/-- A period of 26 s is accepted, and the outputs have one of 0.74 s. -/
theorem C94_long_refuted : ∃ s p, Aux.handle Aux.aux2Family12 none3 {} (pwmOn [2]) {} = .go s ∧
    s.error = .none ∧ configure Aux.aux2Family12 channels 170000000 26000000 s initial = some p ∧
    p.used = [4] ∧ full (p.tims 4) = 125042688 ∧ Spec.period 170000000 26000000 = 4420000000 := by
  obtain ⟨s, e, hp⟩ := Aux.wit (o := ok (Aux.handle Aux.aux2Family12 none3 {} (pwmOn [2]) {}))
    (fun s => decide (s.error = .none) &&
      (configure Aux.aux2Family12 channels 170000000 26000000 s initial).elim false fun p =>
        decide (p.used = [4]) && decide (full (p.tims 4) = 125042688)) (by decide +kernel)
  simp only [Bool.and_eq_true, decide_eq_true_eq] at hp
  obtain ⟨h1, h2⟩ := hp
  obtain ⟨p, ep, h3⟩ := Aux.wit _ h2
  simp only [Bool.and_eq_true, decide_eq_true_eq] at h3
  exact ⟨s, p, ok_go e, h1, ep, h3.1, h3.2, by norm_num [Spec.period]⟩

/-- Some negative periods stop the controller: -400 µs divides by zero. -/
theorem C94_negative_refuted : ∃ s, Aux.handle Aux.aux2Family12 none3 {} (pwmOn [2]) {} = .go s ∧
    s.error = .none ∧ configure Aux.aux2Family12 channels 170000000 (-400) s initial = none := by
  obtain ⟨s, e, hp⟩ := Aux.wit (o := ok (Aux.handle Aux.aux2Family12 none3 {} (pwmOn [2]) {}))
    (fun s => decide (s.error = .none) &&
      (configure Aux.aux2Family12 channels 170000000 (-400) s initial).isNone) (by decide +kernel)
  simp only [Bool.and_eq_true, decide_eq_true_eq, Option.isNone_iff_eq_none] at hp
  exact ⟨s, ok_go e, hp⟩

/-- Clocks move nothing but the timers. -/
theorem run_tims {A : Ar} {p : Port} (t n : ℕ) :
    (run A p (List.replicate n Ev.clock)).tims t = ticks (p.tims t) n := by
  induction n generalizing p with
  | zero => rfl
  | succ n ih =>
    rw [List.replicate_succ]
    show (run A (step A p .clock) (List.replicate n Ev.clock)).tims t = _
    rw [ih, Nat.add_comm n 1, ticks_add]
    rfl

theorem run_same {A : Ar} {p : Port} {i : Fin 5} {t : ℕ} {k : Fin 4} (hw : p.wire i = some (t, k))
    (n : ℕ) : (run A p (List.replicate n Ev.clock)).wire i = some (t, k) ∧
      (run A p (List.replicate n Ev.clock)).tims t = ticks (p.tims t) n := by
  refine ⟨?_, run_tims t n⟩
  induction n generalizing p with
  | zero => exact hw
  | succ n ih =>
    rw [List.replicate_succ]
    exact ih (p := step A p .clock) hw

/-- Pins 0 and 3 of the first port are both accepted as PWM outputs, but pin 0
has the value of pin 3: here it was set to 1 and stays low. -/
theorem C94_shared_refuted :
    ∃ s p, Aux.handle (Aux.aux1Family12 true) none3 {} (pwmOn [0, 3]) {} = .go s ∧ s.error = .none ∧
      configure (Aux.aux1Family12 true) channels 170000000 100 s initial = some p ∧
      ∀ n, pinLevel (run Ar.single p ([.write 0 (.fin 1), .write 3 (.fin 0), .cycle] ++
        List.replicate n Ev.clock)) 0 = false := by
  obtain ⟨s, e, hp⟩ := Aux.wit
    (o := ok (Aux.handle (Aux.aux1Family12 true) none3 {} (pwmOn [0, 3]) {}))
    (fun s => decide (s.error = .none) &&
      (configure (Aux.aux1Family12 true) channels 170000000 100 s initial).elim false fun p =>
        decide ((run Ar.single p [.write 0 (.fin 1), .write 3 (.fin 0), .cycle]).wire 0 = some (2, 0))
        && decide (((run Ar.single p [.write 0 (.fin 1), .write 3 (.fin 0), .cycle]).tims 2).ccr 0
          = 0)) (by decide +kernel)
  simp only [Bool.and_eq_true, decide_eq_true_eq] at hp
  obtain ⟨h1, h2⟩ := hp
  obtain ⟨p, ep, h3⟩ := Aux.wit _ h2
  simp only [Bool.and_eq_true, decide_eq_true_eq] at h3
  refine ⟨s, p, ok_go e, h1, ep, fun n => ?_⟩
  have e2 : run Ar.single p ([.write 0 (.fin 1), .write 3 (.fin 0), .cycle] ++
      List.replicate n Ev.clock) = run Ar.single (run Ar.single p
        [.write 0 (.fin 1), .write 3 (.fin 0), .cycle]) (List.replicate n Ev.clock) := by
    unfold run; rw [List.foldl_append]
  rw [e2]
  obtain ⟨w1, w2⟩ := run_same (A := Ar.single) h3.1 n
  unfold pinLevel
  rw [w1]
  simp only [level]
  rw [w2, (ticks_fixed _ n).2.2.1, h3.2]
  simp

/-- A pin that is no longer an output of any function keeps the level that the
timer had when it was stopped: here high for ever. -/
theorem C94_stuck_refuted :
    ∃ s p s' p', Aux.handle Aux.aux2Family12 none3 {} (pwmOn [2]) {} = .go s ∧
      configure Aux.aux2Family12 channels 170000000 1000 s initial = some p ∧
      Aux.handle Aux.aux2Family12 none3 {} (pwmOn []) s = .go s' ∧ (s'.cfg.pins 2).mode = .nc ∧
      configure Aux.aux2Family12 channels 170000000 1000 s'
        (run Ar.single p [.write 2 (.fin (1 / 2)), .cycle]) = some p' ∧
      ∀ n, pinLevel (run Ar.single p' (List.replicate n Ev.clock)) 2 = true := by
  obtain ⟨s, e, hp⟩ := Aux.wit (o := ok (Aux.handle Aux.aux2Family12 none3 {} (pwmOn [2]) {}))
    (fun s => (configure Aux.aux2Family12 channels 170000000 1000 s initial).elim false fun p =>
      (ok (Aux.handle Aux.aux2Family12 none3 {} (pwmOn []) s)).elim false fun s' =>
      decide ((s'.cfg.pins 2).mode = .nc) &&
      (configure Aux.aux2Family12 channels 170000000 1000 s'
        (run Ar.single p [.write 2 (.fin (1 / 2)), .cycle])).elim false fun p' =>
        decide (p'.wire 2 = some (4, 0)) && !(p'.tims 4).on && level (p'.tims 4) 0)
    (by decide +kernel)
  obtain ⟨p, ep, h2⟩ := Aux.wit _ hp
  obtain ⟨s', es, h3⟩ := Aux.wit _ h2
  rw [Bool.and_eq_true, decide_eq_true_eq] at h3
  obtain ⟨p', ep', h4⟩ := Aux.wit _ h3.2
  simp only [Bool.and_eq_true, decide_eq_true_eq, Bool.not_eq_true'] at h4
  refine ⟨s, p, s', p', ok_go e, ep, ok_go es, h3.1, ep', fun n => ?_⟩
  obtain ⟨w1, w2⟩ := run_same (A := Ar.single) h4.1.1 n
  have stop : ∀ n, ticks (p'.tims 4) n = p'.tims 4 := by
    intro n
    induction n with
    | zero => rfl
    | succ n ih => rw [ticks_succ, ih]; unfold tick; simp [h4.1.2]
  unfold pinLevel
  rw [w1]
  simp only
  rw [w2, stop, h4.2]

/-- A shorter period while the counter is beyond it: the output is low for 25 s,
although the value is 1. -/
theorem C94_restart_refuted :
    ∃ s p p', Aux.handle (Aux.aux1Family12 true) none3 {} (pwmOn [3]) {} = .go s ∧
      configure (Aux.aux1Family12 true) channels 170000000 300 s initial = some p ∧
      configure (Aux.aux1Family12 true) channels 170000000 100 s
        (run Ar.single p (List.replicate 50000 Ev.clock)) = some p' ∧
      ∀ n ≤ 25 * 170000000, pinLevel (run Ar.single p'
        ([.write 3 (.fin 1), .cycle] ++ List.replicate n Ev.clock)) 3 = false := by
  obtain ⟨s, h, hm, ho, ht2⟩ := three_pin
  have wt : wantedTicks 170000000 300 = 51000 := by decide
  have fa : factor 170000000 300 = 1 := by decide
  have wt' : wantedTicks 170000000 100 = 17000 := by decide
  have fa' : factor 170000000 100 = 1 := by decide
  obtain ⟨p, t, k, hp, hv, hk, ht, mem, wk⟩ := single_works h hm ho (clock := 170000000) (us := 300)
    (by rw [wt]; norm_num) initial_valid
  rw [ht2] at ht
  obtain rfl : 2 = t := by simpa using ht
  -- the counter after 50000 clocks
  obtain ⟨w1, w2⟩ := run_same (A := Ar.single) wk.wire 50000
  have k0 := (hk 2).1
  have c0 : (p.tims 2).cnt = 0 := by rw [k0.cnt]; rfl
  have s0 : (p.tims 2).sub = 0 := by rw [k0.sub]; rfl
  have n0 : (p.tims 2).pscNow = 0 := by rw [k0.now]; rfl
  have ar : (p.tims 2).arr = 51000 := by rw [wk.ready.arr, wt, fa]
  have ps : (p.tims 2).psc = 0 := by rw [wk.ready.psc, fa]
  have st : Settled (p.tims 2) := ⟨wk.on, by rw [n0, ps], by rw [c0]; omega⟩
  obtain ⟨q1, q2⟩ := ticks_settled wk.ready.valid st 50000
  have q3 : pos (p.tims 2) = 0 := by unfold pos; rw [c0, s0]; simp
  have q4 : full (p.tims 2) = 51001 := by unfold full; rw [ar, ps]
  obtain ⟨f1, f2, f3, f4, f5, f6, f7⟩ := ticks_fixed (p.tims 2) 50000
  have vv := ticks_valid wk.ready.valid 50000
  have pn : (ticks (p.tims 2) 50000).pscNow = 0 := by rw [q1.now, f1, ps]
  have sz : (ticks (p.tims 2) 50000).sub = 0 := by have := vv.sub; omega
  have cz : (ticks (p.tims 2) 50000).cnt = 50000 := by
    rw [q3, q4] at q2
    unfold pos at q2
    rw [f1, ps, sz] at q2
    omega
  -- the new configuration
  set p1 := run Ar.single p (List.replicate 50000 Ev.clock) with hp1
  have vp : ∀ t, Valid (p1.tims t) := by
    intro t
    rw [hp1, run_tims]
    exact ticks_valid (hk t).2 _
  obtain ⟨p', t', k', hp', hv', hk', ht', mem', wk'⟩ := single_works h hm ho (clock := 170000000)
    (us := 100) (by rw [wt']; norm_num) vp
  rw [ht2] at ht'
  obtain rfl : 2 = t' := by simpa using ht'
  refine ⟨s, p, p', h, hp, hp', fun n hn => ?_⟩
  have wl := run_works (A := Ar.single) ([.write 3 (.fin 1), .cycle] ++ List.replicate n Ev.clock) wk'
  have rc := run_clocks (A := Ar.single) ([.write 3 (.fin 1), .cycle] ++ List.replicate n Ev.clock) wk'
  have ec : clocks ([.write 3 (.fin 1), .cycle] ++ List.replicate n Ev.clock) = n := by
    show clocks (List.replicate n Ev.clock) = _
    exact clocks_replicate n
  rw [ec] at rc
  have kk := (hk' 2).1
  have c1 : (p'.tims 2).cnt = 50000 := by rw [kk.cnt, w2, cz]
  have s1 : (p'.tims 2).sub = 0 := by rw [kk.sub, w2, sz]
  have n1 : (p'.tims 2).pscNow = 0 := by rw [kk.now, w2, pn]
  have wd : (p'.tims 2).width = 32 := by
    rw [kk.width, w2, f7, k0.width]
    rfl
  have ar' : (p'.tims 2).arr = 17000 := by rw [wk'.ready.arr, wt', fa']
  have tb := (ticks_beyond wk'.ready.valid wk'.on (by rw [ar', c1]; norm_num) n
    (by rw [c1, s1, n1, wd]; omega)).2.2
  rw [c1] at tb
  have wa := write_works (A := Ar.single) wk' 3 (.fin 1)
  have er : run Ar.single p' ([.write 3 (.fin 1), .cycle] ++ List.replicate n Ev.clock)
      = run Ar.single (step Ar.single p' (.write 3 (.fin 1)))
        (.cycle :: List.replicate n Ev.clock) := rfl
  have rq := (run_quiet (A := Ar.single) (.cycle :: List.replicate n Ev.clock) wa (by
    intro pin v hm
    rcases List.mem_cons.1 hm with h | h
    · simp at h
    · exact quiet_replicate 3 n pin v h)).2 (Or.inl (by simp))
  have ev : (step Ar.single p' (.write 3 (.fin 1))).value 3 = .fin 1 := by
    have : clampValue (.fin 1) = .fin 1 := by decide +kernel
    simp only [step]
    rw [if_pos (by decide), this]
  rw [ev, ← er, wt', fa'] at rq
  have cb := (compare_bounds Ar.single_law3 (n := 17000 / 1) (by norm_num) (by norm_num)
    (le_refl (1 : ℚ))).2.1
  unfold pinLevel
  rw [wl.wire]
  simp only [level]
  rw [rq]
  have cn : ((run Ar.single p' ([.write 3 (.fin 1), .cycle] ++ List.replicate n Ev.clock)).tims 2).cnt
      = (ticks (p'.tims 2) n).cnt := by rw [rc]
  rw [cn]
  have : ¬ (ticks (p'.tims 2) n).cnt < compare Ar.single (17000 / 1) (.fin 1) := by omega
  simp [this]

end Verif.Fw.AuxPwm
