import Verif.Fw.AuxAdc
import Verif.Fw.AuxPortOut
import Verif.Fw.SineCosine

/-!
# Analog inputs: both ports and their converters

`AuxADC` (`fw/aux_adc.h`) together with the two `AuxPort` objects of a board
(`fw/aux_port.h`) under any sequence of configurations, and what
`ISR_EndAnalogSample` reports.

Property C92.
-/

namespace Verif.Fw.Adc

open Aux (Hw PinMap Mk Op St isAdc)
open Aux.Flow
open Verif.Float

/-! ## Model -/

/-- Both ports and the converters. -/
structure Sys where
  port : Fin 2 → St := fun _ => {}
  conv : ℕ → Conv := fun _ => {}

/-- `aux_info[].config` of both ports. -/
def sysCfg (port : Fin 2 → St) : Cfg := fun x => (port x.1).adc x.2

/-- Something happens to port `p`.  Only a `HandleConfigUpdate` that runs to
its end calls `config_update` (aux_port.h:1254). -/
def sysStep (hw : Fin 2 → Hw) (pm : PinMap) (y : Sys) (p : Fin 2) (o : Op) : Option Sys :=
  match o with
  | .update c mk =>
    match Aux.handle (hw p) pm mk c (y.port p) with
    | .go s =>
      (updateConfig (sysCfg (Function.update y.port p s))).map fun k =>
        { port := Function.update y.port p s, conv := k }
    | .ret s => some { y with port := Function.update y.port p s }
    | .die => none
  | o => (Aux.step (hw p) pm (y.port p) o).map fun s => { y with port := Function.update y.port p s }

def sysRun (hw : Fin 2 → Hw) (pm : PinMap) : Sys → List (Fin 2 × Op) → Option Sys
  | y, [] => some y
  | y, (p, o) :: os => (sysStep hw pm y p o).bind fun y' => sysRun hw pm y' os

/-- aux_port.h:279-287: `analog_inputs[i]` after `ISR_EndAnalogSample`; `old` is
what was there. -/
def analogInput (A : Ar) (s : St) (value : Pin → ℕ) (p : Fin 2) (old : Fin 5 → Fl) (i : Fin 5) : Fl :=
  if s.anyAdc ∧ s.adcOn i then A.div (A.lit (value (p, i))) (A.lit 4096) else old i

/-- aux_port.h:289-308: the value of the sine and cosine sensor; `none` is the
use of a pin that is not known. -/
def sineCosine (A : Ar) (s : St) (value : Pin → ℕ) (p : Fin 2) (common : ℤ) : Option ℤ :=
  match s.sine, s.cosine with
  | some a, some b => some (Sc.scValue A (value (p, a)) (value (p, b)) common)
  | _, _ => none

/-! ## Specification -/

/-- The converter and channel of a connector pin: that of the first pin of the
processor behind it that has one. -/
def adcOf (hw : Hw) (i : Fin 5) : Option (ℕ × ℕ) :=
  (hw.rows.find? fun r => r.number = i ∧ r.adc.isSome).bind (·.adc)

/-- The two ports of each board (fw/moteus_controller.cc:361-445). -/
def boardPairs : List (Hw × Hw) :=
  [(Aux.aux1Family0, Aux.aux2Family0), (Aux.aux1Family12 true, Aux.aux2Family12),
    (Aux.aux1Family12 false, Aux.aux2Family12)]

def IsBoard (hw : Fin 2 → Hw) : Prop := (hw 0, hw 1) ∈ boardPairs

/-- Not a change of the configuration of this port. -/
def Leaves (p : Fin 2) (x : Fin 2 × Op) : Prop :=
  x.1 ≠ p ∨ ∀ c mk, x.2 ≠ .update c mk

/-! ## Proof -/

/-- The converters are set up for the pins `f` of port `p`. -/
def Good (conv : ℕ → Conv) (p : Fin 2) (f : Fin 5 → Option (ℕ × ℕ)) : Prop :=
  ∀ (volt old : ℕ → ℕ → ℕ) (value : Pin → ℕ) (i : Fin 5),
    isrSample volt old conv value (p, i) =
      match f i with
      | some (a, ch) => volt a ch
      | none => value (p, i)

def FromHw (hw : Hw) (s : St) : Prop := ∀ i, s.adc i = none ∨ s.adc i = adcOf hw i

theorem adcOf_find {hw : Hw} {i : Fin 5} {r} (h : (hw.rows.find? fun r => r.number = i ∧ r.adc.isSome) = some r) :
    r.adc = adcOf hw i := by
  unfold adcOf
  rw [h]
  rfl

theorem pin_adc {hw i s s'} (h : Aux.pinSec hw i s = go s') :
    s'.cfg = s.cfg ∧
      s'.adc = Function.update s.adc i
        (if isAdc (s.cfg.pins i).mode then adcOf hw i else s.adc i) ∧
      (isAdc (s.cfg.pins i).mode = true → (adcOf hw i).isSome = true ∧ s'.anyAdc = true) := by
  unfold Aux.pinSec at h
  split at h
  case h_1 hm => injection h with h; subst h; simp [hm, isAdc]
  case h_2 hm => injection h with h; subst h; simp [hm, isAdc]
  case h_3 hm =>
    unfold Aux.pwmSec at h
    split at h
    · simp at h
    split at h
    · simp at h
    injection h with h; subst h; simp [hm, isAdc]
  case h_4 hm | h_5 hm | h_6 hm =>
    unfold Aux.adcSec at h
    simp only at h
    split at h
    · simp at h
    next r hr =>
    have e := adcOf_find hr
    have e' : (adcOf hw i).isSome = true := by
      rw [← e]
      have := List.find?_some hr
      simp only [decide_eq_true_eq] at this
      exact this.2
    split at h
    · simp at h
    · simp at h
    · injection h with h; subst h; simp only [hm, isAdc]; exact ⟨trivial, by rw [if_pos (by decide), e], fun _ => ⟨e', trivial⟩⟩
    · injection h with h; subst h; simp only [hm, isAdc]; exact ⟨trivial, by rw [if_pos (by decide), e], fun _ => ⟨e', trivial⟩⟩
  case h_7 h1 h2 h3 h4 h5 h6 =>
    injection h with h; subst h
    have k4 := eq_false h4
    have k5 := eq_false h5
    have k6 := eq_false h6
    simp [isAdc, k4, k5, k6]

theorem pins_adc {hw} (is : List (Fin 5)) : ∀ {s s'}, Aux.pinsSec hw is s = go s' →
    ∀ j, s'.adc j = (if j ∈ is ∧ isAdc (s.cfg.pins j).mode then adcOf hw j else s.adc j) ∧
      (j ∈ is → isAdc (s.cfg.pins j).mode = true → (adcOf hw j).isSome = true) := by
  induction is with
  | nil =>
    intro s s' h j
    simp only [Aux.pinsSec] at h
    injection h with h; subst h
    simp
  | cons i is ih =>
    intro s s' h j
    simp only [Aux.pinsSec, Aux.Flow.bind_go] at h
    obtain ⟨m, h1, h2⟩ := h
    obtain ⟨ec, ea, es⟩ := pin_adc h1
    obtain ⟨d1, d2⟩ := ih h2 j
    rw [ec] at d1 d2
    constructor
    · rw [d1, ea]
      by_cases e : j = i
      · subst e
        by_cases hj : isAdc (s.cfg.pins j).mode = true <;> by_cases hi : j ∈ is <;> simp [hj, hi]
      · simp [e]
    · intro hj ha
      rcases List.mem_cons.1 hj with rfl | hj
      · exact (es ha).1
      · exact d2 hj ha

theorem pin_adc_ret {hw i s s'} (h : Aux.pinSec hw i s = ret s') :
    s'.adc = s.adc ∨ s'.adc = Function.update s.adc i (adcOf hw i) := by
  unfold Aux.pinSec at h
  split at h
  case h_1 | h_2 | h_7 => simp at h
  case h_3 =>
    unfold Aux.pwmSec at h
    split at h
    · injection h with h; subst h; exact Or.inl rfl
    split at h <;> simp at h
  case h_4 | h_5 | h_6 =>
    unfold Aux.adcSec at h
    simp only at h
    split at h
    · injection h with h; subst h; exact Or.inl rfl
    next r hr =>
    have e := adcOf_find hr
    split at h
    · injection h with h; subst h; right; simp [e]
    · injection h with h; subst h; right; simp [e]
    · simp at h
    · simp at h

theorem pins_from {hw} (is : List (Fin 5)) : ∀ {s s'}, FromHw hw s →
    (Aux.pinsSec hw is s).st = some s' → FromHw hw s' := by
  induction is with
  | nil =>
    intro s s' h0 h
    simp only [Aux.pinsSec, Aux.Flow.st, Option.some.injEq] at h
    subst h
    exact h0
  | cons i is ih =>
    intro s s' h0 h
    simp only [Aux.pinsSec] at h
    cases hp : Aux.pinSec hw i s with
    | go m =>
      rw [hp] at h
      refine ih ?_ h
      intro j
      rw [(pin_adc hp).2.1]
      by_cases e : j = i
      · subst e
        rw [Function.update_self]
        split
        · exact Or.inr rfl
        · exact h0 j
      · rw [Function.update_of_ne e]; exact h0 j
    | ret m =>
      rw [hp] at h
      simp only [Aux.Flow.bind, Aux.Flow.st, Option.some.injEq] at h
      subst h
      intro j
      rcases pin_adc_ret hp with e | e <;> rw [e]
      · exact h0 j
      · by_cases e : j = i
        · subst e; rw [Function.update_self]; exact Or.inr rfl
        · rw [Function.update_of_ne e]; exact h0 j
    | die => rw [hp] at h; simp [Aux.Flow.bind, Aux.Flow.st] at h

/-- The parts before the loop over the pins. -/
def before (hw : Hw) (pm : PinMap) (mk : Mk) (c : Aux.Cfg) (s : St) : Aux.Flow :=
  (Aux.i2cSec hw pm (Aux.reset c s)).bind fun s =>
  (Aux.spiSec hw pm s).bind fun s =>
  (Aux.hallSec hw s).bind fun s =>
  (Aux.quadSec hw mk s).bind fun s =>
  (Aux.indexSec hw mk s).bind fun s =>
  (Aux.scSec s).bind fun s =>
  Aux.uartSec hw pm s

theorem bind_assoc (f : Aux.Flow) (g h : St → Aux.Flow) :
    (f.bind g).bind h = f.bind fun s => (g s).bind h := by
  cases f <;> rfl

theorem handle_before (hw pm mk c s) :
    Aux.handle hw pm mk c s =
      (before hw pm mk c s).bind fun s => (Aux.pinsSec hw (List.finRange 5) s).bind Aux.lastSec := by
  simp only [Aux.handle, before, bind_assoc]

/-- Before the loop no pin is analog. -/
def Clean (c : Aux.Cfg) (s : St) : Prop := s.cfg = c ∧ (s.adc = fun _ => none) ∧ (s.adcOn = fun _ => false) ∧
  s.start = Aux.pad [] ∧ s.fin = Aux.pad []

theorem before_clean {hw pm mk c s s'} (h : (before hw pm mk c s).st = some s') : Clean c s' := by
  unfold before at h
  have c0 : Clean c (Aux.reset c s) := ⟨rfl, rfl, rfl, rfl, rfl⟩
  revert h
  generalize Aux.reset c s = t at c0
  intro h
  have lift : ∀ (f : Aux.Flow) (g : St → Aux.Flow), (∀ m, f.st = some m → Clean c m) →
      (∀ m, Clean c m → (g m).st = some s' → Clean c s') → (f.bind g).st = some s' → Clean c s' := by
    intro f g h1 h2 h3
    cases f with
    | go m => exact h2 m (h1 m rfl) h3
    | ret m =>
      simp only [Aux.Flow.bind, Aux.Flow.st, Option.some.injEq] at h3
      subst h3
      exact h1 m rfl
    | die => simp [Aux.Flow.bind, Aux.Flow.st] at h3
  have split2 : ∀ (f : Aux.Flow) m, f.st = some m → f = go m ∨ f = ret m := by
    intro f m h
    cases f with
    | go x => simp [Aux.Flow.st] at h; subst h; exact Or.inl rfl
    | ret x => simp [Aux.Flow.st] at h; subst h; exact Or.inr rfl
    | die => simp [Aux.Flow.st] at h
  refine lift _ _ (fun m hm => ?_) ?_ h
  · rcases split2 _ _ hm with hm | hm
    · rw [Aux.i2c_go hm]; exact c0
    · rw [Aux.i2c_ret hm]; exact c0
  clear c0 h t
  intro t c0 h
  refine lift _ _ (fun m hm => ?_) ?_ h
  · rcases split2 _ _ hm with hm | hm
    · rw [Aux.spi_go hm]; exact c0
    · rw [Aux.spi_ret hm]; exact c0
  clear c0 h t
  intro t c0 h
  refine lift _ _ (fun m hm => ?_) ?_ h
  · rcases split2 _ _ hm with hm | hm
    · rw [Aux.hall_go hm]; exact c0
    · exact (Aux.hall_ret hm).elim
  clear c0 h t
  intro t c0 h
  refine lift _ _ (fun m hm => ?_) ?_ h
  · rcases split2 _ _ hm with hm | hm
    · rw [Aux.quad_go hm]; exact c0
    · exact (Aux.quad_ret hm).elim
  clear c0 h t
  intro t c0 h
  refine lift _ _ (fun m hm => ?_) ?_ h
  · rcases split2 _ _ hm with hm | hm
    · rw [Aux.index_go hm]; exact c0
    · exact (Aux.index_ret hm).elim
  clear c0 h t
  intro t c0 h
  refine lift _ _ (fun m hm => ?_) ?_ h
  · rcases split2 _ _ hm with hm | hm
    · rw [(Aux.sc_go hm).1]; exact c0
    · rw [Aux.sc_ret hm]; exact c0
  clear c0 h t
  intro t c0 h
  rcases split2 _ _ h with hm | hm
  · rw [Aux.uart_go hm]; exact c0
  · rw [Aux.uart_ret hm]; exact c0

theorem handle_from {hw pm mk c s0 s} (h : (Aux.handle hw pm mk c s0).st = some s) : FromHw hw s := by
  rw [handle_before] at h
  cases hb : before hw pm mk c s0 with
  | die => rw [hb] at h; simp [Aux.Flow.bind, Aux.Flow.st] at h
  | ret m =>
    have hc := before_clean (show (before hw pm mk c s0).st = some m by rw [hb]; rfl)
    rw [hb] at h
    simp only [Aux.Flow.bind, Aux.Flow.st, Option.some.injEq] at h
    subst h
    intro i
    left
    rw [hc.2.1]
  | go m =>
    have hc := before_clean (show (before hw pm mk c s0).st = some m by rw [hb]; rfl)
    have h0 : FromHw hw m := fun i => Or.inl (by rw [hc.2.1])
    rw [hb] at h
    simp only [Aux.Flow.bind] at h
    cases hp : Aux.pinsSec hw (List.finRange 5) m with
    | die => rw [hp] at h; simp [Aux.Flow.bind, Aux.Flow.st] at h
    | ret m' =>
      rw [hp] at h
      simp only [Aux.Flow.bind, Aux.Flow.st, Option.some.injEq] at h
      subst h
      exact pins_from _ h0 (by rw [hp]; rfl)
    | go m' =>
      have h1 := pins_from _ h0 (show (Aux.pinsSec hw (List.finRange 5) m).st = some m' by rw [hp]; rfl)
      have d := Aux.pins_go _ hp
      have e1 : m'.start = Aux.pad [] := by rw [d.same]; exact hc.2.2.2.1
      have e2 : m'.fin = Aux.pad [] := by rw [d.same]; exact hc.2.2.2.2
      rw [hp] at h
      simp only [Aux.Flow.bind] at h
      rw [Aux.last_eq m' e1 e2] at h
      simp only [Aux.Flow.st, Option.some.injEq] at h
      subst h
      exact h1

theorem handle_adc {hw pm mk c s0 s} (h : Aux.handle hw pm mk c s0 = go s) (i : Fin 5) :
    s.adc i = (if isAdc (c.pins i).mode then adcOf hw i else none) ∧
      (isAdc (c.pins i).mode = true → (adcOf hw i).isSome = true ∧ s.anyAdc = true) ∧
      s.adcOn i = isAdc (c.pins i).mode := by
  rw [handle_before] at h
  rw [Aux.Flow.bind_go] at h
  obtain ⟨m, hb, h⟩ := h
  have hc := before_clean (show (before hw pm mk c s0).st = some m by rw [hb]; rfl)
  rw [Aux.Flow.bind_go] at h
  obtain ⟨m', hp, h⟩ := h
  have d := Aux.pins_go _ hp
  have e1 : m'.start = Aux.pad [] := by rw [d.same]; exact hc.2.2.2.1
  have e2 : m'.fin = Aux.pad [] := by rw [d.same]; exact hc.2.2.2.2
  rw [Aux.last_eq m' e1 e2] at h
  injection h with h
  subst h
  simp only
  obtain ⟨a1, a2⟩ := pins_adc _ hp i
  rw [hc.1] at a1 a2
  have a3 := d.adcOn i
  rw [hc.2.2.1, hc.1] at a3
  refine ⟨by rw [a1, hc.2.1]; simp, fun ha => ⟨a2 (List.mem_finRange i) ha, ?_⟩, by simpa using a3⟩
  -- `any_adc_` is set with the first analog pin
  have any : ∀ (is : List (Fin 5)) {s s'}, Aux.pinsSec hw is s = go s' →
      (s.anyAdc = true ∨ ∃ j ∈ is, isAdc (s.cfg.pins j).mode = true) → s'.anyAdc = true := by
    intro is
    induction is with
    | nil =>
      intro s s' h hs
      simp only [Aux.pinsSec] at h
      injection h with h; subst h
      simpa using hs
    | cons k is ih =>
      intro s s' h hs
      simp only [Aux.pinsSec, Aux.Flow.bind_go] at h
      obtain ⟨n, h1, h2⟩ := h
      obtain ⟨ec, -, es⟩ := pin_adc h1
      refine ih h2 ?_
      rw [ec]
      rcases hs with hs | ⟨j, hj, hs⟩
      · left
        have : n.anyAdc = true := by
          clear ih h2 es ec
          unfold Aux.pinSec at h1
          split at h1
          case h_1 | h_2 | h_7 => injection h1 with h1; subst h1; exact hs
          case h_3 =>
            unfold Aux.pwmSec at h1
            split at h1
            · simp at h1
            split at h1
            · simp at h1
            injection h1 with h1; subst h1; exact hs
          case h_4 | h_5 | h_6 =>
            unfold Aux.adcSec at h1
            simp only at h1
            split at h1
            · simp at h1
            split at h1 <;> first
              | (injection h1 with h1; subst h1; rfl)
              | simp at h1
        exact this
      · rcases List.mem_cons.1 hj with rfl | hj
        · exact Or.inl (es hs).2
        · exact Or.inr ⟨j, hj, hs⟩
  exact any _ hp (Or.inr ⟨i, List.mem_finRange i, by rw [hc.1]; exact ha⟩)

/-- No more than four pins of a board are on one converter, whatever is
configured, and the tables are in range. -/
theorem board_fits {hw : Fin 2 → Hw} (hb : IsBoard hw) {cfg : Cfg}
    (h : ∀ p i, cfg (p, i) = none ∨ cfg (p, i) = adcOf (hw p) i) :
    (∀ x a ch, cfg x = some (a, ch) → a < 3 ∧ ch < 32) ∧
      ∀ a, (pinsOn cfg a pinOrder).length ≤ 4 := by
  have full : ∀ p i a ch, adcOf (hw p) i = some (a, ch) → a < 3 ∧ ch < 32 := by
    intro p i a ch he
    have key : ∀ q ∈ boardPairs, ∀ i : Fin 5,
        (∀ x ∈ adcOf q.1 i, x.1 < 3 ∧ x.2 < 32) ∧ (∀ x ∈ adcOf q.2 i, x.1 < 3 ∧ x.2 < 32) := by
      decide +kernel
    have k := key _ hb i
    match p, he with
    | 0, he => exact k.1 (a, ch) he
    | 1, he => exact k.2 (a, ch) he
  constructor
  · rintro ⟨p, i⟩ a ch he
    rcases h p i with h | h
    · rw [h] at he; cases he
    · rw [h] at he; exact full p i a ch he
  · intro a
    have mono : (pinsOn cfg a pinOrder).length ≤
        (pinsOn (fun x => adcOf (hw x.1) x.2) a pinOrder).length := by
      unfold pinsOn
      rw [← List.countP_eq_length_filter, ← List.countP_eq_length_filter]
      refine List.countP_mono_left ?_
      rintro ⟨p, i⟩ - hx
      simp only [decide_eq_true_eq] at hx ⊢
      rcases h p i with h | h
      · rw [h] at hx; cases hx
      · rw [← h]; exact hx
    refine mono.trans ?_
    by_cases ha : a < 3
    · have key : ∀ q ∈ boardPairs, ∀ a < 3,
          (pinsOn (fun x => adcOf (if x.1 = 0 then q.1 else q.2) x.2) a pinOrder).length ≤ 4 := by
        decide +kernel
      have k := key _ hb a ha
      have e : (fun x : Pin => adcOf (if x.1 = 0 then hw 0 else hw 1) x.2) =
          fun x => adcOf (hw x.1) x.2 := by
        funext ⟨p, i⟩
        match p with
        | 0 => rfl
        | 1 => rfl
      simp only at k
      rw [e] at k
      exact k
    · have : pinsOn (fun x => adcOf (hw x.1) x.2) a pinOrder = [] := by
        unfold pinsOn
        rw [List.filter_eq_nil_iff]
        rintro ⟨p, i⟩ - hx
        simp only [decide_eq_true_eq] at hx
        obtain ⟨⟨b, ch⟩, he, hb'⟩ := Option.map_eq_some_iff.1 hx
        simp only at hb'
        subst hb'
        exact ha (full p i b ch he).1
      rw [this]
      simp

theorem step_adc {hw pm s s' o} (ho : ∀ c mk, o ≠ .update c mk) (h : Aux.step hw pm s o = some s') :
    s'.adc = s.adc ∧ s'.cfg = s.cfg ∧ s'.adcOn = s.adcOn ∧ s'.anyAdc = s.anyAdc ∧
      s'.sine = s.sine ∧ s'.cosine = s.cosine := by
  have add : ∀ (t : Aux.ST) {s s'}, (Aux.addBoth true t s).st = some s' →
      s'.adc = s.adc ∧ s'.cfg = s.cfg ∧ s'.adcOn = s.adcOn ∧ s'.anyAdc = s.anyAdc ∧
      s'.sine = s.sine ∧ s'.cosine = s.cosine := by
    intro t s s' h
    simp only [Aux.addBoth, Aux.addFin, if_true] at h
    split at h
    · simp [Aux.Flow.st] at h
    · split at h
      · simp [Aux.Flow.st] at h
      · simp only [Aux.Flow.st, Option.some.injEq] at h
        subst h
        simp
  cases o with
  | update c mk => exact absurd rfl (ho c mk)
  | poll ms e =>
    simp only [Aux.step, Aux.pollMs] at h
    obtain ⟨m, h1, h2⟩ := Option.bind_eq_some_iff.1 h
    have k1 : m.adc = s.adc ∧ m.cfg = s.cfg ∧ m.adcOn = s.adcOn ∧ m.anyAdc = s.anyAdc ∧
        m.sine = s.sine ∧ m.cosine = s.cosine := by
      unfold Aux.startAs at h1
      split at h1
      · have := add _ h1; exact this
      · simp only [Option.some.injEq] at h1; subst h1; simp
    have k2 : s'.adc = m.adc ∧ s'.cfg = m.cfg ∧ s'.adcOn = m.adcOn ∧ s'.anyAdc = m.anyAdc ∧
        s'.sine = m.sine ∧ s'.cosine = m.cosine := by
      unfold Aux.startMa at h2
      split at h2
      · split at h2
        · simp only [Option.some.injEq] at h2; subst h2; simp
        · have := add _ h2; exact this
      · simp only [Option.some.injEq] at h2; subst h2; simp
    simp [k1, k2]
  | cycle input =>
    simp only [Aux.step] at h
    obtain ⟨⟨m, l, l'⟩, h1, h2⟩ := Option.map_eq_some_iff.1 h
    simp only at h2
    subst h2
    unfold Aux.cycle at h1
    split at h1
    · cases h1
    split at h1
    · cases h1
    next s2 l2 h3 =>
    split at h1
    · cases h1
    simp only [Option.some.injEq, Prod.mk.injEq] at h1
    obtain ⟨rfl, -, -⟩ := h1
    unfold Aux.isrFinish at h3
    split at h3
    · split at h3
      · cases h3
      split at h3
      · simp only [Option.some.injEq, Prod.mk.injEq] at h3
        obtain ⟨rfl, -⟩ := h3
        split <;> simp [Aux.gpio]
      · cases h3
    · simp only [Option.some.injEq, Prod.mk.injEq] at h3
      obtain ⟨rfl, -⟩ := h3
      simp
  | out v =>
    simp only [Aux.step, Option.some.injEq] at h
    subst h
    simp [Aux.writeOut]

/-- The invariant: the configurations come from the tables. -/
def SysOk (hw : Fin 2 → Hw) (y : Sys) : Prop := ∀ p, FromHw (hw p) (y.port p)

theorem ok_update {hw : Fin 2 → Hw} {port : Fin 2 → St} (h : ∀ p, FromHw (hw p) (port p)) {p s}
    (hs : FromHw (hw p) s) : ∀ q, FromHw (hw q) (Function.update port p s q) := by
  intro q
  by_cases e : q = p
  · subst e; rw [Function.update_self]; exact hs
  · rw [Function.update_of_ne e]; exact h q

/-- A step of the board: it stops only if the port does, and `Good` stays for
the ports that are not changed. -/
theorem sysStep_ok {hw : Fin 2 → Hw} (hb : IsBoard hw) {pm y p o} (hy : SysOk hw y) :
    (sysStep hw pm y p o = none ↔ Aux.step (hw p) pm (y.port p) o = none) ∧
    ∀ y', sysStep hw pm y p o = some y' → SysOk hw y' ∧ Aux.step (hw p) pm (y.port p) o = some (y'.port p) ∧
      (∀ q, q ≠ p → y'.port q = y.port q) ∧
      (∀ q, Leaves q (p, o) → Good y.conv q (y.port q).adc → Good y'.conv q (y'.port q).adc) ∧
      (∀ c mk s, o = .update c mk → Aux.handle (hw p) pm mk c (y.port p) = go s →
        y'.port p = s ∧ Good y'.conv p s.adc) := by
  have other : (∀ c mk, o ≠ .update c mk) → sysStep hw pm y p o =
      (Aux.step (hw p) pm (y.port p) o).map fun s => { y with port := Function.update y.port p s } := by
    intro ho
    cases o with
    | update c mk => exact absurd rfl (ho c mk)
    | _ => rfl
  by_cases ho : ∃ c mk, o = .update c mk
  · obtain ⟨c, mk, rfl⟩ := ho
    simp only [sysStep, Aux.step]
    cases hh : Aux.handle (hw p) pm mk c (y.port p) with
    | die => simp [Aux.Flow.st]
    | ret s =>
      have hf := handle_from (show (Aux.handle (hw p) pm mk c (y.port p)).st = some s by rw [hh]; rfl)
      simp only [Aux.Flow.st, Option.some.injEq, reduceCtorEq, iff_self, true_and, forall_eq',
        Function.update_self]
      refine ⟨ok_update hy hf, fun q hq => Function.update_of_ne hq _ _, ?_, ?_⟩
      · intro q hq hg
        rcases hq with hq | hq
        · rw [Function.update_of_ne (fun e => hq e.symm)]; exact hg
        · exact absurd rfl (hq c mk)
      · intro c' mk' s' he h'
        injection he with e1 e2
        subst e1 e2
        rw [hh] at h'
        cases h'
    | go s =>
      have hf := handle_from (show (Aux.handle (hw p) pm mk c (y.port p)).st = some s by rw [hh]; rfl)
      have hn := ok_update hy hf
      obtain ⟨b1, b2⟩ := board_fits hb (cfg := sysCfg (Function.update y.port p s))
        (fun q i => hn q i)
      obtain ⟨k, ek, gk⟩ := C92_own _ b1 b2
      simp only [ek, Option.map_some, Aux.Flow.st, reduceCtorEq, iff_self, true_and,
        Option.some.injEq, forall_eq', Function.update_self]
      refine ⟨hn, fun q hq => Function.update_of_ne hq _ _, ?_, ?_⟩
      · intro q _ _ volt old value i
        exact gk volt old value (q, i)
      · intro c' mk' s' he h'
        injection he with e1 e2
        subst e1 e2
        rw [hh] at h'
        injection h' with h'
        refine ⟨h', ?_⟩
        intro volt old value i
        have := gk volt old value (p, i)
        simp only [sysCfg, Function.update_self] at this
        rw [← h']
        exact this
  · have ho' : ∀ c mk, o ≠ .update c mk := fun c mk e => ho ⟨c, mk, e⟩
    rw [other ho']
    refine ⟨by simp, ?_⟩
    intro y' hy'
    obtain ⟨s, hs, rfl⟩ := Option.map_eq_some_iff.1 hy'
    have hk := step_adc ho' hs
    have hf : FromHw (hw p) s := by
      intro i; rw [hk.1]; exact hy p i
    refine ⟨ok_update hy hf, by simp [hs], fun q hq => Function.update_of_ne hq _ _, ?_, ?_⟩
    · intro q _ hg
      by_cases e : q = p
      · subst e
        simp only [Function.update_self]
        rw [hk.1]; exact hg
      · simp only
        rw [Function.update_of_ne e]; exact hg
    · intro c mk s' he
      exact absurd he (ho' c mk)

theorem sysRun_append (hw pm) (a b : List (Fin 2 × Op)) : ∀ y,
    sysRun hw pm y (a ++ b) = (sysRun hw pm y a).bind fun y' => sysRun hw pm y' b := by
  induction a with
  | nil => intro y; rfl
  | cons x a ih =>
    intro y
    obtain ⟨p, o⟩ := x
    simp only [List.cons_append, sysRun]
    cases sysStep hw pm y p o with
    | none => rfl
    | some y' => exact ih y'

theorem init_ok (hw : Fin 2 → Hw) : SysOk hw {} := fun _ _ => Or.inl rfl

/-- On no board do the converters stop the controller: whatever is configured
on the two ports, in any order, it stops only where a port alone does. -/
theorem C92_converters_fit (hw : Fin 2 → Hw) (hb : IsBoard hw) (pm : PinMap)
    (ops : List (Fin 2 × Op)) (y : Sys) (h : sysRun hw pm {} ops = some y) (p : Fin 2) (o : Op) :
    sysStep hw pm y p o = none ↔ Aux.step (hw p) pm (y.port p) o = none := by
  have : ∀ (ops : List (Fin 2 × Op)) (x y : Sys), SysOk hw x → sysRun hw pm x ops = some y → SysOk hw y := by
    intro ops
    induction ops with
    | nil => intro x y hx h; simp only [sysRun, Option.some.injEq] at h; subst h; exact hx
    | cons z ops ih =>
      intro x y hx h
      obtain ⟨q, o⟩ := z
      simp only [sysRun] at h
      obtain ⟨x', h1, h2⟩ := Option.bind_eq_some_iff.1 h
      exact ih x' y (((sysStep_ok hb hx).2 x' h1).1) h2
  exact (sysStep_ok hb (this ops {} y (init_ok hw) h)).1

/-- For example with an analog input on each port. -/
example : ∃ y, sysRun (fun p => if p = 0 then Aux.aux1Family12 true else Aux.aux2Family12)
    (fun _ _ _ => none) {}
    [(0, .update { spi := .disabled, pins := fun i => { mode := if i = 2 then .aIn else .nc } } {}),
      (1, .update { spi := .disabled, pins := fun i => { mode := if i = 0 then .aIn else .nc } } {})] =
      some y ∧ ((y.conv 1).store = [(0, 2), (1, 0)]) := by
  obtain ⟨y, e, h⟩ := Aux.wit (o := sysRun (fun p => if p = 0 then Aux.aux1Family12 true else Aux.aux2Family12)
    (fun _ _ _ => none) {}
    [(0, .update { spi := .disabled, pins := fun i => { mode := if i = 2 then .aIn else .nc } } {}),
      (1, .update { spi := .disabled, pins := fun i => { mode := if i = 0 then .aIn else .nc } } {})])
    (fun y => decide ((y.conv 1).store = [(0, 2), (1, 0)])) (by decide +kernel)
  exact ⟨y, e, by simpa using h⟩

/-- Once the configuration of a port was taken, each of its analog pins gets
what the converter reads at that pin, until the configuration of this port is
changed again: nothing that happens to the other port changes that, not even a
configuration that is refused there. -/
theorem C92_readings (hw : Fin 2 → Hw) (hb : IsBoard hw) (pm : PinMap)
    (pre post : List (Fin 2 × Op)) (y0 y : Sys) (h0 : sysRun hw pm {} pre = some y0)
    (p : Fin 2) (c : Aux.Cfg) (mk : Mk) (s : St)
    (ht : Aux.handle (hw p) pm mk c (y0.port p) = go s)
    (hp : ∀ x ∈ post, Leaves p x)
    (h : sysRun hw pm y0 ((p, .update c mk) :: post) = some y)
    (volt old : ℕ → ℕ → ℕ) (value : Pin → ℕ) (i : Fin 5) (hi : isAdc (c.pins i).mode = true) :
    ∃ a ch, adcOf (hw p) i = some (a, ch) ∧
      isrSample volt old y.conv value (p, i) = volt a ch ∧
      (y.port p).anyAdc = true ∧ (y.port p).adcOn i = true ∧ (y.port p).cfg = c ∧
      (y.port p).sine = s.sine ∧ (y.port p).cosine = s.cosine := by
  have reach : ∀ (ops : List (Fin 2 × Op)) (x y : Sys), SysOk hw x → sysRun hw pm x ops = some y → SysOk hw y := by
    intro ops
    induction ops with
    | nil => intro x y hx h; simp only [sysRun, Option.some.injEq] at h; subst h; exact hx
    | cons z ops ih =>
      intro x y hx h
      obtain ⟨q, o⟩ := z
      simp only [sysRun] at h
      obtain ⟨x', h1, h2⟩ := Option.bind_eq_some_iff.1 h
      exact ih x' y (((sysStep_ok hb hx).2 x' h1).1) h2
  have ok0 := reach pre {} y0 (init_ok hw) h0
  simp only [sysRun] at h
  obtain ⟨y1, h1, h2⟩ := Option.bind_eq_some_iff.1 h
  obtain ⟨ok1, -, -, -, g1⟩ := (sysStep_ok hb ok0).2 y1 h1
  obtain ⟨e1, g1⟩ := g1 c mk s rfl ht
  obtain ⟨a1, a2, a3⟩ := handle_adc ht i
  rw [hi, if_pos rfl] at a1
  obtain ⟨a2, a4⟩ := a2 hi
  rw [hi] at a3
  have ec : s.cfg = c := (Aux.handle_go ht).cfg
  have keep : ∀ (ops : List (Fin 2 × Op)) (x y : Sys), SysOk hw x → sysRun hw pm x ops = some y →
      (∀ z ∈ ops, Leaves p z) → Good x.conv p (x.port p).adc →
      Good y.conv p (y.port p).adc ∧ (y.port p).adc = (x.port p).adc ∧ (y.port p).cfg = (x.port p).cfg ∧
        (y.port p).adcOn = (x.port p).adcOn ∧ (y.port p).anyAdc = (x.port p).anyAdc ∧
        (y.port p).sine = (x.port p).sine ∧ (y.port p).cosine = (x.port p).cosine := by
    intro ops
    induction ops with
    | nil =>
      intro x y hx h _ g
      simp only [sysRun, Option.some.injEq] at h; subst h
      exact ⟨g, by simp⟩
    | cons z ops ih =>
      intro x y hx h hl g
      obtain ⟨q, o⟩ := z
      simp only [sysRun] at h
      obtain ⟨x', h1, h2⟩ := Option.bind_eq_some_iff.1 h
      obtain ⟨k1, k2, k3, k4, -⟩ := (sysStep_ok hb hx).2 x' h1
      have lz := hl (q, o) (by simp)
      obtain ⟨r1, r2⟩ := ih x' y k1 h2 (fun z hz => hl z (by simp [hz])) (k4 p lz g)
      refine ⟨r1, ?_⟩
      have same : (x'.port p).adc = (x.port p).adc ∧ (x'.port p).cfg = (x.port p).cfg ∧
          (x'.port p).adcOn = (x.port p).adcOn ∧ (x'.port p).anyAdc = (x.port p).anyAdc ∧
          (x'.port p).sine = (x.port p).sine ∧ (x'.port p).cosine = (x.port p).cosine := by
        by_cases e : q = p
        · subst e
          rcases lz with lz | lz
          · exact absurd rfl lz
          · exact step_adc lz k2
        · rw [k3 p (fun e' => e e'.symm)]; simp
      rw [r2.1, r2.2.1, r2.2.2.1, r2.2.2.2.1, r2.2.2.2.2.1, r2.2.2.2.2.2]
      exact same
  obtain ⟨r1, r2, r3, r4, r5, r6, r7⟩ := keep post y1 y ok1 h2 hp (by rw [e1]; exact g1)
  rw [e1] at r2 r3 r4 r5 r6 r7
  obtain ⟨⟨a, ch⟩, hac⟩ := Option.isSome_iff_exists.1 a2
  refine ⟨a, ch, hac, ?_, by rw [r5]; exact a4, by rw [r4]; exact a3, by rw [r3]; exact ec, r6, r7⟩
  have := r1 volt old value i
  rw [r2, a1, hac] at this
  exact this

/-- The number reported for an analog pin is exactly the reading divided by
4096. -/
theorem C92_analog {A : Ar} (hA : A.Law3) (s : St) (value : Pin → ℕ) (p : Fin 2) (old : Fin 5 → Fl)
    (i : Fin 5) (h1 : s.anyAdc = true) (h2 : s.adcOn i = true) (hv : value (p, i) ≤ 65535) :
    analogInput A s value p old i = .fin ((value (p, i) : ℚ) / 4096) := by
  unfold analogInput
  rw [if_pos ⟨h1, h2⟩]
  rw [show A.lit (value (p, i) : ℚ) = .fin (value (p, i) : ℚ) by
      have := hA.lit_int (n := (value (p, i) : ℤ)) (by rw [abs_le]; omega); simpa using this,
    show A.lit 4096 = .fin 4096 by
      have := hA.lit_int (n := 4096) (by norm_num); simpa using this]
  have : A.Rep (((value (p, i) : ℤ) : ℚ) * pow2 (-12)) :=
    hA.unscale (by rw [abs_le]; omega) (by norm_num) (by norm_num)
  rw [Sc.div_fin _ (by norm_num)]
  have e : ((value (p, i) : ℤ) : ℚ) * pow2 (-12) = (value (p, i) : ℚ) / 4096 := by
    rw [show pow2 (-12) = 1 / 4096 by decide +kernel]
    push_cast
    ring
  rw [e] at this
  exact this.rnd

theorem pinsOf_one {c : Aux.Cfg} {m : Aux.PinMode} {a : Fin 5}
    (h : Aux.pinsOf c (· = m) = [a]) (i : Fin 5) : (c.pins i).mode = m ↔ i = a := by
  have : i ∈ Aux.pinsOf c (· = m) ↔ (c.pins i).mode = m := by simp [Aux.pinsOf]
  rw [← this, h]
  simp

/-- The pins of the sensor: the only ones of their kind. -/
theorem handle_sc {hw pm mk c s0 s} (h : Aux.handle hw pm mk c s0 = go s) (hc : c.sc = true) :
    ∃ a b, s.sine = some a ∧ s.cosine = some b ∧ (∀ i, (c.pins i).mode = .sine ↔ i = a) ∧
      ∀ i, (c.pins i).mode = .cosine ↔ i = b := by
  unfold Aux.handle at h
  simp only [Aux.Flow.bind_go] at h
  obtain ⟨m1, h1, m2, h2, m3, h3, m4, h4, m5, h5, m6, h6, m7, h7, m8, h8, h9⟩ := h
  have c5 : m5.cfg = c := by
    rw [Aux.index_go h5, Aux.quad_go h4, Aux.hall_go h3, Aux.spi_go h2, Aux.i2c_go h1]
    rfl
  have t5 : m5.start = Aux.pad [] ∧ m5.fin = Aux.pad [] := by
    rw [Aux.index_go h5, Aux.quad_go h4, Aux.hall_go h3, Aux.spi_go h2, Aux.i2c_go h1]
    exact ⟨rfl, rfl⟩
  have e8 := (Aux.pins_go _ h8).same
  have e7 := Aux.uart_go h7
  have e6 := (Aux.sc_go h6).1
  have x1 : m8.start = Aux.pad [] := by rw [e8, e7, e6]; exact t5.1
  have x2 : m8.fin = Aux.pad [] := by rw [e8, e7, e6]; exact t5.2
  rw [Aux.last_eq m8 x1 x2] at h9
  injection h9 with h9
  have es : s.sine = m6.sine ∧ s.cosine = m6.cosine := by
    rw [← h9]
    simp only
    constructor
    · rw [e8, e7]
    · rw [e8, e7]
  rw [es.1, es.2]
  unfold Aux.scSec at h6
  rw [c5, hc, if_pos rfl] at h6
  split at h6
  · next a b ha hb =>
    injection h6 with h6
    subst h6
    exact ⟨a, b, rfl, rfl, pinsOf_one ha, pinsOf_one hb⟩
  · simp at h6

/-- The sine and cosine sensor reports the angle of what the converter reads at
its own two pins, with the precision of `C92_angle`, as long as the
configuration of its port is not changed. -/
theorem C92_sensor {A : Ar} (hA : A.Law3) (hw : Fin 2 → Hw) (hb : IsBoard hw) (pm : PinMap)
    (pre post : List (Fin 2 × Op)) (y0 y : Sys) (h0 : sysRun hw pm {} pre = some y0)
    (p : Fin 2) (c : Aux.Cfg) (mk : Mk) (s : St)
    (ht : Aux.handle (hw p) pm mk c (y0.port p) = go s) (hc : c.sc = true)
    (hp : ∀ x ∈ post, Leaves p x)
    (h : sysRun hw pm y0 ((p, .update c mk) :: post) = some y)
    (volt old : ℕ → ℕ → ℕ) (hvolt : ∀ a ch, volt a ch ≤ 65535) (value : Pin → ℕ)
    (common : ℤ) (hm : 0 ≤ common ∧ common ≤ 65535) :
    ∃ a b : Fin 5, (∀ i, (c.pins i).mode = .sine ↔ i = a) ∧ (∀ i, (c.pins i).mode = .cosine ↔ i = b) ∧
      ∃ ca cb, adcOf (hw p) a = some ca ∧ adcOf (hw p) b = some cb ∧
      ∃ v, sineCosine A (y.port p) (isrSample volt old y.conv value) p common = some v ∧
        (0 ≤ v ∧ v ≤ 65535) ∧
        ∀ ρ θ : ℝ, 0 < ρ → (volt ca.1 ca.2 - common : ℝ) = ρ * Real.sin θ →
          (volt cb.1 cb.2 - common : ℝ) = ρ * Real.cos θ → -Real.pi < θ → θ ≤ Real.pi →
          |(v : ℝ) - 65536 * ((θ + Real.pi) / (2 * Real.pi))| ≤ 3.3 := by
  obtain ⟨a, b, e1, e2, u1, u2⟩ := handle_sc ht hc
  obtain ⟨a1, ca, k1, v1, -, -, -, s1, s2⟩ := C92_readings hw hb pm pre post y0 y h0 p c mk s ht hp h
    volt old value a (by simp [isAdc, (u1 a).2 rfl])
  obtain ⟨b1, cb, k2, v2, -⟩ := C92_readings hw hb pm pre post y0 y h0 p c mk s ht hp h
    volt old value b (by simp [isAdc, (u2 b).2 rfl])
  refine ⟨a, b, u1, u2, (a1, ca), (b1, cb), k1, k2,
    Sc.scValue A (volt a1 ca) (volt b1 cb) common, ?_, ?_, ?_⟩
  · simp [sineCosine, s1, s2, e1, e2, v1, v2]
  · exact ⟨le_min (by norm_num) (le_max_left _ _), min_le_left _ _⟩
  · intro ρ θ hρ r1 r2 l1 l2
    exact (Sc.C92_angle hA (volt a1 ca) (volt b1 cb) common
      ⟨by omega, by exact_mod_cast hvolt a1 ca⟩ ⟨by omega, by exact_mod_cast hvolt b1 cb⟩ hm ρ θ hρ
      (by exact_mod_cast r1) (by exact_mod_cast r2) l1 l2).2

/-- The configuration of the examples: sine at pin 1 and cosine at pin 3 of the
first port of the first board. -/
def scCfg : Aux.Cfg :=
  { spi := .disabled, sc := true,
    pins := fun i => { mode := if i = 1 then .sine else if i = 3 then .cosine else .nc } }

/-- Such a configuration is taken and the two pins are converted. -/
example : ∃ y, sysRun (fun p => if p = 0 then Aux.aux1Family0 else Aux.aux2Family0)
    (fun _ _ _ => none) {} [(0, .update scCfg {}), (1, .update { spi := .onboard } {})] = some y ∧
    (y.port 0).sine = some 1 ∧ (y.port 0).cosine = some 3 ∧ (y.port 1).error = .spiPin := by
  obtain ⟨y, e, h⟩ := Aux.wit (o := sysRun (fun p => if p = 0 then Aux.aux1Family0 else Aux.aux2Family0)
    (fun _ _ _ => none) {} [(0, .update scCfg {}), (1, .update { spi := .onboard } {})])
    (fun y => decide ((y.port 0).sine = some 1 ∧ (y.port 0).cosine = some 3 ∧
      (y.port 1).error = .spiPin)) (by decide +kernel)
  exact ⟨y, e, by simpa using h⟩

/-- A configuration that is refused leaves the converters as they were: they
keep storing at pins that are not analog any more. -/
theorem C92_refused_refuted : ∃ (hw : Fin 2 → Hw) (ops : List (Fin 2 × Op)) (y : Sys), IsBoard hw ∧
    sysRun hw (fun _ _ _ => none) {} ops = some y ∧ (y.port 0).error ≠ .none ∧
    (y.port 0).adc = (fun _ => none) ∧
    ∀ (volt old : ℕ → ℕ → ℕ) (value : Pin → ℕ), isrSample volt old y.conv value (0, 1) = volt 2 5 := by
  obtain ⟨y, e, h⟩ := Aux.wit (o := sysRun (fun p => if p = 0 then Aux.aux1Family0 else Aux.aux2Family0)
    (fun _ _ _ => none) {} [(0, .update scCfg {}), (0, .update { devices := [1, 0, 0] } {})])
    (fun y => decide ((y.port 0).error ≠ .none ∧ (∀ i, (y.port 0).adc i = none) ∧
      (y.conv 0).store = [] ∧ (y.conv 1).store = [(0, 3)] ∧ (y.conv 2).store = [(0, 1)] ∧
      (y.conv 2).jsqr = 2560)) (by decide +kernel)
  simp only [decide_eq_true_eq] at h
  refine ⟨_, _, y, by simp [IsBoard, boardPairs], e, h.1, funext h.2.1, ?_⟩
  intro volt old value
  unfold isrSample
  refine foldl_at _ _ _ _ (fun w hw hx => ?_) (Or.inl ⟨((0, 1), volt 2 5), ?_, rfl⟩)
  · simp [stores, List.range, List.range.loop, h.2.2.1, h.2.2.2.1, h.2.2.2.2.1] at hw
    rcases hw with rfl | rfl
    · simp at hx
    · simp [jdr, h.2.2.2.2.1, h.2.2.2.2.2, field]
  · simp [stores, List.range, List.range.loop, h.2.2.1, h.2.2.2.1, h.2.2.2.2.1, jdr, h.2.2.2.2.2, field]

end Verif.Fw.Adc
