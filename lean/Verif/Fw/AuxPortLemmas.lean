import Verif.Fw.AuxPort
import Mathlib.Data.List.Nodup
import Mathlib.Data.List.Perm.Subperm

/-!
# Lemmas about the configuration of the auxiliary ports
-/

namespace Verif.Fw.Aux

namespace Flow
theorem bind_go {f : Flow} {g : St → Flow} {s : St} :
    f.bind g = go s ↔ ∃ m, f = go m ∧ g m = go s := by
  cases f <;> simp [bind]

theorem bind_ret {f : Flow} {g : St → Flow} {s : St} :
    f.bind g = ret s ↔ f = ret s ∨ ∃ m, f = go m ∧ g m = ret s := by
  cases f <;> simp [bind]

theorem bind_die {f : Flow} {g : St → Flow} :
    f.bind g = die ↔ f = die ∨ ∃ m, f = go m ∧ g m = die := by
  cases f <;> simp [bind]
end Flow

open Flow

/-! ## The lists of sample types -/

/-- A list of sample types as it lies in its array. -/
def pad (u : List ST) : List ST := u ++ List.replicate (11 - u.length) ST.none

theorem put_pre (t : ST) (u v : List ST) (h : ST.none ∉ u) :
    put t (u ++ ST.none :: v) = some (u ++ t :: v) := by
  induction u with
  | nil => simp [put]
  | cons x u ih =>
    simp only [List.mem_cons, not_or] at h
    simp [put, Ne.symm h.1, ih h.2]

theorem put_pad (t : ST) (u : List ST) (h : ST.none ∉ u) (hl : u.length < 11) :
    put t (pad u) = some (pad (u ++ [t])) := by
  have e : 11 - u.length = (11 - (u ++ [t]).length) + 1 := by simp; omega
  unfold pad
  rw [e, List.replicate_succ, put_pre t u _ h]
  simp

theorem scan_pre (u v : List ST) (h : ST.none ∉ u) :
    scan (u ++ ST.none :: v) = some u := by
  induction u with
  | nil => simp [scan]
  | cons x u ih =>
    simp only [List.mem_cons, not_or] at h
    simp [scan, Ne.symm h.1, ih h.2]

theorem scan_pad (u : List ST) (h : ST.none ∉ u) (hl : u.length < 11) :
    scan (pad u) = some u := by
  obtain ⟨k, hk⟩ : ∃ k, 11 - u.length = k + 1 := ⟨10 - u.length, by omega⟩
  unfold pad
  rw [hk, List.replicate_succ, scan_pre u _ h]

theorem len_lt (u : List ST) (hn : u.Nodup) (h : ST.none ∉ u) : u.length < 11 := by
  have hs : u ⊆ [ST.as5047, .ma732, .icPz, .gpio, .hall, .quad, .index, .aksim2, .cuiAmt21, .i2c] := by
    intro t ht
    cases t <;> simp_all
  have := (List.subperm_of_subset hn hs).length_le
  simp at this
  omega

/-! ## What each part does when it goes on -/

def isAs (m : SpiMode) : Bool := m = .onboard ∨ m = .as5047
def isMa (m : SpiMode) : Bool := m = .ma732 ∨ m = .ma600

theorem i2c_go {hw pm s s'} (h : i2cSec hw pm s = go s') :
    s' = { s with i2c := s.i2c || anyI2c s.cfg, upd := s.upd || anyI2c s.cfg } := by
  unfold i2cSec at h
  split at h
  · next ha =>
    split at h
    · split at h
      · simp at h
      · injection h with h; subst h; simp [ha]
    · simp at h
  · next ha => injection h with h; subst h; simp [ha]

theorem spi_go {hw pm s s'} (h : spiSec hw pm s = go s') :
    s' = { s with
      as5047Opt := s.as5047Opt || isAs s.cfg.spi
      icPz := s.icPz || decide (s.cfg.spi = .icPz)
      ma732Opt := s.ma732Opt || isMa s.cfg.spi
      upd := s.upd || decide (s.cfg.spi ≠ .disabled) } := by
  unfold spiSec at h
  split at h
  · simp at h
  split at h
  · next hd => injection h with h; subst h; simp [hd, isAs, isMa]
  split at h
  · unfold spiUse at h
    split at h <;> first
      | (next hm => injection h with h; subst h; simp [hm, isAs, isMa])
      | simp at h
  · simp at h

/-- The number of pins in hall mode. -/
def hallCount (c : Cfg) : Nat := (pinsOf c (· = .hall)).length

theorem hall_go {hw s s'} (h : hallSec hw s = go s') :
    s' = { s with
      error := if s.cfg.hall ∧ hallCount s.cfg ≠ 3 then .hallPin else s.error
      halls := if s.cfg.hall then min 3 (hallCount s.cfg) else s.halls
      upd := s.upd || s.cfg.hall } := by
  unfold hallSec at h
  split at h
  · next hh =>
    simp only at h
    split at h
    · injection h with h; subst h
      unfold hallCount
      by_cases hc : (pinsOf s.cfg (· = .hall)).length = 3 <;> simp [hh, hc]
    · simp at h
  · next hh => injection h with h; subst h; simp [hh]

theorem quad_go {hw mk s s'} (h : quadSec hw mk s = go s') :
    s' = { s with
      error := if s.cfg.quad ∧ quadMake hw mk s.cfg = none then .quadPin else s.error
      quad := if s.cfg.quad ∧ quadMake hw mk s.cfg ≠ none then quadMake hw mk s.cfg else s.quad
      upd := s.upd || (s.cfg.quad && (quadMake hw mk s.cfg).isSome) } := by
  unfold quadSec at h
  split at h
  · next hh =>
    split at h
    · next t ht => injection h with h; subst h; simp [hh, ht]
    · next ht => injection h with h; subst h; simp [hh, ht]
  · next hh => injection h with h; subst h; simp [hh]

/-- Whether the index sensor can be made. -/
def indexOk (hw : Hw) (mk : Mk) (c : Cfg) : Bool :=
  indexLoop hw mk (pinsOf c (· = .index)) false

theorem index_go {hw mk s s'} (h : indexSec hw mk s = go s') :
    s' = { s with
      error := if s.cfg.index ∧ indexOk hw mk s.cfg = false then .indexPin else s.error
      index := s.index || (s.cfg.index && indexOk hw mk s.cfg)
      upd := s.upd || (s.cfg.index && indexOk hw mk s.cfg) } := by
  unfold indexSec at h
  split at h
  · next hh =>
    split at h
    · next ht => injection h with h; subst h; simp [hh, indexOk, ht]
    · next ht => injection h with h; subst h; simp [hh, indexOk, ht]
  · next hh => injection h with h; subst h; simp [hh]

theorem sc_go {s s'} (h : scSec s = go s') :
    s' = { s with sine := s'.sine, cosine := s'.cosine, upd := s.upd || s.cfg.sc } ∧
      (s.cfg.sc = true → s'.sine.isSome = true ∧ s'.cosine.isSome = true) := by
  unfold scSec at h
  split at h
  · next hh =>
    split at h
    · injection h with h; subst h; simp [hh]
    · simp at h
  · next hh => injection h with h; subst h; simp [hh]

theorem uart_go {hw pm s s'} (h : uartSec hw pm s = go s') :
    s' = { s with
      uart := s.uart || decide (s.cfg.uart ≠ .disabled)
      aksim2 := s.aksim2 || decide (s.cfg.uart = .aksim2)
      cuiAmt21 := s.cuiAmt21 || decide (s.cfg.uart = .cuiAmt21)
      tunnel := s.tunnel || decide (s.cfg.uart = .tunnel)
      upd := s.upd || decide (s.cfg.uart ≠ .disabled) } := by
  unfold uartSec at h
  split at h
  · next hd => injection h with h; subst h; simp [hd]
  split at h
  · simp at h
  split at h
  · simp at h
  · unfold uartUse at h
    split at h <;> first
      | (next hm => simp only at hm; injection h with h; subst h; simp [hm])
      | simp at h

/-! ## The loop over the pins -/

def isGpio (m : PinMode) : Bool := m = .dIn ∨ m = .dOut ∨ m = .pwmOut
def isAdc (m : PinMode) : Bool := m = .aIn ∨ m = .sine ∨ m = .cosine

/-- What a step over one pin leaves alone, and what it does. -/
structure PinDone (i : Fin 5) (s s' : St) : Prop where
  same : s' = { s with
    dIn := s'.dIn, dOut := s'.dOut, pwm := s'.pwm, timers := s'.timers, anyAdc := s'.anyAdc,
    adcOn := s'.adcOn, adc := s'.adc, gpioBits := s'.gpioBits, line := s'.line, upd := s'.upd }
  bits : s'.gpioBits = Function.update s.gpioBits i (s.gpioBits i || isGpio (s.cfg.pins i).mode)
  dIn : s'.dIn = Function.update s.dIn i (s.dIn i || decide ((s.cfg.pins i).mode = .dIn))
  dOut : s'.dOut = Function.update s.dOut i (s.dOut i || decide ((s.cfg.pins i).mode = .dOut))
  pwm : s'.pwm = Function.update s.pwm i (s.pwm i || decide ((s.cfg.pins i).mode = .pwmOut))
  adcOn : s'.adcOn = Function.update s.adcOn i (s.adcOn i || isAdc (s.cfg.pins i).mode)
  line : s'.line = Function.update s.line i
    (if (s.cfg.pins i).mode = .dOut then decide ((s.cfg.pins i).pull ≠ .none) else s.line i)
  upd : s'.upd = (s.upd || isGpio (s.cfg.pins i).mode || isAdc (s.cfg.pins i).mode)

theorem pin_go {hw i s s'} (h : pinSec hw i s = go s') : PinDone i s s' := by
  unfold pinSec at h
  split at h
  case h_1 hm => injection h with h; subst h; constructor <;> simp [hm, isGpio, isAdc]
  case h_2 hm => injection h with h; subst h; constructor <;> simp [hm, isGpio, isAdc]
  case h_3 hm =>
    unfold pwmSec at h
    split at h
    · simp at h
    split at h
    · simp at h
    injection h with h; subst h; constructor <;> simp [hm, isGpio, isAdc]
  case h_4 hm =>
    unfold adcSec at h
    simp only at h
    split at h
    · simp at h
    split at h
    · simp at h
    · simp at h
    · injection h with h; subst h; constructor <;> simp [hm, isGpio, isAdc]
    · injection h with h; subst h; constructor <;> simp [hm, isGpio, isAdc]
  case h_5 hm =>
    unfold adcSec at h
    simp only at h
    split at h
    · simp at h
    split at h
    · simp at h
    · simp at h
    · injection h with h; subst h; constructor <;> simp [hm, isGpio, isAdc]
    · injection h with h; subst h; constructor <;> simp [hm, isGpio, isAdc]
  case h_6 hm =>
    unfold adcSec at h
    simp only at h
    split at h
    · simp at h
    split at h
    · simp at h
    · simp at h
    · injection h with h; subst h; constructor <;> simp [hm, isGpio, isAdc]
    · injection h with h; subst h; constructor <;> simp [hm, isGpio, isAdc]
  case h_7 h1 h2 h3 h4 h5 h6 =>
    injection h with h; subst h
    have k1 := eq_false h1
    have k2 := eq_false h2
    have k3 := eq_false h3
    have k4 := eq_false h4
    have k5 := eq_false h5
    have k6 := eq_false h6
    constructor <;> simp [isGpio, isAdc, k1, k2, k3, k4, k5, k6]

/-- What the loop over some pins leaves alone, and what it does. -/
structure PinsDone (is : List (Fin 5)) (s s' : St) : Prop where
  same : s' = { s with
    dIn := s'.dIn, dOut := s'.dOut, pwm := s'.pwm, timers := s'.timers, anyAdc := s'.anyAdc,
    adcOn := s'.adcOn, adc := s'.adc, gpioBits := s'.gpioBits, line := s'.line, upd := s'.upd }
  bits : ∀ j, s'.gpioBits j = (s.gpioBits j || (decide (j ∈ is) && isGpio (s.cfg.pins j).mode))
  dIn : ∀ j, s'.dIn j = (s.dIn j || (decide (j ∈ is) && decide ((s.cfg.pins j).mode = .dIn)))
  dOut : ∀ j, s'.dOut j = (s.dOut j || (decide (j ∈ is) && decide ((s.cfg.pins j).mode = .dOut)))
  pwm : ∀ j, s'.pwm j = (s.pwm j || (decide (j ∈ is) && decide ((s.cfg.pins j).mode = .pwmOut)))
  adcOn : ∀ j, s'.adcOn j = (s.adcOn j || (decide (j ∈ is) && isAdc (s.cfg.pins j).mode))
  line : ∀ j, s'.line j = if j ∈ is ∧ (s.cfg.pins j).mode = .dOut
    then decide ((s.cfg.pins j).pull ≠ .none) else s.line j
  upd : s'.upd = (s.upd || is.any fun j => isGpio (s.cfg.pins j).mode || isAdc (s.cfg.pins j).mode)

theorem upd_or (f : Fin 5 → Bool) (i j : Fin 5) (b : Bool) (is : List (Fin 5)) (g : Fin 5 → Bool)
    (hb : b = g i) :
    (Function.update f i (f i || b) j || (decide (j ∈ is) && g j)) =
      (f j || (decide (j ∈ i :: is) && g j)) := by
  subst hb
  by_cases e : j = i
  · subst e
    cases f j <;> cases g j <;> simp
  · simp [e]

theorem pins_go {hw} (is : List (Fin 5)) : ∀ {s s'}, pinsSec hw is s = go s' → PinsDone is s s' := by
  induction is with
  | nil =>
    intro s s' h
    simp only [pinsSec] at h
    injection h with h; subst h
    constructor <;> simp
  | cons i is ih =>
    intro s s' h
    simp only [pinsSec, bind_go] at h
    obtain ⟨m, h1, h2⟩ := h
    have d1 := pin_go h1
    have d2 := ih h2
    have ec : m.cfg = s.cfg := by rw [d1.same]
    constructor
    · rw [d2.same, d1.same]
    · intro j; rw [d2.bits, d1.bits, ec]; exact upd_or _ _ _ _ _ (fun j => isGpio (s.cfg.pins j).mode) rfl
    · intro j; rw [d2.dIn, d1.dIn, ec]
      exact upd_or _ _ _ _ _ (fun j => decide ((s.cfg.pins j).mode = .dIn)) rfl
    · intro j; rw [d2.dOut, d1.dOut, ec]
      exact upd_or _ _ _ _ _ (fun j => decide ((s.cfg.pins j).mode = .dOut)) rfl
    · intro j; rw [d2.pwm, d1.pwm, ec]
      exact upd_or _ _ _ _ _ (fun j => decide ((s.cfg.pins j).mode = .pwmOut)) rfl
    · intro j; rw [d2.adcOn, d1.adcOn, ec]
      exact upd_or _ _ _ _ _ (fun j => isAdc (s.cfg.pins j).mode) rfl
    · intro j; rw [d2.line, d1.line, ec]
      by_cases e : j = i
      · subst e
        by_cases hj : (s.cfg.pins j).mode = .dOut <;> by_cases hi : j ∈ is <;> simp [hj, hi]
      · simp [e]
    · rw [d2.upd, d1.upd, ec]
      simp [Bool.or_assoc]

/-! ## The lists at the end -/

/-- The types that `lastSec` may add, in its order. -/
def order : List ST := [.icPz, .gpio, .hall, .quad, .index, .aksim2, .cuiAmt21, .i2c]

/-- Whether `lastSec` adds this type. -/
def wants (s : St) : ST → Bool
  | .icPz => s.icPz
  | .gpio => decide (∃ i, s.gpioBits i = true)
  | .hall => s.cfg.hall
  | .quad => s.quad.isSome
  | .index => s.index
  | .aksim2 => s.aksim2
  | .cuiAmt21 => s.cuiAmt21
  | .i2c => s.i2c
  | _ => false

theorem addFin_eq (b : Bool) (t : ST) (u : List ST) (s : St) (hs : s.fin = pad u)
    (h : ST.none ∉ u) (hl : u.length < 11) :
    addFin b t s = go { s with fin := pad (u ++ if b then [t] else []) } := by
  unfold addFin
  cases b
  · simp [← hs]
  · rw [if_pos rfl, hs, put_pad t u h hl]; simp

theorem addBoth_eq (b : Bool) (t : ST) (u v : List ST) (s : St) (hs : s.start = pad u)
    (hf : s.fin = pad v) (h : ST.none ∉ u) (hl : u.length < 11) (h' : ST.none ∉ v)
    (hl' : v.length < 11) :
    addBoth b t s = go { s with
      start := pad (u ++ if b then [t] else []), fin := pad (v ++ if b then [t] else []) } := by
  unfold addBoth
  cases b
  · simp [← hs, ← hf]
  · rw [if_pos rfl, hs, put_pad t u h hl]
    simp only
    rw [addFin_eq true t v _ (by simpa using hf) h' hl']
    simp

theorem filter_snoc (p : ST → Bool) (l : List ST) (t : ST) :
    l.filter p ++ (if p t then [t] else []) = (l ++ [t]).filter p := by
  rw [List.filter_append]
  cases h : p t <;> simp [h]

theorem none_filter (p : ST → Bool) (l : List ST) (h : ST.none ∉ l) : ST.none ∉ l.filter p :=
  fun hc => h (List.mem_filter.1 hc).1

theorem last_eq (s : St) (hs : s.start = pad []) (hf : s.fin = pad []) :
    lastSec s = go { s with
      start := pad ([ST.icPz].filter (wants s))
      fin := pad (order.filter (wants s))
      anyIsr := s.upd } := by
  have key : ∀ (l : List ST) (b : Bool) (t : ST) (m : St), m.fin = pad (l.filter (wants s)) →
      ST.none ∉ l → l.length < 11 → b = wants s t →
      addFin b t m = go { m with fin := pad ((l ++ [t]).filter (wants s)) } := by
    intro l b t m hm hn hl hb
    subst hb
    rw [addFin_eq _ _ _ _ hm (none_filter _ _ hn)
      (lt_of_le_of_lt (List.length_filter_le _ _) hl), filter_snoc]
  unfold lastSec
  rw [addBoth_eq s.icPz .icPz [] [] s hs hf (by simp) (by simp) (by simp) (by simp)]
  have e1 : ([] : List ST) ++ (if s.icPz = true then [ST.icPz] else []) =
      [ST.icPz].filter (wants s) := by
    cases h : s.icPz <;> simp [wants, h]
  rw [e1]
  simp only [Flow.bind]
  rw [key [.icPz] _ .gpio _ rfl (by decide) (by decide) (by simp [wants])]
  simp only [List.cons_append, List.nil_append]
  rw [key [.icPz, .gpio] _ .hall _ rfl (by decide) (by decide) (by simp [wants])]
  simp only [List.cons_append, List.nil_append]
  rw [key [.icPz, .gpio, .hall] _ .quad _ rfl (by decide) (by decide) (by simp [wants])]
  simp only [List.cons_append, List.nil_append]
  rw [key [.icPz, .gpio, .hall, .quad] _ .index _ rfl (by decide) (by decide) (by simp [wants])]
  simp only [List.cons_append, List.nil_append]
  rw [key [.icPz, .gpio, .hall, .quad, .index] _ .aksim2 _ rfl (by decide) (by decide)
    (by simp [wants])]
  simp only [List.cons_append, List.nil_append]
  rw [key [.icPz, .gpio, .hall, .quad, .index, .aksim2] _ .cuiAmt21 _ rfl (by decide) (by decide)
    (by simp [wants])]
  simp only [List.cons_append, List.nil_append]
  rw [key [.icPz, .gpio, .hall, .quad, .index, .aksim2, .cuiAmt21] _ .i2c _ rfl (by decide)
    (by decide) (by simp [wants])]
  simp only [List.cons_append, List.nil_append, order]

/-! ## The state after a configuration that was taken in full -/

/-- The port after `HandleConfigUpdate` reached its end. -/
structure Taken (hw : Hw) (mk : Mk) (c : Cfg) (s0 s : St) : Prop where
  cfg : s.cfg = c
  epoch : s.epoch = (s0.epoch + 1) % 256
  start : s.start = pad ([ST.icPz].filter (wants s))
  fin : s.fin = pad (order.filter (wants s))
  as5047 : s.as5047 = false
  ma732 : s.ma732 = false
  as5047Opt : s.as5047Opt = isAs c.spi
  ma732Opt : s.ma732Opt = isMa c.spi
  icPz : s.icPz = decide (c.spi = .icPz)
  i2c : s.i2c = anyI2c c
  halls : c.hall = true → s.halls = min 3 (hallCount c)
  quad : s.quad = if c.quad = true then quadMake hw mk c else none
  index : s.index = (c.index && indexOk hw mk c)
  sc : c.sc = true → s.sine.isSome = true ∧ s.cosine.isSome = true
  uart : s.uart = decide (c.uart ≠ .disabled)
  aksim2 : s.aksim2 = decide (c.uart = .aksim2)
  cuiAmt21 : s.cuiAmt21 = decide (c.uart = .cuiAmt21)
  bits : ∀ j, s.gpioBits j = isGpio (c.pins j).mode
  dIn : ∀ j, s.dIn j = decide ((c.pins j).mode = .dIn)
  dOut : ∀ j, s.dOut j = decide ((c.pins j).mode = .dOut)
  pwm : ∀ j, s.pwm j = decide ((c.pins j).mode = .pwmOut)
  line : ∀ j, s.line j = (decide ((c.pins j).mode = .dOut) && decide ((c.pins j).pull ≠ .none))
  pins : ∀ j, s.pins j = false
  error : s.error = .none ↔ (c.hall = true → hallCount c = 3) ∧
    (c.quad = true → quadMake hw mk c ≠ none) ∧ (c.index = true → indexOk hw mk c = true)
  anyIsr : s.anyIsr = (anyI2c c || decide (c.spi ≠ .disabled) || c.hall ||
    (c.quad && (quadMake hw mk c).isSome) || (c.index && indexOk hw mk c) || c.sc ||
    decide (c.uart ≠ .disabled) ||
    (List.finRange 5).any fun j => isGpio (c.pins j).mode || isAdc (c.pins j).mode)

theorem handle_go {hw pm mk c s0 s} (h : handle hw pm mk c s0 = go s) :
    Taken hw mk c s0 s := by
  unfold handle at h
  simp only [bind_go] at h
  obtain ⟨m1, h1, m2, h2, m3, h3, m4, h4, m5, h5, m6, h6, m7, h7, m8, h8, h9⟩ := h
  have e1 := i2c_go h1
  have e2 := spi_go h2
  have e3 := hall_go h3
  have e4 := quad_go h4
  have e5 := index_go h5
  obtain ⟨e6, hsc⟩ := sc_go h6
  have e7 := uart_go h7
  have d8 := pins_go _ h8
  clear h1 h2 h3 h4 h5 h6 h7 h8
  simp only [reset] at e1
  subst e1
  simp only [Bool.false_or] at e2
  subst e2
  simp only at e3
  subst e3
  simp only at e4
  subst e4
  simp only at e5
  subst e5
  simp only [Bool.false_or] at e6 hsc
  generalize hsi : m6.sine = si at e6 hsc
  generalize hco : m6.cosine = co at e6 hsc
  subst e6
  simp only [Bool.false_or] at e7
  subst e7
  have e8 := d8.same
  have hst : m8.start = pad [] := by rw [e8]; rfl
  have hfi : m8.fin = pad [] := by rw [e8]; rfl
  rw [last_eq m8 hst hfi] at h9
  injection h9 with h9
  have hw' : ∀ t, wants s t = wants m8 t := by
    intro t; rw [← h9]; cases t <;> rfl
  have hw2 : wants s = wants m8 := funext hw'
  constructor
  · rw [← h9, e8]
  · rw [← h9, e8]
  · rw [hw2, ← h9]
  · rw [hw2, ← h9]
  · rw [← h9, e8]
  · rw [← h9, e8]
  · rw [← h9, e8]
  · rw [← h9, e8]
  · rw [← h9, e8]
  · rw [← h9, e8]
  · intro hh; rw [← h9, e8]; simp [hh]
  · rw [← h9, e8]
    simp only
    cases hq : c.quad <;> cases hm : quadMake hw mk c <;> simp
  · rw [← h9, e8]
  · intro hh; rw [← h9, e8]; exact hsc hh
  · rw [← h9, e8]
  · rw [← h9, e8]
  · rw [← h9, e8]
  · intro j; rw [← h9]; simp [d8.bits]
  · intro j; rw [← h9]; simp [d8.dIn]
  · intro j; rw [← h9]; simp [d8.dOut]
  · intro j; rw [← h9]; simp [d8.pwm]
  · intro j; rw [← h9]
    simp only [d8.line, List.mem_finRange, true_and]
    by_cases hj : (c.pins j).mode = .dOut <;> simp [hj]
  · intro j; rw [← h9, e8]
  · rw [← h9, e8]
    simp only
    cases hh : c.hall <;> cases hq : c.quad <;> cases hi : c.index <;>
      cases hm : quadMake hw mk c <;> cases ho : indexOk hw mk c <;>
      by_cases hc : hallCount c = 3 <;> simp [hc]
  · rw [← h9]
    simp only [d8.upd]

/-! ## What each part does when it returns early -/

theorem i2c_ret {hw pm s s'} (h : i2cSec hw pm s = ret s') : s' = { s with error := .i2cPin } := by
  unfold i2cSec at h
  split at h
  · split at h
    · split at h
      · injection h with h; exact h.symm
      · simp at h
    · injection h with h; exact h.symm
  · simp at h

theorem spi_ret {hw pm s s'} (h : spiSec hw pm s = ret s') : s' = { s with error := .spiPin } := by
  unfold spiSec at h
  split at h
  · injection h with h; exact h.symm
  split at h
  · simp at h
  split at h
  · unfold spiUse at h
    split at h <;> simp at h
  · injection h with h; exact h.symm

theorem hall_ret {hw s s'} (h : hallSec hw s = ret s') : False := by
  unfold hallSec at h
  split at h
  · simp only at h
    split at h <;> simp at h
  · simp at h

theorem quad_ret {hw mk s s'} (h : quadSec hw mk s = ret s') : False := by
  unfold quadSec at h
  split at h
  · split at h <;> simp at h
  · simp at h

theorem index_ret {hw mk s s'} (h : indexSec hw mk s = ret s') : False := by
  unfold indexSec at h
  split at h
  · split at h <;> simp at h
  · simp at h

theorem sc_ret {s s'} (h : scSec s = ret s') : s' = { s with error := .sineCosinePin } := by
  unfold scSec at h
  split at h
  · split at h
    · simp at h
    · injection h with h; exact h.symm
  · simp at h

theorem uart_ret {hw pm s s'} (h : uartSec hw pm s = ret s') :
    s' = { s with uart := s'.uart, error := .uartPin } := by
  unfold uartSec at h
  split at h
  · simp at h
  split at h
  · injection h with h; subst h; rfl
  split at h
  · injection h with h; subst h; rfl
  · unfold uartUse at h
    split at h <;> first
      | (injection h with h; subst h; rfl)
      | simp at h

theorem pin_ret {hw i s s'} (h : pinSec hw i s = ret s') :
    s' = { s with anyAdc := s'.anyAdc, adcOn := s'.adcOn, adc := s'.adc, error := s'.error } ∧
      s'.error ≠ .none := by
  unfold pinSec at h
  split at h
  case h_1 | h_2 | h_7 => simp at h
  case h_3 =>
    unfold pwmSec at h
    split at h
    · injection h with h; subst h; simp
    split at h <;> simp at h
  case h_4 | h_5 | h_6 =>
    unfold adcSec at h
    simp only at h
    split at h
    · injection h with h; subst h; simp
    split at h
    · injection h with h; subst h; simp
    · injection h with h; subst h; simp
    · simp at h
    · simp at h

theorem pins_ret {hw} (is : List (Fin 5)) : ∀ {s s'}, pinsSec hw is s = ret s' →
    s' = { s with
      dIn := s'.dIn, dOut := s'.dOut, pwm := s'.pwm, timers := s'.timers, anyAdc := s'.anyAdc,
      adcOn := s'.adcOn, adc := s'.adc, gpioBits := s'.gpioBits, line := s'.line, upd := s'.upd
      error := s'.error } ∧ s'.error ≠ .none := by
  induction is with
  | nil => intro s s' h; simp [pinsSec] at h
  | cons i is ih =>
    intro s s' h
    simp only [pinsSec, bind_ret] at h
    rcases h with h | ⟨m, h1, h2⟩
    · obtain ⟨e, hn⟩ := pin_ret h
      exact ⟨by rw [e], hn⟩
    · obtain ⟨e, hn⟩ := ih h2
      exact ⟨by rw [e, (pin_go h1).same], hn⟩

/-- The port after `HandleConfigUpdate` returned early. -/
structure Refused (c : Cfg) (s0 s : St) : Prop where
  cfg : s.cfg = c
  epoch : s.epoch = (s0.epoch + 1) % 256
  start : s.start = pad []
  fin : s.fin = pad []
  anyIsr : s.anyIsr = false
  as5047 : s.as5047 = false
  ma732 : s.ma732 = false
  as5047Opt : s.as5047Opt = true → isAs c.spi = true
  ma732Opt : s.ma732Opt = true → isMa c.spi = true
  sc : s.anyAdc = true → c.sc = true → s.sine.isSome = true ∧ s.cosine.isSome = true
  error : s.error ≠ .none

theorem handle_ret {hw pm mk c s0 s} (h : handle hw pm mk c s0 = ret s) : Refused c s0 s := by
  unfold handle at h
  simp only [bind_ret] at h
  rcases h with h | ⟨m1, h1, h⟩
  · have e := i2c_ret h
    subst e
    constructor <;> simp [reset, pad]
  have e1 := i2c_go h1
  simp only [reset] at e1
  subst e1
  rcases h with h | ⟨m2, h2, h⟩
  · have e := spi_ret h
    subst e
    constructor <;> simp [pad]
  have e2 := spi_go h2
  simp only [Bool.false_or] at e2
  subst e2
  rcases h with h | ⟨m3, h3, h⟩
  · exact (hall_ret h).elim
  have e3 := hall_go h3
  simp only at e3
  subst e3
  rcases h with h | ⟨m4, h4, h⟩
  · exact (quad_ret h).elim
  have e4 := quad_go h4
  simp only at e4
  subst e4
  rcases h with h | ⟨m5, h5, h⟩
  · exact (index_ret h).elim
  have e5 := index_go h5
  simp only at e5
  subst e5
  rcases h with h | ⟨m6, h6, h⟩
  · have e := sc_ret h
    subst e
    constructor <;> simp [pad]
  obtain ⟨e6, hsc⟩ := sc_go h6
  simp only [Bool.false_or] at e6 hsc
  generalize hsi : m6.sine = si at e6 hsc
  generalize hco : m6.cosine = co at e6 hsc
  subst e6
  rcases h with h | ⟨m7, h7, h⟩
  · have e := uart_ret h
    constructor <;> (rw [e]; try simp [pad])
  have e7 := uart_go h7
  simp only [Bool.false_or] at e7
  subst e7
  rcases h with h | ⟨m8, h8, h⟩
  · obtain ⟨e, hn⟩ := pins_ret _ h
    constructor
    case error => exact hn
    case sc => intro _ hs; rw [e]; exact hsc hs
    all_goals (rw [e]; try simp [pad])
  · have d8 := pins_go _ h8
    have hst : m8.start = pad [] := by rw [d8.same]; rfl
    have hfi : m8.fin = pad [] := by rw [d8.same]; rfl
    rw [last_eq m8 hst hfi] at h
    simp at h

/-! ## When the controller stops -/

/-- The timers of a port are at most two. -/
def TwoTimers (hw : Hw) : Prop :=
  ∃ a b, ∀ r ∈ hw.rows, ∀ t, r.timer = some t → t = a ∨ t = b

theorem pwmTimer_mem {hw s i t} (h : pwmTimer hw s i = some t) : ∃ r ∈ hw.rows, r.timer = some t := by
  unfold pwmTimer at h
  obtain ⟨r, hr, h⟩ := List.exists_of_findSome?_eq_some h
  refine ⟨r, hr, ?_⟩
  split at h
  · split at h
    · simp at h
    · next t' ht =>
      split at h
      · simp at h
      · rw [ht]; exact h
  · simp at h

/-- The timers in use are different ones, out of two. -/
def TimersIn (a b : Nat) (ts : List Nat) : Prop := ts.Nodup ∧ ∀ t ∈ ts, t = a ∨ t = b

theorem timerGet_some {a b t ts} (h : TimersIn a b ts) (ht : t = a ∨ t = b) :
    ∃ ts', timerGet ts t = some ts' ∧ TimersIn a b ts' := by
  unfold timerGet
  by_cases hm : t ∈ ts
  · exact ⟨ts, by simp [hm], h⟩
  · have hl : ts.length < 2 := by
      have hs : t :: ts ⊆ [a, b] := by
        intro x hx
        rcases List.mem_cons.1 hx with rfl | hx
        · simpa using ht
        · simpa using h.2 x hx
      have := (List.subperm_of_subset (List.nodup_cons.2 ⟨hm, h.1⟩) hs).length_le
      simp at this
      omega
    refine ⟨ts ++ [t], by simp [hm, hl], ?_, ?_⟩
    · rw [List.nodup_append]
      refine ⟨h.1, by simp, ?_⟩
      intro x hx y hy
      simp at hy
      subst hy
      rintro rfl
      exact hm hx
    · intro x hx
      rcases List.mem_append.1 hx with hx | hx
      · exact h.2 x hx
      · simp at hx; subst hx; exact ht

theorem pin_alive {hw : Hw} {a b : Nat}
    (hab : ∀ r ∈ hw.rows, ∀ t, r.timer = some t → t = a ∨ t = b) {i s}
    (hs : TimersIn a b s.timers) :
    pinSec hw i s ≠ die ∧ ∀ s', pinSec hw i s = go s' → TimersIn a b s'.timers := by
  unfold pinSec
  split
  case h_1 | h_2 | h_7 =>
    refine ⟨by simp, fun s' h => ?_⟩
    injection h with h; subst h; exact hs
  case h_3 =>
    unfold pwmSec
    split
    · simp
    next t ht =>
    obtain ⟨r, hr, hrt⟩ := pwmTimer_mem ht
    obtain ⟨ts', he, hts⟩ := timerGet_some hs (hab r hr t hrt)
    rw [he]
    refine ⟨by simp, fun s' h => ?_⟩
    injection h with h; subst h; exact hts
  case h_4 | h_5 | h_6 =>
    unfold adcSec
    simp only
    split
    · simp
    split
    · simp
    · simp
    · refine ⟨by simp, fun s' h => ?_⟩
      injection h with h; subst h; exact hs
    · refine ⟨by simp, fun s' h => ?_⟩
      injection h with h; subst h; exact hs

theorem pins_alive {hw : Hw} {a b : Nat}
    (hab : ∀ r ∈ hw.rows, ∀ t, r.timer = some t → t = a ∨ t = b) (is : List (Fin 5)) :
    ∀ {s}, TimersIn a b s.timers → pinsSec hw is s ≠ die := by
  induction is with
  | nil => intro s _; simp [pinsSec]
  | cons i is ih =>
    intro s hs h
    simp only [pinsSec, bind_die] at h
    obtain ⟨h1, h2⟩ := pin_alive hab (i := i) hs
    rcases h with h | ⟨m, hm, h⟩
    · exact h1 h
    · exact ih (h2 m hm) h

/-- A configuration that the port can be given without harm: three hall pins
or more, all of them on the port, the polarity in range, and an SPI mode that
is a mode. -/
structure Fine (hw : Hw) (c : Cfg) : Prop where
  hallPins : c.hall = true → 3 ≤ hallCount c
  hallExist : c.hall = true → ∀ i, (c.pins i).mode = .hall → (firstRow hw i).isSome = true
  polarity : c.hall = true → c.polarity < 8
  spi : c.spi ≠ .numModes

theorem quad_die {hw mk s} (h : quadSec hw mk s = die) : False := by
  unfold quadSec at h
  split at h
  · split at h <;> simp at h
  · simp at h

theorem index_die {hw mk s} (h : indexSec hw mk s = die) : False := by
  unfold indexSec at h
  split at h
  · split at h <;> simp at h
  · simp at h

theorem sc_die {s} (h : scSec s = die) : False := by
  unfold scSec at h
  split at h
  · split at h <;> simp at h
  · simp at h

theorem uart_die {hw pm s} (h : uartSec hw pm s = die) : False := by
  unfold uartSec at h
  split at h
  · simp at h
  next hd =>
  split at h
  · simp at h
  split at h
  · simp at h
  · unfold uartUse at h
    split at h <;> first
      | (next hm => exact hd hm)
      | simp at h

theorem handle_alive {hw pm mk c s0} (ht : TwoTimers hw) (hc : Fine hw c) :
    handle hw pm mk c s0 ≠ die := by
  obtain ⟨a, b, hab⟩ := ht
  intro h
  unfold handle at h
  simp only [bind_die] at h
  rcases h with h | ⟨m1, h1, h⟩
  · unfold i2cSec at h
    split at h
    · split at h
      · split at h <;> simp at h
      · simp at h
    · simp at h
  have e1 := i2c_go h1
  simp only [reset] at e1
  subst e1
  rcases h with h | ⟨m2, h2, h⟩
  · unfold spiSec at h
    split at h
    · simp at h
    split at h
    · simp at h
    next hd =>
    split at h
    · unfold spiUse at h
      split at h <;> first
        | (next hm => exact hd hm)
        | (next hm => exact hc.spi hm)
        | simp at h
    · simp at h
  have e2 := spi_go h2
  simp only [Bool.false_or] at e2
  subst e2
  rcases h with h | ⟨m3, h3, h⟩
  · unfold hallSec at h
    simp only at h
    split at h
    · next hh =>
      split at h
      · simp at h
      · next hall =>
        apply hall
        rw [List.all_eq_true]
        intro i hi
        simp only [pinsOf, List.mem_filter, decide_eq_true_eq] at hi
        exact hc.hallExist hh i hi.2
    · simp at h
  have e3 := hall_go h3
  simp only at e3
  subst e3
  rcases h with h | ⟨m4, h4, h⟩
  · exact quad_die h
  have e4 := quad_go h4
  simp only at e4
  subst e4
  rcases h with h | ⟨m5, h5, h⟩
  · exact index_die h
  have e5 := index_go h5
  simp only at e5
  subst e5
  rcases h with h | ⟨m6, h6, h⟩
  · exact sc_die h
  obtain ⟨e6, hsc⟩ := sc_go h6
  simp only [Bool.false_or] at e6 hsc
  generalize hsi : m6.sine = si at e6 hsc
  generalize hco : m6.cosine = co at e6 hsc
  subst e6
  rcases h with h | ⟨m7, h7, h⟩
  · exact uart_die h
  have e7 := uart_go h7
  simp only [Bool.false_or] at e7
  subst e7
  rcases h with h | ⟨m8, h8, h⟩
  · exact pins_alive hab _ (s := _) ⟨List.nodup_nil, by simp⟩ h
  · have d8 := pins_go _ h8
    have hst : m8.start = pad [] := by rw [d8.same]; rfl
    have hfi : m8.fin = pad [] := by rw [d8.same]; rfl
    rw [last_eq m8 hst hfi] at h
    simp at h

end Verif.Fw.Aux
