import Mathlib.Logic.Relation
import Mathlib.Logic.Function.Basic
import Mathlib.Data.List.Basic
import Mathlib.Data.Nat.Bitwise
import Mathlib.Tactic.Ring
import Mathlib.Tactic.NormNum
import Mathlib.Tactic.SplitIfs

/-!
# Encoders on the I2C bus (C81)

Model of `fw/stm32_i2c.h` and of the parts of `fw/aux_port.h` that use it: the control interrupt calls
`ISR_I2C_Update` once per cycle.  The flags that the hardware shows are arbitrary inputs of each cycle.
-/

namespace Verif.Fw.I2cEncoders

/-! ## Model -/

/-- `DeviceConfig::Type` (aux_common.h:244-250). -/
inductive Kind
  | none | as5048 | as5600
  deriving DecidableEq

/-- `DeviceConfig` (aux_common.h:251-253). -/
structure Config where
  kind : Kind := .none
  address : ℕ := 0x40
  pollUs : ℕ := 1000

/-- `Mode` (stm32_i2c.h:251-258). -/
inductive Mode
  | idle | sent | reading | writing | complete | error
  deriving DecidableEq

/-- What happens on the bus.  Not in the code. -/
inductive Ev
  /-- START, address for writing, register address -/
  | readStart (address reg : ℕ)
  /-- repeated START, address for reading so many bytes -/
  | again (address n : ℕ)
  /-- A byte was received. -/
  | rx (b : ℕ)
  /-- START, address for writing so many bytes, register address -/
  | writeStart (address reg n : ℕ)
  /-- A byte is sent. -/
  | tx (b : ℕ)
  /-- The peripheral was switched off and on. -/
  | reset
  deriving DecidableEq

/-- `I2cState` (aux_port.h:1339-1343) and `DeviceStatus` (aux_common.h:281-290) of a device.  Not in the code:
how many polls were started, how many ended with data and how many with an error. -/
structure Dev where
  initialized : Bool := false
  last : ℕ := 0
  pending : Bool := false
  active : Bool := false
  value : ℕ := 0
  nonce : ℕ := 0
  errors : ℕ := 0
  agc : ℕ := 0
  diag : ℕ := 0
  mag : ℕ := 0
  polls : ℕ := 0
  goods : ℕ := 0
  bads : ℕ := 0
  deriving DecidableEq

/-- Members of `Stm32I2c` (stm32_i2c.h:246-265) and of `AuxPort` (aux_port.h:1337-1347), and the events, the
newest first.  `rx_data_` and `tx_data_` always show the beginning of `encoder_raw_data_`, only their sizes
are kept. -/
structure State where
  mode : Mode := .idle
  slave : ℕ := 0
  rxLen : ℕ := 0
  txLen : ℕ := 0
  offset : ℕ := 0
  raw : List ℕ := List.replicate 6 0
  startup : Bool := false
  dev : ℕ → Dev := fun _ => {}
  trace : List Ev := []

/-- What does not change.  `valid` is `valid_` (stm32_i2c.h:50-62, see C77), `wrap` the range of the timer
(2^16 or 2^32, millisecond_timer.h:54-60). -/
structure Setup where
  valid : Bool := true
  wrap : ℕ := 2 ^ 32
  delayMs : ℕ := 30
  cfg : ℕ → Config

/-- What a cycle reads from timer and hardware. -/
structure In where
  now : ℕ
  /-- `CR2_START` or `ISR_BUSY` when a transfer is to be started -/
  busBusy : Bool := false
  tc : Bool := false
  rxne : Bool := false
  rxdr : ℕ := 0
  txe : Bool := false
  nackf : Bool := false
  /-- `CR1_PE` reads 0 after it was cleared. -/
  peOff : Bool := true

/-- `StartReadMemory` (stm32_i2c.h:74-105). -/
def startRead (c : Setup) (x : In) (address reg n : ℕ) (s : State) : State :=
  if ¬ c.valid then s
  else if s.mode ≠ .idle ∨ x.busBusy then { s with mode := .error }
  else { s with
    slave := address, rxLen := n, trace := .readStart address reg :: s.trace, mode := .sent }

/-- `StartWriteMemory` (stm32_i2c.h:107-134) -/
def startWrite (c : Setup) (x : In) (address reg n : ℕ) (s : State) : State :=
  if ¬ c.valid then s
  else if s.mode ≠ .idle ∨ x.busBusy then { s with mode := .error }
  else { s with
    txLen := n, trace := .writeStart address reg (1 + n) :: s.trace, offset := 0, mode := .writing }

/-- `Poll` (stm32_i2c.h:167-230) -/
def poll (x : In) (s : State) : State :=
  let s := match s.mode with
    | .idle | .complete | .error => s
    | .sent => if ¬ x.tc then s else { s with
        trace := .again s.slave s.rxLen :: s.trace, offset := 0, mode := .reading }
    | .reading => if ¬ x.rxne then s else
        let s := { s with
          raw := s.raw.set s.offset (x.rxdr % 256), offset := s.offset + 1,
          trace := .rx (x.rxdr % 256) :: s.trace }
        if s.offset ≥ s.rxLen then { s with mode := .complete } else s
    | .writing => if ¬ x.txe then s else
        if s.offset ≥ s.txLen then { s with mode := .complete }
        else { s with trace := .tx (s.raw.getD s.offset 0) :: s.trace, offset := s.offset + 1 }
  if x.nackf then { s with mode := .error } else s

/-- `busy` (stm32_i2c.h:232-246) -/
def State.busy (s : State) : Bool := s.mode = .sent ∨ s.mode = .reading ∨ s.mode = .writing

/-- `ReadStatus` (stm32_i2c.h:136-140) -/
inductive ReadStatus
  | noStatus | complete | error
  deriving DecidableEq

/-- `CheckRead` (stm32_i2c.h:142-165) -/
def checkRead (c : Setup) (x : In) (s : State) : State × ReadStatus :=
  if ¬ c.valid then (s, .error)
  else if s.mode = .complete then ({ s with mode := .idle }, .complete)
  else if s.mode = .error then
    (if x.peOff then { s with mode := .idle, trace := .reset :: s.trace } else s, .error)
  else (s, .noStatus)

/-- `subtract_us` (millisecond_timer.h:70-72) -/
def subUs (wrap a b : ℕ) : ℕ := (a + wrap - b % wrap) % wrap

/-- What `ISR_PollI2c` decides to do. -/
inductive Act
  | nothing
  | init (i : ℕ)
  | read (i : ℕ)
  deriving DecidableEq

/-- The loop of `ISR_PollI2c` (aux_port.h:674-742) up to the decision. -/
def choose (c : Setup) (now : ℕ) (dev : ℕ → Dev) : List ℕ → Act
  | [] => .nothing
  | i :: l =>
    if (c.cfg i).kind = .none then choose c now dev l
    else if ¬ (dev i).initialized then .init i
    else if subUs c.wrap now (dev i).last ≥ (c.cfg i).pollUs then .read i
    else choose c now dev l

/-- The changes to one device. -/
def State.upd (s : State) (i : ℕ) (f : Dev → Dev) : State :=
  { s with dev := Function.update s.dev i (f (s.dev i)) }

/-- The settings for an AS5600 (aux_port.h:686-697): watchdog off, fast filter threshold 6/1, slow filter
2x. -/
def as5600Settings : List ℕ := [(0 <<< 5) ||| (1 <<< 2) ||| (3 <<< 0), 0]

/-- `ISR_PollI2c` (aux_port.h:666-742) -/
def pollI2c (c : Setup) (x : In) (s : State) : State :=
  if s.busy then s
  else match choose c x.now s.dev (List.range 3) with
    | .nothing => s
    | .init i =>
      let s := match (c.cfg i).kind with
        | .as5600 =>
          startWrite c x (c.cfg i).address 0x07 2 { s with raw := as5600Settings ++ s.raw.drop 2 }
        | _ => s
      s.upd i fun d => { d with initialized := true }
    | .read i =>
      let s := s.upd i fun d => { d with last := x.now, pending := true, polls := d.polls + 1 }
      match (c.cfg i).kind with
      | .as5048 => startRead c x (c.cfg i).address 0xfa 6 s
      | .as5600 => startRead c x (c.cfg i).address 0x0b 3 s
      | .none => s

/-- `ISR_ParseAs5048`, `ISR_ParseAs5600` (aux_port.h:638-664) -/
def parse (k : Kind) (startup : Bool) (raw : List ℕ) (d : Dev) : Dev :=
  match k with
  | .as5048 => { d with
      active := startup
      value := ((raw.getD 4 0 <<< 8) ||| (raw.getD 5 0 <<< 2)) % 2 ^ 16
      nonce := (d.nonce + 1) % 256
      agc := raw.getD 0 0
      diag := raw.getD 1 0
      mag := ((raw.getD 2 0 <<< 8) ||| (raw.getD 3 0 <<< 2)) % 2 ^ 16
      goods := d.goods + 1 }
  | .as5600 => { d with
      active := startup
      value := ((raw.getD 1 0 <<< 8) ||| raw.getD 2 0) &&& 0x0fff
      nonce := (d.nonce + 1) % 256
      agc := 0
      diag := raw.getD 0 0
      mag := 0
      goods := d.goods + 1 }
  | .none => d

/-- The loop at the end of `ISR_I2C_Update` (aux_port.h:259-275) -/
def finish (c : Setup) (r : ReadStatus) (s : State) : State :=
  if r = .noStatus then s
  else match (List.range 3).find? fun i => (s.dev i).pending with
    | none => s
    | some i => s.upd i fun d =>
        let d := { d with pending := false }
        if r = .error then { d with errors := (d.errors + 1) % 2 ^ 32, bads := d.bads + 1 }
        else parse (c.cfg i).kind s.startup s.raw d

/-- The first lines of `ISR_I2C_Update` (aux_port.h:247-251) -/
def startupUpdate (c : Setup) (x : In) (s : State) : State :=
  { s with startup := s.startup || decide (x.now / 1000 > c.delayMs) }

/-- `ISR_I2C_Update` (aux_port.h:246-276) -/
def cycle (c : Setup) (x : In) (s : State) : State :=
  let s := poll x (pollI2c c x (startupUpdate c x s))
  let r := checkRead c x s
  finish c r.2 r.1

/-- The state after cycles with these inputs. -/
def run (c : Setup) : List In → State
  | [] => {}
  | x :: l => cycle c x (run c l)

/-! ## Specification -/

/-- Register and number of bytes that are read from a device: the AS5048 has AGC, diagnosis, magnitude and
angle from 0xfa on, the AS5600 status and raw angle from 0x0b on. -/
def wanted : Kind → ℕ × ℕ
  | .as5048 => (0xfa, 6)
  | .as5600 => (0x0b, 3)
  | .none => (0, 0)

/-- What the bytes of a device mean: the AS5048 has 14 bits as 8 upper and 6 lower ones, reported in 16 bits;
the AS5600 has 12 bits. -/
def Means (k : Kind) (bytes : List ℕ) (d : Dev) : Prop :=
  match k with
  | .as5048 => ∃ g e mh ml ah al, bytes = [g, e, mh, ml, ah, al] ∧ d.agc = g ∧ d.diag = e ∧
      (ml < 64 → d.mag = 4 * (mh * 64 + ml)) ∧ (al < 64 → d.value = 4 * (ah * 64 + al))
  | .as5600 => ∃ e ah al, bytes = [e, ah, al] ∧ d.diag = e ∧ d.value = (ah % 16) * 256 + al
  | .none => False

/-- The bus has just carried out one transaction that read these bytes of a device. -/
def JustRead (a : Config) (bytes : List ℕ) (t : List Ev) : Prop :=
  bytes.length = (wanted a.kind).2 ∧
  ∃ before, t = (bytes.map Ev.rx).reverse ++
    [.again a.address (wanted a.kind).2, .readStart a.address (wanted a.kind).1] ++ before

/-! ## Invariant -/

def Quiet (s : State) : Prop := ∀ j, (s.dev j).pending = false

def Only (s : State) (i : ℕ) : Prop :=
  i < 3 ∧ (s.dev i).pending = true ∧ ∀ j, j ≠ i → (s.dev j).pending = false

def Sent (c : Setup) (s : State) (i : ℕ) : Prop :=
  s.mode = .sent ∧ s.slave = (c.cfg i).address ∧ s.rxLen = (wanted (c.cfg i).kind).2 ∧
  ∃ before, s.trace = .readStart (c.cfg i).address (wanted (c.cfg i).kind).1 :: before

def Got (c : Setup) (s : State) (i n : ℕ) : Prop :=
  ∃ before, s.trace = ((s.raw.take n).map Ev.rx).reverse ++
    [.again (c.cfg i).address (wanted (c.cfg i).kind).2,
      .readStart (c.cfg i).address (wanted (c.cfg i).kind).1] ++ before

def Reading (c : Setup) (s : State) (i : ℕ) : Prop :=
  s.mode = .reading ∧ s.offset < s.rxLen ∧ s.rxLen = (wanted (c.cfg i).kind).2 ∧ Got c s i s.offset

def Done (c : Setup) (s : State) (i : ℕ) : Prop :=
  s.mode = .complete ∧ Got c s i (wanted (c.cfg i).kind).2

/-- Each poll of a device ends with data or an error or is pending. -/
def Dev.Ok (d : Dev) : Prop :=
  d.goods + d.bads + (if d.pending then 1 else 0) = d.polls ∧
    d.nonce = d.goods % 256 ∧ d.errors = d.bads % 2 ^ 32

/-- Between two cycles. -/
structure Inv (c : Setup) (s : State) : Prop where
  len : s.raw.length = 6
  bytes : ∀ b ∈ s.raw, b < 256
  what : (Quiet s ∧ (s.mode = .idle ∨ s.mode = .error ∨ s.mode = .writing)) ∨
    ∃ i, Only s i ∧ (c.cfg i).kind ≠ .none ∧ (Sent c s i ∨ Reading c s i)
  account : ∀ i, (s.dev i).Ok
  invalid : c.valid = false → s.mode = .idle ∨ s.mode = .error

/-- After `ISR_PollI2c`. -/
structure InvB (c : Setup) (s : State) : Prop where
  len : s.raw.length = 6
  bytes : ∀ b ∈ s.raw, b < 256
  what : (Quiet s ∧ (s.mode = .idle ∨ s.mode = .error ∨ s.mode = .writing)) ∨
    ∃ i, Only s i ∧ (c.cfg i).kind ≠ .none ∧
      (Sent c s i ∨ Reading c s i ∨ s.mode = .error ∨ (c.valid = false ∧ s.mode = .idle))
  account : ∀ i, (s.dev i).Ok
  invalid : c.valid = false → s.mode = .idle ∨ s.mode = .error

/-- After `Poll`. -/
structure InvC (c : Setup) (s : State) : Prop where
  len : s.raw.length = 6
  bytes : ∀ b ∈ s.raw, b < 256
  what : (Quiet s ∧ s.mode ≠ .sent ∧ s.mode ≠ .reading) ∨
    ∃ i, Only s i ∧ (c.cfg i).kind ≠ .none ∧
      (Sent c s i ∨ Reading c s i ∨ s.mode = .error ∨ (c.valid = false ∧ s.mode = .idle) ∨ Done c s i)
  account : ∀ i, (s.dev i).Ok
  invalid : c.valid = false → s.mode = .idle ∨ s.mode = .error

theorem upd_same (s : State) (i : ℕ) (f : Dev → Dev) : (s.upd i f).dev i = f (s.dev i) := by
  simp [State.upd]

theorem upd_other (s : State) (i j : ℕ) (f : Dev → Dev) (h : j ≠ i) : (s.upd i f).dev j = s.dev j := by
  simp [State.upd, h]

theorem choose_read {c : Setup} {now : ℕ} {dev : ℕ → Dev} {l : List ℕ} {i : ℕ}
    (h : choose c now dev l = .read i) :
    i ∈ l ∧ (c.cfg i).kind ≠ .none ∧ (dev i).initialized = true ∧
      (c.cfg i).pollUs ≤ subUs c.wrap now (dev i).last := by
  induction l with
  | nil => simp [choose] at h
  | cons j l ih =>
    unfold choose at h
    split_ifs at h with h1 h2 h3
    · have := ih h; exact ⟨List.mem_cons_of_mem _ this.1, this.2⟩
    · cases h
      exact ⟨by simp, h1, by simpa using h2, h3⟩
    · have := ih h; exact ⟨List.mem_cons_of_mem _ this.1, this.2⟩

theorem choose_init {c : Setup} {now : ℕ} {dev : ℕ → Dev} {l : List ℕ} {i : ℕ}
    (h : choose c now dev l = .init i) :
    i ∈ l ∧ (c.cfg i).kind ≠ .none ∧ (dev i).initialized = false := by
  induction l with
  | nil => simp [choose] at h
  | cons j l ih =>
    unfold choose at h
    split_ifs at h with h1 h2 h3
    · have := ih h; exact ⟨List.mem_cons_of_mem _ this.1, this.2⟩
    · have := ih h; exact ⟨List.mem_cons_of_mem _ this.1, this.2⟩
    · cases h
      exact ⟨by simp, h1, by simpa using h2⟩

theorem Inv.pollI2c {c : Setup} {s : State} (h : Inv c s) (x : In) : InvB c (pollI2c c x s) := by
  obtain ⟨h1, h2, h3, h4, h5⟩ := h
  have base : InvB c s := by
    refine ⟨h1, h2, ?_, h4, h5⟩
    rcases h3 with h3 | ⟨i, a, b, d | d⟩
    · exact .inl h3
    · exact .inr ⟨i, a, b, .inl d⟩
    · exact .inr ⟨i, a, b, .inr (.inl d)⟩
  unfold I2cEncoders.pollI2c
  split
  · exact base
  · next hb =>
    have hq : Quiet s ∧ (s.mode = .idle ∨ s.mode = .error) := by
      rcases h3 with ⟨q, m⟩ | ⟨i, _, _, d | d⟩
      · refine ⟨q, ?_⟩
        rcases m with m | m | m
        · exact .inl m
        · exact .inr m
        · simp [State.busy, m] at hb
      · simp [State.busy, d.1] at hb
      · simp [State.busy, d.1] at hb
    obtain ⟨hq, hm⟩ := hq
    split
    · exact base
    · next i hi =>
      have fin : ∀ t : State, t.raw.length = 6 → (∀ b ∈ t.raw, b < 256) → t.dev = s.dev →
          (t.mode = .idle ∨ t.mode = .error ∨ t.mode = .writing) →
          (c.valid = false → t.mode = .idle ∨ t.mode = .error) →
          InvB c (t.upd i fun d => { d with initialized := true }) := by
        intro t t1 t2 t3 t4 t5
        refine ⟨t1, t2, .inl ⟨fun j => ?_, t4⟩, fun j => ?_, t5⟩
        · by_cases hj : j = i
          · subst hj; rw [upd_same, t3]; exact hq j
          · rw [upd_other _ _ _ _ hj, t3]; exact hq j
        · by_cases hj : j = i
          · subst hj; rw [upd_same, t3]; exact h4 j
          · rw [upd_other _ _ _ _ hj, t3]; exact h4 j
      apply fin
      · split
        · unfold startWrite; split_ifs <;> simp [as5600Settings, h1]
        · exact h1
      · have : ∀ b ∈ as5600Settings ++ s.raw.drop 2, b < 256 := by
          intro b hb
          rcases List.mem_append.1 hb with hb | hb
          · have : ∀ b ∈ as5600Settings, b < 256 := by decide
            exact this b hb
          · exact h2 b (List.mem_of_mem_drop hb)
        split
        · unfold startWrite; split_ifs <;> exact this
        · exact h2
      · split
        · unfold startWrite; split_ifs <;> rfl
        · rfl
      · have hm' : s.mode = .idle ∨ s.mode = .error ∨ s.mode = .writing := hm.imp_right .inl
        split
        · unfold startWrite
          split
          · exact hm'
          · split
            · exact .inr (.inl rfl)
            · exact .inr (.inr rfl)
        · exact hm'
      · intro hv
        split
        · unfold startWrite
          rw [if_pos (by simp [hv])]
          exact h5 hv
        · exact h5 hv
    · next i hi =>
      obtain ⟨hmem, hk, -⟩ := choose_read hi
      have hlt : i < 3 := by simpa using hmem
      set t := s.upd i fun d => { d with last := x.now, pending := true, polls := d.polls + 1 } with ht
      have only : Only t i := by
        refine ⟨hlt, by rw [ht, upd_same], fun j hj => ?_⟩
        rw [ht, upd_other _ _ _ _ hj]; exact hq j
      have acc : ∀ j, (t.dev j).Ok := by
        intro j
        by_cases hj : j = i
        · subst hj
          rw [ht, upd_same]
          obtain ⟨a1, a2⟩ := h4 j
          refine ⟨?_, a2⟩
          have := hq j
          simp [this] at a1 ⊢
          exact a1
        · rw [ht, upd_other _ _ _ _ hj]; exact h4 j
      have t1 : t.raw = s.raw := rfl
      have tm : t.mode = s.mode := rfl
      have fin : ∀ n reg, (wanted (c.cfg i).kind) = (reg, n) →
          InvB c (startRead c x (c.cfg i).address reg n t) := by
        intro n reg hw
        unfold startRead
        split
        · next g1 =>
          refine ⟨h1, h2, .inr ⟨i, only, hk, ?_⟩, acc, h5⟩
          rcases hm with hm | hm
          · exact .inr (.inr (.inr ⟨by simpa using g1, hm⟩))
          · exact .inr (.inr (.inl hm))
        · next g1 =>
          have g1 : c.valid = false → False := fun h => g1 (by simp [h])
          split
          · exact ⟨h1, h2, .inr ⟨i, only, hk, .inr (.inr (.inl rfl))⟩, acc, fun h => (g1 h).elim⟩
          · exact ⟨h1, h2, .inr ⟨i, only, hk, .inl ⟨rfl, rfl, by rw [hw], _, by rw [hw]⟩⟩, acc, fun h => (g1 h).elim⟩
      split
      · next hkk => exact fin _ _ (by rw [hkk]; rfl)
      · next hkk => exact fin _ _ (by rw [hkk]; rfl)
      · next hkk => exact absurd hkk hk

theorem wanted_le (k : Kind) : (wanted k).2 ≤ 6 := by cases k <;> simp [wanted]

theorem set_bytes {l : List ℕ} (h : ∀ b ∈ l, b < 256) (i v : ℕ) : ∀ b ∈ l.set i (v % 256), b < 256 := by
  intro b hb
  rcases List.mem_or_eq_of_mem_set hb with hb | hb
  · exact h b hb
  · omega

theorem got_more {c : Setup} {s : State} {i x : ℕ} (h : Got c s i s.offset) (hl : s.offset < s.raw.length) :
    Got c { s with raw := s.raw.set s.offset x, offset := s.offset + 1, trace := .rx x :: s.trace } i
      (s.offset + 1) := by
  obtain ⟨before, h⟩ := h
  refine ⟨before, ?_⟩
  have e : (s.raw.set s.offset x).take (s.offset + 1) = s.raw.take s.offset ++ [x] := by
    rw [List.take_succ_eq_append_getElem (by simpa using hl), List.take_set_of_le (le_refl _)]
    simp
  simp only [e, h]
  simp

theorem InvB.poll {c : Setup} {s : State} (h : InvB c s) (x : In) : InvC c (poll x s) := by
  obtain ⟨h1, h2, h3, h4, h5⟩ := h
  -- without the last line
  have key : ∀ t : State, InvC c t → InvC c (if x.nackf then { t with mode := .error } else t) := by
    intro t ⟨k1, k2, k3, k4, k5⟩
    split_ifs
    · refine ⟨k1, k2, ?_, k4, fun _ => .inr rfl⟩
      rcases k3 with ⟨q, _⟩ | ⟨i, a, b, _⟩
      · exact .inl ⟨q, by simp, by simp⟩
      · exact .inr ⟨i, a, b, .inr (.inr (.inl rfl))⟩
    · exact ⟨k1, k2, k3, k4, k5⟩
  have same : InvC c s := by
    refine ⟨h1, h2, ?_, h4, h5⟩
    rcases h3 with ⟨q, m⟩ | ⟨i, a, b, d⟩
    · refine .inl ⟨q, ?_, ?_⟩ <;> rcases m with m | m | m <;> simp [m]
    · refine .inr ⟨i, a, b, ?_⟩
      rcases d with d | d | d | d
      · exact .inl d
      · exact .inr (.inl d)
      · exact .inr (.inr (.inl d))
      · exact .inr (.inr (.inr (.inl d)))
  unfold I2cEncoders.poll
  apply key
  split
  · exact same
  · exact same
  · exact same
  · next hm =>
    have bad : ∀ {p : Prop}, c.valid = false → p := fun h => by
      have := h5 h; simp [hm] at this
    split_ifs with g
    · rcases h3 with ⟨q, m⟩ | ⟨i, a, b, d⟩
      · simp [hm] at m
      · rcases d with d | d | d | d
        · obtain ⟨_, d2, d3, before, d4⟩ := d
          have hw : 0 < (wanted (c.cfg i).kind).2 := by
            cases hk : (c.cfg i).kind <;> simp [wanted, hk] at b ⊢
          refine ⟨h1, h2, .inr ⟨i, a, b, .inr (.inl ⟨rfl, ?_, d3, before, ?_⟩)⟩, h4, bad⟩
          · simp only; omega
          · simp [d2, d3, d4]
        · simp [d.1] at hm
        · simp [d] at hm
        · simp [d.2] at hm
    · exact same
  · next hm =>
    have bad : ∀ {p : Prop}, c.valid = false → p := fun h => by
      have := h5 h; simp [hm] at this
    dsimp only
    split_ifs with g g2
    · rcases h3 with ⟨q, m⟩ | ⟨i, a, b, d⟩
      · simp [hm] at m
      · rcases d with d | d | d | d
        · simp [d.1] at hm
        · obtain ⟨_, d2, d3, d4⟩ := d
          have hw := wanted_le (c.cfg i).kind
          refine ⟨by simpa using h1, set_bytes h2 _ _, .inr ⟨i, a, b, ?_⟩, h4, bad⟩
          have hg := got_more (x := x.rxdr % 256) d4 (by omega)
          have e : s.offset + 1 = (wanted (c.cfg i).kind).2 := by omega
          exact .inr (.inr (.inr (.inr ⟨rfl, e ▸ hg⟩)))
        · simp [d] at hm
        · simp [d.2] at hm
    · rcases h3 with ⟨q, m⟩ | ⟨i, a, b, d⟩
      · simp [hm] at m
      · rcases d with d | d | d | d
        · simp [d.1] at hm
        · obtain ⟨_, d2, d3, d4⟩ := d
          have hw := wanted_le (c.cfg i).kind
          refine ⟨by simpa using h1, set_bytes h2 _ _, .inr ⟨i, a, b, ?_⟩, h4, bad⟩
          have hg := got_more (x := x.rxdr % 256) d4 (by omega)
          exact .inr (.inl ⟨hm, by simp only; omega, d3, hg⟩)
        · simp [d] at hm
        · simp [d.2] at hm
    · exact same
  · next hm =>
    have bad : ∀ {p : Prop}, c.valid = false → p := fun h => by
      have := h5 h; simp [hm] at this
    have hq : Quiet s := by
      rcases h3 with ⟨q, m⟩ | ⟨i, a, b, d⟩
      · exact q
      · rcases d with d | d | d | d
        · simp [d.1] at hm
        · simp [d.1] at hm
        · simp [d] at hm
        · simp [d.2] at hm
    split_ifs with g g2
    · exact ⟨h1, h2, .inl ⟨hq, by simp, by simp⟩, h4, bad⟩
    · exact ⟨h1, h2, .inl ⟨hq, by simp [hm], by simp [hm]⟩, h4, bad⟩
    · exact same

theorem find_quiet {s : State} (h : Quiet s) : (List.range 3).find? (fun i => (s.dev i).pending) = none := by
  simp [h _]

theorem find_only {s : State} {i : ℕ} (h : Only s i) :
    (List.range 3).find? (fun i => (s.dev i).pending) = some i := by
  obtain ⟨h1, h2, h3⟩ := h
  have : List.range 3 = [0, 1, 2] := rfl
  rw [this]
  obtain rfl | rfl | rfl : i = 0 ∨ i = 1 ∨ i = 2 := by omega
  · simp [List.find?, h2]
  · simp [List.find?, h2, h3 0]
  · simp [List.find?, h2, h3 0, h3 1]

/-- What happens to a device at the end of a cycle. -/
def Ended (c : Setup) (s t : State) (i : ℕ) : Prop :=
  t.dev i = s.dev i ∨
  (s.dev i).pending = true ∧
    t.dev i = { s.dev i with
      pending := false, errors := ((s.dev i).errors + 1) % 2 ^ 32, bads := (s.dev i).bads + 1 } ∨
  (s.dev i).pending = true ∧ Done c s i ∧ t.trace = s.trace ∧
    t.dev i = parse (c.cfg i).kind s.startup s.raw { s.dev i with pending := false }

theorem InvC.finish {c : Setup} {s : State} (h : InvC c s) (x : In) (t : State)
    (ht : t = finish c (checkRead c x s).2 (checkRead c x s).1) :
    Inv c t ∧ ∀ i, Ended c s t i := by
  obtain ⟨h1, h2, h3, h4, h5⟩ := h
  -- the state after `CheckRead`
  obtain ⟨u, r, hur⟩ : ∃ u r, checkRead c x s = (u, r) := ⟨_, _, rfl⟩
  rw [hur] at ht
  simp only at ht
  have hu : u.dev = s.dev ∧ u.raw = s.raw ∧ u.startup = s.startup := by
    unfold checkRead at hur
    split_ifs at hur <;> cases hur <;> exact ⟨rfl, rfl, rfl⟩
  obtain ⟨u1, u2, u3⟩ := hu
  -- an error
  have err : ∀ i, Only s i → r = .error → (u.mode = .idle ∨ u.mode = .error) → Inv c t ∧ ∀ j, Ended c s t j := by
    intro i hi hr hm
    subst hr
    have hi' : Only u i := by simpa [Only, u1] using hi
    have ht' : t = u.upd i fun d => { d with
        pending := false, errors := (d.errors + 1) % 2 ^ 32, bads := d.bads + 1 } := by
      rw [ht, I2cEncoders.finish, if_neg (by simp), find_only hi']; rfl
    have e1 : t.dev i = { s.dev i with
        pending := false, errors := ((s.dev i).errors + 1) % 2 ^ 32, bads := (s.dev i).bads + 1 } := by
      rw [ht', upd_same, u1]
    have e2 : ∀ j, j ≠ i → t.dev j = s.dev j := fun j hj => by rw [ht', upd_other _ _ _ _ hj, u1]
    refine ⟨⟨by rw [ht']; exact u2 ▸ h1, by rw [ht']; exact u2 ▸ h2, .inl ⟨fun j => ?_, ?_⟩, fun j => ?_, fun _ => ?_⟩, fun j => ?_⟩
    · by_cases hj : j = i
      · subst hj; rw [e1]
      · rw [e2 j hj]; exact hi.2.2 j hj
    · rw [ht']; rcases hm with hm | hm
      · exact .inl hm
      · exact .inr (.inl hm)
    · by_cases hj : j = i
      · subst hj
        rw [e1]
        obtain ⟨a1, a2, a3⟩ := h4 j
        rw [hi.2.1] at a1
        refine ⟨?_, a2, ?_⟩
        · simp at a1 ⊢; omega
        · simp only [a3]; omega
      · rw [e2 j hj]; exact h4 j
    · rw [ht']; exact hm
    · by_cases hj : j = i
      · subst hj; exact .inr (.inl ⟨hi.2.1, e1⟩)
      · exact .inl (e2 j hj)
  -- nothing pending
  have quiet : Quiet s → (u.mode = .idle ∨ u.mode = .error ∨ u.mode = .writing) →
      (c.valid = false → u.mode = .idle ∨ u.mode = .error) → Inv c t ∧ ∀ j, Ended c s t j := by
    intro hq hm hv
    have ht' : t = u := by
      rw [ht, I2cEncoders.finish]
      split
      · rfl
      · rw [find_quiet (by simpa [Quiet, u1] using hq)]
    subst ht'
    refine ⟨⟨u2 ▸ h1, u2 ▸ h2, .inl ⟨fun j => u1 ▸ hq j, hm⟩, fun j => u1 ▸ h4 j, hv⟩, fun j => .inl (by rw [u1])⟩
  by_cases hv : c.valid = false
  · have : u = s ∧ r = .error := by
      unfold checkRead at hur; rw [if_pos (by simp [hv])] at hur; cases hur; exact ⟨rfl, rfl⟩
    obtain ⟨rfl, rfl⟩ := this
    rcases h3 with ⟨q, m⟩ | ⟨i, hi, _⟩
    · exact quiet q ((h5 hv).imp_right .inl) h5
    · exact err i hi rfl (h5 hv)
  · unfold checkRead at hur
    rw [if_neg (by simpa using hv)] at hur
    have hv' : ∀ {p : Prop}, c.valid = false → p := fun h => absurd h hv
    by_cases hc : s.mode = .complete
    · rw [if_pos hc] at hur
      cases hur
      rcases h3 with ⟨q, m⟩ | ⟨i, hi, hk, d⟩
      · exact quiet q (.inl rfl) hv'
      · have hd : Done c s i := by
          rcases d with d | d | d | d | d
          · simp [d.1] at hc
          · simp [d.1] at hc
          · simp [d] at hc
          · simp [d.2] at hc
          · exact d
        have hi' : Only { s with mode := Mode.idle } i := hi
        have ht' : t = State.upd { s with mode := Mode.idle } i fun d =>
            parse (c.cfg i).kind s.startup s.raw { d with pending := false } := by
          rw [ht, I2cEncoders.finish, if_neg (by simp), find_only hi']; rfl
        have e1 : t.dev i = parse (c.cfg i).kind s.startup s.raw { s.dev i with pending := false } := by
          rw [ht', upd_same]
        have e2 : ∀ j, j ≠ i → t.dev j = s.dev j := fun j hj => by rw [ht', upd_other _ _ _ _ hj]
        refine ⟨⟨by rw [ht']; exact h1, by rw [ht']; exact h2, .inl ⟨fun j => ?_, ?_⟩, fun j => ?_, hv'⟩, fun j => ?_⟩
        · by_cases hj : j = i
          · subst hj; rw [e1]; cases hkk : (c.cfg j).kind <;> simp [parse]
          · rw [e2 j hj]; exact hi.2.2 j hj
        · rw [ht']; exact .inl rfl
        · by_cases hj : j = i
          · subst hj
            rw [e1]
            obtain ⟨a1, a2, a3⟩ := h4 j
            rw [hi.2.1] at a1
            cases hkk : (c.cfg j).kind
            · exact absurd hkk hk
            · refine ⟨?_, ?_, a3⟩
              · simp [parse] at a1 ⊢; omega
              · simp only [parse, a2]; omega
            · refine ⟨?_, ?_, a3⟩
              · simp [parse] at a1 ⊢; omega
              · simp only [parse, a2]; omega
          · rw [e2 j hj]; exact h4 j
        · by_cases hj : j = i
          · subst hj; exact .inr (.inr ⟨hi.2.1, hd, by rw [ht']; rfl, e1⟩)
          · exact .inl (e2 j hj)
    · rw [if_neg hc] at hur
      by_cases he : s.mode = .error
      · rw [if_pos he] at hur
        have : r = .error ∧ (u.mode = .idle ∨ u.mode = .error) := by
          cases hur
          refine ⟨rfl, ?_⟩
          split_ifs
          · exact .inl rfl
          · exact .inr he
        rcases h3 with ⟨q, m⟩ | ⟨i, hi, _⟩
        · exact quiet q (this.2.imp_right .inl) hv'
        · exact err i hi this.1 this.2
      · rw [if_neg he] at hur
        cases hur
        have ht' : t = s := by rw [ht]; rfl
        subst ht'
        rcases h3 with ⟨q, m⟩ | ⟨i, hi, hk, d⟩
        · refine quiet q ?_ hv'
          cases hm : t.mode <;> simp [hm] at m hc he ⊢
        · refine ⟨⟨h1, h2, .inr ⟨i, hi, hk, ?_⟩, h4, h5⟩, fun j => .inl rfl⟩
          rcases d with d | d | d | d | d
          · exact .inl d
          · exact .inr d
          · exact absurd d he
          · exact hv' d.1
          · exact absurd d.1 hc

theorem Inv.start {c : Setup} {s : State} (h : Inv c s) (x : In) : Inv c (startupUpdate c x s) :=
  ⟨h.len, h.bytes, h.what, h.account, h.invalid⟩

theorem Inv.cycle {c : Setup} {s : State} (h : Inv c s) (x : In) : Inv c (cycle c x s) :=
  ((((h.start x).pollI2c x).poll x).finish x _ rfl).1

theorem Inv.init (c : Setup) : Inv c {} := by
  refine ⟨rfl, by decide, .inl ⟨fun _ => rfl, .inl rfl⟩, fun _ => ⟨rfl, rfl, rfl⟩, fun _ => .inl rfl⟩

theorem Inv.run (c : Setup) (l : List In) : Inv c (run c l) := by
  induction l with
  | nil => exact Inv.init c
  | cons x l ih => exact ih.cycle x

/-! ## Theorems -/

/-- What `ISR_PollI2c` and `Poll` do not change. -/
def Dev.Same (d e : Dev) : Prop :=
  e.active = d.active ∧ e.value = d.value ∧ e.nonce = d.nonce ∧ e.errors = d.errors ∧ e.agc = d.agc ∧
  e.diag = d.diag ∧ e.mag = d.mag ∧ e.goods = d.goods ∧ e.bads = d.bads

theorem Dev.Same.refl (d : Dev) : d.Same d := ⟨rfl, rfl, rfl, rfl, rfl, rfl, rfl, rfl, rfl⟩

theorem startRead_dev (c : Setup) (x : In) (a r n : ℕ) (s : State) :
    (startRead c x a r n s).dev = s.dev ∧ (startRead c x a r n s).startup = s.startup := by
  unfold startRead; split_ifs <;> exact ⟨rfl, rfl⟩

theorem startWrite_dev (c : Setup) (x : In) (a r n : ℕ) (s : State) :
    (startWrite c x a r n s).dev = s.dev ∧ (startWrite c x a r n s).startup = s.startup := by
  unfold startWrite; split_ifs <;> exact ⟨rfl, rfl⟩

theorem poll_dev (x : In) (s : State) : (poll x s).dev = s.dev ∧ (poll x s).startup = s.startup := by
  unfold poll
  cases s.mode <;> dsimp only <;> split_ifs <;> exact ⟨rfl, rfl⟩

/-- What `ISR_PollI2c` does to the devices. -/
theorem pollI2c_dev (c : Setup) (x : In) (s : State) :
    (pollI2c c x s).startup = s.startup ∧
    ∀ i, (pollI2c c x s).dev i = s.dev i ∨
      (s.busy = false ∧ choose c x.now s.dev (List.range 3) = .init i ∧
        (pollI2c c x s).dev i = { s.dev i with initialized := true }) ∨
      (s.busy = false ∧ choose c x.now s.dev (List.range 3) = .read i ∧ (pollI2c c x s).dev i = { s.dev i with
        last := x.now, pending := true, polls := (s.dev i).polls + 1 }) := by
  unfold pollI2c
  split
  · exact ⟨rfl, fun _ => .inl rfl⟩
  · next hb =>
    have hb : s.busy = false := by simpa using hb
    split
    · exact ⟨rfl, fun _ => .inl rfl⟩
    · next i hi =>
      have key : ∀ t : State, t.dev = s.dev → t.startup = s.startup →
          (t.upd i fun d => { d with initialized := true }).startup = s.startup ∧
          ∀ j, (t.upd i fun d => { d with initialized := true }).dev j = s.dev j ∨
            (s.busy = false ∧ choose c x.now s.dev (List.range 3) = .init j ∧
              (t.upd i fun d => { d with initialized := true }).dev j = { s.dev j with initialized := true }) ∨
            (s.busy = false ∧ choose c x.now s.dev (List.range 3) = .read j ∧
              (t.upd i fun d => { d with initialized := true }).dev j = { s.dev j with
                last := x.now, pending := true, polls := (s.dev j).polls + 1 }) := by
        intro t h1 h2
        refine ⟨h2, fun j => ?_⟩
        by_cases hj : j = i
        · subst hj; exact .inr (.inl ⟨hb, hi, by rw [upd_same, h1]⟩)
        · exact .inl (by rw [upd_other _ _ _ _ hj, h1])
      apply key
      · split
        · exact (startWrite_dev _ _ _ _ _ _).1
        · rfl
      · split
        · exact (startWrite_dev _ _ _ _ _ _).2
        · rfl
    · next i hi =>
      have key : ∀ t : State, t.dev = (s.upd i fun d => { d with
            last := x.now, pending := true, polls := d.polls + 1 }).dev → t.startup = s.startup →
          t.startup = s.startup ∧
          ∀ j, t.dev j = s.dev j ∨
            (s.busy = false ∧ choose c x.now s.dev (List.range 3) = .init j ∧
              t.dev j = { s.dev j with initialized := true }) ∨
            (s.busy = false ∧ choose c x.now s.dev (List.range 3) = .read j ∧ t.dev j = { s.dev j with
                last := x.now, pending := true, polls := (s.dev j).polls + 1 }) := by
        intro t h1 h2
        refine ⟨h2, fun j => ?_⟩
        by_cases hj : j = i
        · subst hj; exact .inr (.inr ⟨hb, hi, by rw [h1, upd_same]⟩)
        · exact .inl (by rw [h1, upd_other _ _ _ _ hj])
      apply key
      · split
        · exact (startRead_dev _ _ _ _ _ _).1
        · exact (startRead_dev _ _ _ _ _ _).1
        · rfl
      · split
        · exact (startRead_dev _ _ _ _ _ _).2
        · exact (startRead_dev _ _ _ _ _ _).2
        · rfl

theorem pollI2c_same (c : Setup) (x : In) (s : State) (i : ℕ) : (s.dev i).Same ((pollI2c c x s).dev i) := by
  rcases (pollI2c_dev c x s).2 i with h | ⟨_, _, h⟩ | ⟨_, _, h⟩ <;> rw [h]
  · exact Dev.Same.refl _
  · exact Dev.Same.refl _
  · exact Dev.Same.refl _

theorem or_add (a b k : ℕ) (hb : b < 2 ^ k) : (a <<< k) ||| b = a * 2 ^ k + b := by
  rw [← Nat.shiftLeft_add_eq_or_of_lt hb, Nat.shiftLeft_eq]

theorem parse_means (k : Kind) (hk : k ≠ .none) (su : Bool) (raw : List ℕ) (hl : raw.length = 6)
    (hb : ∀ b ∈ raw, b < 256) (d : Dev) : Means k (raw.take (wanted k).2) (parse k su raw d) := by
  match raw, hl with
  | [r0, r1, r2, r3, r4, r5], _ =>
    have b1 := hb r1 (by simp)
    have b2 := hb r2 (by simp)
    have b4 := hb r4 (by simp)
    cases k with
    | none => exact absurd rfl hk
    | as5048 =>
      refine ⟨r0, r1, r2, r3, r4, r5, rfl, rfl, rfl, fun h => ?_, fun h => ?_⟩
      · simp only [parse, List.getD_cons_succ, List.getD_cons_zero, Nat.shiftLeft_eq r3]
        rw [or_add _ _ _ (by omega)]; omega
      · simp only [parse, List.getD_cons_succ, List.getD_cons_zero, Nat.shiftLeft_eq r5]
        rw [or_add _ _ _ (by omega)]; omega
    | as5600 =>
      refine ⟨r0, r1, r2, rfl, rfl, ?_⟩
      simp only [parse, List.getD_cons_succ, List.getD_cons_zero]
      rw [or_add _ _ _ (by omega), show 0x0fff = 2 ^ 12 - 1 by rfl, Nat.and_two_pow_sub_one_eq_mod]; omega

/-- **C81, values.**  In each cycle a device keeps what was reported, or exactly one transaction with this
device has just been completed on the bus, which asked for its registers, nothing came in between, and the
report is made from the bytes received. -/
theorem C81_value (c : Setup) (l : List In) (x : In) (i : ℕ) :
    let s := run c l
    let t := run c (x :: l)
    ((t.dev i).goods = (s.dev i).goods ∧ (t.dev i).nonce = (s.dev i).nonce ∧
      (t.dev i).value = (s.dev i).value ∧ (t.dev i).active = (s.dev i).active ∧
      (t.dev i).agc = (s.dev i).agc ∧ (t.dev i).diag = (s.dev i).diag ∧ (t.dev i).mag = (s.dev i).mag) ∨
    ((t.dev i).goods = (s.dev i).goods + 1 ∧ (t.dev i).active = t.startup ∧
      ∃ bytes, JustRead (c.cfg i) bytes t.trace ∧ Means (c.cfg i).kind bytes (t.dev i)) := by
  intro s t
  have h0 := (Inv.run c l).start x
  have hB := h0.pollI2c x
  have hC := hB.poll x
  obtain ⟨-, hE⟩ := hC.finish x t rfl
  obtain ⟨-, he⟩ := (⟨trivial, hE i⟩ : True ∧ _)
  have same := pollI2c_same c x (startupUpdate c x s) i
  have hd : (poll x (pollI2c c x (startupUpdate c x s))).dev = _ := (poll_dev x _).1
  obtain ⟨s1, s2, s3, s4, s5, s6, s7, s8, s9⟩ := same
  rcases he with he | ⟨_, he⟩ | ⟨hp, hD, htr, he⟩
  · left
    rw [he, hd]
    exact ⟨s8, s3, s2, s1, s5, s6, s7⟩
  · left
    rw [he, hd]
    exact ⟨s8, s3, s2, s1, s5, s6, s7⟩
  · right
    have hk : (c.cfg i).kind ≠ .none := by
      rcases hC.what with ⟨q, _⟩ | ⟨j, hj, hk, _⟩
      · rw [q i] at hp; simp at hp
      · by_cases hij : i = j
        · rw [hij]; exact hk
        · rw [hj.2.2 i hij] at hp; simp at hp
    refine ⟨?_, ?_, (poll x (pollI2c c x (startupUpdate c x s))).raw.take (wanted (c.cfg i).kind).2, ?_, ?_⟩
    · rw [he]
      cases hkk : (c.cfg i).kind
      · exact absurd hkk hk
      · exact congrArg (· + 1) ((congrArg (fun f => (f i).goods) hd).trans s8)
      · exact congrArg (· + 1) ((congrArg (fun f => (f i).goods) hd).trans s8)
    · have hs : t.startup = (poll x (pollI2c c x (startupUpdate c x s))).startup := by
        show (finish c _ _).startup = _
        have : ∀ r u, (finish c r u).startup = u.startup := by
          intro r u; unfold finish; split
          · rfl
          · split <;> rfl
        rw [this]
        unfold checkRead; split_ifs <;> rfl
      rw [he, hs]
      cases hkk : (c.cfg i).kind
      · exact absurd hkk hk
      · rfl
      · rfl
    · refine ⟨?_, ?_⟩
      · rw [List.length_take, hC.len]; have := wanted_le (c.cfg i).kind; omega
      · rw [htr]; exact hD.2
    · rw [he]; exact parse_means _ hk _ _ hC.len hC.bytes _

/-- **C81, every poll is accounted for.**  Polls of a device that have ended are counted as a sample or as an
error, the counters show these numbers, and at most one device has a poll in progress. -/
theorem C81_accounts (c : Setup) (l : List In) (i : ℕ) :
    let d := (run c l).dev i
    d.polls = d.goods + d.bads + (if d.pending then 1 else 0) ∧
    d.nonce = d.goods % 256 ∧ d.errors = d.bads % 2 ^ 32 ∧
    (d.pending = true → ∀ j, j ≠ i → ((run c l).dev j).pending = false) := by
  intro d
  have h := Inv.run c l
  obtain ⟨a1, a2, a3⟩ := h.account i
  refine ⟨a1.symm, a2, a3, fun hp j hj => ?_⟩
  rcases h.what with ⟨q, _⟩ | ⟨k, hk, _⟩
  · exact q j
  · by_cases hik : i = k
    · exact hk.2.2 j (hik ▸ hj)
    · have := hk.2.2 i hik
      rw [show ((run c l).dev i).pending = true from hp] at this; simp at this

theorem finish_polls (c : Setup) (r : ReadStatus) (s : State) (i : ℕ) :
    ((finish c r s).dev i).polls = (s.dev i).polls ∧ ((finish c r s).dev i).last = (s.dev i).last ∧
    ((finish c r s).dev i).initialized = (s.dev i).initialized := by
  unfold finish
  split
  · exact ⟨rfl, rfl, rfl⟩
  · split
    · exact ⟨rfl, rfl, rfl⟩
    · next j _ =>
      by_cases hj : i = j
      · subst hj
        rw [upd_same]
        dsimp only
        split_ifs
        · exact ⟨rfl, rfl, rfl⟩
        · cases (c.cfg i).kind <;> exact ⟨rfl, rfl, rfl⟩
      · rw [upd_other _ _ _ _ hj]; exact ⟨rfl, rfl, rfl⟩

theorem checkRead_dev (c : Setup) (x : In) (s : State) : (checkRead c x s).1.dev = s.dev := by
  unfold checkRead; split_ifs <;> rfl

theorem cycle_polls (c : Setup) (x : In) (s : State) (i : ℕ) :
    ((cycle c x s).dev i).polls = ((pollI2c c x (startupUpdate c x s)).dev i).polls ∧
    ((cycle c x s).dev i).last = ((pollI2c c x (startupUpdate c x s)).dev i).last ∧
    ((cycle c x s).dev i).initialized = ((pollI2c c x (startupUpdate c x s)).dev i).initialized := by
  have h := finish_polls c (checkRead c x (poll x (pollI2c c x (startupUpdate c x s)))).2
    (checkRead c x (poll x (pollI2c c x (startupUpdate c x s)))).1 i
  rw [checkRead_dev, (poll_dev x _).1] at h
  exact h

/-- **C81, polls.**  A poll is started for a configured device when at least its interval has passed on the
timer since the last one; otherwise the time of the last poll is kept. -/
theorem C81_interval (c : Setup) (l : List In) (x : In) (i : ℕ) :
    let s := run c l
    let t := run c (x :: l)
    ((t.dev i).polls = (s.dev i).polls ∧ (t.dev i).last = (s.dev i).last) ∨
    ((t.dev i).polls = (s.dev i).polls + 1 ∧ (t.dev i).last = x.now ∧ i < 3 ∧ (c.cfg i).kind ≠ .none ∧
      (s.dev i).pending = false ∧ (c.cfg i).pollUs ≤ subUs c.wrap x.now (s.dev i).last) := by
  intro s t
  obtain ⟨h1, h2, -⟩ := cycle_polls c x s i
  have ht : t = cycle c x s := rfl
  rw [ht, h1, h2]
  rcases (pollI2c_dev c x (startupUpdate c x s)).2 i with h | ⟨_, _, h⟩ | ⟨hb, hc, h⟩
  · left; rw [h]; exact ⟨rfl, rfl⟩
  · left; rw [h]; exact ⟨rfl, rfl⟩
  · right
    obtain ⟨c1, c2, -, c3⟩ := choose_read hc
    rw [h]
    refine ⟨rfl, rfl, by simpa using c1, c2, ?_, c3⟩
    have hb' : s.busy = false := hb
    rcases (Inv.run c l).what with ⟨q, _⟩ | ⟨k, _, _, hk | hk⟩
    · exact q i
    · have := hk.1; simp [State.busy, s, this] at hb'
    · have := hk.1; simp [State.busy, s, this] at hb'

/-! ## Progress -/

/-- How many answers of the hardware a poll still needs. -/
def State.rest (s : State) : ℕ :=
  if s.mode = .sent then s.rxLen + 1 else if s.mode = .reading then s.rxLen - s.offset else 0

theorem busy_skip (c : Setup) (x : In) (s : State) (h : s.busy = true) :
    pollI2c c x (startupUpdate c x s) = startupUpdate c x s := by
  unfold pollI2c; rw [if_pos (show (startupUpdate c x s).busy = true from h)]

theorem cycle_ended (c : Setup) (l : List In) (x : In) (i : ℕ) :
    ((run c l).dev i).goods + ((run c l).dev i).bads ≤
      ((run c (x :: l)).dev i).goods + ((run c (x :: l)).dev i).bads := by
  have h0 := (Inv.run c l).start x
  have hC := (h0.pollI2c x).poll x
  obtain ⟨-, he⟩ := hC.finish x (run c (x :: l)) rfl
  obtain ⟨-, -, -, -, -, -, -, s8, s9⟩ := pollI2c_same c x (startupUpdate c x (run c l)) i
  have hd := congrArg (fun f => f i) (poll_dev x (pollI2c c x (startupUpdate c x (run c l)))).1
  have e1 : ((startupUpdate c x (run c l)).dev i) = (run c l).dev i := rfl
  rw [e1] at s8 s9
  rcases he i with he | ⟨_, he⟩ | ⟨_, _, _, he⟩
  · rw [he, hd, s8, s9]
  · rw [he, hd]; simp only [s8, s9]; omega
  · rw [he, hd]
    cases (c.cfg i).kind <;> simp only [parse, s8, s9] <;> omega

theorem progress (c : Setup) (l : List In) (x : In) (i : ℕ) (hp : ((run c l).dev i).pending = true)
    (h1 : x.tc = true) (h2 : x.rxne = true) :
    ((run c l).dev i).polls ≤ ((run c (x :: l)).dev i).goods + ((run c (x :: l)).dev i).bads ∨
    (((run c (x :: l)).dev i).pending = true ∧ ((run c (x :: l)).dev i).polls = ((run c l).dev i).polls ∧
      (run c (x :: l)).rest < (run c l).rest) := by
  have hI := Inv.run c l
  obtain ⟨k, hk, hkind, hm⟩ : ∃ k, Only (run c l) k ∧ (c.cfg k).kind ≠ .none ∧
      (Sent c (run c l) k ∨ Reading c (run c l) k) := by
    rcases hI.what with ⟨q, _⟩ | h
    · rw [q i] at hp; simp at hp
    · exact h
  have hb : (run c l).busy = true := by rcases hm with hm | hm <;> simp [State.busy, hm.1]
  have hC := ((hI.start x).pollI2c x).poll x
  rw [busy_skip c x _ hb] at hC
  have ht : run c (x :: l) = finish c (checkRead c x (poll x (startupUpdate c x (run c l)))).2
      (checkRead c x (poll x (startupUpdate c x (run c l)))).1 := by
    show cycle c x (run c l) = _
    unfold cycle; rw [busy_skip c x _ hb]
  obtain ⟨hInv, he⟩ := hC.finish x _ ht
  have hd : (poll x (startupUpdate c x (run c l))).dev i = (run c l).dev i :=
    congrArg (fun f => f i) (poll_dev x (startupUpdate c x (run c l))).1
  obtain ⟨a1, -, -⟩ := hI.account i
  rw [hp] at a1
  simp only [if_true] at a1
  rcases he i with he | ⟨_, he⟩ | ⟨_, _, _, he⟩
  · right
    rw [hd] at he
    refine ⟨by rw [he]; exact hp, by rw [he], ?_⟩
    -- the mode is neither complete nor error
    have hnot : (poll x (startupUpdate c x (run c l))).mode ≠ .complete ∧
        (poll x (startupUpdate c x (run c l))).mode ≠ .error ∧ c.valid = true := by
      have hpend : ((run c (x :: l)).dev i).pending = true := by rw [he]; exact hp
      have hbusy : (run c (x :: l)).mode = .sent ∨ (run c (x :: l)).mode = .reading := by
        rcases hInv.what with ⟨q, _⟩ | ⟨j, _, _, hj | hj⟩
        · rw [q i] at hpend; simp at hpend
        · exact .inl hj.1
        · exact .inr hj.1
      have hv : c.valid = true := by
        by_contra hv
        have := hInv.invalid (by simpa using hv)
        rcases hbusy with h | h <;> simp [h] at this
      have hmode : ∀ r u, (finish c r u).mode = u.mode := by
        intro r u; unfold finish; split
        · rfl
        · split <;> rfl
      rw [ht, hmode] at hbusy
      unfold checkRead at hbusy
      rw [if_neg (by simp [hv])] at hbusy
      refine ⟨fun h => ?_, fun h => ?_, hv⟩
      · rw [if_pos h] at hbusy; simp at hbusy
      · rw [if_neg (by simp [h]), if_pos h] at hbusy
        dsimp only at hbusy
        split_ifs at hbusy <;> simp [h] at hbusy
    have hrest : run c (x :: l) = poll x (startupUpdate c x (run c l)) := by
      rw [ht]
      unfold checkRead
      rw [if_neg (by simp [hnot.2.2]), if_neg hnot.1, if_neg hnot.2.1]
      rfl
    rw [hrest]
    obtain ⟨n1, n2, -⟩ := hnot
    have hn : x.nackf = false := by
      by_contra hn
      have hn : x.nackf = true := by simpa using hn
      exact n2 (by unfold poll; rw [if_pos hn])
    rcases hm with ⟨m1, _, m3, _⟩ | ⟨m1, m2, m3, _⟩
    · have m1' : (startupUpdate c x (run c l)).mode = .sent := m1
      have : poll x (startupUpdate c x (run c l)) = { startupUpdate c x (run c l) with
          trace := .again (run c l).slave (run c l).rxLen :: (run c l).trace, offset := 0,
          mode := .reading } := by
        unfold poll; rw [m1']; simp [h1, hn, startupUpdate]
      rw [this]
      simp [State.rest, m1, startupUpdate]
    · have m1' : (startupUpdate c x (run c l)).mode = .reading := m1
      have hoff : (poll x (startupUpdate c x (run c l))).offset = (run c l).offset + 1 ∧
          (poll x (startupUpdate c x (run c l))).rxLen = (run c l).rxLen ∧
          ((poll x (startupUpdate c x (run c l))).mode = .reading ∨
            (poll x (startupUpdate c x (run c l))).mode = .complete) := by
        unfold poll; rw [m1']
        simp only [h2, hn, startupUpdate]
        simp only [not_true_eq_false, if_false, Bool.false_eq_true]
        by_cases hge : (run c l).offset + 1 ≥ (run c l).rxLen
        · simp [hge]
        · simp [hge]
      obtain ⟨o1, o2, o3⟩ := hoff
      have o3 := o3.resolve_right n1
      simp only [State.rest, o3, m1, o1, o2]
      simp only [reduceCtorEq, if_false, if_true]
      omega
  · left
    rw [he, hd]; simp only; omega
  · left
    rw [he, hd]
    cases hkk : (c.cfg i).kind
    · exfalso
      by_cases hik : i = k
      · exact hkind (hik ▸ hkk)
      · rw [hk.2.2 i hik] at hp; simp at hp
    · simp only [parse]; omega
    · simp only [parse]; omega

/-- **C81, polls end (partial).**  When the hardware shows progress in each cycle, every poll has ended, with
data or with an error, after seven cycles.  (Missing: the driver has no time out for hardware that shows
nothing, see below.) -/
theorem C81_ends_partial (c : Setup) (l xs : List In) (i : ℕ) (hlen : 7 ≤ xs.length)
    (hx : ∀ x ∈ xs, x.tc = true ∧ x.rxne = true) :
    ((run c l).dev i).polls ≤ ((run c (xs ++ l)).dev i).goods + ((run c (xs ++ l)).dev i).bads := by
  have mono : ∀ xs : List In, ∀ l, ((run c l).dev i).goods + ((run c l).dev i).bads ≤
      ((run c (xs ++ l)).dev i).goods + ((run c (xs ++ l)).dev i).bads := by
    intro xs
    induction xs with
    | nil => intro l; exact le_refl _
    | cons x xs ih => intro l; exact (ih l).trans (cycle_ended c (xs ++ l) x i)
  have key : ∀ n l, (run c l).rest ≤ n → ∀ xs : List In, n ≤ xs.length → (∀ x ∈ xs, x.tc = true ∧ x.rxne = true) →
      ((run c l).dev i).polls ≤ ((run c (xs ++ l)).dev i).goods + ((run c (xs ++ l)).dev i).bads := by
    intro n
    induction n with
    | zero =>
      intro l hr xs _ _
      have hnp : ((run c l).dev i).pending = false := by
        rcases (Inv.run c l).what with ⟨q, _⟩ | ⟨k, _, _, hk | hk⟩
        · exact q i
        · have := hk.1; simp [State.rest, this] at hr
        · have h1 := hk.1; have h2 := hk.2.1; simp [State.rest, h1] at hr; omega
      obtain ⟨a1, -, -⟩ := (Inv.run c l).account i
      rw [hnp] at a1
      simp only [Bool.false_eq_true, if_false] at a1
      have := mono xs l
      omega
    | succ n ih =>
      intro l hr xs hl hx
      cases hpend : ((run c l).dev i).pending with
      | false =>
        obtain ⟨a1, -, -⟩ := (Inv.run c l).account i
        rw [hpend] at a1
        simp only [Bool.false_eq_true, if_false] at a1
        have := mono xs l
        omega
      | true =>
        obtain ⟨ys, y, rfl⟩ : ∃ ys y, xs = ys ++ [y] :=
          ⟨_, _, (List.dropLast_append_getLast (by rintro rfl; simp at hl)).symm⟩
        obtain ⟨y1, y2⟩ := hx y (by simp)
        rw [List.append_assoc]
        show _ ≤ ((run c (ys ++ (y :: l))).dev i).goods + ((run c (ys ++ (y :: l))).dev i).bads
        rcases progress c l y i hpend y1 y2 with h | ⟨h1, h2, h3⟩
        · exact h.trans (mono ys (y :: l))
        · rw [← h2]
          exact ih (y :: l) (by omega) ys (by simpa using hl) (fun x hx' => hx x (by simp [hx']))
  refine key 7 l ?_ xs hlen hx
  rcases (Inv.run c l).what with ⟨_, h | h | h⟩ | ⟨k, _, _, hk | hk⟩
  · simp [State.rest, h]
  · simp [State.rest, h]
  · simp [State.rest, h]
  · have h1 := hk.1; have h2 := hk.2.2.1; have := wanted_le (c.cfg k).kind
    simp [State.rest, h1]; omega
  · have h1 := hk.1; have h2 := hk.2.2.1; have := wanted_le (c.cfg k).kind
    simp [State.rest, h1]; omega

/-- **C81, refuted: there is no time out.**  Once a transfer is in progress and the hardware shows neither
progress nor a missing acknowledge (lost arbitration, bus error, a clock line held low), no device is read
any more and no error is counted, forever. -/
theorem C81_hang_refuted (c : Setup) (l xs : List In) (hb : (run c l).busy = true)
    (hx : ∀ x ∈ xs, x.tc = false ∧ x.rxne = false ∧ x.txe = false ∧ x.nackf = false) :
    (run c (xs ++ l)).busy = true ∧ (run c (xs ++ l)).dev = (run c l).dev ∧
    (run c (xs ++ l)).trace = (run c l).trace := by
  induction xs with
  | nil => exact ⟨hb, rfl, rfl⟩
  | cons x xs ih =>
    obtain ⟨i1, i2, i3⟩ := ih fun y hy => hx y (List.mem_cons_of_mem _ hy)
    obtain ⟨x1, x2, x3, x4⟩ := hx x (by simp)
    have hv : c.valid = true := by
      by_contra hv
      have := (Inv.run c (xs ++ l)).invalid (by simpa using hv)
      rcases this with h | h <;> simp [State.busy, h] at i1
    have hp : poll x (startupUpdate c x (run c (xs ++ l))) = startupUpdate c x (run c (xs ++ l)) := by
      unfold poll
      cases (startupUpdate c x (run c (xs ++ l))).mode <;> simp [x1, x2, x3, x4]
    have hm : (startupUpdate c x (run c (xs ++ l))).mode ≠ .complete ∧
        (startupUpdate c x (run c (xs ++ l))).mode ≠ .error := by
      constructor <;> intro h <;> simp [State.busy, show (run c (xs ++ l)).mode = _ from h] at i1
    have : run c (x :: xs ++ l) = startupUpdate c x (run c (xs ++ l)) := by
      show cycle c x (run c (xs ++ l)) = _
      unfold cycle
      rw [busy_skip c x _ i1, hp]
      unfold checkRead
      dsimp only
      rw [if_neg (by simp [hv]), if_neg hm.1, if_neg hm.2]
      rfl
    rw [this]
    exact ⟨i1, i2, i3⟩

/-! ## Configuration of the AS5600 -/

/-- Whether an event belongs to writing settings. -/
def Ev.isWrite : Ev → Bool
  | .writeStart .. => true
  | .tx _ => true
  | _ => false

theorem poll_writes (x : In) (s : State) (h : s.mode ≠ .writing) :
    (poll x s).trace.filter Ev.isWrite = s.trace.filter Ev.isWrite ∧ (poll x s).mode ≠ .writing := by
  unfold poll
  cases hm : s.mode <;> dsimp only <;> (try exact absurd hm h) <;> split_ifs <;> simp_all [Ev.isWrite]

theorem startRead_writes (c : Setup) (x : In) (a r n : ℕ) (s : State) (h : s.mode ≠ .writing) :
    (startRead c x a r n s).trace.filter Ev.isWrite = s.trace.filter Ev.isWrite ∧
      (startRead c x a r n s).mode ≠ .writing := by
  unfold startRead
  split_ifs <;> simp_all [Ev.isWrite]

/-- **C81, settings are not repeated.**  When all devices have been initialised and no write is in progress,
nothing is ever written again, whatever happens. -/
theorem C81_written_once (c : Setup) (l xs : List In)
    (hi : ∀ i, (c.cfg i).kind = .as5600 → ((run c l).dev i).initialized = true)
    (hm : (run c l).mode ≠ .writing) :
    (run c (xs ++ l)).trace.filter Ev.isWrite = (run c l).trace.filter Ev.isWrite := by
  suffices h : (run c (xs ++ l)).trace.filter Ev.isWrite = (run c l).trace.filter Ev.isWrite ∧
      (run c (xs ++ l)).mode ≠ .writing ∧
      ∀ i, (c.cfg i).kind = .as5600 → ((run c (xs ++ l)).dev i).initialized = true from h.1
  induction xs with
  | nil => exact ⟨rfl, hm, hi⟩
  | cons x xs ih =>
    obtain ⟨i1, i2, i3⟩ := ih
    set s := run c (xs ++ l)
    have hs0 : (startupUpdate c x s).trace = s.trace := rfl
    have hm0 : (startupUpdate c x s).mode ≠ .writing := i2
    have hp : (pollI2c c x (startupUpdate c x s)).trace.filter Ev.isWrite = s.trace.filter Ev.isWrite ∧
        (pollI2c c x (startupUpdate c x s)).mode ≠ .writing := by
      unfold pollI2c
      split
      · exact ⟨by rw [hs0], hm0⟩
      · split
        · exact ⟨by rw [hs0], hm0⟩
        · next i hc =>
          obtain ⟨-, -, hin⟩ := choose_init hc
          split
          · next hk => exact absurd (i3 i hk) (by rw [show (s.dev i).initialized = false from hin]; simp)
          · exact ⟨by rw [← hs0]; rfl, hm0⟩
        · next i hc =>
          split
          · exact startRead_writes _ _ _ _ _ _ hm0
          · exact startRead_writes _ _ _ _ _ _ hm0
          · exact ⟨by rw [← hs0]; rfl, hm0⟩
    have hq := poll_writes x _ hp.2
    have hc : ∀ u : State, u.mode ≠ .writing →
        (checkRead c x u).1.trace.filter Ev.isWrite = u.trace.filter Ev.isWrite ∧
          (checkRead c x u).1.mode ≠ .writing := by
      intro u hu
      unfold checkRead
      split_ifs <;> simp_all [Ev.isWrite]
    have hf : ∀ r (u : State), (finish c r u).trace = u.trace ∧ (finish c r u).mode = u.mode := by
      intro r u; unfold finish; split
      · exact ⟨rfl, rfl⟩
      · split <;> exact ⟨rfl, rfl⟩
    have hr := hc _ hq.2
    refine ⟨?_, ?_, fun i hk => ?_⟩
    · exact (congrArg (List.filter Ev.isWrite) (hf _ _).1).trans (hr.1.trans (hq.1.trans (hp.1.trans i1)))
    · exact fun h => hr.2 ((hf _ _).2.symm.trans h)
    · show ((cycle c x s).dev i).initialized = true
      rw [(cycle_polls c x s i).2.2]
      rcases (pollI2c_dev c x (startupUpdate c x s)).2 i with h | ⟨_, _, h⟩ | ⟨_, _, h⟩ <;> rw [h]
      · exact i3 i hk
      · exact i3 i hk

/-- One AS5600. -/
def one5600 : Setup := { cfg := fun i => if i = 0 then { kind := .as5600, address := 0x36 } else {} }

/-- **C81, refuted: the settings of an AS5600.**  If it does not acknowledge the first byte (for example
because it is not ready yet), the settings are never written, however long the controller runs, and no error
is counted; after the witness below it is read and reported as active without a setting. -/
theorem C81_settings_refuted :
    let first : In := { now := 0, nackf := true }
    (∀ xs : List In, (run one5600 (xs ++ [first])).trace.filter Ev.isWrite = [.writeStart 0x36 0x07 3]) ∧
    ((run one5600 [first]).dev 0).errors = 0 ∧
    ∃ xs : List In, ((run one5600 (xs ++ [first])).dev 0).active = true ∧
      ((run one5600 (xs ++ [first])).dev 0).value = 0x123 ∧
      ((run one5600 (xs ++ [first])).dev 0).errors = 0 := by
  intro first
  refine ⟨fun xs => ?_, by decide +kernel, ?_⟩
  · rw [C81_written_once one5600 [first] xs ?_ (by decide +kernel)]
    · decide +kernel
    · intro i hk
      by_cases h : i = 0
      · subst h; decide +kernel
      · simp [one5600, h] at hk
  · refine ⟨[{ now := 40132, rxne := true, rxdr := 0x23 }, { now := 40099, rxne := true, rxdr := 0x51 },
      { now := 40066, rxne := true, rxdr := 0x20 }, { now := 40033, tc := true }, { now := 40000 }], ?_⟩
    decide +kernel

/-- Whether an event is the start of a transfer. -/
def Ev.isStart : Ev → Bool
  | .readStart .. => true
  | .writeStart .. => true
  | _ => false

/-- **C81, the bus is free.**  A transfer is started only when neither START nor BUSY is set. -/
theorem C81_free (c : Setup) (l : List In) (x : In)
    (h : ((run c (x :: l)).trace.filter Ev.isStart).length ≠ ((run c l).trace.filter Ev.isStart).length) :
    x.busBusy = false := by
  by_contra hb
  have hb : x.busBusy = true := by simpa using hb
  apply h
  show ((cycle c x (run c l)).trace.filter Ev.isStart).length = _
  set s := run c l
  have h1 : (pollI2c c x (startupUpdate c x s)).trace = s.trace := by
    unfold pollI2c
    split
    · rfl
    · split
      · rfl
      · split
        · simp only [State.upd, startWrite, hb]
          split_ifs <;> simp_all [startupUpdate]
        · rfl
      · split
        · simp only [State.upd, startRead, hb]
          split_ifs <;> simp_all [startupUpdate]
        · simp only [State.upd, startRead, hb]
          split_ifs <;> simp_all [startupUpdate]
        · rfl
  have h2 : ∀ u : State, ((poll x u).trace.filter Ev.isStart) = u.trace.filter Ev.isStart := by
    intro u
    unfold poll
    cases hm : u.mode <;> dsimp only <;> split_ifs <;> simp_all [Ev.isStart]
  have h3 : ∀ u : State, ((checkRead c x u).1.trace.filter Ev.isStart) = u.trace.filter Ev.isStart := by
    intro u
    unfold checkRead
    split_ifs <;> simp_all [Ev.isStart]
  have h4 : ∀ r (u : State), (finish c r u).trace = u.trace := by
    intro r u; unfold finish; split
    · rfl
    · split <;> rfl
  unfold cycle
  simp only
  rw [h4, h3, h2, h1]

/-- While settings are written: what the bus has seen of it. -/
def Writing (c : Setup) (s : State) : Prop :=
  s.mode = .writing → s.txLen = 2 ∧ s.offset ≤ 2 ∧ s.raw.getD 0 0 = 7 ∧ s.raw.getD 1 0 = 0 ∧
    ∃ i rest, (c.cfg i).kind = .as5600 ∧
      s.trace = ((List.take s.offset [Ev.tx 7, Ev.tx 0]).reverse) ++
        .writeStart (c.cfg i).address 0x07 3 :: rest

theorem pollI2c_writing (c : Setup) (x : In) (s : State) (h : Writing c s) : Writing c (pollI2c c x s) := by
  unfold pollI2c
  split
  · exact h
  next hb =>
  have hn : s.mode ≠ .writing := fun e => hb (by simp [State.busy, e])
  split
  · exact h
  · next i hi =>
    split
    · next hk =>
      have key : ∀ u : State, u.mode ≠ .writing → u.raw.getD 0 0 = 7 → u.raw.getD 1 0 = 0 →
          Writing c (startWrite c x (c.cfg i).address 0x07 2 u) := by
        intro u hu r0 r1
        unfold startWrite
        by_cases hv : c.valid = true
        · by_cases h2 : u.mode ≠ .idle ∨ x.busBusy = true
          · rw [if_neg (by simp [hv]), if_pos h2]
            intro e; simp at e
          · rw [if_neg (by simp [hv]), if_neg h2]
            intro _
            exact ⟨rfl, by simp, r0, r1, i, u.trace, hk, by simp⟩
        · rw [if_pos hv]
          exact fun e => absurd e hu
      exact key _ hn (by simp [as5600Settings]) (by simp [as5600Settings])
    · exact fun e => absurd e hn
  · split
    · intro e
      exact absurd e (startRead_writes c x _ _ _ (s.upd _ _) hn).2
    · intro e
      exact absurd e (startRead_writes c x _ _ _ (s.upd _ _) hn).2
    · exact fun e => absurd e hn

/-- What a step of a write does. -/
theorem poll_writing (c : Setup) (x : In) (s : State) (h : Writing c s) :
    Writing c (poll x s) ∧ (s.mode = .writing → (poll x s).mode = .complete →
      ∃ i rest, (c.cfg i).kind = .as5600 ∧
        (poll x s).trace = Ev.tx 0 :: Ev.tx 7 :: .writeStart (c.cfg i).address 0x07 3 :: rest) := by
  by_cases hm : s.mode = .writing
  · obtain ⟨a1, a2, a3, a4, i, rest, hk, ht⟩ := h hm
    unfold poll
    simp only [hm]
    by_cases hx : x.txe = true
    · simp only [hx, not_true_eq_false, if_false]
      by_cases ho : s.offset ≥ s.txLen
      · simp only [ho, if_true]
        have e2 : s.offset = 2 := by omega
        rw [e2] at ht
        split_ifs
        · exact ⟨fun e => by simp at e, fun _ e => by simp at e⟩
        · exact ⟨fun e => by simp at e, fun _ _ => ⟨i, rest, hk, by simpa using ht⟩⟩
      · simp only [ho, if_false]
        split_ifs
        · exact ⟨fun e => by simp at e, fun _ e => by simp at e⟩
        · refine ⟨fun _ => ⟨a1, by simp only; omega, a3, a4, i, rest, hk, ?_⟩, fun _ e => by
            simp_all⟩
          simp only
          have : s.offset = 0 ∨ s.offset = 1 := by omega
          rcases this with e | e
          · rw [e] at ht ⊢; rw [a3, ht]; simp
          · rw [e] at ht ⊢; rw [a4, ht]; simp
    · rw [if_pos hx]
      by_cases hn : x.nackf = true
      · rw [if_pos hn]
        exact ⟨fun e => by simp at e, fun _ e => by simp at e⟩
      · rw [if_neg hn]
        exact ⟨h, fun _ e => by rw [hm] at e; simp at e⟩
  · refine ⟨fun e => ?_, fun e => absurd e hm⟩
    exact absurd e (poll_writes x s hm).2

theorem run_writing (c : Setup) (l : List In) : Writing c (run c l) := by
  induction l with
  | nil => intro e; simp [run] at e
  | cons x l ih =>
    have h1 := pollI2c_writing c x (startupUpdate c x (run c l)) ih
    have h2 := (poll_writing c x _ h1).1
    show Writing c (cycle c x (run c l))
    unfold cycle
    simp only
    set u := poll x (pollI2c c x (startupUpdate c x (run c l)))
    have h3 : Writing c (checkRead c x u).1 := by
      unfold checkRead
      split_ifs <;> first
        | exact h2
        | (intro e; simp at e; done)
    have hf : ∀ r (u : State), Writing c u → Writing c (finish c r u) := by
      intro r u hu; unfold finish; split
      · exact hu
      · split
        · exact hu
        · exact hu
    exact hf _ _ h3

/-- **C81, settings are written completely.**  A write that is not ended by an error has sent the settings of
an AS5600, both bytes, to its register 7. -/
theorem C81_settings (c : Setup) (l : List In) (x : In) (hv : c.valid = true)
    (hm : (run c l).mode = .writing) (hd : (run c (x :: l)).mode = .idle) (hx : x.nackf = false) :
    ∃ i rest, (c.cfg i).kind = .as5600 ∧
      (run c (x :: l)).trace = Ev.tx 0 :: Ev.tx 7 :: .writeStart (c.cfg i).address 0x07 3 :: rest := by
  have hb : pollI2c c x (startupUpdate c x (run c l)) = startupUpdate c x (run c l) := by
    unfold pollI2c
    rw [if_pos]
    simp [State.busy, startupUpdate, hm]
  have hw : Writing c (startupUpdate c x (run c l)) := run_writing c l
  obtain ⟨-, h2⟩ := poll_writing c x _ hw
  have e : run c (x :: l) = cycle c x (run c l) := rfl
  rw [e] at hd ⊢
  unfold cycle at hd ⊢
  simp only [hb] at hd ⊢
  set u := poll x (startupUpdate c x (run c l)) with hu
  have hf : ∀ r (u : State), (finish c r u).trace = u.trace ∧ (finish c r u).mode = u.mode := by
    intro r u; unfold finish; split
    · exact ⟨rfl, rfl⟩
    · split <;> exact ⟨rfl, rfl⟩
  rw [(hf _ _).2] at hd
  rw [(hf _ _).1]
  have hmode : u.mode = .complete ∨ u.mode = .writing := by
    rw [hu]
    unfold poll
    simp only [show (startupUpdate c x (run c l)).mode = .writing from hm, hx]
    split_ifs <;> simp_all [startupUpdate]
  have hc : u.mode = .complete := by
    rcases hmode with h | h
    · exact h
    · exfalso
      revert hd
      unfold checkRead
      simp [hv, h]
  obtain ⟨i, rest, hk, ht⟩ := h2 hm hc
  refine ⟨i, rest, hk, ?_⟩
  unfold checkRead
  simp [hv, hc, ht]

/-- The AS5600 above, when it acknowledges. -/
example : (run one5600 [{ now := 66, txe := true }, { now := 33, txe := true }, { now := 0 }]).mode = .writing ∧
    (run one5600 [{ now := 99, txe := true }, { now := 66, txe := true }, { now := 33, txe := true },
      { now := 0 }]).mode = .idle := by decide +kernel

/-! ## Starvation -/

/-- Cycles at a fixed distance of `T` microseconds, with hardware that is never slower than one cycle and
sends these bytes. -/
def fast (T wrap : ℕ) (data : ℕ → ℕ) : ℕ → List In
  | 0 => []
  | n + 1 => { now := n * T % wrap, tc := true, rxne := true, txe := true, rxdr := data n } :: fast T wrap data n

/-- Two AS5048 are configured, the second is to be polled at most as often as the first. -/
structure Two (c : Setup) : Prop where
  valid : c.valid = true
  first : (c.cfg 0).kind = .as5048
  second : (c.cfg 1).kind = .as5048
  third : (c.cfg 2).kind = .none
  rates : (c.cfg 0).pollUs ≤ (c.cfg 1).pollUs

/-- What holds after `n` cycles. -/
structure Starved (c : Setup) (T n : ℕ) (s : State) : Prop where
  none1 : (s.dev 1).polls = 0
  last1 : (s.dev 1).last = 0
  where_ :
    (s.mode = .idle ∧ (s.dev 0).last = 0) ∨
    (∃ k, (s.dev 0).last = k * T % c.wrap ∧ (s.dev 0).initialized = true ∧
      ((s.mode = .reading ∧ s.rxLen = 6 ∧ s.offset < 6 ∧ n = k + s.offset + 1) ∨ (s.mode = .idle ∧ n = k + 7)))

theorem subUs_mul (w k a T : ℕ) (hw : 0 < w) (h : a * T < w) :
    subUs w ((k + a) * T % w) (k * T % w) = a * T := by
  unfold subUs
  rw [Nat.mod_mod, Nat.add_mul]
  have h1 := Nat.mod_lt (k * T) hw
  have h2 := Nat.mod_add_div (k * T) w
  generalize k * T % w = r at *
  generalize k * T / w = q at *
  rw [← h2, Nat.add_comm r (w * q)]
  have hr' : r < w := h1
  have : (w * q + r + a * T) % w = (r + a * T) % w := by
    rw [Nat.add_assoc, Nat.mul_add_mod]
  rw [this]
  by_cases hc : r + a * T < w
  · rw [Nat.mod_eq_of_lt hc, show r + a * T + w - r = a * T + w by omega, Nat.add_mod_right, Nat.mod_eq_of_lt h]
  · have : (r + a * T) % w = r + a * T - w := by
      rw [Nat.mod_eq_sub_mod (by omega), Nat.mod_eq_of_lt (by omega)]
    rw [this, show r + a * T - w + w - r = a * T by omega, Nat.mod_eq_of_lt h]

theorem finish_rest (c : Setup) (r : ReadStatus) (u : State) :
    (finish c r u).mode = u.mode ∧ (finish c r u).rxLen = u.rxLen ∧ (finish c r u).offset = u.offset := by
  unfold finish; split
  · exact ⟨rfl, rfl, rfl⟩
  · split <;> exact ⟨rfl, rfl, rfl⟩

theorem cycle_rest (c : Setup) (x : In) (s : State) (hv : c.valid = true) (hn : x.nackf = false) :
    let p := pollI2c c x (startupUpdate c x s)
    (p.mode = .idle → (cycle c x s).mode = .idle) ∧
    (p.mode = .sent → x.tc = true → (cycle c x s).mode = .reading ∧ (cycle c x s).rxLen = p.rxLen ∧
      (cycle c x s).offset = 0) ∧
    (p.mode = .reading → x.rxne = true → (cycle c x s).rxLen = p.rxLen ∧ (cycle c x s).offset = p.offset + 1 ∧
      (cycle c x s).mode = if p.offset + 1 ≥ p.rxLen then .idle else .reading) := by
  intro p
  have e : cycle c x s = finish c (checkRead c x (poll x p)).2 (checkRead c x (poll x p)).1 := rfl
  obtain ⟨f1, f2, f3⟩ := finish_rest c (checkRead c x (poll x p)).2 (checkRead c x (poll x p)).1
  rw [e, f1, f2, f3]
  refine ⟨fun h => ?_, fun h ht => ?_, fun h ht => ?_⟩
  · have : poll x p = p := by unfold poll; simp [h, hn]
    rw [this]; simp [checkRead, hv, h]
  · have : poll x p = { p with trace := .again p.slave p.rxLen :: p.trace, offset := 0, mode := .reading } := by
      unfold poll; simp [h, hn, ht]
    rw [this]; simp [checkRead, hv]
  · by_cases hge : p.offset + 1 ≥ p.rxLen
    · have : (poll x p).mode = .complete ∧ (poll x p).rxLen = p.rxLen ∧ (poll x p).offset = p.offset + 1 := by
        unfold poll; simp [h, hn, ht, hge]
      simp [checkRead, hv, this, hge]
    · have : (poll x p).mode = .reading ∧ (poll x p).rxLen = p.rxLen ∧ (poll x p).offset = p.offset + 1 := by
        unfold poll; simp [h, hn, ht, hge]
      simp [checkRead, hv, this, hge]

theorem Starved.step {c : Setup} {T n : ℕ} {s : State} (h2 : Two c) (hT : 7 * T < c.wrap)
    (h7 : (c.cfg 0).pollUs ≤ 7 * T) (h : Starved c T n s) (x : In) (hx : x.now = n * T % c.wrap)
    (x1 : x.tc = true) (x2 : x.rxne = true) (x3 : x.nackf = false) (x4 : x.busBusy = false) :
    Starved c T (n + 1) (cycle c x s) := by
  obtain ⟨n1, l1, w⟩ := h
  obtain ⟨c1, c2, c3⟩ := cycle_rest c x s h2.valid x3
  have d0 := cycle_polls c x s 0
  have d1 := cycle_polls c x s 1
  -- the idle case with the first device
  have idle : s.mode = .idle → (s.dev 0).last = 0 ∨
      (s.dev 0).initialized = true ∧ (c.cfg 0).pollUs ≤ subUs c.wrap x.now (s.dev 0).last →
      Starved c T (n + 1) (cycle c x s) := by
    intro hm hc
    have hb : ¬ (startupUpdate c x s).busy = true := by simp [State.busy, startupUpdate, hm]
    by_cases hi : (s.dev 0).initialized = true
    · by_cases hdue : (c.cfg 0).pollUs ≤ subUs c.wrap x.now (s.dev 0).last
      · -- the first device is polled
        have hch : choose c x.now (startupUpdate c x s).dev (List.range 3) = .read 0 := by
          show choose c x.now s.dev [0, 1, 2] = _
          simp [choose, h2.first, hi, hdue]
        have hp : pollI2c c x (startupUpdate c x s) = startRead c x (c.cfg 0).address 0xfa 6
            ((startupUpdate c x s).upd 0 fun d => { d with
              last := x.now, pending := true, polls := d.polls + 1 }) := by
          unfold pollI2c; rw [if_neg hb, hch]; simp only [h2.first]
        have hs : pollI2c c x (startupUpdate c x s) = { (startupUpdate c x s).upd 0 fun d => { d with
              last := x.now, pending := true, polls := d.polls + 1 } with
            slave := (c.cfg 0).address, rxLen := 6, trace := .readStart (c.cfg 0).address 0xfa :: s.trace,
            mode := .sent } := by
          rw [hp]; unfold startRead
          rw [if_neg (by simp [h2.valid]), if_neg (by simp [State.upd, startupUpdate, hm, x4])]
          rfl
        rw [hs] at c2 d0 d1
        obtain ⟨g1, g2, g3⟩ := c2 rfl x1
        refine ⟨d1.1.trans n1, d1.2.1.trans l1, .inr ⟨n, ?_, ?_, .inl ⟨g1, g2, by omega, by omega⟩⟩⟩
        · rw [d0.2.1, ← hx]; rfl
        · rw [d0.2.2]; exact hi
      · -- not yet due: nothing but perhaps the initialisation of the second device
        have hl := hc.resolve_right fun h => hdue h.2
        have hch : choose c x.now (startupUpdate c x s).dev (List.range 3) = .nothing ∨
            choose c x.now (startupUpdate c x s).dev (List.range 3) = .init 1 := by
          show choose c x.now s.dev [0, 1, 2] = _ ∨ choose c x.now s.dev [0, 1, 2] = _
          by_cases hi1 : (s.dev 1).initialized = true
          · left
            have : ¬ (c.cfg 1).pollUs ≤ subUs c.wrap x.now (s.dev 1).last := by
              rw [l1]; rw [hl] at hdue; have := h2.rates; omega
            simp [choose, h2.first, h2.second, h2.third, hi, hdue, hi1, this]
          · right
            simp [choose, h2.first, h2.second, hi, hdue, hi1]
        rcases hch with hch | hch
        · have hp : pollI2c c x (startupUpdate c x s) = startupUpdate c x s := by
            unfold pollI2c; rw [if_neg hb, hch]
          rw [hp] at c1 d0 d1
          exact ⟨d1.1.trans n1, d1.2.1.trans l1, .inl ⟨c1 hm, d0.2.1.trans hl⟩⟩
        · have hp : pollI2c c x (startupUpdate c x s) =
              (startupUpdate c x s).upd 1 fun d => { d with initialized := true } := by
            unfold pollI2c; rw [if_neg hb, hch]; simp only [h2.second]
          rw [hp] at c1 d0 d1
          exact ⟨d1.1.trans n1, d1.2.1.trans l1, .inl ⟨c1 hm, d0.2.1.trans hl⟩⟩
    · have hl := hc.resolve_right fun h => hi h.1
      have hch : choose c x.now (startupUpdate c x s).dev (List.range 3) = .init 0 := by
        show choose c x.now s.dev [0, 1, 2] = _
        simp [choose, h2.first, hi]
      have hp : pollI2c c x (startupUpdate c x s) =
          (startupUpdate c x s).upd 0 fun d => { d with initialized := true } := by
        unfold pollI2c; rw [if_neg hb, hch]; simp only [h2.first]
      rw [hp] at c1 d0 d1
      exact ⟨d1.1.trans n1, d1.2.1.trans l1, .inl ⟨c1 hm, d0.2.1.trans hl⟩⟩
  rcases w with ⟨hm, hl⟩ | ⟨k, hk, hi, ⟨hm, hr, ho, hn⟩ | ⟨hm, hn⟩⟩
  · exact idle hm (.inl hl)
  · have hb : s.busy = true := by simp [State.busy, hm]
    rw [busy_skip c x s hb] at c3 d0 d1
    obtain ⟨g1, g2, g3⟩ := c3 hm x2
    have e1 : (startupUpdate c x s).rxLen = 6 := hr
    have e2 : (startupUpdate c x s).offset = s.offset := rfl
    rw [e1] at g1 g3
    rw [e2] at g2 g3
    refine ⟨d1.1.trans n1, d1.2.1.trans l1, .inr ⟨k, d0.2.1.trans hk, d0.2.2.trans hi, ?_⟩⟩
    by_cases h6 : s.offset + 1 ≥ 6
    · rw [if_pos h6] at g3
      exact .inr ⟨g3, by omega⟩
    · rw [if_neg h6] at g3
      exact .inl ⟨g3, g1, by omega, by omega⟩
  · refine idle hm (.inr ⟨hi, ?_⟩)
    rw [hk, hx, hn, subUs_mul _ _ _ _ (by omega) hT]
    exact h7

/-- **C81, refuted: a device is polled as often as configured.**  The devices are tried in their order, and a
read of an AS5048 takes seven cycles at least.  If its interval is not longer than that (the smallest
interval that the firmware allows is 100 us, seven cycles at 30 kHz take 233 us), a second AS5048 with the
same interval is never polled, even if the hardware is as fast as possible. -/
theorem C81_starved_refuted (c : Setup) (T : ℕ) (data : ℕ → ℕ) (h2 : Two c) (hT : 7 * T < c.wrap)
    (h7 : (c.cfg 0).pollUs ≤ 7 * T) (n : ℕ) : ((run c (fast T c.wrap data n)).dev 1).polls = 0 := by
  suffices h : Starved c T n (run c (fast T c.wrap data n)) from h.none1
  induction n with
  | zero => exact ⟨rfl, rfl, .inl ⟨rfl, rfl⟩⟩
  | succ n ih => exact Starved.step h2 hT h7 ih _ rfl rfl rfl rfl rfl

/-- Two AS5048 with an interval of 200 us: the hypotheses of the last theorem for cycles of 33 us. -/
def two5048 : Setup :=
  { cfg := fun i => if i < 2 then { kind := .as5048, address := 0x40 + i, pollUs := 200 } else {} }

example : Two two5048 ∧ 7 * 33 < two5048.wrap ∧ (two5048.cfg 0).pollUs ≤ 7 * 33 :=
  ⟨⟨rfl, rfl, rfl, rfl, le_refl _⟩, by decide, by decide⟩

/-- Meanwhile the first device is read: a case of `C81_value`, `C81_interval` and `C81_ends_partial`. -/
example : ((run two5048 (fast 33 (2 ^ 32) (fun n => n) 40)).dev 0).goods = 4 ∧
    ((run two5048 (fast 33 (2 ^ 32) (fun n => n) 40)).dev 0).pending = true := by decide +kernel

/-- A transfer in progress: the hypothesis of `C81_hang_refuted`. -/
example : (run two5048 [{ now := 400 }, { now := 300 }]).busy = true := by decide +kernel

end Verif.Fw.I2cEncoders
