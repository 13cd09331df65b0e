import Mathlib.Logic.Relation
import Mathlib.Data.List.Basic
import Mathlib.Data.Nat.Bitwise
import Mathlib.Tactic.Ring
import Mathlib.Tactic.NormNum
import Mathlib.Tactic.Linarith

/-!
# The iC-PZ encoder (C80)

Model of `fw/ic_pz.h` and of the commands `ic-*` of `fw/aux_port.h`.  The main loop and the interrupt share
the SPI with its DMA and two buffers.  The interrupt can run between any two operations of the main loop.
-/

namespace Verif.Fw.IcPz

open Relation

/-! ## Model -/

/-- `Mode` (ic_pz.h:403-407). -/
inductive Mode
  | warmup | operating | command
  deriving DecidableEq

/-- The operations of the main loop that matter for what it shares with the interrupt. -/
inductive Op
  /-- `mode_.store` -/
  | setMode (m : Mode)
  /-- `while (active_.load());` (ic_pz.h:316) -/
  | wait
  /-- The beginning of `tx_buffer_` is written. -/
  | setTx (l : List ℕ)
  /-- `spi_.start_dma_transfer` for so many bytes (ic_pz.h:372-378). -/
  | start (n : ℕ)
  /-- `spi_.finish_dma_transfer` (ic_pz.h:369) -/
  | finish
  /-- The beginning of `rx_buffer_` is read. -/
  | copy (n : ℕ)
  deriving DecidableEq

/-- `DmaTransfer` (ic_pz.h:367-370). -/
def dmaTransfer (n : ℕ) : List Op := [.start n, .finish]

/-- `ExitOperating` (ic_pz.h:314-317). -/
def exitOperating : List Op := [.setMode .command, .wait]

/-- The frame that reads the position (ic_pz.h:335-340). -/
def positionFrame : List ℕ := [0xa6, 0, 0, 0, 0, 0]

/-- `EnterOperating` (ic_pz.h:327-330). -/
def enterOperating : List Op := [.setTx positionFrame, .setMode .operating]

/-- `WriteRegister` (ic_pz.h:348-354). -/
def writeRegister (address value : ℕ) : List Op := .setTx [0xcf, address, value] :: dmaTransfer 3

/-- `Initialize` (ic_pz.h:299-303, 319-325, 343-346). -/
def initializeOps : List Op :=
  writeRegister 0x40 0x00 ++ writeRegister 0x01 0x01 ++
  writeRegister 0x40 0x07 ++ writeRegister 0x08 0x18 ++
  writeRegister 0x40 0x07 ++ writeRegister 0x09 0x00 ++ [.setTx positionFrame]

/-- `StartCommand` (ic_pz.h:48-63) outside of `kWarmup`. -/
def startCommand (cmd : ℕ) : List Op :=
  exitOperating ++ .setTx [0xd9, cmd] :: dmaTransfer 2 ++ enterOperating

/-- `ReadRegisters` (ic_pz.h:65-82) outside of `kWarmup`, when the assertion holds. -/
def readRegisters (reg n : ℕ) : List Op :=
  exitOperating ++ .setTx ([0x81, reg, 0] ++ List.replicate n 0) :: dmaTransfer (3 + n) ++
    .copy (3 + n) :: enterOperating

/-- `WriteRegisters` (ic_pz.h:84-97) outside of `kWarmup`, when the assertion holds. -/
def writeRegisters (reg : ℕ) (data : List ℕ) : List Op :=
  exitOperating ++ .setTx ([0xcf, reg] ++ data) :: dmaTransfer (2 + data.length) ++ enterOperating

/-- The part of `DoOperating` for an active command (ic_pz.h:120-139). -/
def pollCommand : List Op :=
  exitOperating ++ .setTx [0x81, 0x76, 0, 0, 0] :: dmaTransfer 5 ++ .copy 5 :: enterOperating

/-- The part of `DoOperating` that reads the diagnosis (ic_pz.h:141-174). -/
def pollDiagnosis : List Op :=
  exitOperating ++ .setTx [0x9c, 0, 0, 0, 0] :: dmaTransfer 5 ++ .copy 5 :: enterOperating

/-- The part of `DoOperating` that reads the calibration (ic_pz.h:176-203). -/
def pollCalibration : List Op :=
  exitOperating ++ writeRegister 0x40 0x01 ++ .setTx ([0x81, 0x28, 0] ++ [0, 0, 0, 0]) :: dmaTransfer 7 ++
    .copy 7 :: enterOperating

/-- Whose transfer it is. -/
inductive Owner
  | main | isr
  deriving DecidableEq

/-- A transfer: who started it, what is sent, and whether it has ended. -/
structure Transfer where
  owner : Owner
  frame : List ℕ
  ended : Bool

/-- `Status`, as far as the interrupt writes it (ic_pz.h:206-211). -/
structure Status where
  active : Bool := false
  err : Bool := false
  warn : Bool := false
  value : ℕ := 0
  nonce : ℕ := 0

/-- The state.  Not in the code: `broken` (a transfer was started or the transmit buffer written during
another one, or the receive buffer read while it does not hold the answer to the last transfer of the main
loop), the last answer to each owner, how many positions were
read, the answer from which `status` was made last, and all frames that were sent. -/
structure State where
  mode : Mode := .warmup
  active : Bool := false
  tx : List ℕ := List.replicate 16 0
  rx : List ℕ := List.replicate 16 0
  dma : Option Transfer := none
  status : Status := {}
  prog : List Op := []
  broken : Bool := false
  answer : List ℕ := []
  position : List ℕ := []
  samples : ℕ := 0
  reported : List ℕ := []
  sent : List (Owner × List ℕ) := []

/-- The beginning of a buffer is overwritten. -/
def overwrite (buf l : List ℕ) : List ℕ := l ++ buf.drop l.length

/-- `ISR_MaybeFinishSample` after the transfer has ended (ic_pz.h:274-283). -/
def decode (rx : List ℕ) (s : Status) : Status :=
  { active := true
    value := (rx.getD 1 0 <<< 16) ||| (rx.getD 2 0 <<< 8) ||| (rx.getD 3 0 <<< 0)
    err := rx.getD 4 0 &&& 0x80 ≠ 0
    warn := rx.getD 4 0 &&& 0x40 ≠ 0
    nonce := (s.nonce + 1) % 256 }

/-- One operation of the main loop; `none` if it has to wait. -/
def State.exec (s : State) : Op → Option State
  | .setMode m => some { s with mode := m }
  | .wait => if s.active then none else some s
  | .setTx l => some { s with tx := overwrite s.tx l, broken := s.broken || s.dma.isSome }
  | .start n => some { s with
      dma := some ⟨.main, s.tx.take n, false⟩, broken := s.broken || s.dma.isSome,
      sent := (.main, s.tx.take n) :: s.sent }
  | .finish => match s.dma with
    | none => none
    | some t => if t.ended then some { s with dma := none } else none
  | .copy n => some { s with broken := s.broken || s.dma.isSome || s.rx.take n ≠ s.answer.take n }

/-- What the main loop can call (ic_pz.h:48-204): outside of `kWarmup` any of the functions with arguments
that pass the assertions, in `kWarmup` only the initialisation. -/
inductive Call : Mode → List Op → Prop
  | init : Call .warmup (initializeOps ++ [.setMode .operating])
  | command (m : Mode) (hm : m ≠ .warmup) (cmd : ℕ) : Call m (startCommand cmd)
  | read (m : Mode) (hm : m ≠ .warmup) (reg n : ℕ) (hn : n + 3 < 16) : Call m (readRegisters reg n)
  | write (m : Mode) (hm : m ≠ .warmup) (reg : ℕ) (data : List ℕ) (hn : data.length + 2 < 16) :
      Call m (writeRegisters reg data)
  | poll (cmd diag cal : Bool) : Call .operating
      ((if cmd then pollCommand else []) ++ (if diag then pollDiagnosis else []) ++
        (if cal then pollCalibration else []))

/-- The steps of main loop, interrupt and hardware. -/
inductive Step : State → State → Prop
  | call (s : State) (l : List Op) (hp : s.prog = []) (hl : Call s.mode l) : Step s { s with prog := l }
  | main (s t : State) (o : Op) (l : List Op) (hp : s.prog = o :: l) (ht : s.exec o = some t) :
      Step s { t with prog := l }
  /-- `ISR_StartSample` (ic_pz.h:261-268) when it starts a transfer; otherwise it does nothing. -/
  | isrStart (s : State) (hm : s.mode = .operating) (ha : s.active = false) :
      Step s { s with
        dma := some ⟨.isr, s.tx.take 6, false⟩, active := true, broken := s.broken || s.dma.isSome,
        sent := (.isr, s.tx.take 6) :: s.sent }
  /-- `ISR_MaybeFinishSample` (ic_pz.h:270-286) when the transfer has ended; otherwise it does nothing. -/
  | isrFinish (s : State) (ha : s.active = true) (hd : ∀ t ∈ s.dma, t.ended = true) :
      Step s { s with
        dma := none, active := false, status := decode s.rx s.status,
        broken := s.broken || decide (∃ t ∈ s.dma, t.owner = .main) || s.dma.isNone,
        samples := s.samples + 1, reported := s.position }
  /-- The transfer ends; the encoder has answered `r`. -/
  | answer (s : State) (t : Transfer) (r : List ℕ) (ht : s.dma = some t) (he : t.ended = false)
      (hr : r.length = t.frame.length) (hb : ∀ b ∈ r, b < 256) :
      Step s { s with
        dma := some { t with ended := true }, rx := overwrite s.rx r,
        answer := if t.owner = .main then r else s.answer,
        position := if t.owner = .isr then r else s.position }

/-- The states that can be reached. -/
def Reach (s : State) : Prop := ReflTransGen Step {} s

/-! ## Who has the bus -/

/-- What the main loop knows at a point of its program. -/
inductive Abs
  /-- The interrupt may start transfers. -/
  | free
  /-- The interrupt starts no more transfers. -/
  | leaving
  /-- The bus belongs to the main loop.  Whether the frame for the position is in the buffer, and how many
  bytes of the last answer are there. -/
  | held (pop : Bool) (got : ℕ)
  /-- A transfer of so many bytes is in progress. -/
  | busy (n : ℕ)

/-- The effect of an operation. -/
def Abs.next : Abs → Op → Option Abs
  | .free, .setMode .command => some .leaving
  | .leaving, .wait => some (.held false 0)
  | .held _ g, .setTx l => if l.length ≤ 16 then some (.held (decide (l = positionFrame)) g) else none
  | .held _ _, .start n => if n ≤ 16 then some (.busy n) else none
  | .busy n, .finish => some (.held false n)
  | .held p g, .copy n => if n ≤ g then some (.held p g) else none
  | .held true _, .setMode .operating => some .free
  | _, _ => none

/-- The effect of a program. -/
def Abs.run : Abs → List Op → Option Abs
  | a, [] => some a
  | a, o :: l => match a.next o with
    | none => none
    | some b => b.run l

theorem Abs.run_app (a b : Abs) (l m : List Op) (h : a.run l = some b) : a.run (l ++ m) = b.run m := by
  induction l generalizing a with
  | nil => simp only [Abs.run, Option.some.injEq] at h; subst h; rfl
  | cons o l ih =>
    simp only [Abs.run, List.cons_append] at h ⊢
    cases hn : a.next o with
    | none => simp [hn] at h
    | some c => rw [hn] at h; exact ih c h

theorem run_command (cmd : ℕ) : Abs.free.run (startCommand cmd) = some .free := by
  simp [startCommand, exitOperating, enterOperating, dmaTransfer, Abs.run, Abs.next, positionFrame]

theorem run_read (reg n : ℕ) (hn : n + 3 < 16) : Abs.free.run (readRegisters reg n) = some .free := by
  have h1 : n + 1 + 1 + 1 ≤ 16 := by omega
  have h2 : 3 + n ≤ 16 := by omega
  simp [readRegisters, exitOperating, enterOperating, dmaTransfer, Abs.run, Abs.next, positionFrame, h1, h2]

theorem run_write (reg : ℕ) (data : List ℕ) (hn : data.length + 2 < 16) :
    Abs.free.run (writeRegisters reg data) = some .free := by
  have h1 : data.length + 1 + 1 ≤ 16 := by omega
  have h2 : 2 + data.length ≤ 16 := by omega
  simp [writeRegisters, exitOperating, enterOperating, dmaTransfer, Abs.run, Abs.next, positionFrame, h1, h2]

theorem run_pollCommand : Abs.free.run pollCommand = some .free := by
  simp [pollCommand, exitOperating, enterOperating, dmaTransfer, Abs.run, Abs.next, positionFrame]

theorem run_pollDiagnosis : Abs.free.run pollDiagnosis = some .free := by
  simp [pollDiagnosis, exitOperating, enterOperating, dmaTransfer, Abs.run, Abs.next, positionFrame]

theorem run_pollCalibration : Abs.free.run pollCalibration = some .free := by
  simp [pollCalibration, writeRegister, exitOperating, enterOperating, dmaTransfer, Abs.run, Abs.next,
    positionFrame]

theorem run_init : (Abs.held false 0).run (initializeOps ++ [.setMode .operating]) = some .free := by
  simp [initializeOps, writeRegister, dmaTransfer, Abs.run, Abs.next, positionFrame]

theorem run_if (b : Bool) (l : List Op) (h : Abs.free.run l = some .free) :
    Abs.free.run (if b then l else []) = some .free := by
  cases b
  · rfl
  · simpa using h

theorem Call.run {m : Mode} {l : List Op} (h : Call m l) :
    (m = .warmup → (Abs.held false 0).run l = some .free) ∧ (m ≠ .warmup → Abs.free.run l = some .free) := by
  cases h with
  | init => exact ⟨fun _ => run_init, fun h => absurd rfl h⟩
  | command _ hm cmd => exact ⟨fun h => absurd h hm, fun _ => run_command cmd⟩
  | read _ hm reg n hn => exact ⟨fun h => absurd h hm, fun _ => run_read reg n hn⟩
  | write _ hm reg d hn => exact ⟨fun h => absurd h hm, fun _ => run_write reg d hn⟩
  | poll c d k =>
    refine ⟨fun h => by simp at h, fun _ => ?_⟩
    rw [Abs.run_app _ .free, run_if _ _ run_pollCalibration]
    rw [Abs.run_app _ .free, run_if _ _ run_pollDiagnosis]
    exact run_if _ _ run_pollCommand

/-- While the interrupt may have a transfer in progress. -/
def IsrDma (s : State) : Prop :=
  (s.active = false ∧ s.dma = none) ∨
  (s.active = true ∧ ∃ t, s.dma = some t ∧ t.owner = .isr ∧ t.frame = positionFrame ∧
    (t.ended = true → s.rx.take 6 = s.position ∧ s.position.length = 6 ∧ ∀ b ∈ s.position, b < 256))

/-- What the knowledge of the main loop means. -/
def Abs.Means : Abs → State → Prop
  | .free, s => s.mode = .operating ∧ s.tx.take 6 = positionFrame ∧ IsrDma s
  | .leaving, s => s.mode = .command ∧ IsrDma s
  | .held p g, s => s.mode ≠ .operating ∧ s.active = false ∧ s.dma = none ∧
      (p = true → s.tx.take 6 = positionFrame) ∧ s.rx.take g = s.answer.take g
  | .busy n, s => s.mode ≠ .operating ∧ s.active = false ∧
      ∃ t, s.dma = some t ∧ t.owner = .main ∧ t.frame.length = n ∧ n ≤ 16 ∧
        (t.ended = true → s.rx.take n = s.answer.take n)

/-- What holds in every state. -/
structure Inv (s : State) : Prop where
  sound : s.broken = false
  txLen : s.tx.length = 16
  rxLen : s.rx.length = 16
  where_ : ∃ a : Abs, a.Means s ∧
    (a.run s.prog = some .free ∨ (s.mode = .warmup ∧ s.prog = [] ∧ a = .held false 0))
  frames : ∀ f, (Owner.isr, f) ∈ s.sent → f = positionFrame
  counted : s.status.nonce = s.samples % 256
  told : s.samples = 0 ∧ s.status.active = false ∨ s.status.active = true ∧ 0 < s.samples ∧ s.reported.length = 6 ∧
    (∀ b ∈ s.reported, b < 256) ∧
    s.status = decode s.reported { s.status with nonce := (s.status.nonce + 255) % 256 }

theorem Inv.init : Inv {} := by
  refine ⟨rfl, rfl, rfl, ⟨.held false 0, ?_, .inr ⟨rfl, rfl, rfl⟩⟩, by simp, rfl, .inl ⟨rfl, rfl⟩⟩
  simp [Abs.Means]

theorem overwrite_length (buf l : List ℕ) (h : l.length ≤ buf.length) :
    (overwrite buf l).length = buf.length := by simp [overwrite]; omega

theorem overwrite_take (buf l : List ℕ) : (overwrite buf l).take l.length = l := by
  simp [overwrite, List.take_append]

theorem getD_take (l : List ℕ) (n i : ℕ) (h : i < n) : (l.take n).getD i 0 = l.getD i 0 := by
  simp [List.getD_eq_getElem?_getD, List.getElem?_take, h]

theorem decode_take (rx : List ℕ) (s : Status) : decode (rx.take 6) s = decode rx s := by
  simp only [decode, getD_take _ 6 1 (by omega), getD_take _ 6 2 (by omega), getD_take _ 6 3 (by omega),
    getD_take _ 6 4 (by omega)]

theorem Inv.step {s t : State} (hi : Inv s) (hs : Step s t) : Inv t := by
  obtain ⟨i1, i2, i3, ⟨a, ha, hr⟩, i5, i6, i7⟩ := hi
  cases hs with
  | call l hp hl =>
    refine ⟨i1, i2, i3, ?_, i5, i6, i7⟩
    rcases hr with hr | ⟨hm, _, rfl⟩
    · rw [hp] at hr
      simp only [Abs.run, Option.some.injEq] at hr
      subst hr
      exact ⟨.free, ha, .inl (hl.run.2 (by rw [ha.1]; simp))⟩
    · exact ⟨.held false 0, ha, .inl (hl.run.1 hm)⟩
  | main t o l hp ht =>
    have hr : a.run s.prog = some .free := by
      rcases hr with hr | ⟨_, h, _⟩
      · exact hr
      · rw [h] at hp; simp at hp
    rw [hp] at hr
    simp only [Abs.run] at hr
    cases hn : a.next o with
    | none => rw [hn] at hr; simp at hr
    | some b =>
      rw [hn] at hr
      replace hr : b.run l = some .free := hr
      unfold Abs.next at hn
      split at hn
      · -- free, setMode command
        simp only [Option.some.injEq] at hn; subst hn
        simp only [State.exec, Option.some.injEq] at ht; subst ht
        exact ⟨i1, i2, i3, ⟨.leaving, ⟨rfl, ha.2.2⟩, .inl hr⟩, i5, i6, i7⟩
      · simp only [Option.some.injEq] at hn; subst hn
        simp only [State.exec] at ht
        split_ifs at ht with hact
        simp only [Option.some.injEq] at ht; subst ht
        have hd : s.active = false ∧ s.dma = none := by
          rcases ha.2 with h | ⟨h, _⟩
          · exact h
          · simp [h] at hact
        exact ⟨i1, i2, i3, ⟨.held false 0, ⟨by rw [show _ = s.mode from rfl, ha.1]; simp, hd.1, hd.2, by simp, by simp⟩,
          .inl hr⟩, i5, i6, i7⟩
      · rename_i p g tx
        split_ifs at hn with hlen
        simp only [Option.some.injEq] at hn; subst hn
        simp only [State.exec, Option.some.injEq] at ht; subst ht
        obtain ⟨h1, h2, h3, h4, h5⟩ := ha
        refine ⟨by simp [i1, h3], by simp only; rw [overwrite_length _ _ (by omega)]; exact i2, i3,
          ⟨.held (decide (tx = positionFrame)) g, ⟨h1, h2, h3, fun hpf => ?_, h5⟩, .inl hr⟩, i5, i6, i7⟩
        have : tx = positionFrame := by simpa using hpf
        subst this
        exact overwrite_take s.tx positionFrame
      · rename_i p g n
        split_ifs at hn with hlen
        simp only [Option.some.injEq] at hn; subst hn
        simp only [State.exec, Option.some.injEq] at ht; subst ht
        obtain ⟨h1, h2, h3, h4, h5⟩ := ha
        refine ⟨by simp [i1, h3], i2, i3, ⟨.busy n, ⟨h1, h2, _, rfl, rfl, ?_, hlen, by simp⟩, .inl hr⟩, ?_, i6, i7⟩
        · simp [i2, hlen]
        · intro f hf
          simp only [List.mem_cons, Prod.mk.injEq] at hf
          rcases hf with ⟨h, _⟩ | hf
          · simp at h
          · exact i5 f hf
      · rename_i n
        simp only [Option.some.injEq] at hn; subst hn
        obtain ⟨h1, h2, tr, h3, h4, h5, _, h6⟩ := ha
        simp only [State.exec, h3] at ht
        split_ifs at ht with hend
        simp only [Option.some.injEq] at ht; subst ht
        exact ⟨i1, i2, i3, ⟨.held false n, ⟨h1, h2, rfl, by simp, h6 hend⟩, .inl hr⟩, i5, i6, i7⟩
      · rename_i p g n
        split_ifs at hn with hlen
        simp only [Option.some.injEq] at hn; subst hn
        simp only [State.exec, Option.some.injEq] at ht; subst ht
        obtain ⟨h1, h2, h3, h4, h5⟩ := ha
        refine ⟨?_, i2, i3, ⟨.held p g, ⟨h1, h2, h3, h4, h5⟩, .inl hr⟩, i5, i6, i7⟩
        have : s.rx.take n = s.answer.take n := by
          have := congrArg (List.take n) h5
          simpa [List.take_take, min_eq_left hlen] using this
        simp [i1, h3, this]
      · simp only [Option.some.injEq] at hn; subst hn
        simp only [State.exec, Option.some.injEq] at ht; subst ht
        obtain ⟨h1, h2, h3, h4, h5⟩ := ha
        exact ⟨i1, i2, i3, ⟨.free, ⟨rfl, h4 rfl, .inl ⟨h2, h3⟩⟩, .inl hr⟩, i5, i6, i7⟩
      · simp at hn
  | isrStart hm hact =>
    have hfree : s.tx.take 6 = positionFrame ∧ IsrDma s ∧ a = .free := by
      cases a with
      | free => exact ⟨ha.2.1, ha.2.2, rfl⟩
      | leaving => exact absurd hm (by rw [ha.1]; simp)
      | held p g => exact absurd hm ha.1
      | busy n => exact absurd hm ha.1
    obtain ⟨htx, hd, rfl⟩ := hfree
    have hdn : s.dma = none := by
      rcases hd with h | ⟨h, _⟩
      · exact h.2
      · simp [h] at hact
    refine ⟨by simp [i1, hdn], i2, i3, ⟨.free, ⟨hm, htx, .inr ⟨rfl, _, rfl, rfl, htx, by simp⟩⟩, ?_⟩, ?_, i6, i7⟩
    · rcases hr with hr | ⟨h, _⟩
      · exact .inl hr
      · simp [hm] at h
    · intro f hf
      simp only [List.mem_cons, Prod.mk.injEq, true_and] at hf
      rcases hf with rfl | hf
      · exact htx
      · exact i5 f hf
  | isrFinish hact hend =>
    have hd : IsrDma s := by
      cases a with
      | free => exact ha.2.2
      | leaving => exact ha.2
      | held p g => exact absurd hact (by rw [ha.2.1]; simp)
      | busy n => exact absurd hact (by rw [ha.2.1]; simp)
    obtain ⟨tr, h1, h2, h3, h4⟩ : ∃ t, s.dma = some t ∧ t.owner = .isr ∧ t.frame = positionFrame ∧
        (t.ended = true → s.rx.take 6 = s.position ∧ s.position.length = 6 ∧ ∀ b ∈ s.position, b < 256) := by
      rcases hd with ⟨h, _⟩ | ⟨_, h⟩
      · simp [h] at hact
      · exact h
    have he := hend tr (by simp [h1])
    obtain ⟨h5, h6, h7⟩ := h4 he
    refine ⟨?_, i2, i3, ⟨a, ?_, ?_⟩, i5, ?_, .inr ⟨rfl, Nat.succ_pos _, h6, h7, ?_⟩⟩
    · simp [i1, h1, h2]
    · cases a with
      | free => exact ⟨ha.1, ha.2.1, .inl ⟨rfl, rfl⟩⟩
      | leaving => exact ⟨ha.1, .inl ⟨rfl, rfl⟩⟩
      | held p g => exact absurd hact (by rw [ha.2.1]; simp)
      | busy n => exact absurd hact (by rw [ha.2.1]; simp)
    · rcases hr with hr | ⟨h, _, rfl⟩
      · exact .inl hr
      · exact absurd hact (by rw [ha.2.1]; simp)
    · simp only [decode, i6]; omega
    · simp only [← h5, decode_take]
      simp only [decode, Status.mk.injEq, true_and]
      omega
  | answer tr r htr hend hrl hrb =>
    have hisr : IsrDma s → IsrDma { s with
        dma := some { tr with ended := true }, rx := overwrite s.rx r,
        answer := if tr.owner = .main then r else s.answer,
        position := if tr.owner = .isr then r else s.position } ∧ r.length ≤ 16 := by
      rintro (⟨_, h⟩ | ⟨h1, t', h2, h3, h4, _⟩)
      · rw [h] at htr; simp at htr
      · rw [htr] at h2
        obtain rfl : tr = t' := by simpa using h2
        rw [h4] at hrl
        have h6 : r.length = 6 := hrl
        refine ⟨.inr ⟨h1, _, rfl, h3, h4, fun _ => ?_⟩, by omega⟩
        simp only [h3, if_true]
        exact ⟨by rw [← h6]; exact overwrite_take _ _, h6, hrb⟩
    have hres : ∃ a : Abs, a.Means { s with
        dma := some { tr with ended := true }, rx := overwrite s.rx r,
        answer := if tr.owner = .main then r else s.answer,
        position := if tr.owner = .isr then r else s.position } ∧ r.length ≤ 16 ∧
        (a.run s.prog = some .free ∨ (s.mode = .warmup ∧ s.prog = [] ∧ a = .held false 0)) := by
      refine ⟨a, ?_⟩
      cases a with
      | free => exact ⟨⟨ha.1, ha.2.1, (hisr ha.2.2).1⟩, (hisr ha.2.2).2, hr⟩
      | leaving => exact ⟨⟨ha.1, (hisr ha.2).1⟩, (hisr ha.2).2, hr⟩
      | held p g => have := ha.2.2.1; rw [htr] at this; simp at this
      | busy n =>
        obtain ⟨h1, h2, t', h3, h4, h5, h6, _⟩ := ha
        rw [htr] at h3
        obtain rfl : tr = t' := by simpa using h3
        have hn : r.length = n := hrl.trans h5
        refine ⟨⟨h1, h2, _, rfl, h4, h5, h6, fun _ => ?_⟩, by omega, hr⟩
        simp only [h4, if_true]
        rw [← hn, overwrite_take, List.take_length]
    obtain ⟨b, hb, hlen, hrun⟩ := hres
    refine ⟨i1, i2, ?_, ⟨b, hb, hrun⟩, i5, i6, i7⟩
    simp only
    rw [overwrite_length _ _ (by omega)]
    exact i3

theorem Inv.reach {s : State} (h : Reach s) : Inv s := by
  induction h with
  | refl => exact Inv.init
  | tail _ hs ih => exact ih.step hs

/-! ## Theorems -/

/-- The number that an answer to the position frame carries: after the echo of the command come 24 bits, most
significant first, then a byte whose two top bits are error and warning, then the CRC. -/
def Says (r : List ℕ) (value : ℕ) (err warn : Bool) : Prop :=
  ∃ e b2 b1 b0 x c, r = [e, b2, b1, b0, x, c] ∧ value = b2 * 65536 + b1 * 256 + b0 ∧
    err = x.testBit 7 ∧ warn = x.testBit 6

/-- **C80, one user of the bus.**  Whatever the main loop does and whenever the interrupt runs: no transfer is
started and the transmit buffer is not changed during another transfer, the main loop reads only answers to
its own last transfer, and the interrupt sends nothing but requests for the position. -/
theorem C80_exclusive {s : State} (h : Reach s) :
    s.broken = false ∧ ∀ f, (Owner.isr, f) ∈ s.sent → f = positionFrame :=
  ⟨(Inv.reach h).sound, (Inv.reach h).frames⟩

/-- **C80, no deadlock.**  The main loop never waits forever for the interrupt or the hardware: from every
state in which it has something to do, ends of transfers and calls of the interrupt lead to a state in which
its next operation can be carried out. -/
theorem C80_no_deadlock {s : State} (h : Reach s) {o : Op} {l : List Op} (hp : s.prog = o :: l) :
    ∃ t, ReflTransGen Step s t ∧ t.prog = o :: l ∧ ∃ u, t.exec o = some u := by
  obtain ⟨i1, i2, i3, ⟨a, ha, hr⟩, -⟩ := Inv.reach h
  have hr : a.run (o :: l) = some .free := by
    rcases hr with hr | ⟨_, h, _⟩
    · rwa [hp] at hr
    · rw [h] at hp; simp at hp
  cases o with
  | setMode m => exact ⟨s, .refl, hp, _, rfl⟩
  | setTx m => exact ⟨s, .refl, hp, _, rfl⟩
  | start n => exact ⟨s, .refl, hp, _, rfl⟩
  | copy n => exact ⟨s, .refl, hp, _, rfl⟩
  | wait =>
    have hd : IsrDma s := by
      cases a with
      | free => exact ha.2.2
      | leaving => exact ha.2
      | held p g => exact .inl ⟨ha.2.1, ha.2.2.1⟩
      | busy n => simp [Abs.run, Abs.next] at hr
    rcases hd with ⟨hact, _⟩ | ⟨hact, t, hdma, _, hf, _⟩
    · exact ⟨s, .refl, hp, s, by simp [State.exec, hact]⟩
    · have fin : ∀ u : State, u.active = true → (∀ t ∈ u.dma, t.ended = true) → u.prog = .wait :: l →
          ∃ v, Step u v ∧ v.prog = .wait :: l ∧ ∃ w, v.exec .wait = some w := fun u h1 h2 h3 =>
        ⟨_, .isrFinish u h1 h2, h3, _, by simp [State.exec]; rfl⟩
      cases he : t.ended with
      | true =>
        obtain ⟨v, h1, h2⟩ := fin s hact (by simp [hdma, he]) hp
        exact ⟨v, .single h1, h2⟩
      | false =>
        obtain ⟨m, h0, m1, m2, m3⟩ : ∃ m, Step s m ∧ m.active = true ∧ (∀ t ∈ m.dma, t.ended = true) ∧
            m.prog = .wait :: l :=
          ⟨_, .answer s t (List.replicate t.frame.length 0) hdma he (by simp) (by simp), hact, by simp, hp⟩
        obtain ⟨v, h1, h2⟩ := fin m m1 m2 m3
        exact ⟨v, (ReflTransGen.single h0).tail h1, h2⟩
  | finish =>
    have hd : ∃ t, s.dma = some t := by
      cases a with
      | free => simp [Abs.run, Abs.next] at hr
      | leaving => simp [Abs.run, Abs.next] at hr
      | held p g => simp [Abs.run, Abs.next] at hr
      | busy n => obtain ⟨_, _, t, h3, _⟩ := ha; exact ⟨t, h3⟩
    obtain ⟨t, hdma⟩ := hd
    cases he : t.ended with
    | true => exact ⟨s, .refl, hp, _, by simp [State.exec, hdma, he]; rfl⟩
    | false =>
      have h0 := Step.answer s t (List.replicate t.frame.length 0) hdma he (by simp) (by simp)
      exact ⟨_, .single h0, hp, _, by simp [State.exec]; rfl⟩

theorem or_bytes (a b c : ℕ) (hb : b < 256) (hc : c < 256) :
    (a <<< 16) ||| (b <<< 8) ||| (c <<< 0) = a * 65536 + b * 256 + c := by
  have h1 : (a <<< 16) ||| (b <<< 8) = (a * 256 + b) <<< 8 := by
    have e : a <<< 16 = (a <<< 8) <<< 8 := by simp only [Nat.shiftLeft_eq]; ring
    rw [e, ← Nat.shiftLeft_or_distrib, ← Nat.shiftLeft_add_eq_or_of_lt (by simpa using hb)]
    simp only [Nat.shiftLeft_eq]
  rw [h1, Nat.shiftLeft_zero, ← Nat.shiftLeft_add_eq_or_of_lt (by simpa using hc), Nat.shiftLeft_eq]
  ring

theorem and_bit (x i : ℕ) : decide (x &&& 2 ^ i ≠ 0) = x.testBit i := by
  rw [Nat.and_two_pow]
  cases x.testBit i <;> simp

/-- **C80, positions.**  As soon as the encoder is reported as active, value, error and warning are those of
the last answer to a request for the position that the interrupt has fetched, with all 24 bits, and the
counter tells how many were fetched. -/
theorem C80_position {s : State} (h : Reach s) :
    (s.status.active = true → Says s.reported s.status.value s.status.err s.status.warn) ∧
    (s.status.active = true ↔ 0 < s.samples) ∧ s.status.nonce = s.samples % 256 := by
  obtain ⟨-, -, -, -, -, hc, ht⟩ := Inv.reach h
  refine ⟨fun ha => ?_, ?_, hc⟩
  · rcases ht with ⟨_, h⟩ | ⟨_, _, hl, hb, hs⟩
    · simp [h] at ha
    · match hrep : s.reported, hl with
      | [e, b2, b1, b0, x, c], _ =>
        rw [hrep] at hs hb
        refine ⟨e, b2, b1, b0, x, c, rfl, ?_, ?_, ?_⟩
        · have := congrArg Status.value hs
          rw [this]
          exact or_bytes b2 b1 b0 (hb _ (by simp)) (hb _ (by simp))
        · have := congrArg Status.err hs
          rw [this]
          exact and_bit x 7
        · have := congrArg Status.warn hs
          rw [this]
          exact and_bit x 6
  · rcases ht with ⟨h1, h2⟩ | ⟨h1, h2, _⟩
    · simp [h1, h2]
    · simp [h1, h2]

/-! ## Fields of the diagnosis -/

/-- The two bytes of `Status` that the diagnosis fills besides single bits (ic_pz.h:167-168). -/
def analog (rx : List ℕ) (s : ℕ × ℕ) : ℕ × ℕ :=
  let s := (rx.getD 3 0, s.2)
  let s := (rx.getD 4 0, s.2)
  s

/-- **C80, refuted: the analog and digital values of the diagnosis.**  The fourth byte of the answer is
overwritten by the fifth in `adi`, and `dig` never changes, so that they are not the two bytes of the
answer. -/
theorem C80_diagnosis_refuted :
    (∀ rx s, (analog rx s).2 = s.2) ∧ ¬ ∀ rx, rx.length = 5 → ∀ s, analog rx s = (rx.getD 3 0, rx.getD 4 0) :=
  ⟨fun _ _ => rfl, fun h => absurd (h [0x9c, 0, 0, 1, 2] rfl (0, 0)) (by decide)⟩

/-- `ai_phases_int`, `ai_scales_int` (ic_pz.h:187-197): the conversion to `int16_t` and the arithmetic
shift. -/
def aiInt (lo hi : ℕ) : ℤ :=
  let v : ℤ := (((hi <<< 8) ||| (lo <<< 0) : ℕ) : ℤ)
  let v := if v ≥ 32768 then v - 65536 else v
  v.fdiv 64

/-- **C80, calibration values.**  They are the ten upper bits of the two bytes as a signed number. -/
theorem C80_signed (lo hi : ℕ) (hl : lo < 256) (hh : hi < 256) :
    -512 ≤ aiInt lo hi ∧ aiInt lo hi < 512 ∧
    aiInt lo hi % 1024 = ((hi * 4 + lo / 64 : ℕ) : ℤ) := by
  have e : (hi <<< 8) ||| (lo <<< 0) = hi * 256 + lo := by
    have := or_bytes 0 hi lo hh hl
    simpa using this
  unfold aiInt
  rw [e]
  simp only [Int.fdiv_eq_ediv_of_nonneg _ (show (0 : ℤ) ≤ 64 by norm_num)]
  push_cast
  split_ifs <;> omega

/-! ## Commands of the console -/

/-- What a command does. -/
inductive Outcome
  /-- An error message. -/
  | refused
  /-- So many bytes are read. -/
  | reads (reg n : ℕ)
  /-- These bytes are written. -/
  | writes (reg : ℕ) (data : List ℕ)
  /-- An assertion fails: the controller stops. -/
  | stops
  /-- So many bytes of memory are cleared, starting in a buffer of 16 bytes. -/
  | clears (n : ℕ)
  deriving DecidableEq

/-- `ic-rd` with a valid register and the number given or 1 (aux_port.h:562-571), outside of `kWarmup`, with
the assertion and the `memset` of `ReadRegisters` (ic_pz.h:72-73).  The size of a `string_span` is
signed. -/
def icRd (reg : ℕ) (size : ℤ) : Outcome :=
  if size ≥ 16 then .refused
  else if ¬ (size + 3 < 16) then .stops
  else if size < 0 then .clears (2 ^ 32 - size.natAbs)
  else .reads reg size.toNat

/-- `ParseHexNybble` (aux_port.h:1277-1282). -/
def hexNybble (c : Char) : Option ℕ :=
  if '0' ≤ c ∧ c ≤ '9' then some (c.toNat - '0'.toNat)
  else if 'a' ≤ c ∧ c ≤ 'f' then some (c.toNat - 'a'.toNat + 10)
  else if 'A' ≤ c ∧ c ≤ 'F' then some (c.toNat - 'A'.toNat + 10)
  else none

/-- `ParseHexByte` (aux_port.h:1284-1290). -/
def hexByte (a b : Char) : Option ℕ := do
  let h ← hexNybble a
  let l ← hexNybble b
  some ((h <<< 4) ||| l)

/-- The loop over the data of `ic-wr` (aux_port.h:521-534); `beyond` is the character after the token, which
is read when their number is odd.  `none`: an error message. -/
def icData (beyond : Char) : List Char → List ℕ → Option (List ℕ)
  | [], acc => some acc
  | [a], acc => match hexByte a beyond with
    | none => none
    | some v => if (acc ++ [v]).length ≥ 16 then none else some (acc ++ [v])
  | a :: b :: l, acc => match hexByte a b with
    | none => none
    | some v => if (acc ++ [v]).length ≥ 16 then none else icData beyond l (acc ++ [v])

/-- `ic-wr` with a valid register (aux_port.h:516-537), with the assertion of `WriteRegisters`
(ic_pz.h:90). -/
def icWr (reg : ℕ) (beyond : Char) (text : List Char) : Outcome :=
  match icData beyond text [] with
  | none => .refused
  | some data => if ¬ (data.length + 2 < 16) then .stops else .writes reg data

/-- **C80, reading registers.** -/
theorem C80_read_partial (reg : ℕ) (size : ℤ) :
    (size ≥ 16 → icRd reg size = .refused) ∧
    (0 ≤ size → size ≤ 12 → icRd reg size = .reads reg size.toNat) := by
  refine ⟨fun h => by simp [icRd, h], fun h0 h1 => ?_⟩
  unfold icRd
  rw [if_neg (by omega), if_neg (by omega), if_neg (by omega)]

/-- **C80, refuted: commands to read registers.**  A size of 13, 14 or 15 stops the controller, and a
negative one lets it clear memory beyond the buffer. -/
theorem C80_read_refuted (reg : ℕ) (size : ℤ) :
    (13 ≤ size → size ≤ 15 → icRd reg size = .stops) ∧
    (size < 0 → icRd reg size = .clears (2 ^ 32 - size.natAbs)) := by
  refine ⟨fun h0 h1 => ?_, fun h0 => ?_⟩
  · unfold icRd; rw [if_neg (by omega), if_pos (by omega)]
  · unfold icRd; rw [if_neg (by omega), if_neg (by omega), if_pos h0]

/-- The two digits of a byte. -/
def digits (b : ℕ) : List Char := [Nat.digitChar (b / 16), Nat.digitChar (b % 16)]

theorem hexByte_digits : ∀ b < 256, hexByte (Nat.digitChar (b / 16)) (Nat.digitChar (b % 16)) = some b := by
  decide +kernel

theorem icData_digits (beyond : Char) (d acc : List ℕ) (hd : ∀ b ∈ d, b < 256) (ha : acc.length < 16) :
    icData beyond (d.flatMap digits) acc =
      if acc.length + d.length < 16 then some (acc ++ d) else none := by
  induction d generalizing acc with
  | nil => simp [icData, ha]
  | cons b d ih =>
    have hb := hexByte_digits b (hd b (by simp))
    rw [List.flatMap_cons]
    simp only [digits, List.cons_append, List.nil_append, icData, hb]
    by_cases h : (acc ++ [b]).length ≥ 16
    · rw [if_pos h, if_neg]
      simp at h ⊢; omega
    · rw [if_neg h, ih (acc ++ [b]) (fun x hx => hd x (by simp [hx])) (by omega)]
      simp only [List.length_append, List.length_cons, List.length_nil, List.append_assoc, List.cons_append,
        List.nil_append]
      congr 1
      rw [eq_iff_iff]; omega

/-- **C80, writing registers.**  Up to 13 bytes are written as given, from 16 bytes on the command is
refused. -/
theorem C80_write_partial (reg : ℕ) (beyond : Char) (d : List ℕ) (hd : ∀ b ∈ d, b < 256) :
    (d.length ≤ 13 → icWr reg beyond (d.flatMap digits) = .writes reg d) ∧
    (16 ≤ d.length → icWr reg beyond (d.flatMap digits) = .refused) := by
  have := icData_digits beyond d [] hd (by simp)
  simp only [List.length_nil, Nat.zero_add, List.nil_append] at this
  refine ⟨fun h => ?_, fun h => ?_⟩
  · unfold icWr; rw [this, if_pos (by omega)]; simp only; rw [if_neg (by omega)]
  · unfold icWr; rw [this, if_neg (by omega)]

/-- **C80, refuted: commands to write registers.**  With 14 or 15 bytes the controller stops. -/
theorem C80_write_refuted (reg : ℕ) (beyond : Char) (d : List ℕ) (hd : ∀ b ∈ d, b < 256)
    (h : d.length = 14 ∨ d.length = 15) : icWr reg beyond (d.flatMap digits) = .stops := by
  have := icData_digits beyond d [] hd (by simp)
  simp only [List.length_nil, Nat.zero_add, List.nil_append] at this
  unfold icWr; rw [this, if_pos (by omega)]; simp only; rw [if_pos (by omega)]

example : icWr 0x10 '\n' "0a1bFF".toList = .writes 0x10 [0x0a, 0x1b, 0xff] := by decide +kernel

/-! ## What the main loop sends -/

/-- The frames of a program, given the transmit buffer. -/
def planned : List ℕ → List Op → List (List ℕ)
  | _, [] => []
  | tx, .setTx l :: p => planned (overwrite tx l) p
  | tx, .start n :: p => tx.take n :: planned tx p
  | tx, _ :: p => planned tx p

/-- The frames that the main loop has sent, in order. -/
def State.mainSent (s : State) : List (List ℕ) :=
  (s.sent.filterMap fun p => if p.1 = .main then some p.2 else none).reverse

/-- Steps during a call of the main loop. -/
def During (a b : State) : Prop := Step a b ∧ ¬ (a.prog = [] ∧ b.prog ≠ [])

theorem During.planned {a b : State} (h : During a b) :
    b.mainSent ++ planned b.tx b.prog = a.mainSent ++ planned a.tx a.prog := by
  obtain ⟨h, hn⟩ := h
  cases h with
  | call l hp hl =>
    have : l = [] := by_contra fun hne => hn ⟨hp, hne⟩
    subst this
    simp [State.mainSent, hp]
  | main t o l hp ht =>
    rw [hp]
    cases o with
    | setMode m => simp only [State.exec, Option.some.injEq] at ht; subst ht; rfl
    | wait =>
      simp only [State.exec] at ht
      split at ht
      · simp at ht
      · simp only [Option.some.injEq] at ht; subst ht; rfl
    | setTx m => simp only [State.exec, Option.some.injEq] at ht; subst ht; rfl
    | start n =>
      simp only [State.exec, Option.some.injEq] at ht; subst ht
      simp [State.mainSent, IcPz.planned]
    | finish =>
      simp only [State.exec] at ht
      split at ht
      · simp at ht
      · split at ht
        · simp only [Option.some.injEq] at ht; subst ht; rfl
        · simp at ht
    | copy n => simp only [State.exec, Option.some.injEq] at ht; subst ht; rfl
  | isrStart => simp [State.mainSent]
  | isrFinish => rfl
  | answer => rfl

/-- What each call has to send. -/
inductive Sends : List Op → List (List ℕ) → Prop
  | command (cmd : ℕ) : Sends (startCommand cmd) [[0xd9, cmd]]
  | read (reg n : ℕ) : Sends (readRegisters reg n) [0x81 :: reg :: 0 :: List.replicate n 0]
  | write (reg : ℕ) (data : List ℕ) : Sends (writeRegisters reg data) [0xcf :: reg :: data]
  /-- The register with the state of the command, the diagnosis, and two calibration values of bank 1. -/
  | poll (cmd diag cal : Bool) : Sends
      ((if cmd then pollCommand else []) ++ (if diag then pollDiagnosis else []) ++
        (if cal then pollCalibration else []))
      ((if cmd then [[0x81, 0x76, 0, 0, 0]] else []) ++ (if diag then [[0x9c, 0, 0, 0, 0]] else []) ++
        (if cal then [[0xcf, 0x40, 1], [0x81, 0x28, 0, 0, 0, 0, 0]] else []))
  | init : Sends (initializeOps ++ [.setMode .operating])
      [[0xcf, 0x40, 0], [0xcf, 1, 1], [0xcf, 0x40, 7], [0xcf, 8, 0x18], [0xcf, 0x40, 7], [0xcf, 9, 0]]

theorem take_overwrite (buf l : List ℕ) (n : ℕ) (h : n = l.length) : (overwrite buf l).take n = l := by
  rw [h, overwrite_take]

theorem Sends.planned {l : List Op} {f : List (List ℕ)} (h : Sends l f) (tx : List ℕ) :
    planned tx l = f := by
  cases h with
  | command cmd =>
    simp [startCommand, exitOperating, dmaTransfer, enterOperating, IcPz.planned, take_overwrite]
  | read reg n =>
    simp only [readRegisters, exitOperating, dmaTransfer, enterOperating, IcPz.planned, List.cons_append,
      List.nil_append]
    rw [take_overwrite _ _ _ (by simp; omega)]
  | write reg data =>
    simp only [writeRegisters, exitOperating, dmaTransfer, enterOperating, IcPz.planned, List.cons_append,
      List.nil_append]
    rw [take_overwrite _ _ _ (by simp; omega)]
  | poll c d k =>
    cases c <;> cases d <;> cases k <;>
    simp [pollCommand, pollDiagnosis, pollCalibration, writeRegister, exitOperating, dmaTransfer,
      enterOperating, IcPz.planned, take_overwrite]
  | init =>
    simp [initializeOps, writeRegister, dmaTransfer, IcPz.planned, take_overwrite]

/-- **C80, what is sent.**  When a call of the main loop has ended, it has sent its frames, in this order, and
nothing else, whatever the interrupt did meanwhile. -/
theorem C80_frames {s t : State} {l : List Op} {f : List (List ℕ)} (hf : Sends l f)
    (hrun : ReflTransGen During { s with prog := l } t) (ht : t.prog = []) :
    t.mainSent = s.mainSent ++ f := by
  have : t.mainSent ++ planned t.tx t.prog = s.mainSent ++ planned s.tx l := by
    clear ht
    induction hrun with
    | refl => rfl
    | tail _ h ih => rw [h.planned, ih]
  rwa [ht, hf.planned, planned, List.append_nil] at this

/-- Lets the main loop proceed without interrupt; answers of the encoder are zeros. -/
def forward : ℕ → State → State
  | 0, s => s
  | n + 1, s => match s.prog with
    | [] => s
    | o :: l => match s.exec o with
      | some t => forward n { t with prog := l }
      | none => match s.dma with
        | none => s
        | some t => if t.ended then s else forward n { s with
            dma := some { t with ended := true }, rx := overwrite s.rx (List.replicate t.frame.length 0),
            answer := if t.owner = .main then List.replicate t.frame.length 0 else s.answer,
            position := if t.owner = .isr then List.replicate t.frame.length 0 else s.position }

theorem forward_steps (n : ℕ) (s : State) : ReflTransGen During s (forward n s) := by
  induction n generalizing s with
  | zero => exact .refl
  | succ n ih =>
    unfold forward
    split
    · exact .refl
    · next o l hp =>
      split
      · next t ht => exact .head ⟨.main s t o l hp ht, by simp [hp]⟩ (ih _)
      · split
        · exact .refl
        · next t hd =>
          split
          · exact .refl
          · next he =>
            exact .head ⟨.answer s t _ hd (by simpa using he) (by simp) (by simp), by simp⟩ (ih _)

theorem During.steps {a b : State} (h : ReflTransGen During a b) : ReflTransGen Step a b := by
  induction h with
  | refl => exact .refl
  | tail _ h ih => exact ih.tail h.1

/-- After the initialisation. -/
def ready : State := forward 100 { prog := initializeOps ++ [.setMode .operating] }

theorem ready_reach : Reach ready :=
  .head (.call {} _ rfl .init) (During.steps (forward_steps _ _))

/-- An execution in which the main loop asks for registers while the interrupt has a request under way: it
waits, and afterwards one position is reported and the registers were read. -/
def waiting : State :=
  forward 1 { ready with
    dma := some ⟨.isr, ready.tx.take 6, false⟩, active := true, broken := ready.broken || ready.dma.isSome,
    sent := (.isr, ready.tx.take 6) :: ready.sent, prog := readRegisters 0x10 2 }

theorem waiting_reach : Reach waiting :=
  ((ready_reach.tail (.isrStart ready (by decide +kernel) (by decide +kernel))).tail
    (.call _ (readRegisters 0x10 2) (by decide +kernel)
      (.read _ (by decide +kernel) _ _ (by norm_num)))).trans
    (During.steps (forward_steps _ _))

example : Reach waiting ∧ waiting.active = true ∧ waiting.mode = .command ∧
    waiting.prog.head? = some .wait ∧ waiting.sent.length = 7 :=
  ⟨waiting_reach, by decide +kernel, by decide +kernel, by decide +kernel, by decide +kernel⟩

/-- A position was read: the hypotheses of `C80_position`. -/
example : ∃ s, Reach s ∧ s.status.active = true ∧ s.status.value = 0x123456 ∧ s.status.err = true ∧
    s.status.warn = false := by
  have h1 := ready_reach.tail (.isrStart ready (by decide +kernel) (by decide +kernel))
  have h2 := h1.tail (.answer _ _ [0xa6, 0x12, 0x34, 0x56, 0x80, 0] rfl rfl (by decide +kernel) (by decide))
  have h3 := h2.tail (.isrFinish _ rfl (by simp))
  exact ⟨_, h3, rfl, by decide +kernel, by decide +kernel, by decide +kernel⟩

/-- The hypotheses of `C80_frames`. -/
example : ∃ t, ReflTransGen During { ready with prog := readRegisters 0x10 2 } t ∧ t.prog = [] :=
  ⟨_, forward_steps 100 _, by decide +kernel⟩

end Verif.Fw.IcPz
