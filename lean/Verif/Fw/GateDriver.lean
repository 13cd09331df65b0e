import Mathlib.Data.List.Basic
import Mathlib.Data.Nat.Bitwise
import Mathlib.Tactic.IntervalCases

/-!
# The gate driver

Model of `fw/drv8323.cc`: the registers of the DRV8323 or DRV8353, how they are written and
verified, how the driver is enabled, and what counts as a fault.

The chip is modelled after its data sheets as far as the theorems need it: registers of 11
bits that answer one millisecond after ENABLE went high, and are reset when it goes low.
Registers 0 and 1 are its fault status.  Not modelled: the wires of the bus
(`fw/stm32_bitbang_spi.h`), the LOCK field beyond storage, the duration of transfers, the
counters in the status.

Property C100.
-/

namespace Verif.Fw.Gate

/-! ## Model -/

/-- `g_measured_hw_family`, `g_measured_hw_rev` -/
structure Board where
  family : ℕ
  rev : ℕ

/-- `Drv8323::Config` (`fw/drv8323.h` 188-318) -/
structure Config where
  disCpuv : Bool := false
  disGdf : Bool := false
  otwRep : Bool := false
  pwmMode : Fin 4 := 1
  pwmAsync : Bool := false
  pwmDir : Bool := false
  idrivepHs : ℕ
  idrivenHs : ℕ
  cbc : Bool := true
  tdrive : ℕ := 1000
  idrivepLs : ℕ
  idrivenLs : ℕ
  tretry : Bool := false
  deadTime : ℕ
  ocpMode : Fin 4 := 0
  ocpDeg : ℕ := 4
  vdsLvl : ℕ
  csaFet : Bool := false
  vrefDiv : Bool := true
  lsRef : Bool := false
  csaGain : ℕ := 20
  disSen : Bool := false
  senLvl : ℕ := 500

/-- The defaults (`fw/drv8323.h` 188-279), of families 0 to 2. -/
def Config.default (b : Board) : Config where
  idrivepHs := if b.family = 0 then (if b.rev ≤ 6 then 370 else if b.rev ≤ 7 then 50 else 100)
    else if b.family = 1 then 150 else 80
  idrivenHs := if b.family = 0 then (if b.rev ≤ 6 then 740 else if b.rev ≤ 7 then 100 else 200)
    else if b.family = 1 then 300 else 60
  idrivepLs := if b.family = 0 then (if b.rev ≤ 6 then 370 else if b.rev ≤ 7 then 50 else 100)
    else if b.family = 1 then 150 else 60
  idrivenLs := if b.family = 0 then (if b.rev ≤ 6 then 740 else if b.rev ≤ 7 then 100 else 200)
    else if b.family = 1 then 300 else 20
  deadTime := if b.family = 0 then (if b.rev ≤ 6 then 50 else if b.rev ≤ 7 then 200 else 50) else 50
  vdsLvl := if b.family = 0 then (if b.rev ≤ 5 then 260 else if b.rev ≤ 7 then 450 else 700) else 700

/-- `drv8323` (lines 268-270). -/
def is8323 (b : Board) : Bool := (b.family = 0 && b.rev ≤ 6) || b.family = 1

/-- Tables of `WriteConfig` (lines 272-324). -/
def idrivep8323 : List ℕ := [10, 30, 60, 80, 120, 140, 170, 190, 260, 330, 370, 440, 570, 680, 820, 1000]
def idrivep8353 : List ℕ := [50, 50, 100, 150, 300, 350, 400, 450, 550, 600, 650, 700, 850, 900, 950, 1000]
def idriven8323 : List ℕ := [20, 60, 120, 160, 240, 280, 340, 380, 520, 660, 740, 880, 1140, 1360, 1640, 2000]
def idriven8353 : List ℕ :=
  [100, 100, 200, 300, 600, 700, 800, 900, 1100, 1200, 1300, 1400, 1700, 1800, 1900, 2000]
def tdriveTable : List ℕ := [500, 1000, 2000, 4000]
def deadTable : List ℕ := [50, 100, 200, 400]
def deglitch8323 : List ℕ := [2, 4, 6, 8]
def deglitch8353 : List ℕ := [1, 2, 4, 8]
def vds8323 : List ℕ := [60, 130, 200, 260, 310, 450, 530, 600, 680, 750, 940, 1130, 1300, 1500, 1700, 1880]
def vds8353 : List ℕ := [60, 70, 80, 90, 100, 200, 300, 400, 500, 600, 700, 800, 900, 1000, 1500, 2000]
def gainTable : List ℕ := [5, 10, 20, 40]
def senTable : List ℕ := [250, 500, 750, 1000]

/-- The loop of `map_choice` (lines 327-329), from entry `i` on. -/
def choiceFrom (x : ℕ) : ℕ → List ℕ → Option ℕ
  | _, [] => none
  | i, y :: l => if x ≤ y then some i else choiceFrom x (i + 1) l

/-- `map_choice` (lines 326-331) -/
def mapChoice (table : List ℕ) (x : ℕ) : ℕ := (choiceFrom x 0 table).getD (table.length - 1)

/-- `bit` (lines 264-266) -/
def bit (v : Bool) (pos : ℕ) : ℕ := (if v then 1 else 0) <<< pos

/-- `reg2` (lines 335-346) -/
def word2 (old : Bool) (cpuv gdf otw : Bool) (pwm : ℕ) (async dir : Bool) : ℕ :=
  (if old then 0 else bit true 10) ||| bit cpuv 9 ||| bit gdf 8 ||| bit otw 7 ||| (pwm <<< 5) ||| bit async 4 |||
    bit dir 3

/-- `reg3` (lines 348-353), from the choices. -/
def word3 (p n : ℕ) : ℕ := (3 <<< 8) ||| (p <<< 4) ||| (n <<< 0)

/-- `reg4` (lines 355-361) -/
def word4 (cbc : Bool) (t p n : ℕ) : ℕ := bit cbc 10 ||| (t <<< 8) ||| (p <<< 4) ||| (n <<< 0)

/-- `reg5` (lines 363-370) -/
def word5 (retry : Bool) (dead ocp deg vds : ℕ) : ℕ :=
  bit retry 10 ||| (dead <<< 8) ||| (ocp <<< 6) ||| (deg <<< 4) ||| (vds <<< 0)

/-- `reg6` (lines 372-378) -/
def word6 (fet div ls : Bool) (gain : ℕ) (dis : Bool) (sen : ℕ) : ℕ :=
  bit fet 10 ||| bit div 9 ||| bit ls 8 ||| (gain <<< 6) ||| bit dis 5 ||| (sen <<< 0)

/-- `reg7` (lines 380-383) -/
def word7 (old : Bool) : ℕ := if old then 0 else bit true 0

/-- `regs` (lines 335-385); note the table for `idriven_ls_ma` (line 360). -/
def words (b : Board) (c : Config) (i : ℕ) : ℕ :=
  let old := is8323 b
  match i with
  | 2 => word2 old c.disCpuv c.disGdf c.otwRep c.pwmMode c.pwmAsync c.pwmDir
  | 3 => word3 (mapChoice (if old then idrivep8323 else idrivep8353) c.idrivepHs)
      (mapChoice (if old then idriven8323 else idriven8353) c.idrivenHs)
  | 4 => word4 c.cbc (mapChoice tdriveTable c.tdrive)
      (mapChoice (if old then idrivep8323 else idrivep8353) c.idrivepLs)
      (mapChoice (if old then idriven8323 else idrivep8353) c.idrivenLs)
  | 5 => word5 c.tretry (mapChoice deadTable c.deadTime) c.ocpMode
      (mapChoice (if old then deglitch8323 else deglitch8353) c.ocpDeg)
      (mapChoice (if old then vds8323 else vds8353) c.vdsLvl)
  | 6 => word6 c.csaFet c.vrefDiv c.lsRef (mapChoice gainTable c.csaGain) c.disSen (mapChoice senTable c.senLvl)
  | 7 => word7 old
  | _ => 0

section Spi
variable {σ : Type} (tr : σ → ℕ → σ × ℕ)

/-- `Read` (lines 127-131); `tr` is one transfer of 16 bits. -/
def readReg (s : σ) (i : ℕ) : σ × ℕ := ((tr s (0x8000 ||| (i <<< 11))).1, (tr s (0x8000 ||| (i <<< 11))).2 &&& 0x7ff)

/-- `Write` (lines 133-136) -/
def writeReg (s : σ) (i v : ℕ) : σ := (tr s ((i <<< 11) ||| (v &&& 0x7ff))).1

/-- The first loop of `WriteConfig` (lines 388-390). -/
def writeAll (w : ℕ → ℕ) : List ℕ → σ → σ
  | [], s => s
  | i :: l, s => writeAll w l (writeReg tr s i (w i))

/-- The second loop of `WriteConfig` (lines 392-400). -/
def verifyAll (w : ℕ → ℕ) : List ℕ → σ → ℕ → σ × ℕ
  | [], s, f => (s, f)
  | i :: l, s, f =>
    verifyAll w l (readReg tr s i).1 (if (readReg tr s i).2 ≠ w i then f ||| (1 <<< i) else f)

/-- `WriteConfig` (lines 263-404): the device after it and `fault_config`. -/
def writeConfig (w : ℕ → ℕ) (s : σ) : σ × ℕ :=
  verifyAll tr w [2, 3, 4, 5, 6, 7] (writeAll tr w [2, 3, 4, 5, 6, 7] s) 0

/-- `StartCalibrate` (lines 230-243) -/
def startCalibrate (s : σ) : σ :=
  (tr (readReg tr s 6).1 ((6 <<< 11) ||| ((readReg tr s 6).2 ||| 0x1c))).1

/-- `StopCalibrate` (lines 245-250); `~0x1c` in 16 bits. -/
def stopCalibrate (s : σ) : σ :=
  (tr (readReg tr s 6).1 ((6 <<< 11) ||| ((readReg tr s 6).2 &&& 0xffe3))).1

/-- `FinishCalibrate` (lines 252-261) -/
def finishCalibrate (s : σ) : σ × Bool :=
  ((readReg tr s 6).1, ((readReg tr s 6).2 &&& 0x1c) = 0)

end Spi

/-- The chip: when ENABLE went high, and its registers. -/
structure Chip where
  on : Option ℕ
  regs : ℕ → ℕ

/-- It answers one millisecond after ENABLE went high. -/
def Chip.ready (c : Chip) (now : ℕ) : Bool :=
  match c.on with
  | none => false
  | some t => t + 1000 ≤ now

/-- A transfer; without answer the pull up of MISO gives ones. -/
def Chip.transfer (now : ℕ) (c : Chip) (w : ℕ) : Chip × ℕ :=
  if c.ready now then
    if 0x8000 ≤ w then (c, c.regs (w / 2048 % 16))
    else ({ c with regs := fun i => if i = w / 2048 then w % 2048 else c.regs i }, c.regs (w / 2048))
  else (c, 0xffff)

/-- ENABLE is written; low resets the registers to `reset`. -/
def Chip.enable (reset : ℕ → ℕ) (now : ℕ) (value : Bool) (c : Chip) : Chip :=
  if value then { c with on := some (c.on.getD now) } else { on := none, regs := reset }

/-- `MotorDriver::EnableResult` (`fw/motor_driver.h` 21-28) -/
inductive EState
  | disabled | enabled | enabling1 | enabling2 | enabling3 | calibrateFailed
  deriving DecidableEq

/-- The members of `Drv8323::Impl` (lines 406-420) with the chip and the time in µs. -/
structure St where
  cfg : Config
  st : EState
  startUs : ℕ
  faultConfig : ℕ
  /-- `status_.fault`, `fsr1`, `fsr2` -/
  fault : Bool
  fsr1 : ℕ
  fsr2 : ℕ
  loop : ℕ
  chip : Chip
  now : ℕ

/-- `subtract_us` of the timer with 32 bits (`fw/millisecond_timer.h` 66-72). -/
def subtractUs (a b : ℕ) : ℕ := (a + 2 ^ 32 - b) % 2 ^ 32

/-- What `StartEnable` does in `kEnabling1` once the time has passed (lines 94-96), but
for the assignments of `enable_state_`. -/
def setUp (b : Board) (s : St) : St :=
  let r := writeConfig (Chip.transfer s.now) (words b s.cfg) s.chip
  { s with faultConfig := r.2, chip := startCalibrate (Chip.transfer s.now) r.1 }

/-- The `switch` of `StartEnable` (lines 84-121). -/
def enableStep (b : Board) (s : St) : St :=
  match s.st with
  | .disabled => { s with startUs := s.now % 2 ^ 32, st := .enabling1 }
  | .enabling1 =>
    if 1000 < subtractUs (s.now % 2 ^ 32) s.startUs then { setUp b s with st := .enabling2 } else s
  | .enabling2 => { s with chip := stopCalibrate (Chip.transfer s.now) s.chip, st := .enabling3 }
  | .enabling3 =>
    let r := finishCalibrate (Chip.transfer s.now) s.chip
    { s with chip := r.1, st := if r.2 then .enabled else .calibrateFailed }
  | .enabled => s
  | .calibrateFailed => s

/-- `StartEnable` (lines 77-125) -/
def startEnable (b : Board) (reset : ℕ → ℕ) (value : Bool) (s : St) : St :=
  let s := { s with chip := s.chip.enable reset s.now value }
  if value then enableStep b s else { s with st := .disabled, faultConfig := 0 }

/-- `HandleConfigUpdate` (lines 211-228): the limits. -/
def limited (b : Board) (c : Config) : Config :=
  if b.family = 0 ∧ b.rev = 7 then
    { c with
      idrivepHs := min c.idrivepHs 50
      idrivenHs := min c.idrivenHs 100
      idrivepLs := min c.idrivepLs 50
      idrivenLs := min c.idrivenLs 100 }
  else c

/-- A new configuration (lines 211-228). -/
def setConfig (b : Board) (c : Config) (s : St) : St :=
  let r := writeConfig (Chip.transfer s.now) (words b (limited b c)) s.chip
  { s with cfg := limited b c, faultConfig := r.2, chip := r.1 }

/-- `PollMillisecond` (lines 138-198), as far as it reads the chip. -/
def pollMs (s : St) : St :=
  if s.loop + 1 < 10 then { s with loop := s.loop + 1 }
  else if s.st ≠ .enabled then { s with loop := 0 }
  else
    let r0 := readReg (Chip.transfer s.now) s.chip 0
    let r1 := readReg (Chip.transfer s.now) r0.1 1
    { s with loop := 0, fault := r0.2 &&& (1 <<< 10) ≠ 0, fsr1 := r0.2, fsr2 := r1.2, chip := r1.1 }

/-- `fault` (lines 437-453); `line` is the level of nFAULT. -/
def faulted (b : Board) (s : St) (line : Bool) : Bool :=
  if s.faultConfig ≠ 0 then true
  else if s.st ≠ .enabled then false
  else if b.family = 0 ∧ b.rev = 3 then s.fault
  else !line

/-- What can happen. -/
inductive Op
  /-- `StartEnable(true)`, `StartEnable(false)` -/
  | enable | disable
  | config (c : Config)
  | poll
  /-- time passes -/
  | wait (us : ℕ)
  /-- the chip sets its fault status -/
  | status (r0 r1 : ℕ)

def step (b : Board) (reset : ℕ → ℕ) (s : St) : Op → St
  | .enable => startEnable b reset true s
  | .disable => startEnable b reset false s
  | .config c => setConfig b c s
  | .poll => pollMs s
  | .wait n => { s with now := s.now + n }
  | .status r0 r1 =>
    { s with chip := { s.chip with regs := fun i => if i = 0 then r0 else if i = 1 then r1 else s.chip.regs i } }

def run (b : Board) (reset : ℕ → ℕ) (s : St) (ops : List Op) : St := ops.foldl (step b reset) s

/-- After construction. -/
def start (c : Config) (reset : ℕ → ℕ) (now : ℕ) : St :=
  { cfg := c, st := .disabled, startUs := 0, faultConfig := 0, fault := false, fsr1 := 0, fsr2 := 0, loop := 0,
    chip := { on := none, regs := reset }, now := now }

/-! ## Which values are chosen -/

/-- Specification: the smallest value of the table that is not below the wanted one, else
the largest. -/
def Spec.Chosen (table : List ℕ) (x v : ℕ) : Prop :=
  v ∈ table ∧ ((x ≤ v ∧ ∀ y ∈ table, x ≤ y → v ≤ y) ∨ (∀ y ∈ table, y < x ∧ y ≤ v))

theorem choiceFrom_spec (x : ℕ) : ∀ (l : List ℕ) (i : ℕ), l.Pairwise (· ≤ ·) →
    (∃ k v, choiceFrom x i l = some (i + k) ∧ l[k]? = some v ∧ x ≤ v ∧ ∀ y ∈ l, x ≤ y → v ≤ y) ∨
    (choiceFrom x i l = none ∧ ∀ y ∈ l, y < x) := by
  intro l
  induction l with
  | nil => intro i _; exact Or.inr ⟨rfl, by simp⟩
  | cons a l ih =>
    intro i h
    rw [List.pairwise_cons] at h
    rw [choiceFrom]
    by_cases hx : x ≤ a
    · rw [if_pos hx]
      refine Or.inl ⟨0, a, rfl, rfl, hx, ?_⟩
      intro y hy _
      rcases List.mem_cons.mp hy with rfl | hy
      · exact Nat.le_refl _
      · exact h.1 y hy
    · rw [if_neg hx]
      rcases ih (i + 1) h.2 with ⟨k, v, h1, h2, h3, h4⟩ | ⟨h1, h2⟩
      · refine Or.inl ⟨k + 1, v, by rw [h1]; congr 1; omega, by simpa using h2, h3, ?_⟩
        intro y hy hxy
        rcases List.mem_cons.mp hy with rfl | hy
        · exact absurd hxy hx
        · exact h4 y hy hxy
      · refine Or.inr ⟨h1, ?_⟩
        intro y hy
        rcases List.mem_cons.mp hy with rfl | hy
        · omega
        · exact h2 y hy

theorem mapChoice_spec {table : List ℕ} (hs : table.Pairwise (· ≤ ·)) (hne : table ≠ []) (x : ℕ) :
    mapChoice table x < table.length ∧
      ∃ v, table[mapChoice table x]? = some v ∧ Spec.Chosen table x v := by
  have hlen : 0 < table.length := List.length_pos_iff.mpr hne
  unfold mapChoice
  rcases choiceFrom_spec x table 0 hs with ⟨k, v, h1, h2, h3, h4⟩ | ⟨h1, h2⟩
  · rw [h1, Nat.zero_add]
    have hk : k < table.length := by
      by_contra hc
      rw [List.getElem?_eq_none (by omega)] at h2
      simp at h2
    exact ⟨hk, v, h2, List.mem_of_getElem? h2, Or.inl ⟨h3, h4⟩⟩
  · rw [h1]
    show table.length - 1 < table.length ∧ _
    refine ⟨by omega, table[table.length - 1], List.getElem?_eq_getElem _, List.getElem_mem _, Or.inr ?_⟩
    intro y hy
    refine ⟨h2 y hy, ?_⟩
    obtain ⟨k, hk, rfl⟩ := List.mem_iff_getElem.mp hy
    by_cases he : k = table.length - 1
    · subst he; exact Nat.le_refl _
    · exact List.pairwise_iff_getElem.mp hs k (table.length - 1) hk (by omega) (by omega)

/-- Specification: a field of a register of the data sheet. -/
def Spec.field (w hi lo : ℕ) : ℕ := w / 2 ^ lo % 2 ^ (hi + 1 - lo)

/-- Specification: currents that turn on, currents that turn off, deglitch times and
thresholds of the two chips, from their data sheets. -/
def Spec.turnOn (old : Bool) : List ℕ :=
  if old then [10, 30, 60, 80, 120, 140, 170, 190, 260, 330, 370, 440, 570, 680, 820, 1000]
  else [50, 50, 100, 150, 300, 350, 400, 450, 550, 600, 650, 700, 850, 900, 950, 1000]
def Spec.turnOff (old : Bool) : List ℕ := (Spec.turnOn old).map (2 * ·)
def Spec.deglitch (old : Bool) : List ℕ := if old then [2, 4, 6, 8] else [1, 2, 4, 8]
def Spec.vds (old : Bool) : List ℕ :=
  if old then [60, 130, 200, 260, 310, 450, 530, 600, 680, 750, 940, 1130, 1300, 1500, 1700, 1880]
  else [60, 70, 80, 90, 100, 200, 300, 400, 500, 600, 700, 800, 900, 1000, 1500, 2000]

theorem spec_tables : ∀ o : Bool, Spec.turnOn o = (if o then idrivep8323 else idrivep8353) ∧
    Spec.turnOff o = (if o then idriven8323 else idriven8353) ∧
    Spec.deglitch o = (if o then deglitch8323 else deglitch8353) ∧
    Spec.vds o = (if o then vds8323 else vds8353) := by decide +kernel

/-- Specification: settings of a chip as the data sheets of the DRV8323 (`old`) and DRV8353
describe them. -/
structure Spec.Means (old : Bool) (r : ℕ → ℕ) where
  idrivepHs : Option ℕ := (Spec.turnOn old)[Spec.field (r 3) 7 4]?
  idrivenHs : Option ℕ := (Spec.turnOff old)[Spec.field (r 3) 3 0]?
  idrivepLs : Option ℕ := (Spec.turnOn old)[Spec.field (r 4) 7 4]?
  idrivenLs : Option ℕ := (Spec.turnOff old)[Spec.field (r 4) 3 0]?
  tdrive : Option ℕ := [500, 1000, 2000, 4000][Spec.field (r 4) 9 8]?
  deadTime : Option ℕ := [50, 100, 200, 400][Spec.field (r 5) 9 8]?
  deglitch : Option ℕ := (Spec.deglitch old)[Spec.field (r 5) 5 4]?
  vdsLvl : Option ℕ := (Spec.vds old)[Spec.field (r 5) 3 0]?
  gain : Option ℕ := [5, 10, 20, 40][Spec.field (r 6) 7 6]?
  senLvl : Option ℕ := [250, 500, 750, 1000][Spec.field (r 6) 1 0]?

/-- Specification: the settings that registers mean. -/
def Spec.means (old : Bool) (r : ℕ → ℕ) : Spec.Means old r := {}

theorem word2_fields : ∀ (old a b c : Bool) (p : Fin 4) (d e : Bool),
    let w := word2 old a b c p d e
    w < 2048 ∧ Spec.field w 10 10 = (!old).toNat ∧ Spec.field w 9 9 = a.toNat ∧ Spec.field w 8 8 = b.toNat ∧
    Spec.field w 7 7 = c.toNat ∧ Spec.field w 6 5 = p ∧ Spec.field w 4 4 = d.toNat ∧ Spec.field w 3 3 = e.toNat ∧
    Spec.field w 2 0 = 0 := by decide +kernel

theorem word3_fields : ∀ (p n : Fin 16), let w := word3 p n
    w < 2048 ∧ Spec.field w 10 8 = 3 ∧ Spec.field w 7 4 = p ∧ Spec.field w 3 0 = n := by decide +kernel

theorem word4_fields : ∀ (a : Bool) (t : Fin 4) (p n : Fin 16), let w := word4 a t p n
    w < 2048 ∧ Spec.field w 10 10 = a.toNat ∧ Spec.field w 9 8 = t ∧ Spec.field w 7 4 = p ∧ Spec.field w 3 0 = n := by
  decide +kernel

theorem word5_fields : ∀ (a : Bool) (t o g : Fin 4) (v : Fin 16), let w := word5 a t o g v
    w < 2048 ∧ Spec.field w 10 10 = a.toNat ∧ Spec.field w 9 8 = t ∧ Spec.field w 7 6 = o ∧ Spec.field w 5 4 = g ∧
    Spec.field w 3 0 = v := by decide +kernel

theorem word6_fields : ∀ (a b c : Bool) (g : Fin 4) (d : Bool) (s : Fin 4), let w := word6 a b c g d s
    w < 2048 ∧ Spec.field w 10 10 = a.toNat ∧ Spec.field w 9 9 = b.toNat ∧ Spec.field w 8 8 = c.toNat ∧
    Spec.field w 7 6 = g ∧ Spec.field w 5 5 = d.toNat ∧ Spec.field w 4 2 = 0 ∧ Spec.field w 1 0 = s ∧
    (w ||| 0x1c) < 2048 ∧ ((w ||| 0x1c) &&& 0xffe3) = w ∧ (w &&& 0xffe3) = w ∧ (w &&& 0x1c) = 0 := by decide +kernel

/-- All tables go upwards and have 16 or 4 entries. -/
theorem tables : (∀ o : Bool, (if o then idrivep8323 else idrivep8353).Pairwise (· ≤ ·) ∧
      (if o then idrivep8323 else idrivep8353).length = 16 ∧
      (if o then idriven8323 else idriven8353).Pairwise (· ≤ ·) ∧
      (if o then idriven8323 else idriven8353).length = 16 ∧
      (if o then idriven8323 else idrivep8353).Pairwise (· ≤ ·) ∧
      (if o then idriven8323 else idrivep8353).length = 16 ∧
      (if o then deglitch8323 else deglitch8353).Pairwise (· ≤ ·) ∧
      (if o then deglitch8323 else deglitch8353).length = 4 ∧
      (if o then vds8323 else vds8353).Pairwise (· ≤ ·) ∧ (if o then vds8323 else vds8353).length = 16) ∧
    tdriveTable.Pairwise (· ≤ ·) ∧ deadTable.Pairwise (· ≤ ·) ∧ gainTable.Pairwise (· ≤ ·) ∧
    senTable.Pairwise (· ≤ ·) := by decide +kernel

theorem choice16 {table : List ℕ} (hs : table.Pairwise (· ≤ ·)) {n : ℕ} (hl : table.length = n + 1) (x : ℕ) :
    ∃ i : Fin (n + 1), mapChoice table x = i ∧ ∃ v, table[(i : ℕ)]? = some v ∧ Spec.Chosen table x v := by
  obtain ⟨h1, v, h2, h3⟩ := mapChoice_spec hs (by rintro rfl; simp at hl) x
  exact ⟨⟨mapChoice table x, by omega⟩, rfl, v, h2, h3⟩

/-- **C100** What the words mean to the chip, by its data sheet: each flag is the configured
one, each other setting the smallest possible one that is not below the configured one,
else the largest possible one.  Not for the current that turns the lower transistor off of
a DRV8353. -/
theorem C100_settings_partial (b : Board) (c : Config) :
    let w := words b c
    let m := Spec.means (is8323 b) w
    let chosen := fun (table : List ℕ) (x : ℕ) (v : Option ℕ) => ∃ y, v = some y ∧ Spec.Chosen table x y
    let old := is8323 b
    (∀ i, w i < 2048) ∧
    chosen (Spec.turnOn old) c.idrivepHs m.idrivepHs ∧
    chosen (Spec.turnOff old) c.idrivenHs m.idrivenHs ∧
    chosen (Spec.turnOn old) c.idrivepLs m.idrivepLs ∧
    (is8323 b = true → chosen (Spec.turnOff true) c.idrivenLs m.idrivenLs) ∧
    chosen [500, 1000, 2000, 4000] c.tdrive m.tdrive ∧
    chosen [50, 100, 200, 400] c.deadTime m.deadTime ∧
    chosen (Spec.deglitch old) c.ocpDeg m.deglitch ∧
    chosen (Spec.vds old) c.vdsLvl m.vdsLvl ∧
    chosen [5, 10, 20, 40] c.csaGain m.gain ∧
    chosen [250, 500, 750, 1000] c.senLvl m.senLvl ∧
    Spec.field (w 2) 10 10 = (!is8323 b).toNat ∧ Spec.field (w 2) 9 9 = c.disCpuv.toNat ∧
    Spec.field (w 2) 8 8 = c.disGdf.toNat ∧ Spec.field (w 2) 7 7 = c.otwRep.toNat ∧
    Spec.field (w 2) 6 5 = c.pwmMode ∧ Spec.field (w 2) 4 4 = c.pwmAsync.toNat ∧
    Spec.field (w 2) 3 3 = c.pwmDir.toNat ∧ Spec.field (w 2) 2 0 = 0 ∧ Spec.field (w 3) 10 8 = 3 ∧
    Spec.field (w 4) 10 10 = c.cbc.toNat ∧ Spec.field (w 5) 10 10 = c.tretry.toNat ∧
    Spec.field (w 5) 7 6 = c.ocpMode ∧ Spec.field (w 6) 10 10 = c.csaFet.toNat ∧
    Spec.field (w 6) 9 9 = c.vrefDiv.toNat ∧ Spec.field (w 6) 8 8 = c.lsRef.toNat ∧
    Spec.field (w 6) 5 5 = c.disSen.toNat ∧ Spec.field (w 6) 4 2 = 0 := by
  intro w m chosen old
  obtain ⟨E1, E2, E3, E4⟩ := spec_tables (is8323 b)
  obtain ⟨T, t1, t2, t3, t4⟩ := tables
  obtain ⟨p1, p2, n1, n2, q1, q2, d1, d2, v1, v2⟩ := T (is8323 b)
  rw [← E1] at p1 p2
  rw [← E2] at n1 n2
  rw [← E3] at d1 d2
  rw [← E4] at v1 v2
  obtain ⟨i1, e1, y1, z1, s1⟩ := choice16 p1 p2 c.idrivepHs
  obtain ⟨i2, e2, y2, z2, s2⟩ := choice16 n1 n2 c.idrivenHs
  obtain ⟨i3, e3, y3, z3, s3⟩ := choice16 p1 p2 c.idrivepLs
  obtain ⟨i4, e4, y4, z4, s4⟩ := choice16 q1 q2 c.idrivenLs
  obtain ⟨i5, e5, y5, z5, s5⟩ := choice16 (n := 3) t1 rfl c.tdrive
  obtain ⟨i6, e6, y6, z6, s6⟩ := choice16 (n := 3) t2 rfl c.deadTime
  obtain ⟨i7, e7, y7, z7, s7⟩ := choice16 d1 d2 c.ocpDeg
  obtain ⟨i8, e8, y8, z8, s8⟩ := choice16 v1 v2 c.vdsLvl
  obtain ⟨i9, e9, y9, z9, s9⟩ := choice16 (n := 3) t3 rfl c.csaGain
  obtain ⟨ia, ea, ya, za, sa⟩ := choice16 (n := 3) t4 rfl c.senLvl
  have w2 : w 2 = word2 (is8323 b) c.disCpuv c.disGdf c.otwRep c.pwmMode c.pwmAsync c.pwmDir := rfl
  have w3 : w 3 = word3 i1 i2 := by rw [← e1, ← e2, E1, E2]; rfl
  have w4 : w 4 = word4 c.cbc i5 i3 i4 := by rw [← e5, ← e3, ← e4, E1]; rfl
  have w5 : w 5 = word5 c.tretry i6 c.ocpMode i7 i8 := by rw [← e6, ← e7, ← e8, E3, E4]; rfl
  have w6 : w 6 = word6 c.csaFet c.vrefDiv c.lsRef i9 c.disSen ia := by rw [← e9, ← ea]; rfl
  have w7 : w 7 = word7 (is8323 b) := rfl
  obtain ⟨a0, a1, a2, a3, a4, a5, a6, a7, a8⟩ := word2_fields (is8323 b) c.disCpuv c.disGdf c.otwRep c.pwmMode
    c.pwmAsync c.pwmDir
  obtain ⟨b0, b1, b2, b3⟩ := word3_fields i1 i2
  obtain ⟨c0, c1, c2, c3, c4⟩ := word4_fields c.cbc i5 i3 i4
  obtain ⟨d0, d1, d2, d3, d4, d5⟩ := word5_fields c.tretry i6 c.ocpMode i7 i8
  obtain ⟨f0, f1, f2, f3, f4, f5, f6, f7, -, -⟩ := word6_fields c.csaFet c.vrefDiv c.lsRef i9 c.disSen ia
  rw [← w2] at a0 a1 a2 a3 a4 a5 a6 a7 a8
  rw [← w3] at b0 b1 b2 b3
  rw [← w4] at c0 c1 c2 c3 c4
  rw [← w5] at d0 d1 d2 d3 d4 d5
  rw [← w6] at f0 f1 f2 f3 f4 f5 f6 f7
  refine ⟨?_, ?_, ?_, ?_, ?_, ?_, ?_, ?_, ?_, ?_, ?_, a1, a2, a3, a4, a5, a6, a7, a8, b1, c1, d1, d3, f1, f2, f3, f5,
    f6⟩
  · intro i
    by_cases h : 2 ≤ i ∧ i ≤ 7
    · obtain ⟨h1, h2⟩ := h
      interval_cases i
      · exact a0
      · exact b0
      · exact c0
      · exact d0
      · exact f0
      · rw [w7]; cases is8323 b <;> decide
    · have : w i = 0 := by
        show words b c i = 0
        unfold words
        simp only
        split <;> first | rfl | omega
      rw [this]
      norm_num
  · exact ⟨y1, by show _[Spec.field (w 3) 7 4]? = _; rw [b2]; exact z1, s1⟩
  · exact ⟨y2, by show _[Spec.field (w 3) 3 0]? = _; rw [b3]; exact z2, s2⟩
  · exact ⟨y3, by show _[Spec.field (w 4) 7 4]? = _; rw [c3]; exact z3, s3⟩
  · intro h
    rw [h] at z4 s4
    exact ⟨y4, by show (Spec.turnOff (is8323 b))[Spec.field (w 4) 3 0]? = _; rw [c4, h]; exact z4, s4⟩
  · exact ⟨y5, by show _[Spec.field (w 4) 9 8]? = _; rw [c2]; exact z5, s5⟩
  · exact ⟨y6, by show _[Spec.field (w 5) 9 8]? = _; rw [d2]; exact z6, s6⟩
  · exact ⟨y7, by show _[Spec.field (w 5) 5 4]? = _; rw [d4]; exact z7, s7⟩
  · exact ⟨y8, by show _[Spec.field (w 5) 3 0]? = _; rw [d5]; exact z8, s8⟩
  · exact ⟨y9, by show _[Spec.field (w 6) 7 6]? = _; rw [f4]; exact z9, s9⟩
  · exact ⟨ya, by show _[Spec.field (w 6) 1 0]? = _; rw [f7]; exact za, sa⟩

/-- **C100 refuted** On boards with a DRV8353 the current that turns off the lower
transistor is looked up in the table of another current: with the default settings it is
600 mA instead of 200 mA (revision 8), and 200 mA instead of 100 mA (revision 7), where
more than 100 mA can damage the board. -/
theorem C100_sink_refuted :
    (Config.default ⟨0, 8⟩).idrivenLs = 200 ∧
    (Spec.means (is8323 ⟨0, 8⟩) (words ⟨0, 8⟩ (limited ⟨0, 8⟩ (Config.default ⟨0, 8⟩)))).idrivenLs = some 600 ∧
    (Config.default ⟨0, 7⟩).idrivenLs = 100 ∧
    (Spec.means (is8323 ⟨0, 7⟩) (words ⟨0, 7⟩ (limited ⟨0, 7⟩ (Config.default ⟨0, 7⟩)))).idrivenLs = some 200 := by
  decide +kernel

/-- **C100** On revision 7 the other three currents stay within the limits, whatever is
configured. -/
theorem C100_limit_partial (c : Config) :
    let m := Spec.means (is8323 ⟨0, 7⟩) (words ⟨0, 7⟩ (limited ⟨0, 7⟩ c))
    m.idrivepHs = some 50 ∧ m.idrivenHs = some 100 ∧ m.idrivepLs = some 50 := by
  intro m
  obtain ⟨-, ⟨y1, h1, s1⟩, ⟨y2, h2, s2⟩, ⟨y3, h3, s3⟩, -⟩ := C100_settings_partial ⟨0, 7⟩ (limited ⟨0, 7⟩ c)
  have l1 : (limited ⟨0, 7⟩ c).idrivepHs ≤ 50 := Nat.min_le_right _ _
  have l2 : (limited ⟨0, 7⟩ c).idrivenHs ≤ 100 := Nat.min_le_right _ _
  have l3 : (limited ⟨0, 7⟩ c).idrivepLs ≤ 50 := Nat.min_le_right _ _
  have hold : is8323 ⟨0, 7⟩ = false := rfl
  have key : ∀ {table : List ℕ} {lo x y : ℕ}, (∀ z ∈ table, lo ≤ z) → lo ∈ table → x ≤ lo →
      Spec.Chosen table x y → y = lo := by
    intro table lo x y hlo hmem hx hc
    obtain ⟨hy, ⟨-, h⟩ | h⟩ := hc
    · exact le_antisymm (h lo hmem hx) (hlo y hy)
    · have := (h lo hmem).1
      omega
  rw [hold] at s1 s2 s3
  refine ⟨?_, ?_, ?_⟩
  · rw [← key (lo := 50) (by decide) (by decide) l1 s1]; exact h1
  · rw [← key (lo := 100) (by decide) (by decide) l2 s2]; exact h2
  · rw [← key (lo := 50) (by decide) (by decide) l3 s3]; exact h3

/-- **C100** The controller computes currents with the gain of the chip if the configured
gain is one that the chip has. -/
theorem C100_gain_partial (b : Board) (c : Config) (h : c.csaGain ∈ [5, 10, 20, 40]) :
    (Spec.means (is8323 b) (words b c)).gain = some c.csaGain := by
  obtain ⟨-, -, -, -, -, -, -, -, -, ⟨y, h1, hy, h2⟩, -⟩ := C100_settings_partial b c
  rw [h1]
  rcases h2 with ⟨h2, h3⟩ | h2
  · have := h3 _ h (Nat.le_refl _)
    rw [show y = c.csaGain by omega]
  · have := (h2 _ h).1
    omega

/-- **C100 refuted** Other gains are accepted: the chip then has another gain than the
controller computes with. -/
theorem C100_gain_refuted :
    let c := { Config.default ⟨0, 8⟩ with csaGain := 30 }
    (Spec.means (is8323 ⟨0, 8⟩) (words ⟨0, 8⟩ c)).gain = some 40 ∧ c.csaGain = 30 := by decide +kernel

/-- The gain that `BldcServo` computes currents with: that of the driver's configuration when
its own was last updated (`fw/bldc_servo.cc` 514-516). -/
def servoGain (d : Config) : List (Config ⊕ Unit) → ℕ → ℕ
  | [], g => g
  | .inl d' :: l, g => servoGain d' l g
  | .inr () :: l, _ => servoGain d l d.csaGain

/-- **C100 refuted** A new gain of the driver reaches the chip at once and the computation
only with the next update of the servo's configuration. -/
theorem C100_old_gain_refuted :
    let b : Board := ⟨0, 8⟩
    let c := Config.default b
    let d := { c with csaGain := 40 }
    servoGain c [.inr (), .inl d] 0 = 20 ∧ (Spec.means (is8323 b) (words b (limited b d))).gain = some 40 ∧
    servoGain c [.inr (), .inl d, .inr ()] 0 = 40 := by decide +kernel

/-! ## Writing and verifying -/

/-- Specification: the values read one after the other. -/
def Spec.reads {σ : Type} (tr : σ → ℕ → σ × ℕ) : List ℕ → σ → List (ℕ × ℕ)
  | [], _ => []
  | i :: l, s => (i, (tr s (0x8000 + i * 2048)).2 % 2048) :: Spec.reads tr l (tr s (0x8000 + i * 2048)).1

theorem readWord : ∀ i ∈ [0, 1, 2, 3, 4, 5, 6, 7], (0x8000 ||| (i <<< 11)) = 0x8000 + i * 2048 := by decide

theorem and_mask (v : ℕ) : v &&& 0x7ff = v % 2048 := by
  rw [show (0x7ff : ℕ) = 2 ^ 11 - 1 by norm_num, Nat.and_two_pow_sub_one_eq_mod]

theorem writeWord {v : ℕ} (i : ℕ) (hv : v < 2048) : ((i <<< 11) ||| v) = i * 2048 + v := by
  rw [← Nat.shiftLeft_add_eq_or_of_lt (by norm_num; exact hv), Nat.shiftLeft_eq]

theorem verifyAll_bits {σ : Type} (tr : σ → ℕ → σ × ℕ) (w : ℕ → ℕ) : ∀ (l : List ℕ), (∀ i ∈ l, i ≤ 7) →
    ∀ (s : σ) (f j : ℕ), ((verifyAll tr w l s f).2).testBit j = true ↔
      f.testBit j = true ∨ ∃ v, (j, v) ∈ Spec.reads tr l s ∧ v ≠ w j := by
  intro l
  induction l with
  | nil => intro _ s f j; simp [verifyAll, Spec.reads]
  | cons i l ih =>
    intro hl s f j
    have hi : i ∈ [0, 1, 2, 3, 4, 5, 6, 7] := by
      have := hl i (List.mem_cons_self ..)
      interval_cases i <;> decide
    rw [verifyAll, ih (fun k hk => hl k (List.mem_cons_of_mem _ hk)), Spec.reads]
    unfold readReg
    rw [readWord i hi, and_mask]
    simp only [List.mem_cons, Prod.mk.injEq]
    by_cases hv : (tr s (0x8000 + i * 2048)).2 % 2048 = w i
    · rw [if_neg (by simpa using hv)]
      constructor
      · rintro (h | ⟨v, h1, h2⟩)
        · exact Or.inl h
        · exact Or.inr ⟨v, Or.inr h1, h2⟩
      · rintro (h | ⟨v, ⟨rfl, rfl⟩ | h1, h2⟩)
        · exact Or.inl h
        · exact absurd hv h2
        · exact Or.inr ⟨v, h1, h2⟩
    · rw [if_pos (by simpa using hv), Nat.testBit_or, Bool.or_eq_true, Nat.one_shiftLeft, Nat.testBit_two_pow]
      constructor
      · rintro ((h | h) | ⟨v, h1, h2⟩)
        · exact Or.inl h
        · have : i = j := by simpa using h
          subst this
          exact Or.inr ⟨_, Or.inl ⟨rfl, rfl⟩, hv⟩
        · exact Or.inr ⟨v, Or.inr h1, h2⟩
      · rintro (h | ⟨v, ⟨rfl, rfl⟩ | h1, h2⟩)
        · exact Or.inl (Or.inl h)
        · exact Or.inl (Or.inr (by simp))
        · exact Or.inr ⟨v, h1, h2⟩

/-- **C100** Whatever is connected to the bus: a bit of `fault_config` is set exactly if the
register read afterwards is not what was to be written, and any such bit is a fault. -/
theorem C100_verified {σ : Type} (tr : σ → ℕ → σ × ℕ) (w : ℕ → ℕ) (s : σ) (j : ℕ) :
    ((writeConfig tr w s).2.testBit j = true ↔
      ∃ v, (j, v) ∈ Spec.reads tr [2, 3, 4, 5, 6, 7] (writeAll tr w [2, 3, 4, 5, 6, 7] s) ∧ v ≠ w j) ∧
    ∀ (b : Board) (t : St) (line : Bool), t.faultConfig = (writeConfig tr w s).2 →
      (writeConfig tr w s).2.testBit j = true → faulted b t line = true := by
  refine ⟨?_, ?_⟩
  · unfold writeConfig
    rw [verifyAll_bits tr w _ (by decide)]
    simp
  · intro b t line h1 h2
    unfold faulted
    rw [h1, if_pos]
    intro h
    rw [h] at h2
    simp at h2

/-! ## Enabling -/

theorem transfer_read {c : Chip} {now : ℕ} (h : c.ready now = true) {i : ℕ} (hi : i ∈ [0, 1, 2, 3, 4, 5, 6, 7]) :
    readReg (Chip.transfer now) c i = (c, c.regs i % 2048) := by
  unfold readReg Chip.transfer
  rw [readWord i hi, if_pos h, if_pos (by omega), and_mask]
  have : (0x8000 + i * 2048) / 2048 % 16 = i := by
    have : i ≤ 7 := by revert hi; simp; omega
    omega
  rw [this]

/-- The chip with another register. -/
def Chip.put (c : Chip) (i v : ℕ) : Chip := { c with regs := fun j => if j = i then v else c.regs j }

theorem transfer_raw {c : Chip} {now : ℕ} (h : c.ready now = true) {i v : ℕ} (hi : i ≤ 7) (hv : v < 2048) :
    (Chip.transfer now c ((i <<< 11) ||| v)).1 = c.put i v := by
  unfold Chip.transfer Chip.put
  rw [writeWord i hv, if_pos h, if_neg (by omega)]
  have h1 : (i * 2048 + v) / 2048 = i := by omega
  have h2 : (i * 2048 + v) % 2048 = v := by omega
  rw [h1, h2]

theorem transfer_write {c : Chip} {now : ℕ} (h : c.ready now = true) {i v : ℕ} (hi : i ≤ 7) :
    writeReg (Chip.transfer now) c i v = c.put i (v % 2048) := by
  unfold writeReg
  rw [and_mask]
  exact transfer_raw h hi (Nat.mod_lt _ (by norm_num))

theorem put_ready (c : Chip) (i v now : ℕ) : (c.put i v).ready now = c.ready now := rfl

theorem writeAll_regs {now : ℕ} (w : ℕ → ℕ) : ∀ (l : List ℕ), (∀ i ∈ l, i ≤ 7) → ∀ (c : Chip), c.ready now = true →
    (writeAll (Chip.transfer now) w l c).on = c.on ∧
    ∀ i, (writeAll (Chip.transfer now) w l c).regs i = if i ∈ l then w i % 2048 else c.regs i := by
  intro l
  induction l with
  | nil => intro _ c _; exact ⟨rfl, fun i => by simp [writeAll]⟩
  | cons k l ih =>
    intro hl c hc
    rw [writeAll, transfer_write hc (hl k (List.mem_cons_self ..))]
    obtain ⟨h1, h2⟩ := ih (fun i hi => hl i (List.mem_cons_of_mem _ hi)) (c.put k (w k % 2048)) hc
    refine ⟨h1, fun i => ?_⟩
    rw [h2]
    by_cases hi : i ∈ l
    · simp [hi]
    · by_cases hk : i = k
      · subst hk; simp [hi, Chip.put]
      · simp [hi, hk, Chip.put]

theorem verifyAll_same {now : ℕ} (w : ℕ → ℕ) : ∀ (l : List ℕ), (∀ i ∈ l, i ≤ 7) → ∀ (c : Chip), c.ready now = true →
    (∀ i ∈ l, c.regs i % 2048 = w i) → ∀ f, verifyAll (Chip.transfer now) w l c f = (c, f) := by
  intro l
  induction l with
  | nil => intro _ c _ _ f; rfl
  | cons k l ih =>
    intro hl c hc hr f
    have hk : k ∈ [0, 1, 2, 3, 4, 5, 6, 7] := by
      have := hl k (List.mem_cons_self ..)
      interval_cases k <;> decide
    rw [verifyAll, transfer_read hc hk]
    dsimp only
    rw [if_neg (by simpa using hr k (List.mem_cons_self ..))]
    exact ih (fun i hi => hl i (List.mem_cons_of_mem _ hi)) c hc (fun i hi => hr i (List.mem_cons_of_mem _ hi)) f

/-- Registers 2 to 7 hold the words of the configuration. -/
def Holds (b : Board) (c : Config) (chip : Chip) : Prop := ∀ i, 2 ≤ i → i ≤ 7 → chip.regs i = words b c i

theorem writeConfig_ready {b : Board} {c : Config} {chip : Chip} {now : ℕ} (h : chip.ready now = true) :
    (writeConfig (Chip.transfer now) (words b c) chip).2 = 0 ∧
    (writeConfig (Chip.transfer now) (words b c) chip).1.on = chip.on ∧
    Holds b c (writeConfig (Chip.transfer now) (words b c) chip).1 := by
  have hw := (C100_settings_partial b c).1
  obtain ⟨h1, h2⟩ := writeAll_regs (now := now) (words b c) [2, 3, 4, 5, 6, 7] (by decide) chip h
  have hr : (writeAll (Chip.transfer now) (words b c) [2, 3, 4, 5, 6, 7] chip).ready now = true := by
    unfold Chip.ready at h ⊢
    rw [h1]
    exact h
  have hv := verifyAll_same (words b c) [2, 3, 4, 5, 6, 7] (by decide) _ hr (fun i hi => by
    rw [h2, if_pos hi, Nat.mod_mod, Nat.mod_eq_of_lt (hw i)]) 0
  unfold writeConfig
  rw [hv]
  refine ⟨rfl, h1, fun i l1 l2 => ?_⟩
  show (writeAll (Chip.transfer now) (words b c) [2, 3, 4, 5, 6, 7] chip).regs i = _
  rw [h2, if_pos (by interval_cases i <;> decide), Nat.mod_eq_of_lt (hw i)]

theorem not_ready_transfer {chip : Chip} {now : ℕ} (h : chip.ready now = false) (w : ℕ) :
    Chip.transfer now chip w = (chip, 0xffff) := by
  unfold Chip.transfer
  rw [if_neg (by rw [h]; decide)]

theorem not_ready_write {now : ℕ} (w : ℕ → ℕ) : ∀ (l : List ℕ) (c : Chip), c.ready now = false →
    writeAll (Chip.transfer now) w l c = c ∧ ∀ f, (verifyAll (Chip.transfer now) w l c f).1 = c := by
  intro l
  induction l with
  | nil => intro c _; exact ⟨rfl, fun _ => rfl⟩
  | cons k l ih =>
    intro c hc
    obtain ⟨h1, h2⟩ := ih c hc
    refine ⟨?_, fun f => ?_⟩
    · rw [writeAll, writeReg, not_ready_transfer hc, h1]
    · rw [verifyAll, readReg, not_ready_transfer hc]
      exact h2 _

theorem writeConfig_on {b : Board} {c : Config} {chip : Chip} {now : ℕ} :
    (writeConfig (Chip.transfer now) (words b c) chip).1.on = chip.on := by
  cases h : chip.ready now with
  | true => exact (writeConfig_ready h).2.1
  | false =>
    unfold writeConfig
    rw [(not_ready_write _ _ _ h).1, (not_ready_write _ _ _ h).2]

/-- The fields of a word 6 with and without the bits that calibrate the amplifiers. -/
theorem word6_cal (b : Board) (c : Config) : let w := words b c 6
    w < 2048 ∧ (w ||| 0x1c) < 2048 ∧ ((w ||| 0x1c) &&& 0xffe3) = w ∧ (w &&& 0xffe3) = w ∧ (w &&& 0x1c) = 0 := by
  intro w
  obtain ⟨-, -, -, t3, t4⟩ := tables
  obtain ⟨i9, e9, -⟩ := choice16 (n := 3) t3 rfl c.csaGain
  obtain ⟨ia, ea, -⟩ := choice16 (n := 3) t4 rfl c.senLvl
  have w6 : w = word6 c.csaFet c.vrefDiv c.lsRef i9 c.disSen ia := by rw [← e9, ← ea]; rfl
  obtain ⟨h0, -, -, -, -, -, -, -, h1, h2, h3, h4⟩ := word6_fields c.csaFet c.vrefDiv c.lsRef i9 c.disSen ia
  rw [w6]
  exact ⟨h0, h1, h2, h3, h4⟩

/-- What holds in each state. -/
def Inv (b : Board) (s : St) : Prop :=
  match s.st with
  | .disabled => s.chip.on = none
  | .enabling1 => ∃ t, s.chip.on = some t ∧ t ≤ s.now ∧ s.startUs = t % 2 ^ 32
  | .enabling2 => s.chip.ready s.now = true ∧ s.faultConfig = 0 ∧
      (∀ i, 2 ≤ i → i ≤ 7 → i ≠ 6 → s.chip.regs i = words b s.cfg i) ∧
      (s.chip.regs 6 = words b s.cfg 6 ∨ s.chip.regs 6 = words b s.cfg 6 ||| 0x1c)
  | .enabling3 => s.chip.ready s.now = true ∧ s.faultConfig = 0 ∧ Holds b s.cfg s.chip
  | .enabled => s.chip.ready s.now = true ∧ s.faultConfig = 0 ∧ Holds b s.cfg s.chip
  | .calibrateFailed => False

theorem ready_later {c : Chip} {now later : ℕ} (h : c.ready now = true) (hl : now ≤ later) : c.ready later = true := by
  unfold Chip.ready at h ⊢
  cases hc : c.on with
  | none => rw [hc] at h; simp at h
  | some t =>
    rw [hc] at h
    simp only [decide_eq_true_eq] at h ⊢
    omega

theorem ready_on {c d : Chip} {now : ℕ} (h : c.ready now = true) (hd : d.on = c.on) : d.ready now = true := by
  unfold Chip.ready at h ⊢
  rw [hd]
  exact h

theorem ready_some {c : Chip} {now : ℕ} (h : c.ready now = true) : ∃ t, c.on = some t := by
  unfold Chip.ready at h
  cases hc : c.on with
  | none => rw [hc] at h; simp at h
  | some t => exact ⟨t, rfl⟩

theorem enable_on {c : Chip} {t : ℕ} (h : c.on = some t) (reset : ℕ → ℕ) (now : ℕ) : c.enable reset now true = c := by
  unfold Chip.enable
  rw [if_pos rfl, h]
  cases c
  simp at h
  subst h
  rfl

theorem setUp_inv {b : Board} {s : St} (h : s.chip.ready s.now = true) : Inv b { setUp b s with st := .enabling2 } := by
  obtain ⟨h1, h2, h3⟩ := writeConfig_ready (b := b) (c := s.cfg) h
  obtain ⟨g0, g1, -⟩ := word6_cal b s.cfg
  have hr := ready_on h h2
  have h6 := h3 6 (by norm_num) (by norm_num)
  have e : startCalibrate (Chip.transfer s.now) (writeConfig (Chip.transfer s.now) (words b s.cfg) s.chip).1 =
      (writeConfig (Chip.transfer s.now) (words b s.cfg) s.chip).1.put 6 (words b s.cfg 6 ||| 0x1c) := by
    unfold startCalibrate
    rw [transfer_read hr (by decide)]
    dsimp only
    rw [h6, Nat.mod_eq_of_lt g0, transfer_raw hr (by norm_num) g1]
  unfold Inv setUp
  simp only [e]
  refine ⟨hr, h1, ?_, Or.inr (by simp [Chip.put])⟩
  intro i l1 l2 l3
  show (if i = 6 then _ else _) = _
  rw [if_neg l3]
  exact h3 i l1 l2

theorem step_inv {b : Board} {reset : ℕ → ℕ} {s : St} (h : Inv b s) (op : Op) : Inv b (step b reset s op) := by
  cases op with
  | disable => exact rfl
  | enable =>
    show Inv b (enableStep b { s with chip := s.chip.enable reset s.now true })
    suffices ∀ x, s.st = x → Inv b (enableStep b { s with chip := s.chip.enable reset s.now true }) from this _ rfl
    intro x hst
    cases x with
    | disabled =>
      unfold Inv at h
      rw [hst] at h
      have e : enableStep b { s with chip := s.chip.enable reset s.now true } =
          { s with chip := s.chip.enable reset s.now true, startUs := s.now % 2 ^ 32, st := .enabling1 } := by
        unfold enableStep
        simp only [hst]
      rw [e]
      refine ⟨s.now, ?_, Nat.le_refl _, rfl⟩
      show (s.chip.enable reset s.now true).on = _
      unfold Chip.enable
      rw [if_pos rfl, h]
      rfl
    | enabling1 =>
      unfold Inv at h
      rw [hst] at h
      obtain ⟨t, h1, h2, h3⟩ := h
      rw [enable_on h1]
      have e : enableStep b s = if 1000 < subtractUs (s.now % 2 ^ 32) s.startUs then
          { setUp b s with st := .enabling2 } else s := by
        unfold enableStep
        simp only [hst]
      rw [show ({ s with chip := s.chip } : St) = s from rfl, e]
      split
      · rename_i hd
        apply setUp_inv
        unfold Chip.ready
        rw [h1]
        unfold subtractUs at hd
        rw [h3] at hd
        simp only [decide_eq_true_eq]
        omega
      · unfold Inv
        rw [hst]
        exact ⟨t, h1, h2, h3⟩
    | enabling2 =>
      unfold Inv at h
      rw [hst] at h
      obtain ⟨h1, h2, h3, h4⟩ := h
      obtain ⟨t, ht⟩ := ready_some h1
      rw [enable_on ht]
      obtain ⟨g0, g1, g2, g3, -⟩ := word6_cal b s.cfg
      have e : stopCalibrate (Chip.transfer s.now) s.chip = s.chip.put 6 (words b s.cfg 6) := by
        unfold stopCalibrate
        rw [transfer_read h1 (by decide)]
        dsimp only
        rcases h4 with h4 | h4
        · rw [h4, Nat.mod_eq_of_lt g0, g3, transfer_raw h1 (by norm_num) g0]
        · rw [h4, Nat.mod_eq_of_lt g1, g2, transfer_raw h1 (by norm_num) g0]
      have e' : enableStep b s = { s with chip := s.chip.put 6 (words b s.cfg 6), st := .enabling3 } := by
        unfold enableStep
        simp only [hst, e]
      rw [show ({ s with chip := s.chip } : St) = s from rfl, e']
      refine ⟨h1, h2, ?_⟩
      intro i l1 l2
      show (if i = 6 then _ else _) = _
      split
      · subst i; rfl
      · exact h3 i l1 l2 ‹_›
    | enabling3 =>
      unfold Inv at h
      rw [hst] at h
      obtain ⟨h1, h2, h3⟩ := h
      obtain ⟨t, ht⟩ := ready_some h1
      rw [enable_on ht]
      obtain ⟨g0, -, -, -, g4⟩ := word6_cal b s.cfg
      have e : finishCalibrate (Chip.transfer s.now) s.chip = (s.chip, true) := by
        unfold finishCalibrate
        rw [transfer_read h1 (by decide)]
        dsimp only
        rw [h3 6 (by norm_num) (by norm_num), Nat.mod_eq_of_lt g0, g4]
        simp
      have e' : enableStep b s = { s with st := .enabled } := by
        unfold enableStep
        simp only [hst, e]
        rfl
      rw [show ({ s with chip := s.chip } : St) = s from rfl, e']
      exact ⟨h1, h2, h3⟩
    | enabled =>
      have h' := h
      unfold Inv at h
      rw [hst] at h
      obtain ⟨t, ht⟩ := ready_some h.1
      rw [enable_on ht]
      have e' : enableStep b s = s := by
        unfold enableStep
        simp only [hst]
      rw [show ({ s with chip := s.chip } : St) = s from rfl, e']
      exact h'
    | calibrateFailed =>
      unfold Inv at h
      rw [hst] at h
      exact h.elim
  | config c =>
    have hon : (writeConfig (Chip.transfer s.now) (words b (limited b c)) s.chip).1.on = s.chip.on := writeConfig_on
    have hw : s.chip.ready s.now = true → (setConfig b c s).chip.ready s.now = true ∧ (setConfig b c s).faultConfig = 0 ∧
        Holds b (setConfig b c s).cfg (setConfig b c s).chip := by
      intro hr
      obtain ⟨h1, h2, h3⟩ := writeConfig_ready (b := b) (c := limited b c) hr
      exact ⟨ready_on hr h2, h1, h3⟩
    show Inv b (setConfig b c s)
    have hst' : (setConfig b c s).st = s.st := rfl
    unfold Inv at h ⊢
    rw [hst']
    cases hst : s.st with
    | disabled => rw [hst] at h; exact hon.trans h
    | enabling1 =>
      rw [hst] at h
      obtain ⟨t, h1, h2, h3⟩ := h
      exact ⟨t, hon.trans h1, h2, h3⟩
    | enabling2 =>
      rw [hst] at h
      obtain ⟨g1, g2, g3⟩ := hw h.1
      exact ⟨g1, g2, fun i l1 l2 _ => g3 i l1 l2, Or.inl (g3 6 (by norm_num) (by norm_num))⟩
    | enabling3 => rw [hst] at h; exact hw h.1
    | enabled => rw [hst] at h; exact hw h.1
    | calibrateFailed => rw [hst] at h; exact h
  | poll =>
    show Inv b (pollMs s)
    unfold pollMs
    split
    · exact h
    · split
      · exact h
      · rename_i hs
        have hs' : s.st = .enabled := by simpa using hs
        have h' := h
        unfold Inv at h'
        rw [hs'] at h'
        obtain ⟨h1, h2, h3⟩ := h'
        simp only [transfer_read h1 (show 0 ∈ [0, 1, 2, 3, 4, 5, 6, 7] by decide),
          transfer_read h1 (show 1 ∈ [0, 1, 2, 3, 4, 5, 6, 7] by decide)]
        unfold Inv
        simp only [hs']
        exact ⟨h1, h2, h3⟩
  | wait n =>
    show Inv b { s with now := s.now + n }
    unfold Inv at h ⊢
    dsimp only
    cases hst : s.st with
    | disabled => rw [hst] at h; exact h
    | enabling1 =>
      rw [hst] at h
      obtain ⟨t, h1, h2, h3⟩ := h
      exact ⟨t, h1, by omega, h3⟩
    | enabling2 => rw [hst] at h; exact ⟨ready_later h.1 (by omega), h.2⟩
    | enabling3 => rw [hst] at h; exact ⟨ready_later h.1 (by omega), h.2⟩
    | enabled => rw [hst] at h; exact ⟨ready_later h.1 (by omega), h.2⟩
    | calibrateFailed => rw [hst] at h; exact h
  | status r0 r1 =>
    have hk : ∀ i, 2 ≤ i → (fun i => if i = 0 then r0 else if i = 1 then r1 else s.chip.regs i) i = s.chip.regs i := by
      intro i hi
      show (if i = 0 then r0 else if i = 1 then r1 else _) = _
      rw [if_neg (by omega), if_neg (by omega)]
    show Inv b { s with chip := { s.chip with regs := fun i => if i = 0 then r0 else if i = 1 then r1 else s.chip.regs i } }
    unfold Inv at h ⊢
    dsimp only
    cases hst : s.st with
    | disabled => rw [hst] at h; exact h
    | enabling1 => rw [hst] at h; exact h
    | enabling2 =>
      rw [hst] at h
      exact ⟨h.1, h.2.1, fun i l1 l2 l3 => (hk i l1).trans (h.2.2.1 i l1 l2 l3),
        by rw [show (if (6 : ℕ) = 0 then r0 else if (6 : ℕ) = 1 then r1 else s.chip.regs 6) = s.chip.regs 6 from rfl]
           exact h.2.2.2⟩
    | enabling3 => rw [hst] at h; exact ⟨h.1, h.2.1, fun i l1 l2 => (hk i l1).trans (h.2.2 i l1 l2)⟩
    | enabled => rw [hst] at h; exact ⟨h.1, h.2.1, fun i l1 l2 => (hk i l1).trans (h.2.2 i l1 l2)⟩
    | calibrateFailed => rw [hst] at h; exact h

theorem run_inv {b : Board} {reset : ℕ → ℕ} : ∀ (ops : List Op) {s : St}, Inv b s → Inv b (run b reset s ops) := by
  intro ops
  induction ops with
  | nil => intro s h; exact h
  | cons op ops ih => intro s h; exact ih (step_inv h op)

/-- **C100** Whatever the order of enabling, disabling, configurations, polls and faults, and
however much time passes in between: a driver that is said to be enabled has ENABLE high for
at least a millisecond, all its registers are those of the configuration in force, its
amplifiers are not being calibrated, and the configuration is no fault; one that is said to
be disabled has ENABLE low; calibration never fails. -/
theorem C100_enabled (b : Board) (c : Config) (reset : ℕ → ℕ) (now : ℕ) (ops : List Op) :
    let s := run b reset (start c reset now) ops
    (s.st = .enabled → (∃ t, s.chip.on = some t ∧ t + 1000 ≤ s.now) ∧ Holds b s.cfg s.chip ∧
      Spec.field (s.chip.regs 6) 4 2 = 0 ∧ s.faultConfig = 0) ∧
    (s.st = .disabled → s.chip.on = none) ∧ s.st ≠ .calibrateFailed := by
  intro s
  have h : Inv b s := run_inv ops (s := start c reset now) rfl
  unfold Inv at h
  refine ⟨fun hs => ?_, fun hs => ?_, fun hs => ?_⟩
  · rw [hs] at h
    refine ⟨?_, h.2.2, ?_, h.2.1⟩
    · obtain ⟨t, ht⟩ := ready_some h.1
      refine ⟨t, ht, ?_⟩
      have := h.1
      unfold Chip.ready at this
      rw [ht] at this
      simpa using this
    · rw [h.2.2 6 (by norm_num) (by norm_num)]
      exact (C100_settings_partial b s.cfg).2.2.2.2.2.2.2.2.2.2.2.2.2.2.2.2.2.2.2.2.2.2.2.2.2.2.2
  · rw [hs] at h; exact h
  · rw [hs] at h; exact h

theorem enables (b : Board) (reset : ℕ → ℕ) {s : St} (h : Inv b s) (hd : s.st = .disabled) {n : ℕ}
    (hn : 1000 < n) (hn' : n < 2 ^ 32) (k l : ℕ) :
    (run b reset s [.enable, .wait n, .enable, .wait k, .enable, .wait l, .enable]).st = .enabled := by
  have step1 : (run b reset s [.enable, .wait n]).st = .enabling1 ∧
      (run b reset s [.enable, .wait n]).startUs = s.now % 2 ^ 32 ∧
      (run b reset s [.enable, .wait n]).now = s.now + n := by
    simp only [run, List.foldl, step, startEnable, enableStep, hd]
    exact ⟨rfl, rfl, rfl⟩
  have happ : ∀ (a c : List Op), run b reset s (a ++ c) = run b reset (run b reset s a) c := fun a c => by
    unfold run; rw [List.foldl_append]
  rw [show ([.enable, .wait n, .enable, .wait k, .enable, .wait l, .enable] : List Op) =
    [.enable, .wait n] ++ [.enable, .wait k, .enable, .wait l, .enable] from rfl, happ]
  have hinv := run_inv (reset := reset) [.enable, .wait n] h
  generalize run b reset s [.enable, .wait n] = s1 at step1 hinv
  obtain ⟨a1, a2, a3⟩ := step1
  have e1 : (step b reset s1 .enable).st = .enabling2 := by
    show (enableStep b { s1 with chip := s1.chip.enable reset s1.now true }).st = _
    unfold enableStep
    simp only [a1, a2, a3]
    rw [if_pos]
    unfold subtractUs
    omega
  have i1 := step_inv (reset := reset) hinv .enable
  generalize hs2 : step b reset s1 .enable = s2 at e1 i1
  have i2 := step_inv (reset := reset) i1 (.wait k)
  have e2 : (step b reset (step b reset s2 (.wait k)) .enable).st = .enabling3 := by
    show (enableStep b { s2 with now := s2.now + k, chip := s2.chip.enable reset (s2.now + k) true }).st = _
    unfold enableStep
    simp only [e1]
  have i3 := step_inv (reset := reset) i2 .enable
  generalize hs3 : step b reset (step b reset s2 (.wait k)) .enable = s3 at e2 i3
  have i4 := step_inv (reset := reset) (step_inv (reset := reset) i3 (.wait l)) .enable
  show (step b reset (step b reset (step b reset (step b reset (step b reset s1 .enable) (.wait k)) .enable) (.wait l))
    .enable).st = _
  rw [hs2, hs3]
  have e3 : (step b reset (step b reset s3 (.wait l)) .enable).st = .enabled ∨
      (step b reset (step b reset s3 (.wait l)) .enable).st = .calibrateFailed := by
    show (enableStep b { s3 with now := s3.now + l, chip := s3.chip.enable reset (s3.now + l) true }).st = _ ∨
      (enableStep b { s3 with now := s3.now + l, chip := s3.chip.enable reset (s3.now + l) true }).st = _
    unfold enableStep
    simp only [e2]
    cases (finishCalibrate (Chip.transfer (s3.now + l)) (s3.chip.enable reset (s3.now + l) true)).2 <;> simp
  rcases e3 with e3 | e3
  · exact e3
  · unfold Inv at i4
    rw [e3] at i4
    exact i4.elim

/-- **C100** Whatever happened before, four calls one after the other enable a driver that is
disabled, if more than a millisecond passes after the first one. -/
theorem C100_enables (b : Board) (c : Config) (reset : ℕ → ℕ) (now : ℕ) (ops : List Op)
    (hd : (run b reset (start c reset now) ops).st = .disabled) {n : ℕ} (hn : 1000 < n) (hn' : n < 2 ^ 32)
    (k l : ℕ) :
    (run b reset (start c reset now)
      (ops ++ [.enable, .wait n, .enable, .wait k, .enable, .wait l, .enable])).st = .enabled := by
  have h : Inv b (run b reset (start c reset now) ops) := run_inv ops (s := start c reset now) rfl
  have := enables b reset h hd hn hn' k l
  unfold run at this ⊢
  rw [List.foldl_append]
  exact this

/-! ## Faults -/

/-- **C100** With the configuration verified, an enabled driver of any board but revision 3
reports a fault exactly while nFAULT is low; a driver that is not enabled reports none. -/
theorem C100_fault (b : Board) (s : St) (line : Bool) (hc : s.faultConfig = 0) (hb : ¬ (b.family = 0 ∧ b.rev = 3)) :
    faulted b s line = true ↔ s.st = .enabled ∧ line = false := by
  unfold faulted
  rw [if_neg (by simpa using hc)]
  by_cases h : s.st = .enabled
  · rw [if_neg (by simpa using h), if_neg hb]
    simp [h]
  · rw [if_pos h]
    simp [h]

theorem polled (b : Board) (reset : ℕ → ℕ) {s : St} (h : Inv b s) (he : s.st = .enabled) (hl : s.loop < 10) :
    ∃ k, 1 ≤ k ∧ k ≤ 10 ∧
      let t := run b reset s (List.replicate k .poll)
      t.loop = 0 ∧ t.fsr1 = s.chip.regs 0 % 2048 ∧ t.fsr2 = s.chip.regs 1 % 2048 ∧
      (t.fault = true ↔ Spec.field (s.chip.regs 0) 10 10 = 1) ∧
      (b.family = 0 → b.rev = 3 → ∀ line, faulted b t line = t.fault) := by
  refine ⟨10 - s.loop, by omega, by omega, ?_⟩
  have hmany : ∀ (k : ℕ) (t : St), t.loop + k < 10 → run b reset t (List.replicate k .poll) = { t with loop := t.loop + k } := by
    intro k
    induction k with
    | zero => intro t _; rfl
    | succ k ih =>
      intro t ht
      rw [List.replicate_succ]
      show run b reset (pollMs t) _ = _
      have e : pollMs t = { t with loop := t.loop + 1 } := by
        unfold pollMs
        rw [if_pos (by omega)]
      rw [e, ih _ (by show t.loop + 1 + k < 10; omega)]
      show ({ t with loop := t.loop + 1 + k } : St) = _
      congr 1
      omega
  have hsplit : List.replicate (10 - s.loop) Op.poll = List.replicate (9 - s.loop) Op.poll ++ [Op.poll] := by
    rw [← List.replicate_succ']
    congr 1
    omega
  unfold Inv at h
  rw [he] at h
  obtain ⟨h1, h2, -⟩ := h
  have hfin : run b reset s (List.replicate (10 - s.loop) .poll) = pollMs { s with loop := 9 } := by
    rw [hsplit]
    unfold run
    rw [List.foldl_append]
    show pollMs (run b reset s (List.replicate (9 - s.loop) .poll)) = _
    rw [hmany _ _ (by omega)]
    congr 1
    show ({ s with loop := s.loop + (9 - s.loop) } : St) = _
    congr 1
    omega
  rw [hfin]
  unfold pollMs
  rw [if_neg (by norm_num), if_neg (by simpa using he)]
  simp only [transfer_read h1 (show 0 ∈ [0, 1, 2, 3, 4, 5, 6, 7] by decide),
    transfer_read h1 (show 1 ∈ [0, 1, 2, 3, 4, 5, 6, 7] by decide)]
  refine ⟨trivial, trivial, trivial, ?_, ?_⟩
  · unfold Spec.field
    have : s.chip.regs 0 % 2048 &&& 1 <<< 10 ≠ 0 ↔ (s.chip.regs 0).testBit 10 = true := by
      have e : (s.chip.regs 0 % 2048).testBit 10 = (s.chip.regs 0).testBit 10 := by
        rw [show 2048 = 2 ^ 11 by norm_num, Nat.testBit_mod_two_pow]
        simp
      rw [← e, Nat.one_shiftLeft]
      constructor
      · intro h
        by_contra hc
        apply h
        apply Nat.eq_of_testBit_eq
        intro i
        rw [Nat.testBit_and, Nat.testBit_two_pow, Nat.zero_testBit]
        by_cases hi : 10 = i
        · subst hi; simp [Bool.eq_false_iff.mpr hc]
        · simp [hi]
      · intro h hc
        have := congrArg (fun n => n.testBit 10) hc
        simp only [Nat.testBit_and, h, Nat.testBit_two_pow, Nat.zero_testBit] at this
        simp at this
    rw [decide_eq_true_eq, this, Nat.testBit_eq_decide_div_mod_eq]
    simp
  · intro hf hr line
    unfold faulted
    simp only [h2, he, hf, hr]
    simp

theorem step_loop (b : Board) (reset : ℕ → ℕ) {s : St} (h : s.loop < 10) (op : Op) : (step b reset s op).loop < 10 := by
  cases op with
  | enable =>
    show (startEnable b reset true s).loop < 10
    have : (startEnable b reset true s).loop = s.loop := by
      unfold startEnable enableStep
      simp only [if_true]
      split <;> first | rfl | (split <;> rfl)
    omega
  | disable => exact h
  | config c => exact h
  | poll =>
    show (pollMs s).loop < 10
    unfold pollMs
    split
    · assumption
    · split <;> exact Nat.zero_lt_succ _
  | wait n => exact h
  | status r0 r1 => exact h

/-- **C100** Whatever happened before, every tenth poll of an enabled driver reads both
registers of the fault status: within ten polls they are reported, and on revision 3 the
fault bit is the fault. -/
theorem C100_polled (b : Board) (c : Config) (reset : ℕ → ℕ) (now : ℕ) (ops : List Op)
    (he : (run b reset (start c reset now) ops).st = .enabled) :
    ∃ k, 1 ≤ k ∧ k ≤ 10 ∧
      let s := run b reset (start c reset now) ops
      let t := run b reset (start c reset now) (ops ++ List.replicate k .poll)
      t.fsr1 = s.chip.regs 0 % 2048 ∧ t.fsr2 = s.chip.regs 1 % 2048 ∧
      (t.fault = true ↔ Spec.field (s.chip.regs 0) 10 10 = 1) ∧
      (b.family = 0 → b.rev = 3 → ∀ line, faulted b t line = t.fault) := by
  have h : Inv b (run b reset (start c reset now) ops) := run_inv ops (s := start c reset now) rfl
  have hl : ∀ (l : List Op) (s : St), s.loop < 10 → (run b reset s l).loop < 10 := by
    intro l
    induction l with
    | nil => intro s h; exact h
    | cons op l ih => intro s h; exact ih _ (step_loop b reset h op)
  obtain ⟨k, h1, h2, -, h3⟩ := polled b reset h he (hl ops _ (by show 0 < 10; norm_num))
  refine ⟨k, h1, h2, ?_⟩
  have e : run b reset (start c reset now) (ops ++ List.replicate k .poll) =
      run b reset (run b reset (start c reset now) ops) (List.replicate k .poll) := by
    unfold run
    rw [List.foldl_append]
  rw [e]
  exact h3

/-- **C100 refuted** Revision 3: the fault bit of the status is kept while the driver is
disabled and enabled again.  Then the driver reports a fault as soon as it is enabled,
although the chip has none. -/
theorem C100_stale_refuted :
    let b : Board := ⟨0, 3⟩
    let on : List Op := [.enable, .wait 2000, .enable, .wait 1000, .enable, .wait 1000, .enable]
    let s := run b (fun _ => 0) (start (Config.default b) (fun _ => 0) 0)
      (on ++ [.status 1024 0] ++ List.replicate 10 .poll ++ [.disable, .wait 1000000] ++ on)
    s.st = .enabled ∧ s.chip.regs 0 = 0 ∧ faulted b s true = true := by decide +kernel

/-- The interrupt disables the driver while `StartEnable(true)` sets up the registers
(lines 94-97): then `enable_state_` is overwritten. -/
def raced (b : Board) (reset : ℕ → ℕ) (s : St) : St :=
  { startEnable b reset false (setUp b { s with st := .enabled }) with st := .enabling2 }

/-- **C100 refuted** If a stop arrives just then and the next command before the interrupt
has run again, the driver is said to be enabled with the registers of its reset: six PWM
inputs instead of three, and no fault. -/
theorem C100_race_refuted :
    let b : Board := ⟨0, 8⟩
    let reset := fun i => if i = 2 then 0 else if i = 3 then 0x3ff else if i = 4 then 0x7ff else
      if i = 5 then 0x159 else if i = 6 then 0x283 else 0
    let s := run b reset (start (Config.default b) reset 0) [.enable, .wait 2000]
    let t := run b reset (raced b reset s) [.wait 1000, .enable, .wait 1000, .enable]
    s.st = .enabling1 ∧ t.st = .enabled ∧ t.faultConfig = 0 ∧ Spec.field (t.chip.regs 2) 6 5 = 0 ∧
    Spec.field (words b t.cfg 2) 6 5 = 1 ∧ faulted b t true = false := by decide +kernel

/-- **C100 refuted** A configuration that arrives in the first millisecond after enabling is
a fault, whatever it is: the chip cannot be read yet. -/
theorem C100_early_refuted :
    let b : Board := ⟨0, 8⟩
    let s := run b (fun _ => 0) (start (Config.default b) (fun _ => 0) 0)
      [.enable, .wait 500, .config (Config.default b)]
    s.st = .enabling1 ∧ s.faultConfig = 252 ∧ faulted b s true = true := by decide +kernel

/-- The hypotheses of `C100_enables` and `C100_polled` can be met, and the tables are of use:
a driver that is enabled, with the gate currents of revision 6. -/
example :
    let b : Board := ⟨0, 6⟩
    let s := run b (fun _ => 0) (start (Config.default b) (fun _ => 0) 4294967000)
      [.enable, .wait 1001, .enable, .wait 0, .enable, .wait 0, .enable]
    s.st = .enabled ∧ s.chip.regs 3 = 0x3aa ∧ s.chip.regs 6 = 0x281 ∧ s.loop < 10 ∧ s.faultConfig = 0 ∧
    (Spec.means true s.chip.regs).idrivenLs = some 740 := by decide +kernel

end Verif.Fw.Gate
