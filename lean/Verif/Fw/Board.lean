import Mathlib.Data.Nat.Find
import Mathlib.Data.List.Induction
import Mathlib.Data.Nat.Bitwise
import Mathlib.Tactic.Ring

/-!
# Which board the firmware runs on (C116), and the SPI in software (C117)

`DetectMoteusFamily` and `DetectGateDriver` (fw/moteus_hw.cc:41-247) with what `main` makes of the result
(fw/moteus.cc:166-180), and `Stm32BitbangSpi` (fw/stm32_bitbang_spi.h).

Not modelled: `FindHardwarePins` (constants), the setup of the ADC, the durations of waits (see C113).
-/

namespace Verif.Fw.Board

/-! ## Model: the board -/

/-- What is connected to a pin. -/
inductive Level
  | low | high | floating
  deriving DecidableEq

/-- `DigitalIn(pin, PullUp).read()`, `DigitalIn(pin, PullDown).read()` -/
def readUp : Level → Bool
  | .low => false
  | _ => true

def readDown : Level → Bool
  | .high => true
  | _ => false

/-- `(a ? 1 : 0) | (b ? 2 : 0)` -/
def two (a b : Bool) : ℕ := (if a then 1 else 0) ||| (if b then 2 else 0)

/-- `family_code` (fw/moteus_hw.cc:105-123). -/
def familyCode (pb10 pb11 : Level) : ℕ :=
  two (readUp pb10) (readUp pb11) ||| two (readDown pb10) (readDown pb11) <<< 2

/-- `DetectGateDriver` (fw/moteus_hw.cc:55-97): what each register reads as. -/
def gateDriver (reg : ℕ → ℕ) : Bool := [2, 3, 4, 5].any fun r => reg r ≠ 0x7ff && reg r ≠ 0

/-- The loop that looks for the gate driver (fw/moteus_hw.cc:136-173): in attempt `i` the registers at the chip select
of family 1 and of family 0; `n` attempts from `i` on. -/
def search (fam1 fam0 : ℕ → ℕ → ℕ) : ℕ → ℕ → Option ℕ
  | 0, _ => none
  | n + 1, i =>
    if gateDriver (fam1 i) then some 1
    else if gateDriver (fam0 i) = false then search fam1 fam0 n (i + 1)
    else some 0

/-- `kFamily0HardwareInterlock` (fw/moteus_hw.cc:43-53). -/
def interlock : List ℤ := [-1, -1, -1, 0, 0, 1, 2, 3, 4]

/-- the position of the first entry, or -1 (fw/moteus_hw.cc:195-202). -/
def position (p : ℤ) : ℤ := match interlock.findIdx? (· = p) with
  | some i => i
  | none => -1

/-- `this_hw_pins` (fw/moteus_hw.cc:189-192): `0x07 & ~(...)`. -/
def hwPins (r0 r1 r2 : Bool) : ℕ :=
  7 - ((if r0 then 1 else 0) ||| (if r1 then 1 else 0) <<< 1 ||| (if r2 then 1 else 0) <<< 2)

/-- `hw_version` of family 0: by way of a `uint8_t` (fw/moteus_hw.cc:194-203). -/
def version0 (r0 r1 r2 : Bool) : ℤ := position (hwPins r0 r1 r2) % 256

/-- `hw_version` of family 1 (fw/moteus_hw.cc:225-241); the reading of 12 bit is shifted to 16. -/
def version1 (adc : ℕ) : ℤ :=
  let reading := adc <<< 4 % 65536
  if reading < 0x0200 then 0 else if reading > 0xfe00 then 1 else -1

/-- A board. -/
structure Hw where
  pb10 : Level
  pb11 : Level
  fam1 : ℕ → ℕ → ℕ
  fam0 : ℕ → ℕ → ℕ
  rev : Bool × Bool × Bool
  adc : ℕ

/-- What has become of the start after `n` attempts to find a gate driver. -/
inductive Start
  | runs (family : ℕ) (version : ℤ)
  /-- `mbed_die` (fw/moteus.cc:177-180) -/
  | dies
  /-- an assertion: unknown family (fw/moteus_hw.cc:174-177) -/
  | asserts
  | searching
  deriving DecidableEq

/-- what follows from the family (fw/moteus_hw.cc:180-246, fw/moteus.cc:166-180). -/
def finish (b : Hw) (family : ℕ) : Start :=
  let v := if family = 0 then version0 b.rev.1 b.rev.2.1 b.rev.2.2 else if family = 1 then version1 b.adc else 0
  if v < 0 then .dies else .runs family v

def start (b : Hw) (n : ℕ) : Start :=
  let c := familyCode b.pb10 b.pb11
  if c = 0x02 then finish b 2
  else if c = 0x03 then match search b.fam1 b.fam0 n 0 with
    | some f => finish b f
    | none => .searching
  else .asserts

/-! ## Specification: the board -/

/-- a chip answers: some register is neither all ones nor zero. -/
def Answers (reg : ℕ → ℕ) : Prop := ∃ r, 2 ≤ r ∧ r ≤ 5 ∧ reg r ≠ 0 ∧ reg r ≠ 2047

/-! ## Proofs: the board -/

private theorem gateDriver_iff (reg : ℕ → ℕ) : gateDriver reg = true ↔ Answers reg := by
  unfold gateDriver Answers
  simp only [List.any_cons, List.any_nil, Bool.or_false, Bool.or_eq_true, Bool.and_eq_true, decide_eq_true_eq]
  constructor
  · rintro (⟨h1, h2⟩ | ⟨h1, h2⟩ | ⟨h1, h2⟩ | ⟨h1, h2⟩)
    · exact ⟨2, by omega, by omega, h2, h1⟩
    · exact ⟨3, by omega, by omega, h2, h1⟩
    · exact ⟨4, by omega, by omega, h2, h1⟩
    · exact ⟨5, by omega, by omega, h2, h1⟩
  · rintro ⟨r, h1, h2, h3, h4⟩
    have : r = 2 ∨ r = 3 ∨ r = 4 ∨ r = 5 := by omega
    rcases this with rfl | rfl | rfl | rfl
    · exact .inl ⟨h4, h3⟩
    · exact .inr (.inl ⟨h4, h3⟩)
    · exact .inr (.inr (.inl ⟨h4, h3⟩))
    · exact .inr (.inr (.inr ⟨h4, h3⟩))

private theorem finish0 (b : Hw) : finish b 0 = if version0 b.rev.1 b.rev.2.1 b.rev.2.2 < 0 then .dies
    else .runs 0 (version0 b.rev.1 b.rev.2.1 b.rev.2.2) := rfl

private theorem finish1 (b : Hw) : finish b 1 = if version1 b.adc < 0 then .dies else .runs 1 (version1 b.adc) := rfl

/-- **C116, the family** is told from two pins: PB10 low and PB11 open is family 2, both open is family 0 or 1, and with anything else
the firmware does not start. -/
theorem C116_family (b : Hw) (n : ℕ) :
    (start b n = .asserts ↔ ¬ (b.pb11 = .floating ∧ b.pb10 ≠ .high)) ∧
    (∀ v, start b n = .runs 2 v ↔ b.pb10 = .low ∧ b.pb11 = .floating ∧ v = 0) := by
  have hs : ∀ m i f, search b.fam1 b.fam0 m i = some f → f = 0 ∨ f = 1 := by
    intro m
    induction m with
    | zero => intro i f h; simp [search] at h
    | succ m ih =>
      intro i f h
      rw [search] at h
      split_ifs at h
      · simp at h; omega
      · exact ih _ _ h
      · simp at h; omega
  have hf : ∀ f, finish b f ≠ .asserts := by
    intro f
    unfold finish
    simp only
    split_ifs <;> simp
  have h2 : finish b 2 = .runs 2 0 := by simp [finish]
  have hf2 : ∀ f v, f = 0 ∨ f = 1 → finish b f ≠ .runs 2 v := by
    intro f v hv
    rcases hv with rfl | rfl
    · rw [finish0]; split <;> simp
    · rw [finish1]; split <;> simp
  have hcode : (familyCode b.pb10 b.pb11 = 2 ↔ b.pb10 = .low ∧ b.pb11 = .floating) ∧
      (familyCode b.pb10 b.pb11 = 3 ↔ b.pb10 = .floating ∧ b.pb11 = .floating) := by
    cases b.pb10 <;> cases b.pb11 <;> decide
  unfold start
  simp only
  by_cases c2 : familyCode b.pb10 b.pb11 = 2
  · obtain ⟨e1, e2⟩ := hcode.1.1 c2
    rw [if_pos c2, h2, e1, e2]
    simp [eq_comm]
  · rw [if_neg c2]
    have n2 := fun h => c2 (hcode.1.2 h)
    by_cases c3 : familyCode b.pb10 b.pb11 = 3
    · obtain ⟨e1, e2⟩ := hcode.2.1 c3
      rw [if_pos c3, e1, e2]
      cases hsr : search b.fam1 b.fam0 n 0 with
      | none => simp
      | some f => simp [hf f, hf2 f _ (hs _ _ _ hsr)]
    · have n3 := fun h => c3 (hcode.2.2 h)
      rw [if_neg c3]
      revert n2 n3
      cases b.pb10 <;> cases b.pb11 <;> simp

private theorem search_spec (b : Hw) : ∀ (n i : ℕ) (f : ℕ), search b.fam1 b.fam0 n i = some f ↔
    ∃ k, k < n ∧ (∀ j, j < k → ¬ Answers (b.fam1 (i + j)) ∧ ¬ Answers (b.fam0 (i + j))) ∧
      ((f = 1 ∧ Answers (b.fam1 (i + k))) ∨ (f = 0 ∧ ¬ Answers (b.fam1 (i + k)) ∧ Answers (b.fam0 (i + k)))) := by
  intro n
  induction n with
  | zero => intro i f; simp [search]
  | succ n ih =>
    intro i f
    rw [search]
    by_cases h1 : gateDriver (b.fam1 i) = true
    · rw [if_pos h1]
      have a1 := (gateDriver_iff _).1 h1
      constructor
      · intro h
        refine ⟨0, by omega, fun j hj => by omega, .inl ⟨by simpa [eq_comm] using h, by simpa using a1⟩⟩
      · rintro ⟨k, hk, hj, h⟩
        cases k with
        | zero =>
          rcases h with ⟨rfl, -⟩ | ⟨-, h, -⟩
          · rfl
          · exact absurd a1 (by simpa using h)
        | succ k => exact absurd a1 (by simpa using (hj 0 (by omega)).1)
    · have a1 := fun h => h1 ((gateDriver_iff _).2 h)
      rw [if_neg h1]
      by_cases h0 : gateDriver (b.fam0 i) = true
      · have a0 := (gateDriver_iff _).1 h0
        rw [if_neg (by simp [h0])]
        constructor
        · intro h
          exact ⟨0, by omega, fun j hj => by omega, .inr ⟨by simpa [eq_comm] using h, by simpa using a1, by simpa using a0⟩⟩
        · rintro ⟨k, hk, hj, h⟩
          cases k with
          | zero =>
            rcases h with ⟨-, h⟩ | ⟨rfl, -, -⟩
            · exact absurd (by simpa using h) a1
            · rfl
          | succ k => exact absurd a0 (by simpa using (hj 0 (by omega)).2)
      · have a0 := fun h => h0 ((gateDriver_iff _).2 h)
        rw [if_pos (by simpa using h0), ih]
        constructor
        · rintro ⟨k, hk, hj, h⟩
          refine ⟨k + 1, by omega, ?_, ?_⟩
          · intro j hjk
            cases j with
            | zero => exact ⟨by simpa using a1, by simpa using a0⟩
            | succ j =>
              have := hj j (by omega)
              rwa [show i + (j + 1) = i + 1 + j by omega]
          · rwa [show i + (k + 1) = i + 1 + k by omega]
        · rintro ⟨k, hk, hj, h⟩
          cases k with
          | zero =>
            rcases h with ⟨-, h⟩ | ⟨-, -, h⟩
            · exact absurd (by simpa using h) a1
            · exact absurd (by simpa using h) a0
          | succ k =>
            refine ⟨k, by omega, ?_, ?_⟩
            · intro j hjk
              have := hj (j + 1) (by omega)
              rwa [show i + (j + 1) = i + 1 + j by omega] at this
            · rwa [show i + (k + 1) = i + 1 + k by omega] at h

/-- **C116, family 0 or 1** is told by where the first gate driver answers, at the chip select of family 1 first;
the firmware waits until one does. -/
theorem C116_search (b : Hw) (h : b.pb10 = .floating ∧ b.pb11 = .floating) (n k : ℕ) (hk : k < n)
    (hj : ∀ j, j < k → ¬ Answers (b.fam1 j) ∧ ¬ Answers (b.fam0 j)) :
    (Answers (b.fam1 k) → start b n = finish b 1) ∧
    (¬ Answers (b.fam1 k) → Answers (b.fam0 k) → start b n = finish b 0) := by
  have e : ∀ f, search b.fam1 b.fam0 n 0 = some f → start b n = finish b f := by
    intro f hf
    unfold start
    rw [h.1, h.2, hf]
    rfl
  constructor
  · intro h1
    apply e
    rw [search_spec]
    exact ⟨k, hk, by simpa using hj, .inl ⟨rfl, by simpa using h1⟩⟩
  · intro h1 h0
    apply e
    rw [search_spec]
    exact ⟨k, hk, by simpa using hj, .inr ⟨rfl, by simpa using h1, by simpa using h0⟩⟩

/-- **C116, waiting**: no board is found while no gate driver answers. -/
theorem C116_waits (b : Hw) (h : b.pb10 = .floating ∧ b.pb11 = .floating) (n : ℕ) :
    start b n = .searching ↔ ∀ j, j < n → ¬ Answers (b.fam1 j) ∧ ¬ Answers (b.fam0 j) := by
  have hfin : ∀ f, finish b f ≠ .searching := by
    intro f
    unfold finish
    simp only
    split_ifs <;> simp
  constructor
  · intro hs j hj
    by_contra hc
    have hex : ∃ j, ¬ (¬ Answers (b.fam1 j) ∧ ¬ Answers (b.fam0 j)) := ⟨j, hc⟩
    classical
    have hk := Nat.find_spec hex
    have hm : ∀ i, i < Nat.find hex → ¬ Answers (b.fam1 i) ∧ ¬ Answers (b.fam0 i) := fun i hi => not_not.1 (Nat.find_min hex hi)
    have hlt : Nat.find hex < n := lt_of_le_of_lt (Nat.find_le hc) hj
    obtain ⟨s1, s0⟩ := C116_search b h n _ hlt hm
    by_cases h1 : Answers (b.fam1 (Nat.find hex))
    · exact hfin 1 ((s1 h1).symm.trans hs)
    · by_cases h0 : Answers (b.fam0 (Nat.find hex))
      · exact hfin 0 ((s0 h1 h0).symm.trans hs)
      · exact hk ⟨h1, h0⟩
  · intro hj
    unfold start
    have : search b.fam1 b.fam0 n 0 = none := by
      cases hs : search b.fam1 b.fam0 n 0 with
      | none => rfl
      | some f =>
        obtain ⟨k, hk, -, ha⟩ := (search_spec b n 0 f).1 hs
        have := hj k hk
        rcases ha with ⟨-, ha⟩ | ⟨-, -, ha⟩
        · exact absurd (by simpa using ha) this.1
        · exact absurd (by simpa using ha) this.2
    rw [h.1, h.2, this]
    rfl

/-- **C116, the revision** of family 0, from the number on the three pins (a low pin is 1), and of family 1, from the
voltage at a pin; a board of family 1 with any other voltage is refused. -/
theorem C116_version_partial (b : Hw) :
    (∀ r0 r1 r2, b.rev = (!r0, !r1, !r2) → ∀ v, (two r0 r1 + (if r2 then 4 else 0), v) ∈
      [((0 : ℕ), (3 : ℤ)), (1, 5), (2, 6), (3, 7), (4, 8)] → finish b 0 = .runs 0 v) ∧
    (b.adc < 4096 →
      (b.adc < 32 → finish b 1 = .runs 1 0) ∧ (4064 < b.adc → finish b 1 = .runs 1 1) ∧
      (32 ≤ b.adc → b.adc ≤ 4064 → finish b 1 = .dies)) := by
  refine ⟨?_, ?_⟩
  · intro r0 r1 r2 hr v hv
    rw [finish0, hr]
    cases r0 <;> cases r1 <;> cases r2 <;> simp [two] at hv <;> subst hv <;> decide
  · intro ha
    have e : b.adc <<< 4 % 65536 = b.adc * 16 := by
      rw [Nat.shiftLeft_eq, Nat.mod_eq_of_lt (by omega)]
    refine ⟨?_, ?_, ?_⟩
    · intro h
      have hv : version1 b.adc = 0 := by
        simp only [version1, e]
        rw [if_pos (by omega)]
      rw [finish1, hv]
      rfl
    · intro h
      have hv : version1 b.adc = 1 := by
        simp only [version1, e]
        rw [if_neg (by omega), if_pos (by omega)]
      rw [finish1, hv]
      rfl
    · intro h1 h2
      have hv : version1 b.adc = -1 := by
        simp only [version1, e]
        rw [if_neg (by omega), if_neg (by omega)]
      rw [finish1, hv]
      rfl

/-- the hypotheses: an r4.11 whose gate driver answers at the third attempt. -/
example : let b : Hw := ⟨.floating, .floating, fun _ _ => 2047, fun i _ => if i < 2 then 2047 else 5, (true, true, false), 7⟩
    start b 5 = .runs 0 8 ∧ (∀ j, j < 2 → ¬ Answers (b.fam1 j) ∧ ¬ Answers (b.fam0 j)) ∧ Answers (b.fam0 2) := by
  refine ⟨by decide, ?_, ⟨2, by decide⟩⟩
  intro j hj
  constructor
  · rintro ⟨r, -, -, -, h⟩
    exact h rfl
  · rintro ⟨r, -, -, -, h⟩
    simp [hj] at h

/-- **C116 is violated: a board of family 0 with an unknown revision is not refused**, the firmware runs as revision 255. -/
theorem C116_unknown_refuted (b : Hw) (r0 r1 : Bool) (h : r0 = true ∨ r1 = true) (hr : b.rev = (!r0, !r1, false))
    (hp : b.pb10 = .floating ∧ b.pb11 = .floating) (h1 : ¬ Answers (b.fam1 0)) (h0 : Answers (b.fam0 0)) :
    start b 1 = .runs 0 255 := by
  rw [(C116_search b hp 1 0 (by decide) (fun j hj => by omega)).2 h1 h0]
  rw [finish0, hr]
  rcases h with rfl | rfl
  · cases r1 <;> decide
  · cases r0 <;> decide

example : start ⟨.floating, .floating, fun _ _ => 2047, fun _ _ => 5, (!true, !false, false), 0⟩ 1 = .runs 0 255 ∧
    ¬ Answers (fun _ => 2047) ∧ Answers (fun _ => 5) :=
  ⟨by decide, fun ⟨_, _, _, _, h⟩ => h rfl, ⟨2, by decide⟩⟩

/-! ## Model: SPI in software -/

/-- A device in mode 1: what it will send, highest bit first, what it presents at MISO, and what it has received. -/
structure Slave where
  toSend : List Bool
  miso : Bool
  received : List Bool

/-- the rising edge: the device presents the next bit. -/
def Slave.rise (s : Slave) : Slave := { s with miso := s.toSend.headD false, toSend := s.toSend.tail }

/-- the falling edge: the device takes the bit at MOSI. -/
def Slave.fall (s : Slave) (mosi : Bool) : Slave := { s with received := s.received ++ [mosi] }

/-- The loop of `write` (fw/stm32_bitbang_spi.h:53-62) with `i` bits to go. -/
def transfer (value : ℕ) : ℕ → ℕ → Slave → ℕ × Slave
  | 0, result, s => (result, s)
  | i + 1, result, s =>
    let mosi := decide (value &&& 1 <<< i ≠ 0)
    let s := (s.rise).fall mosi
    transfer value i ((result <<< 1 % 65536) ||| (if s.miso then 1 else 0)) s

/-- `us_delay_` (fw/stm32_bitbang_spi.h:44). -/
def delay (frequency : ℕ) : ℕ := max 1 (500000 / frequency)

/-! ## Specification: SPI in software -/

/-- the number with these bits, highest first. -/
def number (l : List Bool) : ℕ := l.foldl (fun n b => 2 * n + (if b then 1 else 0)) 0

/-! ## Proofs: SPI in software -/

private theorem number_aux (l : List Bool) : ∀ n, l.foldl (fun n b => 2 * n + (if b then 1 else 0)) n =
    n * 2 ^ l.length + number l := by
  induction l with
  | nil => intro n; simp [number]
  | cons b l ih =>
    intro n
    have h0 : number (b :: l) = (if b then 1 else 0) * 2 ^ l.length + number l := by
      unfold number
      rw [List.foldl_cons, ih]
      simp [number]
    rw [List.foldl_cons, ih, h0, List.length_cons, Nat.pow_succ]
    ring

private theorem number_append (l : List Bool) (b : Bool) : number (l ++ [b]) = 2 * number l + (if b then 1 else 0) := by
  simp [number]

private theorem number_lt (l : List Bool) : number l < 2 ^ l.length := by
  induction l using List.reverseRecOn with
  | nil => simp [number]
  | append_singleton l b ih =>
    rw [number_append, List.length_append, List.length_singleton, Nat.pow_succ]
    split <;> omega

private theorem transfer_spec (value : ℕ) : ∀ (i : ℕ) (pre bits : List Bool) (s : Slave), bits.length = i →
    pre.length + i ≤ 16 → (∃ rest, s.toSend = bits ++ rest) →
    (transfer value i (number pre) s).1 = number (pre ++ bits) ∧
    (transfer value i (number pre) s).2.received = s.received ++ (List.range i).reverse.map (fun j => value.testBit j) := by
  intro i
  induction i with
  | zero =>
    intro pre bits s hb _ _
    rw [List.length_eq_zero_iff] at hb
    subst hb
    simp [transfer]
  | succ i ih =>
    intro pre bits s hb hp hs
    obtain ⟨rest, hs⟩ := hs
    cases bits with
    | nil => simp at hb
    | cons b bits =>
      rw [transfer]
      have hm : ((s.rise).fall (decide (value &&& 1 <<< i ≠ 0))).miso = b := by
        simp [Slave.fall, Slave.rise, hs]
      have hbit : decide (value &&& 1 <<< i ≠ 0) = value.testBit i := by
        rw [Nat.shiftLeft_eq, Nat.one_mul, Nat.and_two_pow]
        cases h : value.testBit i
        · simp
        · simp
      have hres : (number pre <<< 1 % 65536) ||| (if b then 1 else 0) = number (pre ++ [b]) := by
        have hl := number_lt pre
        have h15 : 2 ^ pre.length ≤ 2 ^ 15 := Nat.pow_le_pow_right (by omega) (by omega)
        have e : number pre <<< 1 % 65536 = 2 * number pre := by
          rw [Nat.shiftLeft_eq, Nat.mod_eq_of_lt (by omega)]
          omega
        rw [e, number_append]
        cases b
        · simp
        · simp only [if_true]
          rw [show 2 * number pre = 2 ^ 1 * number pre by ring, ← Nat.two_pow_add_eq_or_of_lt (by decide : 1 < 2 ^ 1)]
      simp only [hm]
      rw [hres]
      obtain ⟨h1, h2⟩ := ih (pre ++ [b]) bits ((s.rise).fall (decide (value &&& 1 <<< i ≠ 0))) (by simpa using hb)
        (by simp; omega) ⟨rest, by simp [Slave.fall, Slave.rise, hs]⟩
      refine ⟨by rw [h1]; simp, ?_⟩
      rw [h2, List.range_succ, List.reverse_append, hbit]
      simp [Slave.fall, Slave.rise]

private theorem number_bits (value : ℕ) : ∀ w, number ((List.range w).reverse.map (fun j => value.testBit j)) = value % 2 ^ w := by
  intro w
  induction w with
  | zero => simp [number, Nat.mod_one]
  | succ w ih =>
    rw [List.range_succ, List.reverse_append, List.reverse_singleton, List.singleton_append, List.map_cons]
    have h0 : ∀ (b : Bool) (l : List Bool), number (b :: l) = (if b then 1 else 0) * 2 ^ l.length + number l := by
      intro b l
      have := number_aux l (if b then 1 else 0)
      rw [← this]
      simp [number]
    rw [h0, ih, List.length_map, List.length_reverse, List.length_range, Nat.mod_pow_succ,
      Nat.testBit_eq_decide_div_mod_eq]
    rcases Nat.mod_two_eq_zero_or_one (value / 2 ^ w) with h | h
    · rw [h]; simp
    · rw [h]; simp; ring

/-- **C117, an exchange**: the device receives the bits of the value from the highest of the width on, and the result is what the device
sent, for every width up to 16. -/
theorem C117_exchange (width value : ℕ) (hw : width ≤ 16) (bits rest : List Bool) (hb : bits.length = width) (miso : Bool) :
    let r := transfer value width 0 ⟨bits ++ rest, miso, []⟩
    r.1 = number bits ∧ r.2.received.length = width ∧ number r.2.received = value % 2 ^ width := by
  have h := transfer_spec value width [] bits ⟨bits ++ rest, miso, []⟩ hb (by simpa using hw) ⟨rest, rfl⟩
  have h0 : number [] = 0 := rfl
  rw [h0] at h
  refine ⟨by simpa using h.1, ?_, ?_⟩
  · rw [h.2]; simp
  · rw [h.2, List.nil_append, number_bits]

example : ([true, false, true] : List Bool).length = 3 ∧ (transfer 6 3 0 ⟨[true, false, true], false, []⟩).1 = 5 := by decide

/-- **C117, the clock** is not faster than asked for if the frequency is at least 500 kHz, or divides it; the firmware uses
500 kHz and 1 MHz.  A half period takes longer than `delay` microseconds (C113). -/
theorem C117_clock_partial (f : ℕ) (hf : 0 < f) (h : 500000 ≤ f ∨ f ∣ 500000) : 500000 ≤ delay f * f := by
  unfold delay
  rcases h with h | ⟨d, h⟩
  · calc 500000 ≤ 1 * f := by omega
      _ ≤ _ := Nat.mul_le_mul_right f (le_max_left _ _)
  · rw [h, Nat.mul_div_cancel_left d hf]
    calc f * d = d * f := Nat.mul_comm _ _
      _ ≤ _ := Nat.mul_le_mul_right f (le_max_right _ _)

example : (0 : ℕ) < 1000000 ∧ (500000 : ℕ) ≤ 1000000 := by decide

/-- **C117 is violated at 300 kHz**: the wait is 1 µs where the half of a period is 1.67 µs. -/
theorem C117_clock_refuted : ¬ 500000 ≤ delay 300000 * 300000 := by decide

end Verif.Fw.Board
