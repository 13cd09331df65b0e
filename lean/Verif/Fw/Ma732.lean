import Mathlib.Data.List.Basic
import Mathlib.Data.Nat.Bitwise
import Mathlib.Tactic.NormNum

/-!
# The registers of the MA732 and MA600 encoders (C108)

`MA732` of `fw/ma732.h` compares three registers of the encoder with the configuration and changes those that
differ; each change wears the memory of the encoder.

The SPI bus is a machine that answers one 16 bit word to each word.  The encoders are those of their data
sheets: the answer to a command comes with the next word; a word that answers no command is the angle.  The
window of the filter doubles with each step of 17 of the register of the MA732 and is 64 µs for 51.  Not
modelled: the waits between the words.
-/

namespace Verif.Fw.Ma732

inductive Model where
  | ma732 | ma600
  deriving DecidableEq

/-! ## the class -/

/-- what `spi_.write` does: the word that comes back. -/
abbrev Bus (σ : Type) := σ → ℕ → ℕ × σ

variable {σ : Type}

/-- `SetRegister` (120-171): the result is `true` if it failed. -/
def setRegister (x : Bus σ) (m : Model) (s : σ) (reg desired mask : ℕ) : Bool × σ :=
  match m with
  | .ma732 =>
    let s := (x s (0x4000 ||| reg <<< 8)).2
    let r := x s 0
    if (r.1 >>> 8) &&& mask = desired &&& mask then (false, r.2)
    else
      let s := (x r.2 (0x8000 ||| reg <<< 8 ||| desired)).2
      let r := x s 0
      (decide ((r.1 >>> 8) &&& mask ≠ desired &&& mask), r.2)
  | .ma600 =>
    let s := (x s (0xd2 <<< 8 ||| reg)).2
    let r := x s 0
    if (r.1 &&& 0xff) &&& mask = desired &&& mask then (false, r.2)
    else
      let s := (x r.2 0xea54).2
      let s := (x s (reg <<< 8 ||| desired)).2
      let r := x s 0
      (decide ((r.1 &&& 0xff) &&& mask ≠ desired &&& mask), r.2)

/-- `filter_us`, `bct`, `enable_trim` (34-38). -/
structure Options where
  filterUs : ℕ
  bct : ℕ
  trim : ℕ

/-- the register of the filter and its value (70-107). -/
def filter (m : Model) (us : ℕ) : ℕ × ℕ :=
  match m with
  | .ma732 => (0x0e,
      if us ≤ 64 then 51 else if us ≤ 128 then 68 else if us ≤ 256 then 102 else if us ≤ 1024 then 119
      else if us ≤ 2048 then 136 else if us ≤ 4096 then 153 else if us ≤ 8192 then 170 else 187)
  | .ma600 => (0x0d,
      if us = 0 then 0 else if us ≤ 40 then 5 else if us ≤ 80 then 6 else if us ≤ 160 then 7
      else if us ≤ 320 then 8 else if us ≤ 640 then 9 else if us ≤ 1280 then 10 else if us ≤ 2560 then 11
      else 12)

/-- `SetConfig` (68-117; the comment in line 68 says the opposite): the result is `true` if it failed. -/
def setConfig (x : Bus σ) (m : Model) (s : σ) (o : Options) : Bool × σ :=
  let f := setRegister x m s (filter m o.filterUs).1 (filter m o.filterUs).2 0xff
  if f.1 then (true, f.2)
  else
    let b := setRegister x m f.2 0x02 o.bct 0xff
    if b.1 then (true, b.2)
    else
      let t := setRegister x m b.2 0x03 o.trim 0x03
      if t.1 then (true, t.2) else (false, t.2)

/-! ## the encoders -/

/-- an encoder: its registers, what it will answer next (`none`: the angle), whether the next word is a value
for a register (MA600), the angle, and how often a register was written. -/
structure Dev where
  regs : ℕ → ℕ
  reply : Option ℕ
  armed : Bool
  angle : ℕ
  writes : ℕ

def setReg (d : Dev) (r v : ℕ) : Dev :=
  { d with regs := fun i => if i = r then v else d.regs i, writes := d.writes + 1 }

/-- one word to an encoder. -/
def word (m : Model) (d : Dev) (w : ℕ) : ℕ × Dev :=
  (d.reply.getD d.angle,
    match m with
    | .ma732 =>
      if w / 0x2000 = 2 then { d with reply := some (d.regs (w / 256 % 32) * 256) }
      else if w / 0x2000 = 4 then { setReg d (w / 256 % 32) (w % 256) with reply := some (w % 256 * 256) }
      else { d with reply := none }
    | .ma600 =>
      if d.armed then { setReg d (w / 256) (w % 256) with reply := some (w % 256), armed := false }
      else if w = 0xea54 then { d with reply := none, armed := true }
      else if w / 256 = 0xd2 then { d with reply := some (d.regs (w % 256)) }
      else { d with reply := none })

/-! ## the specification -/

namespace Spec

/-- the three registers of a model and what they have to hold: the filter, BCT, the trimmed axes. -/
def filterRegister : Model → ℕ
  | .ma732 => 14
  | .ma600 => 13

/-- the window of the filter of an MA732 in µs. -/
def window (code : ℕ) : ℕ := 64 * 2 ^ (code / 17 - 3)

/-- options of a configuration: `bct` is a byte, one axis at most. -/
def Ok (o : Options) : Prop := o.bct < 256 ∧ o.trim < 3

/-- all registers are bytes. -/
def Bytes (d : Dev) : Prop := ∀ i, d.regs i < 256

/-- which of the registers differ from the configuration. -/
def changes (m : Model) (o : Options) (d : Dev) : ℕ :=
  (if d.regs (filterRegister m) = (filter m o.filterUs).2 then 0 else 1) +
    (if d.regs 2 = o.bct then 0 else 1) + (if d.regs 3 % 4 = o.trim then 0 else 1)

end Spec

open Spec

/-! ## proofs -/

private theorem and255 (x : ℕ) : x &&& 255 = x % 256 := Nat.and_two_pow_sub_one_eq_mod x 8

private theorem and3 (x : ℕ) : x &&& 3 = x % 4 := Nat.and_two_pow_sub_one_eq_mod x 2

private theorem read_word : ∀ r < 16, (0x4000 ||| r <<< 8) / 0x2000 = 2 ∧ (0x4000 ||| r <<< 8) / 256 % 32 = r ∧
    (0xd2 <<< 8 ||| r) ≠ 0xea54 ∧ (0xd2 <<< 8 ||| r) / 256 = 0xd2 ∧ (0xd2 <<< 8 ||| r) % 256 = r := by
  decide

private theorem write_word (r v : ℕ) (hr : r < 16) (hv : v < 256) :
    (0x8000 ||| r <<< 8 ||| v) / 0x2000 = 4 ∧ (0x8000 ||| r <<< 8 ||| v) / 256 % 32 = r ∧
    (0x8000 ||| r <<< 8 ||| v) % 256 = v ∧ (r <<< 8 ||| v) / 256 = r ∧ (r <<< 8 ||| v) % 256 = v := by
  have h1 : r <<< 8 ||| v = r * 256 + v := by
    rw [Nat.shiftLeft_eq, Nat.mul_comm, ← Nat.two_pow_add_eq_or_of_lt (i := 8) hv]
  have h2 : 0x8000 ||| (r <<< 8 ||| v) = 0x8000 + (r * 256 + v) := by
    rw [h1]
    have := Nat.two_pow_add_eq_or_of_lt (i := 15) (b := r * 256 + v) (by omega) 1
    rw [show 2 ^ 15 * 1 = 0x8000 from rfl] at this
    exact this.symm
  rw [Nat.or_assoc, h2, h1]
  omega

/-- one register of a working encoder. -/
private theorem setRegister_works {m : Model} {d : Dev} {reg desired mask : ℕ} (hr : reg < 16)
    (hv : desired < 256) (hb : Bytes d) (ha : d.armed = false) :
    ∃ e : Dev, setRegister (word m) m d reg desired mask = (false, e) ∧ e.armed = false ∧
      ((d.regs reg &&& mask = desired &&& mask ∧ e.regs = d.regs ∧ e.writes = d.writes) ∨
        (d.regs reg &&& mask ≠ desired &&& mask ∧ e.regs = (fun i => if i = reg then desired else d.regs i) ∧
          e.writes = d.writes + 1)) := by
  obtain ⟨r1, r2, r3, r4, r5⟩ := read_word reg hr
  obtain ⟨w1, w2, w3, w4, w5⟩ := write_word reg desired hr hv
  have hreg := hb reg
  cases m with
  | ma732 =>
    have hsh : ∀ x, (x * 256) >>> 8 = x := fun x => by rw [Nat.shiftRight_eq_div_pow]; omega
    by_cases h : d.regs reg &&& mask = desired &&& mask
    · refine ⟨{ d with reply := none }, ?_, ha, Or.inl ⟨h, rfl, rfl⟩⟩
      simp only [setRegister, word, r1, r2, if_true, Option.getD_some, hsh, h, Nat.zero_div,
        OfNat.zero_ne_ofNat, if_false]
    · refine ⟨{ setReg d reg desired with reply := none }, ?_, ha, Or.inr ⟨h, rfl, rfl⟩⟩
      simp only [setRegister, word, r1, r2, w1, w2, w3, if_true, Option.getD_some, hsh, h, Nat.zero_div,
        OfNat.zero_ne_ofNat, if_false, Nat.reduceEqDiff, ne_eq, not_true_eq_false,
        decide_false, setReg]
  | ma600 =>
    rw [show (0xd2 <<< 8 : ℕ) = 53760 from rfl] at r3 r4 r5
    have hlo : ∀ x, x < 256 → x &&& 255 = x := fun x hx => by rw [and255]; omega
    by_cases h : d.regs reg &&& mask = desired &&& mask
    · refine ⟨{ d with reply := none }, ?_, ha, Or.inl ⟨h, rfl, rfl⟩⟩
      simp [setRegister, word, ha, r3, r4, r5, hlo _ hreg, h]
    · refine ⟨{ setReg d reg desired with reply := none, armed := false }, ?_, rfl, Or.inr ⟨h, rfl, rfl⟩⟩
      simp [setRegister, word, ha, r3, r4, r5, w4, w5, hlo _ hreg, hlo _ hv, h, setReg]

private theorem filter_byte (m : Model) (us : ℕ) : (filter m us).2 < 256 := by
  cases m <;> simp only [filter] <;> split_ifs <;> omega

/-- **C108, setting.** Whatever the encoder holds, afterwards it holds the configuration and there is no
error; the other registers are as they were; only registers that differ are written. -/
theorem C108_set {m : Model} {d : Dev} {o : Options} (ho : Ok o) (hb : Bytes d) (ha : d.armed = false) :
    ∃ e : Dev, setConfig (word m) m d o = (false, e) ∧
      e.regs (filterRegister m) = (filter m o.filterUs).2 ∧ e.regs 2 = o.bct ∧ e.regs 3 % 4 = o.trim ∧
      (∀ i, i ≠ filterRegister m → i ≠ 2 → i ≠ 3 → e.regs i = d.regs i) ∧
      e.writes = d.writes + changes m o d ∧ Bytes e ∧ e.armed = false := by
  obtain ⟨o1, o2⟩ := ho
  have hf := filter_byte m o.filterUs
  have hfr : (filter m o.filterUs).1 = filterRegister m ∧ filterRegister m < 16 ∧ filterRegister m ≠ 2 ∧
      filterRegister m ≠ 3 := by cases m <;> simp [filter, filterRegister]
  obtain ⟨f1, f2, f3, f4⟩ := hfr
  obtain ⟨e1, q1, a1, c1⟩ := setRegister_works (m := m) (mask := 0xff) f2 hf hb ha
  have hb1 : Bytes e1 := by
    intro i
    rcases c1 with ⟨-, h, -⟩ | ⟨-, h, -⟩ <;> rw [h]
    · exact hb i
    · show (if i = filterRegister m then _ else d.regs i) < 256
      split
      · exact hf
      · exact hb i
  obtain ⟨e2, q2, a2, c2⟩ := setRegister_works (m := m) (mask := 0xff) (reg := 2) (by norm_num) o1 hb1 a1
  have hb2 : Bytes e2 := by
    intro i
    rcases c2 with ⟨-, h, -⟩ | ⟨-, h, -⟩ <;> rw [h]
    · exact hb1 i
    · show (if i = 2 then _ else e1.regs i) < 256
      split
      · exact o1
      · exact hb1 i
  obtain ⟨e3, q3, a3, c3⟩ := setRegister_works (m := m) (mask := 3) (reg := 3) (desired := o.trim) (by norm_num)
    (by omega) hb2 a2
  refine ⟨e3, ?_, ?_⟩
  · unfold setConfig
    simp only [f1, q1, q2, q3, Bool.false_eq_true, if_false]
  have hm : ∀ x y, x < 256 → y < 256 → (x &&& 255 = y &&& 255 ↔ x = y) := by
    intro x y hx hy
    rw [and255, and255, Nat.mod_eq_of_lt hx, Nat.mod_eq_of_lt hy]
  simp only [ne_eq, hm _ _ (hb _) hf] at c1
  simp only [ne_eq, hm _ _ (hb1 _) o1] at c2
  simp only [ne_eq, and3, Nat.mod_eq_of_lt (a := o.trim) (show o.trim < 4 by omega)] at c3
  have r1 : e1.regs = fun i => if i = filterRegister m then (filter m o.filterUs).2 else d.regs i := by
    rcases c1 with ⟨h, h2, -⟩ | ⟨-, h2, -⟩
    · rw [h2]
      funext i
      by_cases hi : i = filterRegister m
      · rw [if_pos hi, hi, h]
      · rw [if_neg hi]
    · exact h2
  have r2 : e2.regs = fun i => if i = 2 then o.bct else e1.regs i := by
    rcases c2 with ⟨h, h2, -⟩ | ⟨-, h2, -⟩
    · rw [h2]
      funext i
      by_cases hi : i = 2
      · rw [if_pos hi, hi, h]
      · rw [if_neg hi]
    · exact h2
  have r3 : (∀ i, i ≠ 3 → e3.regs i = e2.regs i) ∧ e3.regs 3 % 4 = o.trim ∧ e3.regs 3 < 256 := by
    rcases c3 with ⟨h, h2, -⟩ | ⟨-, h2, -⟩
    · rw [h2]
      exact ⟨fun _ _ => rfl, h, hb2 3⟩
    · rw [h2]
      refine ⟨fun i hi => if_neg hi, ?_, ?_⟩
      · show (if (3 : ℕ) = 3 then o.trim else _) % 4 = _
        rw [if_pos rfl]
        omega
      · show (if (3 : ℕ) = 3 then o.trim else _) < 256
        rw [if_pos rfl]
        omega
  have hd2 : e1.regs 2 = d.regs 2 := by rw [r1]; exact if_neg (Ne.symm f3)
  have hd3 : e2.regs 3 = d.regs 3 := by
    rw [r2]
    show (if (3 : ℕ) = 2 then _ else e1.regs 3) = _
    rw [if_neg (by norm_num), r1]
    exact if_neg (Ne.symm f4)
  refine ⟨?_, ?_, r3.2.1, ?_, ?_, ?_, a3⟩
  · rw [r3.1 _ f4, r2]
    show (if filterRegister m = 2 then _ else _) = _
    rw [if_neg f3, r1]
    exact if_pos rfl
  · rw [r3.1 2 (by norm_num), r2]
    exact if_pos rfl
  · intro i h1 h2 h3
    rw [r3.1 i h3, r2]
    show (if i = 2 then _ else e1.regs i) = _
    rw [if_neg h2, r1]
    exact if_neg h1
  · rw [hd2] at c2
    rw [hd3] at c3
    unfold changes
    rcases c1 with ⟨k1, -, w1⟩ | ⟨k1, -, w1⟩ <;> rcases c2 with ⟨k2, -, w2⟩ | ⟨k2, -, w2⟩ <;>
      rcases c3 with ⟨k3, -, w3⟩ | ⟨k3, -, w3⟩ <;> rw [w3, w2, w1] <;> simp [k1, k2, k3]
  · intro i
    by_cases hi : i = 3
    · rw [hi]
      exact r3.2.2
    · rw [r3.1 i hi]
      exact hb2 i

/-- the hypotheses of `C108_set`: an encoder as delivered, 1 ms, the X axis trimmed. -/
example : Ok ⟨1000, 100, 1⟩ ∧ Bytes ⟨fun i => if i = 14 then 119 else 0, none, false, 0x1234, 0⟩ ∧
    changes .ma732 ⟨1000, 100, 1⟩ ⟨fun i => if i = 14 then 119 else 0, none, false, 0x1234, 0⟩ = 2 := by
  refine ⟨⟨by norm_num, by norm_num⟩, fun i => ?_, by decide⟩
  show (if i = 14 then 119 else 0) < 256
  split <;> norm_num

/-- **C108, again.** An encoder that was set once is not written again by the same configuration. -/
theorem C108_again {m : Model} {d : Dev} {o : Options} (ho : Ok o) (hb : Bytes d) (ha : d.armed = false) :
    ∃ e e' : Dev, setConfig (word m) m d o = (false, e) ∧ setConfig (word m) m e o = (false, e') ∧
      e'.writes = e.writes := by
  obtain ⟨e, h1, h2, h3, h4, -, -, h7, h8⟩ := C108_set (m := m) ho hb ha
  obtain ⟨e', g1, -, -, -, -, g6, -, -⟩ := C108_set (m := m) ho h7 h8
  refine ⟨e, e', h1, g1, ?_⟩
  rw [g6]
  unfold changes
  simp [h2, h3, h4]

/-- **C108, no encoder.** If the line reads 0 or 1 all the time, an MA732 is reported as failed, whatever is
configured. -/
theorem C108_absent (x : Bus σ) (c : ℕ) (hc : c = 0 ∨ c = 0xffff) (hx : ∀ s w, (x s w).1 = c) (s : σ)
    (o : Options) : (setConfig x .ma732 s o).1 = true := by
  have hf : ∀ us, (c >>> 8) &&& 0xff ≠ (filter .ma732 us).2 &&& 0xff := by
    intro us
    have hs : (filter .ma732 us).2 ∈ [51, 68, 102, 119, 136, 153, 170, 187] := by
      simp only [filter]
      split_ifs <;> simp
    have : ∀ v ∈ [51, 68, 102, 119, 136, 153, 170, 187], (0 >>> 8) &&& 0xff ≠ v &&& 0xff ∧
        (0xffff >>> 8) &&& 0xff ≠ v &&& 0xff := by decide
    rcases hc with rfl | rfl
    · exact (this _ hs).1
    · exact (this _ hs).2
  unfold setConfig
  have : (setRegister x .ma732 s (filter .ma732 o.filterUs).1 (filter .ma732 o.filterUs).2 0xff).1 = true := by
    unfold setRegister
    simp only [hx]
    rw [if_neg (hf _)]
    exact decide_eq_true (hf _)
  simp only [this, if_true]

example : ∀ (s : Unit) (w : ℕ), ((fun s _ => (0xffff, s) : Bus Unit) s w).1 = 0xffff := fun _ _ => rfl

/-- **C108, the filter (partial).** A window that is not between 129 and 512 µs and not above 16384 µs is met by
the shortest window that is as long.  Missing: the windows between, see `C108_filter_refuted`. -/
theorem C108_filter_partial {us : ℕ} (h1 : us ≤ 128 ∨ 512 < us) (h2 : us ≤ 16384) :
    us ≤ window (filter .ma732 us).2 ∧ ∀ n, 3 ≤ n → us ≤ window (17 * n) →
      window (filter .ma732 us).2 ≤ window (17 * n) := by
  have hw : ∀ n, window (17 * n) = 64 * 2 ^ (n - 3) := fun n => by
    unfold window
    rw [Nat.mul_div_cancel_left _ (by norm_num : 0 < 17)]
  have hmono : ∀ k n, 3 ≤ n → 64 * 2 ^ k < us → us ≤ window (17 * n) → 64 * 2 ^ (k + 1) ≤ window (17 * n) := by
    intro k n hn h3 h4
    rw [hw] at h4 ⊢
    have : k < n - 3 := by
      by_contra hc
      have := Nat.pow_le_pow_right (n := 2) (by norm_num) (not_lt.mp hc)
      omega
    have := Nat.pow_le_pow_right (n := 2) (by norm_num) (Nat.succ_le_of_lt this)
    simp only [Nat.succ_eq_add_one] at this
    omega
  simp only [filter]
  split_ifs with c1 c2 c3 c4 c5 c6 c7
  · refine ⟨c1, fun n hn _ => ?_⟩
    rw [hw]
    have := Nat.one_le_two_pow (n := n - 3)
    show 64 * 2 ^ 0 ≤ _
    omega
  · exact ⟨c2, fun n hn h => hmono 0 n hn (by omega) h⟩
  · omega
  · exact ⟨c4, fun n hn h => hmono 3 n hn (by omega) h⟩
  · exact ⟨c5, fun n hn h => hmono 4 n hn (by omega) h⟩
  · exact ⟨c6, fun n hn h => hmono 5 n hn (by omega) h⟩
  · exact ⟨c7, fun n hn h => hmono 6 n hn (by omega) h⟩
  · exact ⟨h2, fun n hn h => hmono 7 n hn (by omega) h⟩

example : (1000 ≤ 128 ∨ 512 < 1000) ∧ window (filter .ma732 1000).2 = 1024 := by decide

/-! ## violations -/

/-- **C108 is violated: a window of 256 µs** is set as 512 µs, and one of 512 µs as 1024 µs, though there
are registers for both. -/
theorem C108_filter_refuted :
    window (filter .ma732 256).2 = 512 ∧ window 85 = 256 ∧ window (filter .ma732 512).2 = 1024 ∧ window 102 = 512 := by
  decide

/-- **C108 is violated: the other bits of the register of the trimmed axes** are lost when the axes change. -/
theorem C108_trim_refuted :
    (setConfig (word .ma732) .ma732 ⟨fun i => if i = 14 then 51 else if i = 3 then 0x80 else 0, none, false, 0, 0⟩
      ⟨64, 0, 1⟩).2.regs 3 = 1 := by
  decide +kernel

/-- **C108 is violated: a missing MA600** is not noticed if there is to be no filter and no trimming. -/
theorem C108_absent_refuted :
    (setConfig (fun s _ => (0, s) : Bus Unit) .ma600 () ⟨0, 0, 0⟩).1 = false := by
  decide +kernel

/-- the value in an answer. -/
def Spec.answered (m : Model) (w : ℕ) : ℕ :=
  match m with
  | .ma732 => w / 256
  | .ma600 => w % 256

private theorem setRegister_answered (x : Bus σ) (m : Model) (s s' : σ) (reg desired mask : ℕ)
    (h : setRegister x m s reg desired mask = (false, s')) :
    ∃ t, (x t 0).2 = s' ∧ Spec.answered m (x t 0).1 &&& mask = desired &&& mask := by
  have e : ∀ w : ℕ, w &&& 0xff = w % 256 := fun w => Nat.and_two_pow_sub_one_eq_mod w 8
  cases m with
  | ma732 =>
    simp only [setRegister] at h
    simp only [Spec.answered]
    split at h
    · rename_i hc
      rw [Prod.mk.injEq] at h
      refine ⟨_, h.2, ?_⟩
      rw [Nat.shiftRight_eq_div_pow] at hc
      exact hc
    · rw [Prod.mk.injEq, decide_eq_false_iff_not, not_not] at h
      refine ⟨_, h.2, ?_⟩
      have := h.1
      rw [Nat.shiftRight_eq_div_pow] at this
      exact this
  | ma600 =>
    simp only [setRegister] at h
    simp only [Spec.answered]
    split at h
    · rename_i hc
      rw [Prod.mk.injEq] at h
      refine ⟨_, h.2, ?_⟩
      rw [e] at hc
      exact hc
    · rw [Prod.mk.injEq, decide_eq_false_iff_not, not_not] at h
      refine ⟨_, h.2, ?_⟩
      have := h.1
      rw [e] at this
      exact this

/-- **C108, success is reported only after the encoder answered so**: whatever is connected, if the configuration succeeds there
was, for each of the three registers in turn, an answer with the configured value. -/
theorem C108_reported (x : Bus σ) (m : Model) (s s' : σ) (o : Options) (h : setConfig x m s o = (false, s')) :
    ∃ t1 t2 t3 : σ, Spec.answered m (x t1 0).1 % 256 = (filter m o.filterUs).2 ∧
      Spec.answered m (x t2 0).1 % 256 = o.bct % 256 ∧ Spec.answered m (x t3 0).1 % 4 = o.trim % 4 ∧ (x t3 0).2 = s' := by
  have e8 : ∀ w : ℕ, w &&& 0xff = w % 256 := fun w => Nat.and_two_pow_sub_one_eq_mod w 8
  have e2 : ∀ w : ℕ, w &&& 0x03 = w % 4 := fun w => Nat.and_two_pow_sub_one_eq_mod w 2
  have ok : ∀ (p : Bool × σ), p.1 ≠ true → p = (false, p.2) := by
    rintro ⟨b, t⟩ hb
    cases b
    · rfl
    · exact absurd rfl hb
  simp only [setConfig] at h
  split at h
  · cases h
  rename_i h1
  split at h
  · cases h
  rename_i h2
  split at h
  · cases h
  rename_i h3
  rw [Prod.mk.injEq] at h
  obtain ⟨t1, -, a1⟩ := setRegister_answered x m _ _ _ _ _ (ok _ h1)
  obtain ⟨t2, -, a2⟩ := setRegister_answered x m _ _ _ _ _ (ok _ h2)
  obtain ⟨t3, b3, a3⟩ := setRegister_answered x m _ _ _ _ _ (ok _ h3)
  rw [e8, e8, Nat.mod_eq_of_lt (filter_byte m o.filterUs)] at a1
  rw [e8, e8] at a2
  rw [e2, e2] at a3
  exact ⟨t1, t2, t3, a1, a2, a3, b3.trans h.2⟩

/-- the hypothesis: an encoder of each model. -/
example : (setConfig (word .ma600) .ma600 ⟨fun _ => 7, none, false, 0, 0⟩ ⟨100, 3, 1⟩).1 = false ∧
    (setConfig (word .ma732) .ma732 ⟨fun _ => 7, none, false, 0, 0⟩ ⟨100, 3, 1⟩).1 = false := by decide +kernel

/-- **C108, the filter of the MA600** (a window of 40 µs for the value 5, twice as long for each further value up to 12) is the
shortest that is not shorter than configured. -/
theorem C108_filter600 (us : ℕ) (h : us ≤ 5120) :
    (us = 0 → (filter .ma600 us).2 = 0) ∧
    (0 < us → 5 ≤ (filter .ma600 us).2 ∧ (filter .ma600 us).2 ≤ 12 ∧ us ≤ 40 * 2 ^ ((filter .ma600 us).2 - 5) ∧
      (5 < (filter .ma600 us).2 → 40 * 2 ^ ((filter .ma600 us).2 - 6) < us)) := by
  simp only [filter]
  split_ifs <;> simp <;> omega

example : (filter .ma600 641).2 = 10 := by decide

end Verif.Fw.Ma732
