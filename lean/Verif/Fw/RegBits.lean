import Verif.Fw.RegReplies
import Mathlib.Tactic.IntervalCases
import Mathlib.Tactic.Ring

/-!
# Bitfield registers (C60)

GPIO and encoder validity registers as the client reads them.
-/

namespace Verif.Fw.Registers

open Verif Verif.Float Verif.Multiplex Verif.Commands

/-- Bit `i` of a number that is not negative. -/
def Bit (n : Int) (i : Nat) : Prop := n / 2 ^ i % 2 = 1

/-- The client reads the register as `n` at every type. -/
def ReadsAs (uuid : Bytes) (b : Board) (s : St) (reg : Nat) (n : Int) : Prop :=
  ∀ r, ∃ v, read uuid b s reg r = .ok v ∧ parseRegister reg r v.bytes = .ok (.int n)

/-- The number with these bits, lowest first. -/
def ofBits : List Bool → Int
  | [] => 0
  | b :: l => (if b then 1 else 0) + 2 * ofBits l

theorem ofBits_range : ∀ l : List Bool, 0 ≤ ofBits l ∧ ofBits l < 2 ^ l.length := by
  intro l
  induction l with
  | nil => simp [ofBits]
  | cons b l ih =>
    simp only [ofBits, List.length_cons, pow_succ]
    split <;> omega

theorem ofBits_bit (l : List Bool) : ∀ i, Bit (ofBits l) i ↔ l[i]? = some true := by
  induction l with
  | nil =>
    intro i
    simp [Bit, ofBits]
  | cons b l ih =>
    intro i
    cases i with
    | zero =>
      simp only [Bit, ofBits, pow_zero, Int.ediv_one, List.getElem?_cons_zero, Option.some.injEq]
      cases b
      · simp
      · simp
    | succ i =>
      rw [List.getElem?_cons_succ, ← ih i]
      unfold Bit
      have e : ofBits (b :: l) / 2 ^ (i + 1) = ofBits l / 2 ^ i := by
        rw [pow_succ', ← Int.ediv_ediv_of_nonneg (by norm_num)]
        congr 1
        simp only [ofBits]
        split <;> omega
      rw [e]

theorem fold_bits (l : List Bool) : ∀ (k : Nat) (acc : Int),
    (l.zipIdx k).foldl (fun acc p => acc + if p.1 then 2 ^ p.2 else 0) acc = acc + 2 ^ k * ofBits l := by
  induction l with
  | nil => intro k acc; simp [ofBits]
  | cons b l ih =>
    intro k acc
    rw [List.zipIdx_cons, List.foldl_cons, ih]
    simp only [ofBits, pow_succ]
    cases b <;> simp <;> ring

theorem pins_value (l : List Bool) (h : l.length ≤ 7) : pinsToBits l = ofBits l := by
  unfold pinsToBits
  rw [fold_bits l 0 0]
  have hr := ofBits_range l
  have : (2 : Int) ^ l.length ≤ 2 ^ 7 := pow_le_pow_right₀ (by norm_num) h
  simp only [pow_zero, one_mul, zero_add]
  exact wrap_fits (by omega) (by omega)

theorem small_fits {n : Int} (h0 : 0 ≤ n) (h1 : n ≤ 127) (r : Res) : Fits r n := by
  cases r
  · exact ⟨by omega, h1⟩
  · exact ⟨by omega, by omega⟩
  · exact ⟨by omega, by omega⟩
  · show |n| ≤ 2 ^ 24
    rw [abs_of_nonneg h0]; omega

theorem reads_int {uuid : Bytes} {b : Board} {s : St} {reg : Nat} {n : Int} (hs : s.discardAll = false)
    (hk : regKind reg = .integer) (hsrc : source uuid b s.command reg = .int n) (h0 : 0 ≤ n) (h1 : n ≤ 127) :
    ReadsAs uuid b s reg n := by
  intro r
  refine ⟨intMapping n r, ?_, parse_int_value hk r n (small_fits h0 h1 r)⟩
  unfold read
  rw [hs, hsrc]
  rfl

/-- C60: the GPIO registers have bit `i` set exactly if pin `i + 1` of the port
is on, for ports of up to seven pins (the firmware has five). -/
theorem C60_gpio (uuid : Bytes) (b : Board) (s : St) (hs : s.discardAll = false) (port : Nat)
    (hp : port = 1 ∨ port = 2) (hl : (b.pins port).length ≤ 7) (reg : Nat)
    (hr : reg = 0x05b + port ∨ reg = 0x05d + port) :
    ∃ n, ReadsAs uuid b s reg n ∧ 0 ≤ n ∧ n < 128 ∧ ∀ i, Bit n i ↔ (b.pins port)[i]? = some true := by
  have hr' := ofBits_range (b.pins port)
  have : (2 : Int) ^ (b.pins port).length ≤ 2 ^ 7 := pow_le_pow_right₀ (by norm_num) hl
  refine ⟨ofBits (b.pins port), reads_int hs ?_ ?_ hr'.1 (by omega), hr'.1, by omega, ofBits_bit _⟩
  · rcases hp with rfl | rfl <;> rcases hr with rfl | rfl <;> decide
  · rw [← pins_value _ hl]
    rcases hp with rfl | rfl <;> rcases hr with rfl | rfl <;> rfl

/-- What the encoder validity register contains: for the encoders 0 and 1 two
bits each (used for the angle, used for the velocity), for encoder 2 the first
of them. -/
theorem C60_encoder_validity_partial (uuid : Bytes) (b : Board) (s : St) (hs : s.discardAll = false) :
    ∃ n, ReadsAs uuid b s 0x058 n ∧ 0 ≤ n ∧ n < 32 ∧
      (∀ i < 3, Bit n (2 * i) ↔ b.activeTheta i = true) ∧
      (∀ i < 2, Bit n (2 * i + 1) ↔ b.activeVelocity i = true) := by
  have e : validity b = ofBits [b.activeTheta 0, b.activeVelocity 0, b.activeTheta 1, b.activeVelocity 1,
      b.activeTheta 2] := by
    unfold validity
    simp only [bit, ofBits]
    cases b.activeTheta 0 <;> cases b.activeVelocity 0 <;> cases b.activeTheta 1 <;>
      cases b.activeVelocity 1 <;> cases b.activeTheta 2 <;> rfl
  have hr := ofBits_range [b.activeTheta 0, b.activeVelocity 0, b.activeTheta 1, b.activeVelocity 1,
      b.activeTheta 2]
  rw [← e] at hr
  have h32 : validity b < 32 := hr.2
  have hb := ofBits_bit [b.activeTheta 0, b.activeVelocity 0, b.activeTheta 1, b.activeVelocity 1,
      b.activeTheta 2]
  rw [← e] at hb
  refine ⟨validity b, reads_int hs (by decide) rfl hr.1 (by omega), hr.1, h32, ?_, ?_⟩
  · intro i hi
    rw [hb]
    interval_cases i <;> simp
  · intro i hi
    rw [hb]
    interval_cases i <;> simp

/-- C60 fails for the encoder validity register: documented is one bit per
encoder.  With only encoder 1 in use for the angle, bit 1 is not set and bit 2
is; with encoder 2 in use for the velocity only, nothing is set. -/
theorem C60_encoder_validity_refuted (uuid : Bytes) :
    (∃ b : Board, b.activeTheta 1 = true ∧ (∀ i, i ≠ 1 → b.activeTheta i = false ∧ b.activeVelocity i = false) ∧
      ReadsAs uuid b .init 0x058 4 ∧ ¬ Bit 4 1) ∧
    (∃ b : Board, b.activeVelocity 2 = true ∧ ReadsAs uuid b .init 0x058 0) := by
  constructor
  · refine ⟨{ boardAtRest with activeTheta := fun i => i == 1, activeVelocity := fun _ => false }, rfl,
      fun i hi => ⟨by simpa using hi, rfl⟩, ?_, by unfold Bit; decide⟩
    exact reads_int rfl (by decide) (by rfl) (by norm_num) (by norm_num)
  · refine ⟨{ boardAtRest with activeTheta := fun _ => false, activeVelocity := fun i => i == 2 }, rfl, ?_⟩
    exact reads_int rfl (by decide) (by rfl) (by norm_num) (by norm_num)

/-- Pins 1 and 3 on: 5. -/
example : ∃ b : Board, (b.pins 1).length ≤ 7 ∧ ReadsAs [] b .init 0x05e 5 := by
  refine ⟨{ boardAtRest with pins := fun _ => [true, false, true, false, false] }, by decide, ?_⟩
  exact reads_int rfl (by decide) (by rfl) (by norm_num) (by norm_num)

end Verif.Fw.Registers
