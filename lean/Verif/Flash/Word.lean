import Verif.Flash.Model
import Mathlib.Tactic.Ring

/-! # Bytes of the 64 bit shadow word -/

namespace Verif.Flash

open Verif

theorem byteAt_ext {v w : BitVec 64} (h : ∀ i < 8, byteAt v i = byteAt w i) : v = w := by
  apply BitVec.eq_of_getLsbD_eq
  intro k hk
  have := h (k / 8) (by omega)
  unfold byteAt at this
  have h2 := congrArg (fun x => x.toBitVec.getLsbD (k % 8)) this
  simp only [BitVec.getLsbD_extractLsb'] at h2
  have h8 : k % 8 < 8 := Nat.mod_lt _ (by omega)
  simp only [h8, decide_true, Bool.true_and] at h2
  rwa [Nat.div_add_mod] at h2

theorem byteAt_eq_iff (w : BitVec 64) (i : Nat) (v : UInt8) :
    byteAt w i = v ↔ ∀ k < 8, w.getLsbD (8 * i + k) = v.toBitVec.getLsbD k := by
  unfold byteAt
  constructor
  · rintro rfl k hk
    simp [hk]
  · intro h
    apply UInt8.eq_of_toBitVec_eq
    apply BitVec.eq_of_getLsbD_eq
    intro k hk
    simp only [BitVec.getLsbD_extractLsb', hk, decide_true, Bool.true_and]
    exact h k hk

theorem ff_bit (k : Nat) : (0xff#64).getLsbD k = decide (k < 8) := by
  by_cases h : k < 64
  · have : ∀ k < 64, (0xff#64).getLsbD k = decide (k < 8) := by decide
    exact this k h
  · rw [BitVec.getLsbD_of_ge _ _ (by omega)]
    simp; omega

theorem mask_bit (o k : Nat) (hk : k < 64) :
    (0xff#64 <<< (o * 8)).getLsbD k = decide (8 * o ≤ k ∧ k < 8 * o + 8) := by
  rw [BitVec.getLsbD_shiftLeft, ff_bit]
  simp only [hk, decide_true, Bool.true_and]
  by_cases h1 : k < o * 8
  · simp [h1]; omega
  · simp [h1]
    by_cases h2 : k - o * 8 < 8
    · simp [h2]; omega
    · simp [h2]; omega

theorem byteAt_put (w : BitVec 64) (o : Nat) (v : UInt8) (i : Nat) (hi : i < 8) (ho : o < 8) :
    byteAt ((w &&& ~~~ (0xff#64 <<< (o * 8))) ||| (v.toBitVec.setWidth 64 <<< (o * 8))) i =
      if i = o then v else byteAt w i := by
  rw [byteAt_eq_iff]
  intro k hk
  have hlt : 8 * i + k < 64 := by omega
  rw [BitVec.getLsbD_or, BitVec.getLsbD_and, BitVec.getLsbD_not, mask_bit o _ hlt,
    BitVec.getLsbD_shiftLeft, BitVec.getLsbD_setWidth]
  simp only [hlt, decide_true, Bool.true_and]
  by_cases h : i = o
  · subst h
    have e : 8 * i + k - i * 8 = k := by omega
    have h1 : ¬ (8 * i + k < i * 8) := by omega
    have h2 : 8 * i ≤ 8 * i + k ∧ 8 * i + k < 8 * i + 8 := by omega
    have h3 : k < 64 := by omega
    simp [e, h1, h3, hk]
  · rw [if_neg h]
    have h2 : ¬ (8 * o ≤ 8 * i + k ∧ 8 * i + k < 8 * o + 8) := by omega
    simp only [h2, decide_false, Bool.not_false, Bool.and_true]
    have h3 : (!decide (8 * i + k < o * 8) && (decide (8 * i + k - o * 8 < 64) &&
        v.toBitVec.getLsbD (8 * i + k - o * 8))) = false := by
      by_cases h4 : 8 * i + k < o * 8
      · simp [h4]
      · have : v.toBitVec.getLsbD (8 * i + k - o * 8) = false :=
          BitVec.getLsbD_of_ge _ _ (by omega)
        simp [this]
    rw [h3, Bool.or_false]
    exact ((byteAt_eq_iff w i _).mp rfl k hk)

theorem ff8_bit (k : Nat) (hk : k < 8) : (0xff : UInt8).toBitVec.getLsbD k = true := by
  have : ∀ k < 8, (0xff : UInt8).toBitVec.getLsbD k = true := by decide
  exact this k hk

theorem byteAt_bits (w : BitVec 64) (o : Nat) (i : Nat) (hi : i < 8) (ho : o < 8) :
    byteAt (w ||| (0xff#64 <<< (o * 8))) i = if i = o then 0xff else byteAt w i := by
  rw [byteAt_eq_iff]
  intro k hk
  have hlt : 8 * i + k < 64 := by omega
  rw [BitVec.getLsbD_or, mask_bit o _ hlt]
  by_cases h : i = o
  · subst h
    have h2 : 8 * i ≤ 8 * i + k ∧ 8 * i + k < 8 * i + 8 := by omega
    rw [if_pos rfl, ff8_bit k hk]
    simp [hk]
  · rw [if_neg h]
    have h2 : ¬ (8 * o ≤ 8 * i + k ∧ 8 * i + k < 8 * o + 8) := by omega
    simp only [h2, decide_false, Bool.or_false]
    exact ((byteAt_eq_iff w i _).mp rfl k hk)

theorem byteAt_ones (i : Nat) (hi : i < 8) : byteAt (~~~ 0) i = 0xff := by
  have : ∀ i < 8, byteAt (~~~ 0) i = 0xff := by decide
  exact this i hi

theorem byteAt_zero (i : Nat) : byteAt 0 i = 0 := by
  rw [byteAt_eq_iff]; intro k _; simp

theorem full_iff (w : BitVec 64) : w = ~~~ 0 ↔ ∀ i < 8, byteAt w i = 0xff := by
  constructor
  · rintro rfl i hi; exact byteAt_ones i hi
  · intro h
    apply byteAt_ext
    intro i hi
    rw [h i hi, byteAt_ones i hi]

theorem empty_iff (w : BitVec 64) : w = 0 ↔ ∀ i < 8, byteAt w i = 0 := by
  constructor
  · rintro rfl i _; exact byteAt_zero i
  · intro h
    apply byteAt_ext
    intro i hi
    rw [h i hi, byteAt_zero]

end Verif.Flash
