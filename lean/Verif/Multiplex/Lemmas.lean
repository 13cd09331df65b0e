import Verif.Multiplex.Spec

namespace Verif.Multiplex

open Verif Verif.Float Verif.Multiplex.Spec

/-! ## Varuint lemmas -/

theorem and_7f (x : Nat) : x &&& 0x7f = x % 128 := by
  have := Nat.and_two_pow_sub_one_eq_mod x 7; simpa using this

theorem and_80_eq_zero (x : Nat) (hx : x < 256) : x &&& 0x80 = 0 ↔ x < 128 := by
  have h : ∀ x : Fin 256, (x.val &&& 0x80 = 0 ↔ x.val < 128) := by decide +kernel
  exact h ⟨x, hx⟩

theorem or_80 (x : Nat) (hx : x < 128) : x ||| 0x80 = x + 128 := by
  have h : ∀ x : Fin 128, (x.val ||| 0x80 = x.val + 128) := by decide
  exact h ⟨x, hx⟩

theorem or_shift (r x s : Nat) (hr : r < 2 ^ s) : r ||| (x <<< s) = r + x * 2 ^ s := by
  rw [Nat.or_comm, ← Nat.shiftLeft_add_eq_or_of_lt hr, Nat.shiftLeft_eq, Nat.add_comm]

theorem writeVaruint_small {v : Nat} (h : v < 128) : writeVaruint v = [UInt8.ofNat v] := by
  rw [writeVaruint]
  have : v >>> 7 = 0 := by rw [Nat.shiftRight_eq_div_pow]; omega
  simp [this, and_7f, Nat.mod_eq_of_lt h]

theorem writeVaruint_large {v : Nat} (h : 128 ≤ v) :
    writeVaruint v = UInt8.ofNat (v % 128 + 128) :: writeVaruint (v / 128) := by
  rw [writeVaruint]
  have h7 : v >>> 7 = v / 128 := by rw [Nat.shiftRight_eq_div_pow]
  have : v / 128 ≠ 0 := by omega
  simp only [h7, this, ne_eq, not_false_eq_true, if_true, if_false, and_7f]
  rw [or_80 _ (Nat.mod_lt _ (by decide))]

theorem writeVaruint_length_pos (v : Nat) : 0 < (writeVaruint v).length := by
  rw [writeVaruint]; simp

/-- The specification reader undoes the writer. -/
theorem spec_varuint_write (k v : Nat) (t : Bytes) (h : v < 128 ^ (k + 1)) :
    varuint (k + 1) (writeVaruint v ++ t) = some (v, t) := by
  induction k generalizing v with
  | zero =>
    have hv : v < 128 := by simpa using h
    rw [writeVaruint_small hv]
    simp [varuint, Nat.mod_eq_of_lt (show v < 256 by omega), hv]
  | succ k ih =>
    by_cases hv : v < 128
    · rw [writeVaruint_small hv]
      simp [varuint, Nat.mod_eq_of_lt (show v < 256 by omega), hv]
    · rw [writeVaruint_large (by omega)]
      have h1 : v / 128 < 128 ^ (k + 1) := by
        rw [Nat.div_lt_iff_lt_mul (by decide)]; rw [Nat.pow_succ] at h; exact h
      have h2 : (v % 128 + 128) % 256 = v % 128 + 128 := by omega
      simp only [List.cons_append, varuint, UInt8.toNat_ofNat', h2, ih _ h1]
      rw [if_neg (by omega)]
      simp; omega

/-- Too large numbers are not readable. -/
theorem spec_varuint_write_large (k v : Nat) (t : Bytes) (h : 128 ^ k ≤ v) :
    varuint k (writeVaruint v ++ t) = none := by
  induction k generalizing v with
  | zero => rfl
  | succ k ih =>
    have hv : 128 ≤ v := by
      have : 0 < 128 ^ k := Nat.pow_pos (by decide)
      rw [Nat.pow_succ] at h; omega
    rw [writeVaruint_large hv]
    have h1 : 128 ^ k ≤ v / 128 := by
      rw [Nat.le_div_iff_mul_le (by decide)]; rw [Nat.pow_succ] at h; exact h
    have h2 : (v % 128 + 128) % 256 = v % 128 + 128 := by omega
    simp only [List.cons_append, varuint, UInt8.toNat_ofNat', h2, ih _ h1]
    rw [if_neg (by omega)]

/-- The reader consumes a prefix of one to `k` bytes. -/
theorem spec_varuint_some {k : Nat} {bs rest : Bytes} {v : Nat}
    (h : varuint k bs = some (v, rest)) :
    v < 128 ^ k ∧ ∃ used, bs = used ++ rest ∧ 0 < used.length ∧ used.length ≤ k ∧
      ∀ t, varuint k (used ++ t) = some (v, t) := by
  induction k generalizing bs v with
  | zero => simp [varuint] at h
  | succ k ih =>
    cases bs with
    | nil => simp [varuint] at h
    | cons b bs =>
      have hb := b.toNat_lt
      simp only [varuint] at h
      by_cases hlt : b.toNat < 128
      · rw [if_pos hlt] at h
        simp only [Option.some.injEq, Prod.mk.injEq] at h
        obtain ⟨rfl, rfl⟩ := h
        refine ⟨?_, [b], rfl, by simp, by simp, ?_⟩
        · have : 0 < 128 ^ k := Nat.pow_pos (by decide)
          rw [Nat.pow_succ]; omega
        · intro t; simp [varuint, hlt]
      · rw [if_neg hlt] at h
        split at h
        · cases h
        · next v' rest' heq =>
          simp only [Option.some.injEq, Prod.mk.injEq] at h
          obtain ⟨rfl, rfl⟩ := h
          obtain ⟨h1, used, h2, h3, h4, h5⟩ := ih heq
          refine ⟨?_, b :: used, by simp [h2], by simp, by simp; omega, ?_⟩
          · rw [Nat.pow_succ]; omega
          · intro t; simp [varuint, hlt, h5]

theorem readVaruintLoop_eq (off : Nat) (buf : Bytes) (k i result : Nat)
    (hik : i + k = 5) (hoff : off + i ≤ buf.length ∨ i = 0) (hr : result < 2 ^ (7 * i)) :
    readVaruintLoop off buf k i result (7 * i) =
      match varuint k (buf.drop (off + i)) with
      | some (v, rest) => (some (result + v * 2 ^ (7 * i)), buf.length - rest.length)
      | none => (none, off + min 5 (buf.length - off)) := by
  induction k generalizing i result with
  | zero =>
    have : i = 5 := by omega
    subst this
    simp [readVaruintLoop, varuint]
    omega
  | succ k ih =>
    unfold readVaruintLoop
    by_cases hlt : off + i < buf.length
    · have hget : buf[off + i]? = some buf[off + i] := List.getElem?_eq_getElem hlt
      rw [hget, List.drop_eq_getElem_cons hlt]
      generalize hb : buf[off + i] = b
      have hb256 := b.toNat_lt
      have hpow : 2 ^ (7 * (i + 1)) = 128 * 2 ^ (7 * i) := by
        rw [Nat.mul_add, Nat.pow_add]; simp [Nat.mul_comm]
      simp only [and_7f, or_shift _ _ _ hr, and_80_eq_zero _ hb256, varuint]
      by_cases hsm : b.toNat < 128
      · simp only [hsm, if_true, Nat.mod_eq_of_lt hsm]
        congr 1
        simp; omega
      · simp only [hsm, if_false]
        have hm : b.toNat % 128 = b.toNat - 128 := by omega
        have hr' : result + b.toNat % 128 * 2 ^ (7 * i) < 2 ^ (7 * (i + 1)) := by
          rw [hpow]
          have : b.toNat % 128 < 128 := Nat.mod_lt _ (by decide)
          have h3 : b.toNat % 128 * 2 ^ (7 * i) ≤ 127 * 2 ^ (7 * i) :=
            Nat.mul_le_mul_right _ (by omega)
          omega
        have := ih (i + 1) (result + b.toNat % 128 * 2 ^ (7 * i)) (by omega) (by omega) hr'
        rw [show 7 * i + 7 = 7 * (i + 1) by omega, this, show off + (i + 1) = off + i + 1 by omega]
        cases varuint k (List.drop (off + i + 1) buf) with
        | none => rfl
        | some p =>
          obtain ⟨v, rest⟩ := p
          simp only [hpow, hm, Nat.add_mul]
          congr 2
          rw [show v * (128 * 2 ^ (7 * i)) = 128 * v * 2 ^ (7 * i) by
            rw [← Nat.mul_assoc, Nat.mul_comm v 128]]
          omega
    · have hget : buf[off + i]? = none := List.getElem?_eq_none (by omega)
      rw [hget, List.drop_eq_nil_of_le (by omega)]
      simp [varuint]; omega

/-- `read_varuint` computes the documented value. -/
theorem readVaruint_eq (off : Nat) (buf : Bytes) :
    readVaruint off buf =
      match varuint 5 (buf.drop off) with
      | some (v, rest) => (some v, buf.length - rest.length)
      | none => (none, off + min 5 (buf.length - off)) := by
  have := readVaruintLoop_eq off buf 5 0 0 rfl (Or.inr rfl) (by simp)
  simpa [readVaruint] using this

theorem readVaruint_zero_some {bs : Bytes} {v k : Nat} (h : readVaruint 0 bs = (some v, k)) :
    varuint 5 bs = some (v, bs.drop k) ∧ 0 < k ∧ k ≤ bs.length := by
  rw [readVaruint_eq] at h
  simp only [List.drop_zero] at h
  split at h
  · next v' rest heq =>
    obtain ⟨_, used, h2, h3, _, _⟩ := spec_varuint_some heq
    simp only [Prod.mk.injEq, Option.some.injEq] at h
    obtain ⟨rfl, rfl⟩ := h
    subst h2
    rw [heq]
    simp; omega
  · simp at h

theorem readVaruint_of_spec {bs : Bytes} {v : Nat} {rest : Bytes}
    (h : varuint 5 bs = some (v, rest)) :
    ∃ k, readVaruint 0 bs = (some v, k) ∧ bs.drop k = rest := by
  refine ⟨bs.length - rest.length, ?_, ?_⟩
  · rw [readVaruint_eq]; simp [h]
  · obtain ⟨_, used, h2, _, _, _⟩ := spec_varuint_some h
    subst h2; simp

end Verif.Multiplex
