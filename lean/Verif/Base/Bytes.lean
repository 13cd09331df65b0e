/-!
# Bytes and little-endian integers

`struct.pack('<b' / '<h' / '<i')` and their inverses, on lists of bytes.
-/

namespace Verif

abbrev Bytes := List UInt8

/-- The `n` low bytes of `x`, least significant first. -/
def leBytes : Nat → Nat → Bytes
  | 0, _ => []
  | n + 1, x => UInt8.ofNat (x % 256) :: leBytes n (x / 256)

/-- Value of a little-endian byte string. -/
def leNat : Bytes → Nat
  | [] => 0
  | b :: bs => b.toNat + 256 * leNat bs

/-- Interpret the low `n` bytes of `x` as a two's complement integer. -/
def toSigned (n : Nat) (x : Nat) : Int :=
  if x < 2 ^ (8 * n - 1) then x else (x : Int) - 2 ^ (8 * n)

/-- Two's complement representation of `i` in `n` bytes. -/
def ofSigned (n : Nat) (i : Int) : Nat := (i % (2 ^ (8 * n) : Int)).toNat

@[simp] theorem leBytes_length (n x : Nat) : (leBytes n x).length = n := by
  induction n generalizing x with
  | zero => rfl
  | succ n ih => simp [leBytes, ih]

theorem leNat_lt (bs : Bytes) : leNat bs < 256 ^ bs.length := by
  induction bs with
  | nil => simp [leNat]
  | cons b bs ih =>
    have := b.toNat_lt
    simp only [leNat, List.length_cons, Nat.pow_succ]
    omega

theorem leNat_leBytes (n x : Nat) : leNat (leBytes n x) = x % 256 ^ n := by
  induction n generalizing x with
  | zero => simp [leBytes, leNat, Nat.mod_one]
  | succ n ih =>
    simp only [leBytes, leNat, ih]
    rw [Nat.pow_succ, Nat.mul_comm (256 ^ n) 256, Nat.mod_mul]
    simp

theorem leBytes_leNat (bs : Bytes) : leBytes bs.length (leNat bs) = bs := by
  induction bs with
  | nil => rfl
  | cons b bs ih =>
    have hb := b.toNat_lt
    simp only [leNat, List.length_cons, leBytes]
    have h1 : (b.toNat + 256 * leNat bs) % 256 = b.toNat := by omega
    have h2 : (b.toNat + 256 * leNat bs) / 256 = leNat bs := by omega
    rw [h1, h2, ih]; simp

theorem pow_256 (n : Nat) : (256 : Nat) ^ n = 2 ^ (8 * n) := by
  rw [Nat.pow_mul]

/-- Two's complement round trip for integers in range. -/
theorem toSigned_ofSigned {n : Nat} (hn : 0 < n) {i : Int}
    (h1 : -(2 ^ (8 * n - 1) : Int) ≤ i) (h2 : i < (2 ^ (8 * n - 1) : Int)) :
    toSigned n (ofSigned n i) = i := by
  have hpow : (2 : Int) ^ (8 * n) = 2 * 2 ^ (8 * n - 1) := by
    conv => lhs; rw [show 8 * n = (8 * n - 1) + 1 by omega, Int.pow_succ]
    omega
  have hpowN : (2 : Nat) ^ (8 * n) = 2 * 2 ^ (8 * n - 1) := by
    conv => lhs; rw [show 8 * n = (8 * n - 1) + 1 by omega, Nat.pow_succ]
    omega
  have hc : ((2 ^ (8 * n - 1) : Nat) : Int) = (2 : Int) ^ (8 * n - 1) := by norm_cast
  unfold toSigned ofSigned
  rw [hpow]
  generalize hM : (2 : Int) ^ (8 * n - 1) = M at *
  generalize hN : (2 : Nat) ^ (8 * n - 1) = N at *
  have hMpos : 0 < M := by
    rw [← hM]; exact Int.pow_pos (by omega)
  by_cases hi : 0 ≤ i
  · have : i % (2 * M) = i := Int.emod_eq_of_lt hi (by omega)
    rw [this]
    split <;> omega
  · have : i % (2 * M) = i + 2 * M := by
      rw [← Int.add_emod_right, Int.emod_eq_of_lt (by omega) (by omega)]
    rw [this]
    split <;> omega

theorem ofSigned_lt (n : Nat) (i : Int) : ofSigned n i < 256 ^ n := by
  rw [pow_256]
  unfold ofSigned
  have hpos : (0 : Int) < 2 ^ (8 * n) := Int.pow_pos (by omega)
  have h1 := Int.emod_lt_of_pos i hpos
  have h2 := Int.emod_nonneg i (Int.ne_of_gt hpos)
  have hc : ((2 ^ (8 * n) : Nat) : Int) = (2 : Int) ^ (8 * n) := by norm_cast
  omega

theorem toSigned_range {n : Nat} (hn : 0 < n) {x : Nat} (hx : x < 256 ^ n) :
    -(2 ^ (8 * n - 1) : Int) ≤ toSigned n x ∧ toSigned n x < (2 ^ (8 * n - 1) : Int) := by
  rw [pow_256] at hx
  have hpow : (2 : Int) ^ (8 * n) = 2 * 2 ^ (8 * n - 1) := by
    conv => lhs; rw [show 8 * n = (8 * n - 1) + 1 by omega, Int.pow_succ]
    omega
  have hc : ((2 ^ (8 * n - 1) : Nat) : Int) = (2 : Int) ^ (8 * n - 1) := by norm_cast
  have hc2 : ((2 ^ (8 * n) : Nat) : Int) = (2 : Int) ^ (8 * n) := by norm_cast
  unfold toSigned
  split <;> omega

theorem ofSigned_toSigned {n : Nat} {x : Nat} (hx : x < 256 ^ n) :
    ofSigned n (toSigned n x) = x := by
  rw [pow_256] at hx
  have hc2 : ((2 ^ (8 * n) : Nat) : Int) = (2 : Int) ^ (8 * n) := by norm_cast
  have hpos : (0 : Int) < 2 ^ (8 * n) := Int.pow_pos (by omega)
  unfold toSigned ofSigned
  split
  · rw [Int.emod_eq_of_lt (by omega) (by omega)]; omega
  · rw [Int.sub_emod_right, Int.emod_eq_of_lt (by omega) (by omega)]; omega

end Verif
