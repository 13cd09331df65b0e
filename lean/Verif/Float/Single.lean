import Verif.Float.Ieee
import Verif.Base.Bytes

/-!
# binary32 on the wire: `struct.pack('<f', x)` and `struct.unpack('<f', b)`

Negative zero is identified with zero (`Fl.fin 0`), and all NaNs are the same
value `Fl.nan`, packed as the quiet NaN 0x7fc00000 that `math.nan` gives.
-/

namespace Verif.Float

open Verif

/-- Bits of a non-negative magnitude: unit exponent `u` and significand `n`.
The addition lets a significand of `2^24` carry into the exponent. -/
def magBits (u : ℤ) (n : ℕ) : ℕ := (u + 149).toNat * 2 ^ 23 + n

/-- `struct.pack('<f', x)` as a 32 bit number; `none` is the `OverflowError`
for a finite number that does not fit. -/
def pack32 : Fl → Option ℕ
  | .nan => some 0x7fc00000
  | .inf false => some 0x7f800000
  | .inf true => some 0xff800000
  | .fin q =>
    if |b32.roundQ q| < pow2 b32.emax then
      some ((if q < 0 then 2 ^ 31 else 0) +
        magBits (b32.ulpExp q) (rne (|q| / pow2 (b32.ulpExp q))).toNat)
    else none

/-- `struct.unpack('<f', b)` of a 32 bit number. -/
def unpack32 (bits : ℕ) : Fl :=
  let neg := decide (2 ^ 31 ≤ bits)
  let e : ℕ := bits / 2 ^ 23 % 256
  let frac : ℕ := bits % 2 ^ 23
  if e = 255 then (if frac = 0 then .inf neg else .nan)
  else
    let mag : ℚ := if e = 0 then frac * pow2 (-149) else (2 ^ 23 + frac) * pow2 ((e : ℤ) - 150)
    .fin (if neg then -mag else mag)

theorem unpack_magBits {U n : ℕ} (s : Bool) (hn : n ≤ 2 ^ 24) (hU : U = 0 ∨ 2 ^ 23 ≤ n)
    (hb : U * 2 ^ 23 + n < 255 * 2 ^ 23) :
    unpack32 ((if s then 2 ^ 31 else 0) + (U * 2 ^ 23 + n)) =
      .fin (if s then -(n * pow2 ((U : ℤ) - 149)) else n * pow2 ((U : ℤ) - 149)) := by
  have hneg : decide (2 ^ 31 ≤ (if s then 2 ^ 31 else 0) + (U * 2 ^ 23 + n)) = s := by
    cases s <;> simp
    omega
  have he : ((if s then 2 ^ 31 else 0) + (U * 2 ^ 23 + n)) / 2 ^ 23 % 256 =
      (U * 2 ^ 23 + n) / 2 ^ 23 := by
    cases s <;> (simp; omega)
  have hf : ((if s then 2 ^ 31 else 0) + (U * 2 ^ 23 + n)) % 2 ^ 23 = n % 2 ^ 23 := by
    cases s <;> simp <;> omega
  unfold unpack32
  simp only [hneg, he, hf]
  have hlt : (U * 2 ^ 23 + n) / 2 ^ 23 < 255 := by omega
  rw [if_neg (by omega)]
  have hmag : (if (U * 2 ^ 23 + n) / 2 ^ 23 = 0 then ((n % 2 ^ 23 : ℕ) : ℚ) * pow2 (-149)
      else (2 ^ 23 + ((n % 2 ^ 23 : ℕ) : ℚ)) * pow2 (((((U * 2 ^ 23 + n) / 2 ^ 23 : ℕ)) : ℤ) - 150))
      = n * pow2 ((U : ℤ) - 149) := by
    by_cases h1 : n < 2 ^ 23
    · have hU0 : U = 0 := by omega
      subst hU0
      have : (0 * 2 ^ 23 + n) / 2 ^ 23 = 0 := by omega
      rw [if_pos this, Nat.mod_eq_of_lt h1]
      norm_num
    · by_cases h2 : n < 2 ^ 24
      · have : (U * 2 ^ 23 + n) / 2 ^ 23 = U + 1 := by omega
        rw [this, if_neg (by omega)]
        have hm : n % 2 ^ 23 = n - 2 ^ 23 := by omega
        rw [hm, Nat.cast_sub (by omega)]
        push_cast
        rw [show (U : ℤ) + 1 - 150 = U - 149 by ring]
        ring
      · have hn' : n = 2 ^ 24 := by omega
        subst hn'
        have : (U * 2 ^ 23 + 2 ^ 24) / 2 ^ 23 = U + 2 := by omega
        rw [this, if_neg (by omega)]
        have hm : 2 ^ 24 % 2 ^ 23 = 0 := by decide
        rw [hm]
        push_cast
        rw [show (U : ℤ) + 2 - 150 = (U - 149) + 1 by ring, pow2_add]
        have : pow2 1 = 2 := by rw [pow2_eq]; norm_num
        rw [this]
        ring
  rw [hmag]

theorem rne_nonneg {y : ℚ} (h : 0 ≤ y) : 0 ≤ rne y := by
  have := rne_mono h
  have h0 : rne 0 = 0 := by simpa using rne_int 0
  omega

theorem rne_abs (q u : ℚ) (hu : 0 < u) : ((rne (|q| / u)).toNat : ℚ) * u = |(rne (q / u) : ℚ) * u| := by
  have h0 : 0 ≤ rne (|q| / u) := rne_nonneg (by positivity)
  have h1 : ((rne (|q| / u)).toNat : ℚ) = (rne (|q| / u) : ℚ) := by
    have : (((rne (|q| / u)).toNat : ℤ) : ℚ) = (rne (|q| / u) : ℚ) := by
      rw [Int.toNat_of_nonneg h0]
    exact_mod_cast this
  rw [h1, abs_mul, abs_of_pos hu]
  congr 1
  rcases le_or_gt 0 q with hq | hq
  · rw [abs_of_nonneg hq] at h0 ⊢
    rw [abs_of_nonneg]; exact_mod_cast h0
  · rw [abs_of_neg hq, neg_div, rne_neg] at h0 ⊢
    rw [abs_of_nonpos]
    · push_cast; rfl
    · have : rne (q / u) ≤ 0 := by omega
      exact_mod_cast this

/-- What is packed is the value rounded to single precision. -/
theorem unpack_pack_fin {q : ℚ} (h : |b32.roundQ q| < pow2 b32.emax) :
    ∃ bits, pack32 (.fin q) = some bits ∧ bits < 2 ^ 32 ∧ unpack32 bits = .fin (b32.roundQ q) := by
  set u := b32.ulpExp q with hu
  have hup := pow2_pos u
  set n := (rne (|q| / pow2 u)).toNat with hn
  have hnq : (n : ℚ) * pow2 u = |b32.roundQ q| := by
    have := rne_abs q (pow2 u) hup
    exact this
  have hue : -149 ≤ u := by
    rw [hu]; unfold Fmt.ulpExp
    split
    · decide
    · exact le_max_right _ _
  have hr0 : 0 ≤ rne (|q| / pow2 u) := rne_nonneg (by positivity)
  -- bounds of the significand
  have hle : n ≤ 2 ^ 24 := by
    have hq24 : |q| / pow2 u ≤ ((2 ^ 24 : ℤ) : ℚ) := by
      rw [div_le_iff₀ hup]
      by_cases h0 : q = 0
      · subst h0; simp; positivity
      · have h1 := (ilog2_spec (abs_pos.mpr h0)).2
        have h2 : ilog2 |q| + 1 ≤ 24 + u := by
          rw [hu]; unfold Fmt.ulpExp; rw [if_neg h0]
          have := le_max_left (ilog2 |q| - ((b32.prec : ℤ) - 1)) b32.emin
          have hp : (b32.prec : ℤ) = 24 := rfl
          omega
        have h3 := pow2_le h2
        rw [pow2_add 24 u] at h3
        have h4 : pow2 24 = ((2 ^ 24 : ℤ) : ℚ) := by rw [pow2_eq]; norm_num
        rw [h4] at h3
        linarith
    have := rne_mono hq24
    rw [rne_int] at this
    omega
  have hge : (u + 149).toNat = 0 ∨ 2 ^ 23 ≤ n := by
    by_cases h149 : u = -149
    · left; rw [h149]; rfl
    · right
      have h0 : q ≠ 0 := by
        rintro rfl
        apply h149; rw [hu]; simp [Fmt.ulpExp, b32]
      have hu' : u = ilog2 |q| - 23 := by
        have h1 : u = max (ilog2 |q| - ((b32.prec : ℤ) - 1)) b32.emin := by
          rw [hu]; unfold Fmt.ulpExp; rw [if_neg h0]
        have hp : (b32.prec : ℤ) = 24 := rfl
        have he : b32.emin = -149 := rfl
        rcases max_choice (ilog2 |q| - ((b32.prec : ℤ) - 1)) b32.emin with hm | hm
        · rw [h1, hm, hp]; norm_num
        · exfalso; apply h149; rw [h1, hm, he]
      have h1 := (ilog2_spec (abs_pos.mpr h0)).1
      have hq23 : ((2 ^ 23 : ℤ) : ℚ) ≤ |q| / pow2 u := by
        rw [le_div_iff₀ hup]
        have h3 : pow2 (ilog2 |q|) = pow2 23 * pow2 u := by
          rw [← pow2_add, hu']; congr 1; ring
        have h4 : pow2 23 = ((2 ^ 23 : ℤ) : ℚ) := by rw [pow2_eq]; norm_num
        rw [h3, h4] at h1; exact h1
      have := rne_mono hq23
      rw [rne_int] at this
      omega
  have hU : (((u + 149).toNat : ℕ) : ℤ) - 149 = u := by omega
  have hbits : (u + 149).toNat * 2 ^ 23 + n < 255 * 2 ^ 23 := by
    by_contra hc
    push Not at hc
    rw [← hnq] at h
    have hemax : pow2 b32.emax = pow2 128 := rfl
    rw [hemax] at h
    rcases hge with h0 | h0
    · rw [h0] at hc; omega
    · -- U + n / 2^23 ≥ 255
      have hcase : 254 ≤ (u + 149).toNat ∨ ((u + 149).toNat = 253 ∧ n = 2 ^ 24) := by omega
      rcases hcase with hU254 | ⟨hU253, hn24⟩
      · have h105 : 105 ≤ u := by omega
        have h1 := pow2_le h105
        have h2 : pow2 128 = ((2 ^ 23 : ℕ) : ℚ) * pow2 105 := by
          rw [show (128 : ℤ) = ((23 : ℕ) : ℤ) + 105 by norm_num, pow2_add, pow2_natCast]
        have h3 : ((2 ^ 23 : ℕ) : ℚ) ≤ n := by exact_mod_cast h0
        have : ((2 ^ 23 : ℕ) : ℚ) * pow2 105 ≤ n * pow2 u := by
          have := pow2_pos 105
          gcongr
        linarith
      · have h104 : u = 104 := by omega
        have h2 : pow2 128 = ((2 ^ 24 : ℕ) : ℚ) * pow2 104 := by
          rw [show (128 : ℤ) = ((24 : ℕ) : ℤ) + 104 by norm_num, pow2_add, pow2_natCast]
        rw [hn24, h104, h2] at h
        exact lt_irrefl _ h
  refine ⟨(if q < 0 then 2 ^ 31 else 0) + magBits u n, ?_, ?_, ?_⟩
  · simp only [pack32]; rw [if_pos h]
  · unfold magBits; split <;> omega
  · have := unpack_magBits (decide (q < 0)) hle hge hbits
    simp only [decide_eq_true_eq] at this
    unfold magBits
    rw [this, hU, hnq]
    congr 1
    rcases lt_or_ge q 0 with hq | hq
    · rw [if_pos hq]
      have : b32.roundQ q ≤ 0 := by
        have := roundQ_mono (f := b32) (by decide) hq.le
        rwa [roundQ_zero] at this
      rw [abs_of_nonpos this, neg_neg]
    · rw [if_neg (not_lt.mpr hq), abs_of_nonneg (roundQ_nonneg hq)]

/-- Overflow is reported, never a wrong value. -/
theorem pack32_none_iff (x : Fl) :
    pack32 x = none ↔ ∃ q, x = .fin q ∧ pow2 128 ≤ |b32.roundQ q| := by
  cases x with
  | nan => simp [pack32]
  | inf n => cases n <;> simp [pack32]
  | fin q =>
    simp only [pack32]
    split
    · next h => simp; exact h
    · next h => simp; exact not_lt.mp h

theorem unpack_pack_nonfinite (x : Fl) (h : ∀ q, x ≠ .fin q) :
    ∃ bits, pack32 x = some bits ∧ bits < 2 ^ 32 ∧ unpack32 bits = x := by
  cases x with
  | nan => exact ⟨_, rfl, by decide, by decide +kernel⟩
  | inf n => cases n <;> exact ⟨_, rfl, by decide, by decide +kernel⟩
  | fin q => exact absurd rfl (h q)

theorem pack32_lt {x : Fl} {bits : ℕ} (h : pack32 x = some bits) : bits < 2 ^ 32 := by
  by_cases hf : ∃ q, x = .fin q
  · obtain ⟨q, rfl⟩ := hf
    by_cases ho : |b32.roundQ q| < pow2 b32.emax
    · obtain ⟨b, h1, h2, _⟩ := unpack_pack_fin ho
      rw [h1] at h; cases h; exact h2
    · simp [pack32, ho] at h
  · obtain ⟨b, h1, h2, _⟩ := unpack_pack_nonfinite x (fun q hq => hf ⟨q, hq⟩)
    rw [h1] at h; cases h; exact h2

example : pack32 (.fin (1/2)) = some 0x3f000000 ∧ pack32 (.fin (-3)) = some 0xc0400000 ∧
    pack32 (.fin (1/10)) = some 0x3dcccccd ∧ unpack32 0x00000001 = .fin (pow2 (-149)) ∧
    pack32 (.fin (2 ^ 128)) = none := by decide +kernel

end Verif.Float
