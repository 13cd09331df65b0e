import Mathlib.Data.Rat.Floor
import Mathlib.Algebra.Order.Field.Power
import Mathlib.Tactic.Linarith
import Mathlib.Tactic.NormNum
import Mathlib.Tactic.Positivity
import Mathlib.Tactic.Ring
import Mathlib.Tactic.FieldSimp

/-!
# IEEE-754 binary floating point, round to nearest even

A small executable description of rounding a rational number to a binary
floating point format.  It is used to model Python `float` (binary64),
`struct.pack('<f', ..)` and C `float` (binary32) arithmetic.

Simplifications: signed zeros are not distinguished, there is one NaN.
-/

namespace Verif.Float

/-- `2^k` as a rational, in a form that the kernel can evaluate. -/
def pow2 (k : ℤ) : ℚ :=
  if 0 ≤ k then ((2 ^ k.toNat : ℕ) : ℚ) else mkRat 1 (2 ^ (-k).toNat)

/-- `floor (log2 x)` for positive `x`. -/
def ilog2 (x : ℚ) : ℤ :=
  let k : ℤ := (Nat.log2 x.num.natAbs : ℤ) - (Nat.log2 x.den : ℤ)
  if pow2 k ≤ x then k else k - 1

/-- Round to the nearest integer, ties to even. -/
def rne (y : ℚ) : ℤ :=
  if y - y.floor < 1 / 2 then y.floor
  else if 1 / 2 < y - y.floor then y.floor + 1
  else if y.floor % 2 = 0 then y.floor else y.floor + 1

/-- A binary format: precision (with the hidden bit), exponent of the
smallest subnormal, and the exponent `E` such that `2^E` overflows. -/
structure Fmt where
  prec : ℕ
  emin : ℤ
  emax : ℤ
deriving DecidableEq

/-- binary64: Python `float`, C `double`. -/
def b64 : Fmt := ⟨53, -1074, 1024⟩
/-- binary32: C `float`, `struct` format `f`. -/
def b32 : Fmt := ⟨24, -149, 128⟩

/-- Exponent of the unit in the last place used for `x`. -/
def Fmt.ulpExp (f : Fmt) (x : ℚ) : ℤ :=
  if x = 0 then f.emin else max (ilog2 |x| - ((f.prec : ℤ) - 1)) f.emin

/-- Rounding with unbounded upper exponent. -/
def Fmt.roundQ (f : Fmt) (x : ℚ) : ℚ :=
  rne (x / pow2 (f.ulpExp x)) * pow2 (f.ulpExp x)

/-- Floating point values. -/
inductive Fl
  | nan
  | inf (neg : Bool)
  | fin (q : ℚ)
deriving DecidableEq

/-- Rounding of an exact result, with overflow to infinity. -/
def Fmt.round (f : Fmt) (x : ℚ) : Fl :=
  if |f.roundQ x| < pow2 f.emax then .fin (f.roundQ x) else .inf (decide (x < 0))

/-! ## Facts about the building blocks -/

theorem pow2_eq (k : ℤ) : pow2 k = (2 : ℚ) ^ k := by
  unfold pow2
  split
  · next h =>
    obtain ⟨n, rfl⟩ := Int.eq_ofNat_of_zero_le h
    simp
  · next h =>
    obtain ⟨n, hn⟩ := Int.eq_ofNat_of_zero_le (show 0 ≤ -k by omega)
    obtain rfl : k = -(n : ℤ) := by omega
    simp [Rat.mkRat_eq_div]

theorem pow2_pos (k : ℤ) : 0 < pow2 k := by
  rw [pow2_eq]; positivity

theorem pow2_add (a b : ℤ) : pow2 (a + b) = pow2 a * pow2 b := by
  simp [pow2_eq, zpow_add₀]

theorem pow2_le {a b : ℤ} (h : a ≤ b) : pow2 a ≤ pow2 b := by
  simp only [pow2_eq]; exact zpow_le_zpow_right₀ (by norm_num) h

theorem pow2_natCast (n : ℕ) : pow2 n = ((2 ^ n : ℕ) : ℚ) := by
  simp [pow2_eq]

theorem ilog2_spec {x : ℚ} (hx : 0 < x) : pow2 (ilog2 x) ≤ x ∧ x < pow2 (ilog2 x + 1) := by
  have hnum : 0 < x.num := Rat.num_pos.mpr hx
  have hn0 : x.num.natAbs ≠ 0 := by omega
  have hd0 : x.den ≠ 0 := x.den_nz
  have h1 := Nat.log2_self_le hn0
  have h2 := Nat.lt_log2_self (n := x.num.natAbs)
  have h3 := Nat.log2_self_le hd0
  have h4 := Nat.lt_log2_self (n := x.den)
  set a := Nat.log2 x.num.natAbs with ha
  set b := Nat.log2 x.den with hb
  have hx' : x = (x.num.natAbs : ℚ) / (x.den : ℚ) := by
    conv_lhs => rw [← Rat.num_div_den x]
    congr 1
    have : (x.num.natAbs : ℤ) = x.num := by omega
    rw [← Int.cast_natCast, this]
  have e1 : ((2:ℚ) ^ a) ≤ x.num.natAbs := by exact_mod_cast h1
  have e2 : (x.num.natAbs : ℚ) < 2 ^ (a + 1) := by exact_mod_cast h2
  have e3 : ((2:ℚ) ^ b) ≤ x.den := by exact_mod_cast h3
  have e4 : (x.den : ℚ) < 2 ^ (b + 1) := by exact_mod_cast h4
  have hd : (0:ℚ) < x.den := by exact_mod_cast x.den_pos
  -- 2^(a-b-1) < x < 2^(a-b+1)
  have lo : pow2 ((a:ℤ) - b - 1) < x := by
    rw [hx', lt_div_iff₀ hd, pow2_eq]
    calc (2:ℚ) ^ ((a:ℤ) - b - 1) * x.den < (2:ℚ) ^ ((a:ℤ) - b - 1) * 2 ^ (b+1) := by
          gcongr
      _ = (2:ℚ) ^ a := by
          rw [← zpow_natCast, ← zpow_natCast, ← zpow_add₀ (by norm_num)]
          congr 1; push_cast; ring
      _ ≤ _ := e1
  have hi : x < pow2 ((a:ℤ) - b + 1) := by
    rw [hx', div_lt_iff₀ hd, pow2_eq]
    calc (x.num.natAbs : ℚ) < 2 ^ (a+1) := e2
      _ = (2:ℚ) ^ ((a:ℤ) - b + 1) * 2 ^ b := by
          rw [← zpow_natCast, ← zpow_natCast, ← zpow_add₀ (by norm_num)]
          congr 1; push_cast; ring
      _ ≤ _ := by gcongr
  unfold ilog2
  simp only [← ha, ← hb]
  split
  · next h => exact ⟨h, hi⟩
  · next h =>
    refine ⟨lo.le, ?_⟩
    rw [sub_add_cancel]; exact not_le.mp h

theorem rne_floor_le (y : ℚ) : y.floor ≤ rne y := by
  unfold rne; split_ifs <;> omega

theorem rne_le_floor_succ (y : ℚ) : rne y ≤ y.floor + 1 := by
  unfold rne; split_ifs <;> omega

theorem floor_le' (y : ℚ) : (y.floor : ℚ) ≤ y := by
  have := Int.floor_le y; exact this

theorem lt_floor_succ' (y : ℚ) : y < (y.floor : ℚ) + 1 := by
  have := Int.lt_floor_add_one y; exact this

theorem rne_err (y : ℚ) : |(rne y : ℚ) - y| ≤ 1 / 2 := by
  have h1 := floor_le' y
  have h2 := lt_floor_succ' y
  unfold rne
  rw [abs_le]
  split_ifs <;> push_cast <;> constructor <;> linarith

theorem rne_int (n : ℤ) : rne (n : ℚ) = n := by
  have : (n : ℚ).floor = n := by simp
  unfold rne; rw [this]; simp

theorem rne_mono {x y : ℚ} (h : x ≤ y) : rne x ≤ rne y := by
  have hf : x.floor ≤ y.floor := by
    have := Int.floor_mono h; exact this
  rcases hf.lt_or_eq with hlt | heq
  · exact (rne_le_floor_succ x).trans (le_trans (by omega) (rne_floor_le y))
  · unfold rne
    rw [← heq]
    split_ifs <;> first | omega | (exfalso; linarith)

theorem floor_unique {y : ℚ} {n : ℤ} (h1 : (n:ℚ) ≤ y) (h2 : y < n + 1) : y.floor = n := by
  have := (Int.floor_eq_iff (a := y) (z := n)).mpr ⟨h1, h2⟩
  exact this

theorem rne_neg (y : ℚ) : rne (-y) = - rne y := by
  by_cases hint : y = (y.floor : ℚ)
  · rw [hint, rne_int, ← Int.cast_neg, rne_int]
  · have h1 : (y.floor : ℚ) < y := lt_of_le_of_ne (floor_le' y) (Ne.symm hint)
    have h2 := lt_floor_succ' y
    have hf : (-y).floor = - y.floor - 1 := by
      apply floor_unique <;> push_cast <;> linarith
    unfold rne
    rw [hf]
    push_cast
    split_ifs <;> first | omega | (exfalso; linarith)

theorem ulpExp_neg (f : Fmt) (x : ℚ) : f.ulpExp (-x) = f.ulpExp x := by
  simp [Fmt.ulpExp]

theorem roundQ_neg (f : Fmt) (x : ℚ) : f.roundQ (-x) = - f.roundQ x := by
  unfold Fmt.roundQ
  rw [ulpExp_neg, neg_div, rne_neg]; push_cast; ring

theorem roundQ_zero (f : Fmt) : f.roundQ 0 = 0 := by
  have := rne_int 0
  simp [Fmt.roundQ] at this ⊢; left; exact this

/-- Any multiple of a power of two at least as coarse as the ulp is a fixed
point. -/
theorem roundQ_of_mul {f : Fmt} {x : ℚ} (n : ℤ) (h : x = n * pow2 (f.ulpExp x)) :
    f.roundQ x = x := by
  unfold Fmt.roundQ
  have hp := pow2_pos (f.ulpExp x)
  have : x / pow2 (f.ulpExp x) = n := by
    rw [div_eq_iff hp.ne']; exact h
  rw [this, rne_int, ← h]

theorem ilog2_mono {x y : ℚ} (hx : 0 < x) (h : x ≤ y) : ilog2 x ≤ ilog2 y := by
  by_contra hc
  have h1 := (ilog2_spec hx).1
  have h2 := (ilog2_spec (hx.trans_le h)).2
  have := pow2_le (a := ilog2 y + 1) (b := ilog2 x) (by omega)
  linarith

theorem ilog2_lt_of_lt_pow2 {x : ℚ} {k : ℤ} (hx : 0 < x) (h : x < pow2 k) : ilog2 x < k := by
  by_contra hc
  have h1 := (ilog2_spec hx).1
  have := pow2_le (a := k) (b := ilog2 x) (by omega)
  linarith

theorem le_ilog2_of_pow2_le {x : ℚ} {k : ℤ} (h : pow2 k ≤ x) : k ≤ ilog2 x := by
  by_contra hc
  have h1 := (ilog2_spec ((pow2_pos k).trans_le h)).2
  have := pow2_le (a := ilog2 x + 1) (b := k) (by omega)
  linarith

theorem ulpExp_mono {f : Fmt} {x y : ℚ} (hx : 0 < x) (h : x ≤ y) : f.ulpExp x ≤ f.ulpExp y := by
  have hy := hx.trans_le h
  unfold Fmt.ulpExp
  rw [if_neg hx.ne', if_neg hy.ne', abs_of_pos hx, abs_of_pos hy]
  have := ilog2_mono hx h
  omega

/-- `2^k` is representable when it is not below the smallest subnormal. -/
theorem roundQ_pow2 {f : Fmt} (hp : 1 ≤ f.prec) {k : ℤ} (hk : f.emin ≤ k) :
    f.roundQ (pow2 k) = pow2 k := by
  have hpos := pow2_pos k
  have hl : ilog2 (pow2 k) = k := by
    have h1 := le_ilog2_of_pow2_le (le_refl (pow2 k))
    have h2 : ilog2 (pow2 k) < k + 1 := by
      apply ilog2_lt_of_lt_pow2 hpos
      rw [pow2_eq, pow2_eq]; exact zpow_lt_zpow_right₀ (by norm_num) (by omega)
    omega
  have hu : f.ulpExp (pow2 k) ≤ k := by
    unfold Fmt.ulpExp; rw [if_neg hpos.ne', abs_of_pos hpos, hl]; omega
  obtain ⟨d, hd⟩ := Int.eq_ofNat_of_zero_le (show 0 ≤ k - f.ulpExp (pow2 k) by omega)
  apply roundQ_of_mul ((2:ℤ)^d)
  have : k = f.ulpExp (pow2 k) + d := by omega
  conv_lhs => rw [this, pow2_add]
  rw [mul_comm]; congr 1

theorem roundQ_nonneg {f : Fmt} {x : ℚ} (h : 0 ≤ x) : 0 ≤ f.roundQ x := by
  unfold Fmt.roundQ
  have hp := pow2_pos (f.ulpExp x)
  have : rne 0 ≤ rne (x / pow2 (f.ulpExp x)) := rne_mono (by positivity)
  have h0 : rne 0 = 0 := by simpa using rne_int 0
  rw [h0] at this
  have : (0:ℚ) ≤ rne (x / pow2 (f.ulpExp x)) := by exact_mod_cast this
  positivity

theorem roundQ_mono_pos {f : Fmt} (hp : 1 ≤ f.prec) {x y : ℚ} (hx : 0 < x) (h : x ≤ y) :
    f.roundQ x ≤ f.roundQ y := by
  have hy := hx.trans_le h
  rcases (ulpExp_mono (f := f) hx h).lt_or_eq with hlt | heq
  · -- the ulp of y is coarser: compare both with 2^(ilog2 y)
    set L := ilog2 y with hL
    have hux : f.emin ≤ f.ulpExp x := by
      unfold Fmt.ulpExp; rw [if_neg hx.ne']; omega
    have huy : f.ulpExp y = L - ((f.prec : ℤ) - 1) := by
      have h1 : f.ulpExp y = max (L - ((f.prec : ℤ) - 1)) f.emin := by
        unfold Fmt.ulpExp; rw [if_neg hy.ne', abs_of_pos hy]
      omega
    have hLy := ilog2_spec hy
    have hLx := ilog2_spec hx
    have hxL : x ≤ pow2 L := by
      have h1 : f.ulpExp x = max (ilog2 x - ((f.prec : ℤ) - 1)) f.emin := by
        unfold Fmt.ulpExp; rw [if_neg hx.ne', abs_of_pos hx]
      exact hLx.2.le.trans (pow2_le (by omega))
    -- upper bound for round x
    have hxr : f.roundQ x ≤ pow2 L := by
      obtain ⟨d, hd⟩ := Int.eq_ofNat_of_zero_le (show 0 ≤ L - f.ulpExp x by omega)
      have hLd : pow2 L = ((2^d : ℤ) : ℚ) * pow2 (f.ulpExp x) := by
        rw [show L = f.ulpExp x + d by omega, pow2_add, pow2_natCast]; push_cast; ring
      have hpx := pow2_pos (f.ulpExp x)
      have : rne (x / pow2 (f.ulpExp x)) ≤ 2^d := by
        rw [← rne_int (2^d)]
        apply rne_mono
        rw [div_le_iff₀ hpx, ← hLd]; exact hxL
      have : (rne (x / pow2 (f.ulpExp x)) : ℚ) ≤ ((2^d : ℤ) : ℚ) := by exact_mod_cast this
      unfold Fmt.roundQ
      rw [hLd]; gcongr
    have hyr : pow2 L ≤ f.roundQ y := by
      obtain ⟨d, hd⟩ := Int.eq_ofNat_of_zero_le (show 0 ≤ L - f.ulpExp y by omega)
      have hLd : pow2 L = ((2^d : ℤ) : ℚ) * pow2 (f.ulpExp y) := by
        rw [show L = f.ulpExp y + d by omega, pow2_add, pow2_natCast]; push_cast; ring
      have hpy := pow2_pos (f.ulpExp y)
      have : 2^d ≤ rne (y / pow2 (f.ulpExp y)) := by
        rw [← rne_int (2^d)]
        apply rne_mono
        rw [le_div_iff₀ hpy, ← hLd]; exact hLy.1
      have : ((2^d : ℤ) : ℚ) ≤ (rne (y / pow2 (f.ulpExp y)) : ℚ) := by exact_mod_cast this
      unfold Fmt.roundQ
      rw [hLd]; gcongr
    exact hxr.trans hyr
  · unfold Fmt.roundQ
    rw [heq]
    have hpy := pow2_pos (f.ulpExp y)
    have : rne (x / pow2 (f.ulpExp y)) ≤ rne (y / pow2 (f.ulpExp y)) := rne_mono (by gcongr)
    have : (rne (x / pow2 (f.ulpExp y)) : ℚ) ≤ rne (y / pow2 (f.ulpExp y)) := by exact_mod_cast this
    gcongr

/-- Rounding is monotone. -/
theorem roundQ_mono {f : Fmt} (hp : 1 ≤ f.prec) {x y : ℚ} (h : x ≤ y) :
    f.roundQ x ≤ f.roundQ y := by
  rcases lt_trichotomy x 0 with hx | hx | hx
  · rcases lt_or_ge y 0 with hy | hy
    · have := roundQ_mono_pos hp (f := f) (x := -y) (y := -x) (by linarith) (by linarith)
      rw [roundQ_neg, roundQ_neg] at this; linarith
    · have h1 := roundQ_nonneg (f := f) hy
      have h2 := roundQ_nonneg (f := f) (x := -x) (by linarith)
      rw [roundQ_neg] at h2; linarith
  · subst hx; rw [roundQ_zero]; exact roundQ_nonneg h
  · exact roundQ_mono_pos hp hx h

/-- Integers of magnitude at most `2^prec` are representable. -/
theorem roundQ_int {f : Fmt} (hp : 1 ≤ f.prec) (he : f.emin ≤ 0) {n : ℤ}
    (hn : |n| ≤ 2 ^ f.prec) : f.roundQ n = n := by
  by_cases h0 : n = 0
  · subst h0; simpa using roundQ_zero f
  by_cases hedge : |n| = 2 ^ f.prec
  · have hpw := roundQ_pow2 hp (f := f) (k := f.prec) (by omega)
    rw [pow2_natCast] at hpw
    rcases abs_eq (by positivity) |>.mp hedge with h | h
    · rw [h]; push_cast at hpw ⊢; exact hpw
    · rw [h]; push_cast at hpw ⊢; rw [roundQ_neg, hpw]
  have hlt : |n| < 2 ^ f.prec := lt_of_le_of_ne hn hedge
  have hq0 : (n : ℚ) ≠ 0 := by exact_mod_cast h0
  have hposn : (0 : ℚ) < |(n : ℚ)| := abs_pos.mpr hq0
  have hlog : ilog2 |(n : ℚ)| < f.prec := by
    apply ilog2_lt_of_lt_pow2 hposn
    rw [pow2_natCast]; exact_mod_cast hlt
  have hu : f.ulpExp n ≤ 0 := by
    unfold Fmt.ulpExp; rw [if_neg hq0]; omega
  obtain ⟨d, hd⟩ := Int.eq_ofNat_of_zero_le (show 0 ≤ - f.ulpExp n by omega)
  apply roundQ_of_mul (n * 2^d)
  have : pow2 (f.ulpExp n) * pow2 d = 1 := by
    rw [← pow2_add, show f.ulpExp n + d = 0 by omega]; rfl
  rw [pow2_natCast] at this
  push_cast at this ⊢
  rw [mul_assoc, mul_comm ((2:ℚ)^d), this, mul_one]

/-- Error bound of rounding: half an ulp. -/
theorem roundQ_err (f : Fmt) (x : ℚ) : |f.roundQ x - x| ≤ pow2 (f.ulpExp x) / 2 := by
  have hp := pow2_pos (f.ulpExp x)
  have h := rne_err (x / pow2 (f.ulpExp x))
  unfold Fmt.roundQ
  have : (rne (x / pow2 (f.ulpExp x)) : ℚ) * pow2 (f.ulpExp x) - x
      = ((rne (x / pow2 (f.ulpExp x)) : ℚ) - x / pow2 (f.ulpExp x)) * pow2 (f.ulpExp x) := by
    field_simp
  rw [this, abs_mul, abs_of_pos hp]
  nlinarith

/-- The ulp of a number of magnitude below `2^k`. -/
theorem ulp_le {f : Fmt} {x : ℚ} {k : ℤ} (h : |x| < pow2 k) (hk : f.emin ≤ k - f.prec) :
    pow2 (f.ulpExp x) ≤ pow2 (k - f.prec) := by
  apply pow2_le
  unfold Fmt.ulpExp
  split
  · exact hk
  · next h0 =>
    have := ilog2_lt_of_lt_pow2 (abs_pos.mpr h0) h
    omega

/-- Round to nearest is idempotent up to any representable number: rounding
never crosses a fixed point of the rounding. -/
theorem roundQ_le_of_le {f : Fmt} (hp : 1 ≤ f.prec) {x y : ℚ} (hy : f.roundQ y = y) (h : x ≤ y) :
    f.roundQ x ≤ y := hy ▸ roundQ_mono hp h

theorem le_roundQ_of_le {f : Fmt} (hp : 1 ≤ f.prec) {x y : ℚ} (hy : f.roundQ y = y) (h : y ≤ x) :
    y ≤ f.roundQ x := hy ▸ roundQ_mono hp h

/-- Relative rounding error of values that are not subnormal. -/
theorem roundQ_rel_err {f : Fmt} {x : ℚ} (h : pow2 (f.emin + f.prec - 1) ≤ |x|) :
    |f.roundQ x - x| ≤ |x| * pow2 (-f.prec) := by
  have hpos : 0 < |x| := (pow2_pos _).trans_le h
  have hx : x ≠ 0 := abs_pos.mp hpos
  have h1 := roundQ_err f x
  have hl := le_ilog2_of_pow2_le h
  have h2 := (ilog2_spec hpos).1
  have h3 : f.ulpExp x = ilog2 |x| - ((f.prec : ℤ) - 1) := by
    unfold Fmt.ulpExp
    rw [if_neg hx]
    exact max_eq_left (by omega)
  rw [h3] at h1
  have h4 : pow2 (ilog2 |x| - ((f.prec : ℤ) - 1)) = pow2 (ilog2 |x|) * pow2 (-f.prec) * 2 := by
    rw [show ilog2 |x| - ((f.prec : ℤ) - 1) = ilog2 |x| + -f.prec + 1 by ring, pow2_add, pow2_add]
    congr 1
  rw [h4] at h1
  have h5 := pow2_pos (-(f.prec : ℤ))
  nlinarith

/-- Every number with a short enough significand is representable. -/
theorem roundQ_exact {f : Fmt} (hp : 1 ≤ f.prec) {n : ℤ} {e : ℤ} (he : f.emin ≤ e)
    (hn : |n| ≤ 2 ^ f.prec) : f.roundQ (n * pow2 e) = n * pow2 e := by
  by_cases h0 : n = 0
  · subst h0; simpa using roundQ_zero f
  have hep := pow2_pos e
  by_cases hedge : |n| = 2 ^ f.prec
  · have hpw := roundQ_pow2 hp (f := f) (k := f.prec + e) (by omega)
    rw [pow2_add, pow2_natCast] at hpw
    rcases abs_eq (by positivity) |>.mp hedge with h | h
    · rw [h]; push_cast at hpw ⊢; exact hpw
    · rw [h]; push_cast at hpw ⊢; rw [neg_mul, roundQ_neg, hpw]
  have hlt : |n| < 2 ^ f.prec := lt_of_le_of_ne hn hedge
  have hq0 : (n : ℚ) * pow2 e ≠ 0 := mul_ne_zero (by exact_mod_cast h0) hep.ne'
  have hlog : ilog2 |(n : ℚ) * pow2 e| < f.prec + e := by
    apply ilog2_lt_of_lt_pow2 (abs_pos.mpr hq0)
    rw [abs_mul, abs_of_pos hep, pow2_add, pow2_natCast]
    have : |(n : ℚ)| < ((2 ^ f.prec : ℕ) : ℚ) := by exact_mod_cast hlt
    exact mul_lt_mul_of_pos_right this hep
  have hu : f.ulpExp (n * pow2 e) ≤ e := by
    unfold Fmt.ulpExp; rw [if_neg hq0]; omega
  obtain ⟨d, hd⟩ := Int.eq_ofNat_of_zero_le (show 0 ≤ e - f.ulpExp (n * pow2 e) by omega)
  apply roundQ_of_mul (n * 2^d)
  have : pow2 e = pow2 (f.ulpExp (n * pow2 e)) * pow2 d := by
    rw [← pow2_add]; congr 1; omega
  rw [pow2_natCast] at this
  push_cast at this ⊢
  conv_lhs => rw [this]
  ring

/-- Rounding is idempotent. -/
theorem roundQ_idem {f : Fmt} (hp : 1 ≤ f.prec) (x : ℚ) : f.roundQ (f.roundQ x) = f.roundQ x := by
  have key : |rne (x / pow2 (f.ulpExp x))| ≤ 2 ^ f.prec ∧ f.emin ≤ f.ulpExp x := by
    by_cases hx : x = 0
    · subst hx
      have : rne 0 = 0 := by simpa using rne_int 0
      simp [this, Fmt.ulpExp]
    · have he : f.emin ≤ f.ulpExp x := by unfold Fmt.ulpExp; rw [if_neg hx]; omega
      refine ⟨?_, he⟩
      have hpos : 0 < |x| := abs_pos.mpr hx
      have hup := pow2_pos (f.ulpExp x)
      have h1 := (ilog2_spec hpos).2
      have h2 : ilog2 |x| + 1 ≤ f.prec + f.ulpExp x := by
        unfold Fmt.ulpExp; rw [if_neg hx]; omega
      have h3 : |x| ≤ ((2 ^ f.prec : ℕ) : ℚ) * pow2 (f.ulpExp x) := by
        rw [← pow2_natCast, ← pow2_add]; exact h1.le.trans (pow2_le h2)
      have h4 : |x / pow2 (f.ulpExp x)| ≤ (((2 ^ f.prec : ℕ) : ℤ) : ℚ) := by
        rw [abs_div, abs_of_pos hup, div_le_iff₀ hup]; exact_mod_cast h3
      rw [abs_le] at h4
      have h5 := rne_mono h4.1
      have h6 := rne_mono h4.2
      rw [← Int.cast_neg, rne_int] at h5
      rw [rne_int] at h6
      rw [abs_le]
      push_cast at h5 h6
      exact ⟨h5, h6⟩
  conv_rhs => unfold Fmt.roundQ
  unfold Fmt.roundQ at key ⊢
  exact roundQ_exact hp key.2 key.1

/-- Sanity check of the definitions against well known binary64 facts:
`0.1 + 0.2 ≠ 0.3`, and `0.29 / 0.01` is below 29. -/
example : b64.roundQ (b64.roundQ (1/10) + b64.roundQ (2/10)) ≠ b64.roundQ (3/10) := by
  decide +kernel

example : b64.roundQ (b64.roundQ (29/100) / b64.roundQ (1/100)) < 29 := by
  decide +kernel

end Verif.Float
