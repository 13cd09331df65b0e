import Verif.Float.Ieee
import Mathlib.Tactic.LinearCombination
import Mathlib.Tactic.Positivity
import Mathlib.Algebra.Order.Archimedean.Basic

/-!
# Encoder calibration: wrapping

Model of lib/python/moteus/calibrate_encoder.py:78-109 (`_wrap_uint16`,
`_wrap_int16`, `_wrap_neg_pi_to_pi`, `_unwrap`), with the proofs of C50.

The angle functions are defined over an arbitrary rounding `rnd` of the
rationals and applied to exact arithmetic (`id`) and to Python floats
(`b64.roundQ`); finite floats only.  `_wrap_neg_pi_to_pi` in moteus_tool.py:54
is the same function.
-/

namespace Verif.Calib

open Verif.Float

/-! ## Model -/

/-- calibrate_encoder.py:79-80 -/
def addLoop16 (lo : Int) (v : Int) : Int :=
  if v < lo then addLoop16 lo (v + 65536) else v
termination_by (lo - v).toNat
decreasing_by omega

/-- calibrate_encoder.py:81-82 -/
def subLoop16 (hi : Int) (v : Int) : Int :=
  if v > hi then subLoop16 hi (v - 65536) else v
termination_by (v - hi).toNat
decreasing_by omega

/-- calibrate_encoder.py:78-83 `_wrap_uint16` -/
def wrapUint16 (v : Int) : Int := subLoop16 65535 (addLoop16 0 v)

/-- calibrate_encoder.py:86-91 `_wrap_int16` -/
def wrapInt16 (v : Int) : Int := addLoop16 (-32768) (subLoop16 32767 v)

/-- `math.pi` -/
def mathPi : ℚ := 884279719003555 / 281474976710656

/-- calibrate_encoder.py:95-96, with `n` turns allowed.  (`2.0 * math.pi` is
exact.) -/
def wrapDown (rnd : ℚ → ℚ) : Nat → ℚ → Option ℚ
  | 0, _ => none
  | n + 1, v => if v > mathPi then wrapDown rnd n (rnd (v - 2 * mathPi)) else some v

/-- calibrate_encoder.py:97-98 -/
def wrapUp (rnd : ℚ → ℚ) : Nat → ℚ → Option ℚ
  | 0, _ => none
  | n + 1, v => if v < -mathPi then wrapUp rnd n (rnd (v + 2 * mathPi)) else some v

/-- calibrate_encoder.py:94-99 `_wrap_neg_pi_to_pi` with at most `n` turns of
each loop. -/
def wrapNegPiToPi (rnd : ℚ → ℚ) (n : Nat) (v : ℚ) : Option ℚ :=
  match wrapDown rnd n v with
  | none => none
  | some v => wrapUp rnd n v

/-- The loop of `_unwrap` with `result[-1] = last`. -/
def unwrapFrom (rnd : ℚ → ℚ) (n : Nat) (last : ℚ) : List ℚ → Option (List ℚ)
  | [] => some []
  | item :: rest =>
    match wrapNegPiToPi rnd n (rnd (item - last)) with
    | none => none
    | some w =>
      match unwrapFrom rnd n (rnd (last + w)) rest with
      | none => none
      | some l => some (rnd (last + w) :: l)

/-- calibrate_encoder.py:102-109 `_unwrap` -/
def unwrap (rnd : ℚ → ℚ) (n : Nat) : List ℚ → Option (List ℚ)
  | [] => some []
  | item :: rest =>
    match unwrapFrom rnd n item rest with
    | none => none
    | some l => some (item :: l)

/-! ## Integers -/

theorem addLoop16_spec (lo v : Int) :
    lo ≤ addLoop16 lo v ∧ (v < lo → addLoop16 lo v < lo + 65536) ∧ (lo ≤ v → addLoop16 lo v = v) ∧
      (65536 : Int) ∣ addLoop16 lo v - v := by
  induction v using addLoop16.induct lo with
  | case1 v h ih =>
    rw [addLoop16, if_pos h]
    refine ⟨ih.1, fun _ => ?_, by omega, by omega⟩
    by_cases h2 : v + 65536 < lo
    · exact ih.2.1 h2
    · rw [ih.2.2.1 (by omega)]; omega
  | case2 v h =>
    rw [addLoop16, if_neg h]
    exact ⟨by omega, by omega, fun _ => rfl, by simp⟩

theorem subLoop16_spec (hi v : Int) :
    subLoop16 hi v ≤ hi ∧ (v > hi → hi - 65536 < subLoop16 hi v) ∧ (v ≤ hi → subLoop16 hi v = v) ∧
      (65536 : Int) ∣ subLoop16 hi v - v := by
  induction v using subLoop16.induct hi with
  | case1 v h ih =>
    rw [subLoop16, if_pos h]
    refine ⟨ih.1, fun _ => ?_, by omega, by omega⟩
    by_cases h2 : v - 65536 > hi
    · exact ih.2.1 h2
    · rw [ih.2.2.1 (by omega)]; omega
  | case2 v h =>
    rw [subLoop16, if_neg h]
    exact ⟨by omega, by omega, fun _ => rfl, by simp⟩

/-- C50: `_wrap_uint16` ends for every integer and returns the representative
in 0..65535. -/
theorem C50_wrap_uint16 (v r : Int) :
    wrapUint16 v = r ↔ 0 ≤ r ∧ r ≤ 65535 ∧ (65536 : Int) ∣ r - v := by
  have a := addLoop16_spec 0 v
  have b := subLoop16_spec 65535 (addLoop16 0 v)
  unfold wrapUint16
  constructor
  · rintro rfl; omega
  · rintro ⟨h1, h2, h3⟩; omega

/-- C50: `_wrap_int16` ends for every integer and returns the representative
in -32768..32767. -/
theorem C50_wrap_int16 (v r : Int) :
    wrapInt16 v = r ↔ -32768 ≤ r ∧ r ≤ 32767 ∧ (65536 : Int) ∣ r - v := by
  have b := subLoop16_spec 32767 v
  have a := addLoop16_spec (-32768) (subLoop16 32767 v)
  unfold wrapInt16
  constructor
  · rintro rfl; omega
  · rintro ⟨h1, h2, h3⟩; omega

example : wrapUint16 (-1) = 65535 ∧ wrapInt16 98304 = -32768 := by
  constructor
  · rw [C50_wrap_uint16]; omega
  · rw [C50_wrap_int16]; omega

/-! ## Angles -/

theorem mathPi_pos : 0 < mathPi := by unfold mathPi; norm_num

theorem mathPi_bounds : 3 < mathPi ∧ mathPi < 4 := by unfold mathPi; norm_num

/-- What is needed from the arithmetic: on arguments up to `B` the error is at
most `u`, rounding is monotone and odd, and π is a number of the format. -/
structure Arith (rnd : ℚ → ℚ) (B u : ℚ) : Prop where
  mono : ∀ {x y}, x ≤ y → rnd x ≤ rnd y
  odd : ∀ x, rnd (-x) = - rnd x
  pi : rnd mathPi = mathPi
  err : ∀ x, |x| ≤ B → |rnd x - x| ≤ u
  u_nonneg : 0 ≤ u
  u_lt : u < mathPi
  B_ge : 4 ≤ B

theorem arith_id (B : ℚ) (h : 4 ≤ B) : Arith id B 0 where
  mono := fun h => h
  odd := fun _ => rfl
  pi := rfl
  err := fun x _ => by simp
  u_nonneg := le_refl 0
  u_lt := mathPi_pos
  B_ge := h

theorem mathPi_double : b64.roundQ mathPi = mathPi := by
  have h := roundQ_exact (f := b64) (by decide) (n := 884279719003555) (e := -48) (by decide)
    (by decide)
  have e : ((884279719003555 : ℤ) : ℚ) * pow2 (-48) = mathPi := by
    rw [pow2_eq]; unfold mathPi; norm_num
  rw [e] at h; exact h

/-- Python floats up to `2^k`. -/
theorem arith_float (k : Nat) (h1 : 3 ≤ k) (h2 : k ≤ 50) :
    Arith b64.roundQ ((2:ℚ) ^ k) (pow2 ((k : ℤ) - 53)) where
  mono := fun h => roundQ_mono (by decide) h
  odd := roundQ_neg b64
  pi := mathPi_double
  err := fun x hx => by
    have hlt : |x| < pow2 ((k : ℤ) + 1) := by
      rw [pow2_eq, zpow_add₀ (by norm_num), zpow_natCast]
      have : (0:ℚ) < 2 ^ k := by positivity
      rw [zpow_one]; linarith
    have h := ulp_le (f := b64) hlt (by show (-1074 : ℤ) ≤ _ - 53; omega)
    have e := roundQ_err b64 x
    have e2 : pow2 ((k : ℤ) + 1 - (b64.prec : ℤ)) = 2 * pow2 ((k : ℤ) - 53) := by
      show pow2 ((k : ℤ) + 1 - 53) = _
      rw [show (k : ℤ) + 1 - 53 = ((k : ℤ) - 53) + 1 by ring, pow2_add]
      rw [show pow2 1 = 2 by rw [pow2_eq]; norm_num]; ring
    rw [e2] at h
    linarith
  u_nonneg := (pow2_pos _).le
  u_lt := by
    have := pow2_le (a := (k : ℤ) - 53) (b := 0) (by omega)
    have e : pow2 0 = 1 := by rw [pow2_eq]; norm_num
    have := mathPi_bounds.1
    linarith
  B_ge := by
    have : (2:ℚ) ^ 2 ≤ 2 ^ k := pow_le_pow_right₀ (by norm_num) (by omega)
    linarith

section
variable {rnd : ℚ → ℚ} {B u : ℚ}

theorem Arith.neg_pi (A : Arith rnd B u) : rnd (-mathPi) = -mathPi := by rw [A.odd, A.pi]

/-- One turn of the first loop. -/
theorem Arith.down_step (A : Arith rnd B u) {v : ℚ} (h : mathPi < v) (hB : v ≤ B) :
    -mathPi ≤ rnd (v - 2 * mathPi) ∧ rnd (v - 2 * mathPi) ≤ v - mathPi ∧
      |rnd (v - 2 * mathPi) - (v - 2 * mathPi)| ≤ u := by
  have h1 : -mathPi ≤ rnd (v - 2 * mathPi) := by
    rw [← A.neg_pi]; exact A.mono (by linarith)
  have h3 : |rnd (v - 2 * mathPi) - (v - 2 * mathPi)| ≤ u := by
    refine A.err _ ?_
    have := mathPi_bounds
    have := A.B_ge
    rw [abs_le]; constructor <;> linarith
  have := abs_le.1 h3
  have := A.u_lt
  exact ⟨h1, by linarith, h3⟩

theorem Arith.wrapDown (A : Arith rnd B u) (n : Nat) (v : ℚ) (hn : v ≤ mathPi * (n + 1)) (hB : v ≤ B) :
    ∃ (r : ℚ) (k : Nat), (∀ m, n < m → wrapDown rnd m v = some r) ∧ r ≤ mathPi ∧
      (mathPi < v → -mathPi ≤ r) ∧ (v ≤ mathPi → r = v ∧ k = 0) ∧
      |r - (v - 2 * mathPi * k)| ≤ k * u ∧ (k : ℚ) * mathPi ≤ |v| + mathPi := by
  induction n generalizing v with
  | zero =>
    have hv : v ≤ mathPi := by simpa using hn
    refine ⟨v, 0, fun m hm => ?_, hv, fun h => by linarith, fun _ => ⟨rfl, rfl⟩, by simp, ?_⟩
    · obtain ⟨m, rfl⟩ := Nat.exists_eq_succ_of_ne_zero (by omega : m ≠ 0)
      rw [Calib.wrapDown, if_neg (not_lt.2 hv)]
    · have := mathPi_pos; have := abs_nonneg v; push_cast; linarith
  | succ n ih =>
    by_cases hv : mathPi < v
    · obtain ⟨s1, s2, s3⟩ := A.down_step hv hB
      have hp := mathPi_pos
      obtain ⟨r, k, h1, h2, h3, h4, h5, h6⟩ := ih (rnd (v - 2 * mathPi))
        (by push_cast at hn; nlinarith) (by linarith)
      refine ⟨r, k + 1, fun m hm => ?_, h2, fun _ => ?_, fun h => by linarith, ?_, ?_⟩
      · obtain ⟨m, rfl⟩ := Nat.exists_eq_succ_of_ne_zero (by omega : m ≠ 0)
        rw [Calib.wrapDown, if_pos hv]
        exact h1 m (by omega)
      · by_cases hw : mathPi < rnd (v - 2 * mathPi)
        · exact h3 hw
        · rw [(h4 (not_lt.1 hw)).1]; exact s1
      · have a := abs_le.1 h5
        have b := abs_le.1 s3
        rw [abs_le]; push_cast
        constructor <;> linarith
      · by_cases hw : mathPi < rnd (v - 2 * mathPi)
        · rw [abs_of_pos (by linarith)] at h6
          rw [abs_of_pos (by linarith)]
          push_cast; linarith
        · rw [(h4 (not_lt.1 hw)).2]
          rw [abs_of_pos (by linarith)]
          push_cast; linarith
    · have hv := not_lt.1 hv
      refine ⟨v, 0, fun m hm => ?_, hv, fun h => by linarith, fun _ => ⟨rfl, rfl⟩, by simp, ?_⟩
      · obtain ⟨m, rfl⟩ := Nat.exists_eq_succ_of_ne_zero (by omega : m ≠ 0)
        rw [Calib.wrapDown, if_neg (not_lt.2 hv)]
      · have := mathPi_pos; have := abs_nonneg v; push_cast; linarith

theorem Arith.wrapUp_eq (A : Arith rnd B u) (n : Nat) (v : ℚ) :
    wrapUp rnd n v = (Calib.wrapDown rnd n (-v)).map Neg.neg := by
  induction n generalizing v with
  | zero => rfl
  | succ n ih =>
    unfold Calib.wrapUp Calib.wrapDown
    by_cases h : v < -mathPi
    · rw [if_pos h, if_pos (by linarith : -v > mathPi), ih, ← A.odd]
      congr 3; ring
    · rw [if_neg h, if_neg (by linarith : ¬ -v > mathPi)]
      simp

/-- The wrap function in bounded arithmetic: it ends, the result is within
[-π, π], and differs from a congruent value by at most `k * u`. -/
theorem Arith.wrap (A : Arith rnd B u) (v : ℚ) (hB : |v| ≤ B) :
    ∃ (r : ℚ) (k : ℤ) (n : Nat), (∀ m, n < m → wrapNegPiToPi rnd m v = some r) ∧
      |r| ≤ mathPi ∧ (|v| ≤ mathPi → r = v ∧ k = 0) ∧
      |r - (v - 2 * mathPi * k)| ≤ |(k : ℚ)| * u ∧ |(k : ℚ)| * mathPi ≤ |v| + mathPi := by
  have hp := mathPi_pos
  have hb := abs_le.1 hB
  obtain ⟨n, hn⟩ := exists_nat_ge (|v| / mathPi)
  have hn' : |v| ≤ mathPi * (n + 1) := by
    have := (div_le_iff₀ hp).1 hn; nlinarith
  have hnv := abs_le.1 hn'
  by_cases hv : mathPi < v
  · obtain ⟨r, k, h1, h2, h3, h4, h5, h6⟩ := A.wrapDown n v hnv.2 hb.2
    refine ⟨r, k, n, fun m hm => ?_, abs_le.2 ⟨h3 hv, h2⟩, fun h => ?_, ?_, ?_⟩
    · unfold wrapNegPiToPi
      rw [h1 m hm]
      obtain ⟨m, rfl⟩ := Nat.exists_eq_succ_of_ne_zero (by omega : m ≠ 0)
      show wrapUp rnd (m + 1) r = _
      rw [wrapUp, if_neg (not_lt.2 (h3 hv))]
    · have := (abs_le.1 h).2; linarith
    · simpa using h5
    · simpa using h6
  · have hv := not_lt.1 hv
    obtain ⟨r, k, h1, h2, h3, h4, h5, h6⟩ := A.wrapDown n (-v) (by linarith) (by linarith)
    refine ⟨-r, -(k : ℤ), n, fun m hm => ?_, ?_, fun h => ?_, ?_, ?_⟩
    · unfold wrapNegPiToPi
      obtain ⟨m', rfl⟩ := Nat.exists_eq_succ_of_ne_zero (by omega : m ≠ 0)
      rw [show Calib.wrapDown rnd (m' + 1) v = some v by
        rw [Calib.wrapDown, if_neg (not_lt.2 hv)]]
      show wrapUp rnd (m' + 1) v = _
      rw [A.wrapUp_eq, h1 _ hm]; rfl
    · rw [abs_neg, abs_le]
      refine ⟨?_, h2⟩
      by_cases hw : mathPi < -v
      · exact h3 hw
      · rw [(h4 (not_lt.1 hw)).1]; linarith
    · obtain ⟨e1, e2⟩ := h4 (by have := (abs_le.1 h).1; linarith)
      rw [e1, e2]; simp
    · have e : -r - (v - 2 * mathPi * ((-(k : ℤ) : ℤ) : ℚ)) = -(r - (-v - 2 * mathPi * k)) := by
        push_cast; ring
      rw [e, abs_neg]
      push_cast
      rw [abs_neg, Nat.abs_cast]; exact h5
    · push_cast
      rw [abs_neg, Nat.abs_cast, ← abs_neg v]; exact h6

end

/-- C50: in exact arithmetic `_wrap_neg_pi_to_pi` ends for every angle and
returns a congruent angle in [-π, π] (unchanged if it already was there). -/
theorem C50_wrap_angle_exact (v : ℚ) :
    ∃ (r : ℚ) (n : Nat), (∀ m, n < m → wrapNegPiToPi id m v = some r) ∧ |r| ≤ mathPi ∧
      (|v| ≤ mathPi → r = v) ∧ ∃ k : ℤ, r = v - 2 * mathPi * k := by
  obtain ⟨r, k, n, h1, h2, h3, h4, _⟩ := (arith_id (max 4 |v|) (le_max_left _ _)).wrap v
    (le_max_right _ _)
  refine ⟨r, n, h1, h2, fun h => (h3 h).1, k, ?_⟩
  rw [mul_zero] at h4
  have := abs_nonpos_iff.1 h4
  linarith

/-- C50: the representative is unique except for ±π. -/
theorem C50_wrap_angle_unique (v r s : ℚ) (k l : ℤ) (hr : |r| ≤ mathPi) (hs : |s| ≤ mathPi)
    (h1 : r = v - 2 * mathPi * k) (h2 : s = v - 2 * mathPi * l) (hne : r ≠ s) :
    |r| = mathPi ∧ s = -r := by
  have hp := mathPi_pos
  have a := abs_le.1 hr
  have b := abs_le.1 hs
  have hd : s - r = 2 * mathPi * ((k - l : ℤ) : ℚ) := by rw [h1, h2]; push_cast; ring
  have hkl : k - l ≠ 0 := fun e => hne (by rw [e] at hd; push_cast at hd; linarith)
  rcases lt_or_gt_of_ne hkl with h | h
  · have h' : ((k - l : ℤ) : ℚ) ≤ -1 := by exact_mod_cast (by omega : k - l ≤ -1)
    have : r = mathPi := by nlinarith
    have : s = -mathPi := by nlinarith
    rw [‹r = mathPi›, ‹s = -mathPi›]
    exact ⟨abs_of_pos hp, rfl⟩
  · have h' : (1 : ℚ) ≤ ((k - l : ℤ) : ℚ) := by exact_mod_cast (by omega : 1 ≤ k - l)
    have : r = -mathPi := by nlinarith
    have : s = mathPi := by nlinarith
    rw [‹r = -mathPi›, ‹s = mathPi›]
    exact ⟨by rw [abs_neg, abs_of_pos hp], by ring⟩

/-- C50, Python floats: for angles up to `2^k` the function ends, returns a
float in [-π, π] that differs from a congruent value by at most one rounding
error of size `2^(k-53)` for each turn. -/
theorem C50_wrap_angle_float_partial (k : Nat) (h1 : 3 ≤ k) (h2 : k ≤ 50) (v : ℚ)
    (hv : |v| ≤ 2 ^ k) :
    ∃ (r : ℚ) (j : ℤ) (n : Nat), (∀ m, n < m → wrapNegPiToPi b64.roundQ m v = some r) ∧
      |r| ≤ mathPi ∧ (|v| ≤ mathPi → r = v) ∧
      |r - (v - 2 * mathPi * j)| ≤ |(j : ℚ)| * pow2 ((k : ℤ) - 53) ∧
      |(j : ℚ)| * mathPi ≤ |v| + mathPi := by
  obtain ⟨r, j, n, a, b, c, d, e⟩ := (arith_float k h1 h2).wrap v hv
  exact ⟨r, j, n, a, b, fun h => (c h).1, d, e⟩

theorem stuck : b64.roundQ ((2:ℚ) ^ 57 - 2 * mathPi) = (2:ℚ) ^ 57 := by
  unfold mathPi
  decide +kernel

/-- C50 does not hold for all floats: for 2^57 the subtraction of 2π is lost
in rounding and the loop never ends. -/
theorem C50_wrap_angle_refuted :
    ¬ ∀ v : ℚ, b64.roundQ v = v → ∃ n r, wrapNegPiToPi b64.roundQ n v = some r := by
  intro h
  obtain ⟨n, r, hr⟩ := h ((2:ℚ) ^ 57) (by decide +kernel)
  have : ∀ n, wrapDown b64.roundQ n ((2:ℚ) ^ 57) = none := by
    intro n
    induction n with
    | zero => rfl
    | succ n ih =>
      rw [wrapDown, if_pos (by unfold mathPi; norm_num), stuck, ih]
  rw [wrapNegPiToPi, this] at hr
  cases hr

/-! ## Unwrapping -/

/-- The samples `a` show the angles `t` modulo 2π with an error of at most
`η`; and the angles are bounded by `T`. -/
inductive Shows (η T : ℚ) : List ℚ → List ℚ → Prop
  | nil : Shows η T [] []
  | cons {a t : ℚ} {as ts : List ℚ} (m : ℤ) (h : |a - (t + 2 * mathPi * m)| ≤ η)
      (ha : |a| ≤ T) (ht : |t| ≤ T) (hrest : Shows η T as ts) : Shows η T (a :: as) (t :: ts)

/-- Steps of a sequence that begins at `t`. -/
def Steps (s : ℚ) : ℚ → List ℚ → Prop
  | _, [] => True
  | t, t' :: ts => |t' - t| ≤ s ∧ Steps s t' ts

/-- `l` follows `ts` shifted by `c` up to `ε`. -/
inductive Follows (c ε : ℚ) : List ℚ → List ℚ → Prop
  | nil : Follows c ε [] []
  | cons {r t : ℚ} {rs ts : List ℚ} (h : |r - (t + c)| ≤ ε) (hrest : Follows c ε rs ts) :
      Follows c ε (r :: rs) (t :: ts)

section
variable {rnd : ℚ → ℚ} {B u : ℚ}

theorem Arith.unwrapFrom (A : Arith rnd B u) {η T s ε : ℚ} (m0 : ℤ) (K : ℚ)
    (hK : (B + mathPi) ≤ K * mathPi)
    (hε : η + (2 + K) * u ≤ ε) (hs : s + u + 2 * ε < mathPi)
    (hc : 2 * T + |2 * mathPi * m0| + mathPi + 2 * u + ε ≤ B)
    (as ts : List ℚ) (hsh : Shows η T as ts) (last t : ℚ) (ht : |t| ≤ T)
    (hlast : |last - (t + 2 * mathPi * m0)| ≤ ε) (hst : Steps s t ts) :
    ∃ n l, (∀ m, n < m → unwrapFrom rnd m last as = some l) ∧
      Follows (2 * mathPi * m0) ε l ts := by
  induction hsh generalizing last t with
  | nil => exact ⟨0, [], fun m _ => rfl, .nil⟩
  | @cons a t' as ts m ha1 ha2 ht' hrest ih =>
    have hp := mathPi_pos
    have hu := A.u_nonneg
    obtain ⟨hst1, hst2⟩ := hst
    have c1 := abs_le.1 (le_refl |2 * mathPi * (m0 : ℚ)|)
    have l1 := abs_le.1 hlast
    have t1 := abs_le.1 ht
    have a1 := abs_le.1 ha2
    have hT : 0 ≤ T := (abs_nonneg t).trans ht
    have hη : 0 ≤ η := (abs_nonneg _).trans ha1
    have hdB : |a - last| ≤ B - mathPi - 2 * u := by rw [abs_le]; constructor <;> linarith
    have d1 := abs_le.1 (A.err (a - last) (by linarith))
    have hd2 := abs_le.1 hdB
    have hdB' : |rnd (a - last)| ≤ B := by rw [abs_le]; constructor <;> linarith
    obtain ⟨w, k, n, w1, w2, _, w4, w5⟩ := A.wrap (rnd (a - last)) hdB'
    have hkK : |(k : ℚ)| ≤ K := by
      have : |(k : ℚ)| * mathPi ≤ K * mathPi := by linarith
      exact le_of_mul_le_mul_right this hp
    have hku : |(k : ℚ)| * u ≤ K * u := mul_le_mul_of_nonneg_right hkK hu
    have hw := abs_le.1 w2
    have hw4 := abs_le.1 w4
    have hr : |last + w| ≤ B := by rw [abs_le]; constructor <;> linarith
    have r1 := abs_le.1 (A.err (last + w) hr)
    have g1 := abs_le.1 ha1
    have s1 := abs_le.1 hst1
    -- the new value is congruent to the sample
    have hcong : |rnd (last + w) - (t' + 2 * mathPi * ((m - k : ℤ) : ℚ))| ≤ η + (2 + K) * u := by
      rw [abs_le]; push_cast
      constructor <;> linarith
    have g2 := abs_le.1 hcong
    -- the multiple is the same as before
    have hm : m - k = m0 := by
      by_contra hne
      have hlt : |2 * mathPi * (((m - k : ℤ) : ℚ) - (m0 : ℚ))| < 2 * mathPi := by
        rw [abs_lt]
        constructor <;> linarith
      have h1 : (1 : ℚ) ≤ |((m - k : ℤ) : ℚ) - (m0 : ℚ)| := by
        have : (1 : ℤ) ≤ |(m - k) - m0| := Int.one_le_abs (by omega)
        exact_mod_cast this
      rw [abs_mul, abs_of_pos (by linarith : 0 < 2 * mathPi)] at hlt
      nlinarith
    rw [hm] at hcong
    have hnew : |rnd (last + w) - (t' + 2 * mathPi * m0)| ≤ ε := hcong.trans hε
    obtain ⟨n', l, l2, l3⟩ := ih (rnd (last + w)) t' ht' hnew hst2
    refine ⟨max n n', rnd (last + w) :: l, fun q hq => ?_, .cons hnew l3⟩
    unfold Calib.unwrapFrom
    rw [w1 q (lt_of_le_of_lt (le_max_left _ _) hq)]
    show (match Calib.unwrapFrom rnd q (rnd (last + w)) as with | none => none | some l => _) = _
    rw [l2 q (lt_of_le_of_lt (le_max_right _ _) hq)]

end

/-- C50: in exact arithmetic, unwrapping samples of a sequence of angles with
steps smaller than π reproduces this sequence up to a constant (the number of
whole turns by which the first sample differs). -/
theorem C50_unwrap_exact (a0 t0 : ℚ) (m0 : ℤ) (as ts : List ℚ) (s T : ℚ)
    (h0 : a0 = t0 + 2 * mathPi * m0) (hsh : Shows 0 T (a0 :: as) (t0 :: ts)) (hs : s < mathPi)
    (hst : Steps s t0 ts) :
    ∃ n l, (∀ m, n < m → unwrap id m (a0 :: as) = some l) ∧
      Follows (2 * mathPi * m0) 0 l (t0 :: ts) := by
  have hp := mathPi_pos
  cases hsh with
  | cons m h ha ht hrest =>
    have hT : 0 ≤ T := (abs_nonneg _).trans ht
    have hm := abs_nonneg (2 * mathPi * (m0 : ℚ))
    have A := arith_id (2 * T + |2 * mathPi * (m0 : ℚ)| + mathPi + 4) (by linarith)
    obtain ⟨n, l, h1, h2⟩ := A.unwrapFrom (η := 0) (T := T) (s := s) (ε := 0) m0
      ((2 * T + |2 * mathPi * (m0 : ℚ)| + mathPi + 4 + mathPi) / mathPi)
      (by rw [div_mul_cancel₀ _ hp.ne']) (by simp) (by simpa using hs) (by linarith)
      as ts hrest a0 t0 ht (by rw [h0]; simp) hst
    refine ⟨n, a0 :: l, fun m hm => ?_, .cons (by rw [h0]; simp) h2⟩
    show (match unwrapFrom _ m a0 as with | none => none | some l => some (a0 :: l)) = _
    rw [h1 m hm]

/-- C50, Python floats: unwrapping float samples (each within `η` of an angle
modulo 2π, of at most 2^16 in magnitude) follows the true angles up to a
constant with an error that does not grow along the sequence. -/
theorem C50_unwrap_float (a0 t0 : ℚ) (m0 : ℤ) (as ts : List ℚ) (s η : ℚ)
    (h0 : |a0 - (t0 + 2 * mathPi * m0)| ≤ η)
    (hsh : Shows η (2 ^ 16) (a0 :: as) (t0 :: ts)) (hm0 : |(m0 : ℚ)| ≤ 2 ^ 12)
    (hs : s + 2 * η + 1 / 2 ^ 15 ≤ mathPi) (hst : Steps s t0 ts) :
    ∃ n l, (∀ m, n < m → unwrap b64.roundQ m (a0 :: as) = some l) ∧
      Follows (2 * mathPi * m0) (η + 1 / 2 ^ 17) l (t0 :: ts) := by
  have hp := mathPi_bounds
  have A := arith_float 18 (by decide) (by decide)
  have hu : pow2 ((18 : ℕ) - 53 : ℤ) = 1 / 2 ^ 35 := by rw [pow2_eq]; norm_num
  rw [hu] at A
  have hη : 0 ≤ η := (abs_nonneg _).trans h0
  have hs0 : ts ≠ [] → 0 ≤ s := by
    intro h
    cases ts with
    | nil => exact absurd rfl h
    | cons t' ts => exact (abs_nonneg _).trans hst.1
  cases hsh with
  | cons m h ha ht hrest =>
    by_cases hts : ts = []
    · subst hts
      cases hrest
      exact ⟨0, [a0], fun m _ => rfl, .cons (h0.trans (by norm_num)) .nil⟩
    have hs0 := hs0 hts
    have hc : |2 * mathPi * (m0 : ℚ)| ≤ 8 * 2 ^ 12 := by
      rw [abs_mul, abs_of_pos (by linarith : 0 < 2 * mathPi)]
      nlinarith [abs_nonneg (m0 : ℚ)]
    have hη2 : η ≤ 2 := by linarith
    obtain ⟨n, l, h1, h2⟩ := A.unwrapFrom (η := η) (T := 2 ^ 16) (s := s) (ε := η + 1 / 2 ^ 17) m0
      (2 ^ 17) (by nlinarith) (by norm_num) (by norm_num at hs ⊢; linarith)
      (by norm_num at hc ⊢; linarith)
      as ts hrest a0 t0 ht (h0.trans (by norm_num)) hst
    refine ⟨n, a0 :: l, fun m hm => ?_, .cons (h0.trans (by norm_num)) h2⟩
    show (match unwrapFrom _ m a0 as with | none => none | some l => some (a0 :: l)) = _
    rw [h1 m hm]

/-- The angles 0, 3, 6 seen as 0, 3, 6 - 2π. -/
example : ∃ n l, (∀ m, n < m → unwrap id m [0, 3, 6 - 2 * mathPi] = some l) ∧
    Follows (2 * mathPi * (0 : ℤ)) 0 l [0, 3, 6] := by
  have hp := mathPi_bounds
  refine C50_unwrap_exact 0 0 0 _ _ 3 10 (by simp) ?_ (by linarith) ?_
  · refine .cons 0 (by simp) (by norm_num) (by norm_num) (.cons 0 (by simp) (by norm_num)
      (by norm_num) (.cons (-1) (by simp; ring) ?_ (by norm_num) .nil))
    rw [abs_le]; constructor <;> linarith
  · simp only [Steps, and_true]
    norm_num

end Verif.Calib
