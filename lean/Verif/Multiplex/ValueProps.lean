import Verif.Multiplex.Model
import Mathlib.Tactic.Linarith
import Mathlib.Tactic.Positivity
import Mathlib.Tactic.Ring
import Mathlib.Tactic.FieldSimp

/-! # Properties C03 and C04: integer scaling

`scale` is the exact rational value of the Python float used as scale. -/

namespace Verif.Multiplex

open Verif Verif.Float

/-- The integer resolutions. -/
def Res.IsInt (r : Res) : Prop := r ≠ .f32

instance (r : Res) : Decidable r.IsInt := inferInstanceAs (Decidable (r ≠ .f32))

theorem max_pos {r : Res} (h : r.IsInt) : 0 < r.max := by
  cases r <;> simp_all [Res.max, Res.IsInt]

theorem nanValue_eq {r : Res} (h : r.IsInt) : r.nanValue = -r.max - 1 := by
  cases r <;> simp_all [Res.max, Res.nanValue, Res.IsInt]

theorem max_lt (r : Res) : r.max < 2 ^ 31 := by cases r <;> decide

theorem truncQ_nonneg {q : ℚ} (h : 0 ≤ q) : 0 ≤ truncQ q := by
  unfold truncQ; rw [if_pos h]; exact Int.floor_nonneg.mpr h

theorem truncQ_neg (q : ℚ) : truncQ (-q) = - truncQ q := by
  unfold truncQ
  rcases lt_trichotomy q 0 with h | h | h
  · rw [if_pos (by linarith), if_neg (by linarith), Int.floor_neg]
  · subst h; simp
  · rw [if_neg (by linarith), if_pos (by linarith), Int.ceil_neg]

theorem truncQ_mono {a b : ℚ} (h : a ≤ b) : truncQ a ≤ truncQ b := by
  unfold truncQ
  split_ifs with ha hb hb
  · exact Int.floor_mono h
  · linarith
  · push Not at ha
    have h1 : ⌈a⌉ ≤ 0 := Int.ceil_le.mpr (by simpa using ha.le)
    have h2 : 0 ≤ ⌊b⌋ := Int.floor_nonneg.mpr hb
    exact h1.trans h2
  · exact Int.ceil_mono h

theorem truncQ_int (n : ℤ) : truncQ n = n := by
  unfold truncQ; split_ifs <;> simp

theorem truncQ_abs_le {q : ℚ} {m : ℤ} (h1 : -(m : ℚ) ≤ q) (h2 : q ≤ m) :
    -m ≤ truncQ q ∧ truncQ q ≤ m := by
  constructor
  · have := truncQ_mono h1
    rw [← Int.cast_neg, truncQ_int] at this; exact this
  · have := truncQ_mono h2
    rwa [truncQ_int] at this

theorem divF_ne_nan (a b : ℚ) : divF a b ≠ .nan := by
  unfold divF Fmt.round; split <;> simp

/-- Saturation written with the rounded quotient only: overflow to infinity
is just another way to exceed the range. -/
theorem saturateInt_fin (v : ℚ) (r : Res) (scale : ℚ) (hr : r.IsInt) :
    saturateInt (.fin v) r scale =
      (if b64.roundQ (v / scale) < -(r.max : ℚ) then -r.max
       else if (r.max : ℚ) < b64.roundQ (v / scale) then r.max
       else truncQ (b64.roundQ (v / scale))) := by
  have hm := max_lt r
  have hmq : (r.max : ℚ) < 2 ^ 31 := by exact_mod_cast hm
  have hmp : (0 : ℚ) < r.max := by exact_mod_cast max_pos hr
  have hbig : (2 : ℚ) ^ 31 ≤ pow2 b64.emax := by
    rw [pow2_eq]
    have : (2 : ℚ) ^ (31 : ℤ) ≤ (2 : ℚ) ^ (b64.emax) :=
      zpow_le_zpow_right₀ (by norm_num) (by decide)
    exact_mod_cast this
  unfold saturateInt divF Fmt.round
  simp only
  split
  · next h => split at h <;> simp at h
  · next h =>
    split at h
    · simp at h
    · next hb =>
      simp at h
      push Not at hb
      have : b64.roundQ (v / scale) ≤ 0 := by
        have := roundQ_mono (f := b64) (by decide) h.le
        rwa [roundQ_zero] at this
      rw [abs_of_nonpos this] at hb
      rw [if_pos (by linarith)]
  · next h =>
    split at h
    · simp at h
    · next hb =>
      simp at h
      push Not at hb
      have := roundQ_nonneg (f := b64) h
      rw [abs_of_nonneg this] at hb
      rw [if_neg (by linarith), if_pos (by linarith)]
  · next h =>
    split at h
    · simp at h; subst h; rfl
    · simp at h

theorem saturateInt_range (v : ℚ) (r : Res) (scale : ℚ) (hr : r.IsInt) :
    -r.max ≤ saturateInt (.fin v) r scale ∧ saturateInt (.fin v) r scale ≤ r.max := by
  have hp := max_pos hr
  rw [saturateInt_fin v r scale hr]
  split_ifs with h1 h2
  · omega
  · omega
  · push Not at h1 h2; exact truncQ_abs_le h1 h2

/-! ## C03 -/

/-- C03, sending: the most negative value is sent exactly for NaN and the
infinities; everything else is within plus or minus the maximum. -/
theorem C03_sentinel_iff_nonfinite (x : Fl) (r : Res) (scale : ℚ) (hr : r.IsInt) :
    (saturateInt x r scale = r.nanValue ↔ ∀ q, x ≠ .fin q) ∧
      (∀ q, x = .fin q → |saturateInt x r scale| ≤ r.max) := by
  cases x with
  | nan => simp [saturateInt]
  | inf n => simp [saturateInt]
  | fin v =>
    have h := saturateInt_range v r scale hr
    rw [nanValue_eq hr]
    constructor
    · constructor
      · intro h'; omega
      · intro h'; exact absurd rfl (h' v)
    · rintro _ _; rw [abs_le]; omega

/-- C03: values beyond the range are clipped to the maximum of their sign. -/
theorem C03_clip (v : ℚ) (r : Res) (scale : ℚ) (hr : r.IsInt) (hs : 0 < scale) :
    ((r.max : ℚ) * scale ≤ v → saturateInt (.fin v) r scale = r.max) ∧
    (v ≤ -(r.max : ℚ) * scale → saturateInt (.fin v) r scale = -r.max) := by
  have hm := max_lt r
  have hp := max_pos hr
  have hmpq : (0 : ℚ) < r.max := by exact_mod_cast hp
  have hfix : b64.roundQ (r.max : ℚ) = r.max := by
    apply roundQ_int (by decide) (by decide)
    rw [abs_of_pos hp]
    have : (2 : ℤ) ^ 31 ≤ 2 ^ b64.prec := by decide
    omega
  have hfix' : b64.roundQ (-(r.max : ℚ)) = -r.max := by rw [roundQ_neg, hfix]
  rw [saturateInt_fin v r scale hr]
  constructor
  · intro h
    have h1 : (r.max : ℚ) ≤ v / scale := by rw [le_div_iff₀ hs]; exact h
    have h2 := le_roundQ_of_le (f := b64) (by decide) hfix h1
    rw [if_neg (by linarith)]
    split_ifs with h3
    · rfl
    · have : b64.roundQ (v / scale) = r.max := le_antisymm (by linarith) h2
      rw [this, truncQ_int]
  · intro h
    have h1 : v / scale ≤ -(r.max : ℚ) := by rw [div_le_iff₀ hs]; exact h
    have h2 := roundQ_le_of_le (f := b64) (by decide) hfix' h1
    split_ifs with h3 h4
    · rfl
    · linarith
    · have : b64.roundQ (v / scale) = -r.max := le_antisymm h2 (by linarith)
      rw [this, ← Int.cast_neg, truncQ_int]

/-- C03, receiving: NaN exactly for the most negative integer. -/
theorem C03_receive (raw : Int) (r : Res) (scale : ℚ) :
    unscaleInt raw r scale = .nan ↔ raw = r.nanValue := by
  unfold unscaleInt
  split
  · next h => simp [h]
  · next h =>
    constructor
    · intro h'; unfold Fmt.round at h'; split at h' <;> simp at h'
    · intro h'; exact absurd h' h

/-- C03: the value always fits the format, so packing raises nothing. -/
theorem C03_pack_never_fails (x : Fl) (r : Res) (scale : ℚ) (hr : r.IsInt) :
    ∃ b, writeMappedInt x scale r = .ok b ∧ b.length = r.size ∧
      unpackInt r b = saturateInt x r scale := by
  have hrange : -(2 ^ (8 * r.size - 1) : Int) ≤ saturateInt x r scale ∧
      saturateInt x r scale < (2 ^ (8 * r.size - 1) : Int) := by
    have hmax : (2 ^ (8 * r.size - 1) : Int) = r.max + 1 := by
      cases r <;> simp_all [Res.size, Res.max, Res.IsInt]
    rw [hmax]
    cases x with
    | nan => simp only [saturateInt, nanValue_eq hr]; have := max_pos hr; omega
    | inf n => simp only [saturateInt, nanValue_eq hr]; have := max_pos hr; omega
    | fin v => have := saturateInt_range v r scale hr; omega
  have hpos : 0 < r.size := by cases r <;> decide
  refine ⟨leBytes r.size (ofSigned r.size (saturateInt x r scale)), ?_, by simp, ?_⟩
  · unfold writeMappedInt packInt; rw [if_pos hrange]
  · unfold unpackInt
    rw [leNat_leBytes, Nat.mod_eq_of_lt (ofSigned_lt _ _)]
    exact toSigned_ofSigned hpos hrange.1 hrange.2

example : Res.int16.IsInt ∧ saturateInt (.inf true) .int16 (1/1000) = -32768 ∧
    saturateInt (.fin (-40)) .int16 (1/1000) = -32767 ∧
    saturateInt (.fin (1/2)) .int16 (1/1000) = 500 := by decide +kernel

/-! ## C04 -/

/-- C04: the encoding is odd. -/
theorem C04_odd (v : ℚ) (r : Res) (scale : ℚ) (hr : r.IsInt) :
    saturateInt (.fin (-v)) r scale = - saturateInt (.fin v) r scale := by
  have hp : (0 : ℚ) < r.max := by exact_mod_cast max_pos hr
  rw [saturateInt_fin _ r scale hr, saturateInt_fin _ r scale hr, neg_div, roundQ_neg, truncQ_neg]
  split_ifs <;> first | omega | (exfalso; linarith)

/-- C04: the encoding preserves order over all finite values. -/
theorem C04_monotone (v w : ℚ) (r : Res) (scale : ℚ) (hr : r.IsInt) (hs : 0 < scale) (h : v ≤ w) :
    saturateInt (.fin v) r scale ≤ saturateInt (.fin w) r scale := by
  have hq : b64.roundQ (v / scale) ≤ b64.roundQ (w / scale) :=
    roundQ_mono (by decide) (by gcongr)
  have hv := saturateInt_range v r scale hr
  have hw := saturateInt_range w r scale hr
  rw [saturateInt_fin v r scale hr] at hv ⊢
  rw [saturateInt_fin w r scale hr] at hw ⊢
  split_ifs at * <;> first | omega | (exfalso; linarith) | exact truncQ_mono hq

/-- C04: inside of the range the sent integer, times the scale, is within
less than one step of the value.  Its magnitude may exceed the one of the
value only by the rounding error of the division. -/
theorem C04_error (v : ℚ) (r : Res) (scale : ℚ) (hr : r.IsInt) (hs : 0 < scale)
    (hv : |v| ≤ r.max * scale) :
    |v - saturateInt (.fin v) r scale * scale| < scale ∧
      |(saturateInt (.fin v) r scale : ℚ) * scale| ≤ |v| + scale / 2 ^ 23 := by
  have hm := max_lt r
  have hp := max_pos hr
  have hmq : (r.max : ℚ) < 2 ^ 31 := by exact_mod_cast hm
  set q := v / scale with hqdef
  have hvq : v = q * scale := by rw [hqdef]; field_simp
  have hqabs : |q| ≤ r.max := by
    rw [hqdef, abs_div, abs_of_pos hs, div_le_iff₀ hs]; exact hv
  have hfixn : ∀ n : ℤ, |n| ≤ r.max + 1 → b64.roundQ (n : ℚ) = n := by
    intro n hn
    apply roundQ_int (by decide) (by decide)
    have : (2 : ℤ) ^ 31 ≤ 2 ^ b64.prec := by decide
    omega
  have hfix := hfixn r.max (by rw [abs_of_pos hp]; omega)
  obtain ⟨hq1, hq2⟩ := abs_le.mp hqabs
  have hr1 : b64.roundQ q ≤ r.max := roundQ_le_of_le (by decide) hfix hq2
  have hr2 : -(r.max : ℚ) ≤ b64.roundQ q :=
    le_roundQ_of_le (by decide) (by rw [roundQ_neg, hfix]) hq1
  have herr : |b64.roundQ q - q| ≤ 1 / 2 ^ 23 := by
    have h1 := roundQ_err b64 q
    have h2 : pow2 (b64.ulpExp q) ≤ pow2 (31 - b64.prec) := by
      apply ulp_le
      · calc |q| ≤ r.max := hqabs
          _ < 2 ^ 31 := hmq
          _ = pow2 31 := by rw [pow2_eq]; norm_num
      · decide
    have h3 : pow2 (31 - b64.prec) = 1 / 2 ^ 22 := by
      rw [pow2_eq]; norm_num [b64]
    linarith
  have hrange := saturateInt_range v r scale hr
  rw [saturateInt_fin v r scale hr, if_neg (by linarith), if_neg (by linarith)] at hrange ⊢
  obtain ⟨hg1, hg2⟩ := hrange
  set t := b64.roundQ q with ht
  obtain ⟨he1, he2⟩ := abs_le.mp herr
  -- rounding cannot cross an integer
  have htr : |(truncQ t : ℚ) - q| < 1 ∧ |(truncQ t : ℚ)| ≤ |t| := by
    unfold truncQ at hg1 hg2 ⊢
    split_ifs with h0
    · rw [if_pos h0] at hg1 hg2
      have h1 := Int.floor_le t
      have h2 := Int.lt_floor_add_one t
      have h3 : (0 : ℚ) ≤ ⌊t⌋ := by exact_mod_cast Int.floor_nonneg.mpr h0
      have h3' : 0 ≤ ⌊t⌋ := by exact_mod_cast h3
      have h4 : q < ⌊t⌋ + 1 := by
        by_contra hc
        push Not at hc
        have := le_roundQ_of_le (f := b64) (by decide)
          (hfixn (⌊t⌋ + 1) (by rw [abs_of_nonneg (by omega)]; omega)) (by push_cast; exact hc)
        push_cast at this; linarith
      constructor
      · rw [abs_lt]; constructor
        · linarith
        · have : (1 : ℚ) / 2 ^ 23 < 1 := by norm_num
          linarith
      · rw [abs_of_nonneg h3, abs_of_nonneg h0]; exact h1
    · rw [if_neg h0] at hg1 hg2
      push Not at h0
      have h1 := Int.le_ceil t
      have h2 := Int.ceil_lt_add_one t
      have h3' : ⌈t⌉ ≤ 0 := Int.ceil_le.mpr (by simpa using h0.le)
      have h3 : (⌈t⌉ : ℚ) ≤ 0 := by exact_mod_cast h3'
      have h4 : (⌈t⌉ : ℚ) - 1 < q := by
        by_contra hc
        push Not at hc
        have := roundQ_le_of_le (f := b64) (by decide)
          (hfixn (⌈t⌉ - 1) (by rw [abs_of_nonpos (by omega)]; omega)) (by push_cast; exact hc)
        push_cast at this; linarith
      constructor
      · rw [abs_lt]; constructor
        · have : (1 : ℚ) / 2 ^ 23 < 1 := by norm_num
          linarith
        · linarith
      · rw [abs_of_nonpos h3, abs_of_nonpos h0.le]; linarith
  obtain ⟨ht1, ht2⟩ := htr
  constructor
  · rw [hvq, ← sub_mul, abs_mul, abs_of_pos hs]
    rw [abs_sub_comm] at ht1
    calc |q - truncQ t| * scale < 1 * scale := by gcongr
      _ = scale := by ring
  · rw [hvq, abs_mul, abs_mul, abs_of_pos hs]
    have h1 : |t| ≤ |q| + 1 / 2 ^ 23 := by
      have := abs_sub_abs_le_abs_sub t q
      linarith
    calc |(truncQ t : ℚ)| * scale ≤ (|q| + 1 / 2 ^ 23) * scale := by gcongr; linarith
      _ = |q| * scale + scale / 2 ^ 23 := by ring

/-- C04: decoding adds only the rounding of one multiplication.  (`2^-1000`
is far below every scale in use and keeps the product out of the subnormal
range, `2^900` out of the overflow range.) -/
theorem C04_decode_error (raw : Int) (r : Res) (scale : ℚ) (hs : pow2 (-1000) ≤ scale)
    (hs2 : scale ≤ pow2 900) (hraw : raw ≠ r.nanValue) (hr : |raw| ≤ 2 ^ 31) :
    ∃ d, unscaleInt raw r scale = .fin d ∧ |d - raw * scale| ≤ |raw * scale| / 2 ^ 53 := by
  have hspos : 0 < scale := (pow2_pos _).trans_le hs
  unfold unscaleInt
  rw [if_neg hraw]
  have hrq : |(raw : ℚ)| ≤ 2 ^ 31 := by exact_mod_cast hr
  have hprod : |(raw : ℚ) * scale| ≤ pow2 931 := by
    rw [abs_mul, abs_of_pos hspos]
    calc |(raw : ℚ)| * scale ≤ 2 ^ 31 * pow2 900 := by gcongr
      _ = pow2 931 := by
        rw [show (931 : ℤ) = 31 + 900 by norm_num, pow2_add]
        congr 1
  have hfix : b64.roundQ (pow2 931) = pow2 931 := roundQ_pow2 (by decide) (by decide)
  obtain ⟨h1, h2⟩ := abs_le.mp hprod
  have h3 := roundQ_le_of_le (f := b64) (by decide) hfix h2
  have h4 := le_roundQ_of_le (f := b64) (by decide) (by rw [roundQ_neg, hfix]) h1
  have hlt : pow2 931 < pow2 b64.emax := by
    simp only [pow2_eq]
    exact zpow_lt_zpow_right₀ (by norm_num) (by decide)
  refine ⟨b64.roundQ (raw * scale), ?_, ?_⟩
  · unfold Fmt.round
    rw [if_pos ((abs_le.mpr ⟨h4, h3⟩).trans_lt hlt)]
  · by_cases h0 : raw = 0
    · subst h0; simp [roundQ_zero]
    · have hone : (1 : ℚ) ≤ |(raw : ℚ)| := by
        have : (1 : ℤ) ≤ |raw| := Int.one_le_abs h0
        exact_mod_cast this
      have hbig : pow2 (b64.emin + b64.prec - 1) ≤ |(raw : ℚ) * scale| := by
        rw [abs_mul, abs_of_pos hspos]
        have : pow2 (b64.emin + b64.prec - 1) ≤ pow2 (-1000) := pow2_le (by decide)
        nlinarith
      have := roundQ_rel_err hbig
      have hp : pow2 (-(b64.prec : ℤ)) = 1 / 2 ^ 53 := by
        rw [pow2_eq]; norm_num [b64]
      rw [hp] at this
      linarith

/-- C04: the sign is kept. -/
theorem C04_sign (v : ℚ) (r : Res) (scale : ℚ) (hr : r.IsInt) (hs : 0 < scale) :
    (0 ≤ v → 0 ≤ saturateInt (.fin v) r scale) ∧ (v ≤ 0 → saturateInt (.fin v) r scale ≤ 0) := by
  have h0 : saturateInt (.fin 0) r scale = 0 := by
    have := C04_odd 0 r scale hr
    rw [neg_zero] at this; omega
  constructor
  · intro h; have := C04_monotone 0 v r scale hr hs h; omega
  · intro h; have := C04_monotone v 0 r scale hr hs h; omega

/-- "The decoded magnitude is no larger" is false by a rounding error:
`0.35` with the scale `0.01` (both as doubles) is sent as 35 and decodes to
`0.35000000000000003`. -/
theorem C04_magnitude_refuted :
    ∃ v scale d : ℚ, b64.roundQ v = v ∧ b64.roundQ scale = scale ∧ 0 < v ∧ 0 < scale ∧
      v ≤ Res.int8.max * scale ∧
      unscaleInt (saturateInt (.fin v) .int8 scale) .int8 scale = .fin d ∧ v < d := by
  refine ⟨b64.roundQ (35/100), b64.roundQ (1/100), b64.roundQ (35 * b64.roundQ (1/100)), ?_⟩
  decide +kernel

/-- Decoding then encoding again may also lose one step. -/
theorem C04_reencode_refuted :
    ∃ scale v : ℚ, unscaleInt 29 .int8 scale = .fin v ∧ saturateInt (.fin v) .int8 scale = 28 := by
  refine ⟨b64.roundQ (1/100), b64.roundQ (29 * b64.roundQ (1/100)), ?_⟩
  decide +kernel

example : |(1/2 : ℚ)| ≤ Res.int16.max * (1/1000) ∧ Res.int16.IsInt := by
  constructor
  · norm_num [Res.max]
  · decide

end Verif.Multiplex
