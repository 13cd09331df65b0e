import Verif.Calib.Angles
import Mathlib.Algebra.Order.BigOperators.Group.List

/-!
# Encoder calibration: direction, pole count, hall sensors

Model of the first part of `calibrate` (lib/python/moteus/calibrate_encoder.py:
213-306) and of `calibrate_hall` (467-520), with the proofs of C56 and C57.
The currents of the samples, and the second part of `calibrate` (offset table
and optimisation) are not part of this file; for the helpers used there see
`Verif.Calib.Interp`.
-/

namespace Verif.Calib

open Verif.Float

/-! ## Model -/

/-- The integer part of a line of the calibration log, calibrate_encoder.py:
21-27, 40-42. -/
structure Sample where
  phase : Int
  encoder : Int
deriving DecidableEq, Repr

/-- calibrate_encoder.py:237-239, 289-291: the sum of the wrapped
differences. -/
def travel (l : List Int) : Int := ((l.zip (l.drop 1)).map fun p => wrapInt16 (p.2 - p.1)).sum

inductive CalError
  | empty            -- "one or more phases were empty"
  | direction        -- "Invalid desired_direction"
  | notPossible      -- "Requested motor direction not possible"
deriving DecidableEq, Repr

/-- The fields of `CalibrationResult` that are set in this part, with the two
error flags. -/
structure Direction where
  invert : Bool
  phaseInvert : Bool
  totalPhase : Int
  totalDelta : Int
  poles : Int
  distanceError : Bool
  remainderError : Bool
deriving DecidableEq

/-- calibrate_encoder.py:247-267: encoder and phase inversion. -/
def inversion (desired delta : Int) : Option (Bool × Bool) :=
  if desired > 0 ∧ delta > 0 then some (false, false)
  else if desired < 0 ∧ delta < 0 then some (true, false)
  else if desired < 0 ∧ delta > 0 then some (true, true)
  else if desired > 0 ∧ delta < 0 then some (false, true)
  else none

/-- calibrate_encoder.py:269-285: the samples after inversion. -/
def invertSamples (invert phaseInvert : Bool) (l : List Sample) : List Sample :=
  l.map fun s =>
    { phase := if phaseInvert then wrapUint16 (-s.phase) else s.phase
      encoder := if invert then 65535 - s.encoder else s.encoder }

/-- calibrate_encoder.py:213-306.  `maxRemainder` is the value of
`max_remainder_error`; the quotient is a Python float, `rne` is `round`. -/
def calibrateDirection (desired : Int) (allowPhaseInvert : Bool) (maxRemainder : ℚ)
    (up down : List Sample) : Except CalError Direction :=
  if up.length < 2 ∨ down.length < 2 then .error .empty
  else
    let up := up.drop 4
    let delta := travel (up.map Sample.encoder)
    let distanceError := decide (|(|delta|) - 65536| > 5000)
    match inversion desired delta with
    | none => .error .direction
    | some (invert, phaseInvert) =>
      if phaseInvert ∧ ¬ allowPhaseInvert then .error .notPossible
      else
        let up := invertSamples invert phaseInvert up
        let delta := if invert then -delta else delta
        let phase := travel (up.map Sample.phase)
        let ratio := b64.roundQ ((phase : ℚ) / delta)
        let remainder := |b64.roundQ ((rne ratio : ℚ) - ratio)|
        .ok { invert := invert, phaseInvert := phaseInvert, totalPhase := phase,
              totalDelta := delta, poles := rne ratio * 2, distanceError := distanceError,
              remainderError := decide (remainder > maxRemainder) }

/-! ## Travel -/

/-- `l` records the true positions `t` modulo 65536, sampled so often that a
step is less than half a turn. -/
inductive Records : List Int → List Int → Prop
  | one (a t : Int) (h : (65536 : Int) ∣ a - t) : Records [a] [t]
  | cons {a t a' t' : Int} {as ts : List Int} (h : (65536 : Int) ∣ a - t) (hs : |t' - t| ≤ 32767)
      (hrest : Records (a' :: as) (t' :: ts)) : Records (a :: a' :: as) (t :: t' :: ts)

/-- Distance between the first and last position. -/
def span (t : List Int) : Int := t.getLastD 0 - t.headD 0

theorem travel_cons (a b : Int) (l : List Int) :
    travel (a :: b :: l) = wrapInt16 (b - a) + travel (b :: l) := by
  simp [travel]

theorem records_head {a t : Int} {as ts : List Int} (h : Records (a :: as) (t :: ts)) :
    (65536 : Int) ∣ a - t := by
  cases h with
  | one _ _ h => exact h
  | cons h _ _ => exact h

/-- C56: the summed differences are the true distance, for any number of
samples and turns. -/
theorem C56_travel (l t : List Int) (h : Records l t) : travel l = span t := by
  induction h with
  | one a t h => simp [travel, span]
  | @cons a t a' t' as ts h hs hrest ih =>
    rw [travel_cons, ih]
    have h2 := records_head hrest
    have hs' := abs_le.1 hs
    have : wrapInt16 (a' - a) = t' - t := by
      rw [C50_wrap_int16]; omega
    rw [this]
    simp only [span, List.headD_cons]
    have : (t :: t' :: ts).getLastD 0 = (t' :: ts).getLastD 0 := by simp [List.getLastD]
    rw [this]; ring

/-- An inverted encoder reading is the reading mirrored inside of its range of
16 bits, and an inverted phase the negated angle: both stay in range, and
inverting twice changes nothing. -/
theorem C56_inverted (i p : Bool) (l : List Sample)
    (h : ∀ s ∈ l, 0 ≤ s.encoder ∧ s.encoder ≤ 65535 ∧ 0 ≤ s.phase ∧ s.phase ≤ 65535) :
    (∀ s ∈ invertSamples i p l, 0 ≤ s.encoder ∧ s.encoder ≤ 65535 ∧ 0 ≤ s.phase ∧ s.phase ≤ 65535) ∧
    invertSamples i p (invertSamples i p l) = l ∧
    (invertSamples i p l).map Sample.encoder =
      l.map fun s => if i then 65535 - s.encoder else s.encoder := by
  refine ⟨?_, ?_, ?_⟩
  · intro s hs
    unfold invertSamples at hs
    obtain ⟨t, ht, rfl⟩ := List.mem_map.1 hs
    obtain ⟨h1, h2, h3, h4⟩ := h t ht
    have hw := (C50_wrap_uint16 (-t.phase) _).1 rfl
    cases i <;> cases p <;> simp only [if_true, Bool.false_eq_true, if_false] <;> omega
  · unfold invertSamples
    rw [List.map_map]
    conv_rhs => rw [← List.map_id l]
    apply List.map_congr_left
    intro t ht
    obtain ⟨h1, h2, h3, h4⟩ := h t ht
    have hw : wrapUint16 (-wrapUint16 (-t.phase)) = t.phase := by
      obtain ⟨_, _, d, hd⟩ := (C50_wrap_uint16 (-t.phase) _).1 rfl
      rw [C50_wrap_uint16]
      exact ⟨h3, h4, ⟨d, by linarith⟩⟩
    cases t with
    | mk ph en =>
      simp only [Function.comp, id, Sample.mk.injEq]
      cases i <;> cases p <;> simp only [if_true, Bool.false_eq_true, if_false, true_and, and_true] <;>
        first | exact hw | (constructor <;> first | exact hw | omega) | omega
  · unfold invertSamples
    rw [List.map_map]
    rfl

example : invertSamples true true [⟨10, 100⟩, ⟨0, 0⟩] = [⟨65526, 65435⟩, ⟨0, 65535⟩] := by decide +kernel

theorem records_neg {l t : List Int} (h : Records l t) :
    Records (l.map fun a => wrapUint16 (-a)) (t.map Neg.neg) := by
  induction h with
  | one a t h =>
    refine .one _ _ ?_
    have := ((C50_wrap_uint16 (-a) _).1 rfl).2.2
    show (65536 : Int) ∣ wrapUint16 (-a) - -t
    omega
  | @cons a t a' t' as ts h hs hrest ih =>
    refine .cons ?_ ?_ ih
    · have := ((C50_wrap_uint16 (-a) _).1 rfl).2.2
      show (65536 : Int) ∣ wrapUint16 (-a) - -t
      omega
    · rw [show -t' - -t = -(t' - t) by ring, abs_neg]; exact hs

theorem span_neg (t : List Int) : span (t.map Neg.neg) = - span t := by
  unfold span
  cases t with
  | nil => simp
  | cons a t =>
    have : ((a :: t).map Neg.neg).getLastD 0 = -((a :: t).getLastD 0) := by
      simp only [List.getLastD_eq_getLast?, List.getLast?_map]
      cases h : (a :: t).getLast? with
      | none => simp at h
      | some v => simp
    rw [this]; simp; ring

theorem rne_near (r : ℚ) (N : Int) (h : |r - N| ≤ 1 / 4) : rne r = N := by
  have e := abs_le.1 (rne_err r)
  have h := abs_le.1 h
  have h1 : ((rne r : ℤ) : ℚ) < N + 1 := by linarith
  have h2 : ((N : ℤ) : ℚ) < rne r + 1 := by linarith
  have h1 : rne r < N + 1 := by exact_mod_cast h1
  have h2 : N < rne r + 1 := by exact_mod_cast h2
  omega

theorem quarter_double (n : Int) (h : |n| ≤ 2 ^ 53) : b64.roundQ ((n : ℚ) / 4) = n / 4 := by
  have := roundQ_exact (f := b64) (by decide) (n := n) (e := -2) (by decide) h
  have e : (n : ℚ) * pow2 (-2) = n / 4 := by rw [pow2_eq]; norm_num; ring
  rwa [e] at this

theorem ratio_near (q : ℚ) (N : Int) (hN : |N| ≤ 2 ^ 50) (h : |q - N| ≤ 1 / 4) :
    |b64.roundQ q - N| ≤ 1 / 4 := by
  have h := abs_le.1 h
  have hN := abs_le.1 hN
  have a := quarter_double (4 * N - 1) (by rw [abs_le]; omega)
  have b := quarter_double (4 * N + 1) (by rw [abs_le]; omega)
  have e1 : ((4 * N - 1 : ℤ) : ℚ) / 4 = N - 1 / 4 := by push_cast; ring
  have e2 : ((4 * N + 1 : ℤ) : ℚ) / 4 = N + 1 / 4 := by push_cast; ring
  rw [e1] at a
  rw [e2] at b
  have h1 := le_roundQ_of_le (f := b64) (by decide) a (x := q) (by linarith)
  have h2 := roundQ_le_of_le (f := b64) (by decide) b (x := q) (by linarith)
  rw [abs_le]; constructor <;> linarith

theorem inversion_spec (desired delta : Int) (hd : desired ≠ 0) (h : delta ≠ 0) :
    inversion desired delta = some (decide (desired < 0), decide (desired * delta < 0)) := by
  unfold inversion
  rcases lt_or_gt_of_ne hd with h1 | h1 <;> rcases lt_or_gt_of_ne h with h2 | h2
  · have : ¬ desired * delta < 0 := not_lt.2 (mul_pos_of_neg_of_neg h1 h2).le
    rw [if_neg (by omega), if_pos ⟨h1, h2⟩]; simp [h1, this]
  · have : desired * delta < 0 := mul_neg_of_neg_of_pos h1 h2
    rw [if_neg (by omega), if_neg (by omega), if_pos ⟨h1, h2⟩]; simp [h1, this]
  · have : desired * delta < 0 := mul_neg_of_pos_of_neg h1 h2
    rw [if_neg (by omega), if_neg (by omega), if_neg (by omega), if_pos ⟨h1, h2⟩]
    simp [this]; omega
  · have : ¬ desired * delta < 0 := not_lt.2 (mul_pos h1 h2).le
    rw [if_pos ⟨h1, h2⟩]; simp [this]; omega

/-- The samples of a sweep: those after the first four record the true phase
`P` and the true encoder position `E`. -/
def Sweep (up : List Sample) (P E : List Int) : Prop :=
  Records ((up.drop 4).map Sample.phase) P ∧ Records ((up.drop 4).map Sample.encoder) E

theorem invert_phase (i p : Bool) (l : List Sample) (P : List Int)
    (h : Records (l.map Sample.phase) P) :
    travel ((invertSamples i p l).map Sample.phase) = if p then - span P else span P := by
  unfold invertSamples
  rw [List.map_map]
  cases p with
  | false =>
    simp only [Bool.false_eq_true, if_false]
    rw [← C56_travel _ _ h]; rfl
  | true =>
    simp only [if_true]
    have := C56_travel _ _ (records_neg h)
    rw [span_neg, List.map_map] at this
    exact this

/-- C56: for a sweep in which the phase advances and the encoder moves (either
way), calibration succeeds; the encoder is inverted exactly if the desired
direction is negative, the phase exactly if the encoder moved against the
desired direction; and a motor with `N` pole pairs whose total phase is within
a quarter electrical turn per mechanical turn of the nominal value is found to
have `2 N` poles. -/
theorem C56_poles (desired : Int) (maxRemainder : ℚ) (up down : List Sample) (P E : List Int)
    (N : Int) (hd : desired ≠ 0) (hup : Sweep up P E) (hdown : 2 ≤ down.length)
    (hP : 0 < span P) (hE : span E ≠ 0) (hN : |N| ≤ 2 ^ 50)
    (hr : 4 * |span P - N * (|span E|)| ≤ |span E|) :
    ∃ r, calibrateDirection desired true maxRemainder up down = .ok r ∧
      r.invert = decide (desired < 0) ∧
      r.phaseInvert = decide (desired * span E < 0) ∧
      0 < r.totalPhase * r.totalDelta ∧ |r.totalPhase| = span P ∧ |r.totalDelta| = |span E| ∧
      r.poles = 2 * N ∧
      r.distanceError = decide (|(|span E|) - 65536| > 5000) := by
  obtain ⟨h1, h2⟩ := hup
  have hlen : 2 ≤ up.length := by
    by_contra hc
    have : up.drop 4 = [] := List.drop_eq_nil_of_le (by omega)
    rw [this] at h1
    cases h1
  unfold calibrateDirection
  rw [if_neg (by omega)]
  simp only [C56_travel _ _ h2, inversion_spec desired _ hd hE]
  rw [if_neg (by simp)]
  refine ⟨_, rfl, rfl, rfl, ?_⟩
  simp only [invert_phase _ _ _ _ h1, decide_eq_true_eq]
  have hE0 : (0:ℚ) < |(span E : ℚ)| := abs_pos.2 (by exact_mod_cast hE)
  -- the quotient is that of the absolute values
  have hq : ∀ ph dl : Int, 0 < ph * dl → |ph| = span P → |dl| = |span E| →
      rne (b64.roundQ ((ph : ℚ) / dl)) = N := by
    intro ph dl hpos e1 e2
    have hdl : dl ≠ 0 := fun e => by rw [e] at hpos; simp at hpos
    have e : (ph : ℚ) / dl = (span P : ℚ) / |(span E : ℚ)| := by
      have hpos' : (0 : ℚ) < ph / dl := by
        have : (0:ℚ) < (ph : ℚ) * dl := by exact_mod_cast hpos
        have h3 : (ph : ℚ) / dl = ph * dl / (dl * dl) := by
          have : (dl : ℚ) ≠ 0 := by exact_mod_cast hdl
          rw [mul_div_mul_right _ _ this]
        rw [h3]
        exact div_pos this (mul_self_pos.2 (by exact_mod_cast hdl))
      rw [← abs_of_pos hpos', abs_div]
      congr 1
      · exact_mod_cast e1
      · exact_mod_cast e2
    refine rne_near _ _ (ratio_near _ _ hN ?_)
    rw [e, show (span P : ℚ) / |(span E : ℚ)| - N = ((span P : ℚ) - N * |(span E : ℚ)|) /
      |(span E : ℚ)| by rw [sub_div, mul_div_cancel_right₀ _ hE0.ne'], abs_div, abs_abs,
      div_le_iff₀ hE0]
    have : (4 : ℚ) * |(span P : ℚ) - N * (|(span E : ℚ)|)| ≤ |(span E : ℚ)| := by exact_mod_cast hr
    linarith
  have fin : ∀ ph dl : Int, 0 < ph * dl → |ph| = span P → |dl| = |span E| →
      0 < ph * dl ∧ |ph| = span P ∧ |dl| = |span E| ∧
        rne (b64.roundQ ((ph : ℚ) / dl)) * 2 = 2 * N ∧
        True := by
    intro ph dl a b c
    exact ⟨a, b, c, by rw [hq ph dl a b c]; ring, trivial⟩
  rcases lt_or_gt_of_ne hd with a | a <;> rcases lt_or_gt_of_ne hE with b | b
  · rw [if_neg (not_lt.2 (mul_pos_of_neg_of_neg a b).le), if_pos a]
    exact fin _ _ (mul_pos hP (by omega)) (abs_of_pos hP) (abs_neg _)
  · rw [if_pos (mul_neg_of_neg_of_pos a b), if_pos a]
    exact fin (-span P) (-span E) (mul_pos_of_neg_of_neg (by omega) (by omega))
      (by rw [abs_neg, abs_of_pos hP]) (abs_neg _)
  · rw [if_pos (mul_neg_of_pos_of_neg a b), if_neg (by omega)]
    exact fin (-span P) (span E) (mul_pos_of_neg_of_neg (by omega) b) (by rw [abs_neg, abs_of_pos hP]) rfl
  · rw [if_neg (not_lt.2 (mul_pos a b).le), if_neg (by omega)]
    exact fin _ _ (mul_pos hP b) (abs_of_pos hP) rfl

/-- A sweep of 7 pole pairs over 60000 counts, in steps of 3000 counts and
21000 units of phase, after four samples that are ignored; wired in reverse. -/
def exampleUp : List Sample :=
  List.replicate 4 ⟨0, 0⟩ ++ (List.range 21).map fun (i : Nat) =>
    ⟨wrapUint16 (21000 * i), wrapUint16 (1000 - 3000 * i)⟩

theorem records_range (a d : Int) (hd : |d| ≤ 32767) (n k : Nat) :
    Records ((List.range' k (n + 1)).map fun (i : Nat) => wrapUint16 (a + d * i))
      ((List.range' k (n + 1)).map fun (i : Nat) => a + d * i) := by
  induction n generalizing k with
  | zero =>
    refine .one _ _ ?_
    exact ((C50_wrap_uint16 _ _).1 rfl).2.2
  | succ n ih =>
    have := ih (k + 1)
    rw [List.range'_succ (n := n + 1), List.map_cons, List.map_cons]
    rw [List.range'_succ (n := n)] at this ⊢
    simp only [List.map_cons] at this ⊢
    refine .cons ((C50_wrap_uint16 _ _).1 rfl).2.2 ?_ this
    rw [show a + d * ((k + 1 : ℕ) : ℤ) - (a + d * (k : ℤ)) = d by push_cast; ring]
    exact hd

example : ∃ r, calibrateDirection 1 true (1 / 10) exampleUp exampleUp = .ok r ∧ r.poles = 14 ∧
    r.invert = false ∧ r.phaseInvert = true := by
  have hs : Sweep exampleUp ((List.range 21).map fun (i : Nat) => 0 + 21000 * (i : Int))
      ((List.range 21).map fun (i : Nat) => 1000 + -3000 * (i : Int)) := by
    have e : exampleUp.drop 4 = (List.range 21).map fun (i : Nat) =>
        ⟨wrapUint16 (21000 * i), wrapUint16 (1000 - 3000 * i)⟩ := by
      unfold exampleUp; simp
    constructor
    · have := records_range 0 21000 (by decide) 20 0
      rw [e, List.map_map]
      rw [← List.range_eq_range'] at this
      simpa [Function.comp_def] using this
    · have := records_range 1000 (-3000) (by decide) 20 0
      rw [e, List.map_map]
      rw [← List.range_eq_range'] at this
      simpa [Function.comp_def, sub_eq_add_neg] using this
  obtain ⟨r, h1, h2, h3, _, _, _, h4, _⟩ := C56_poles 1 (1 / 10) exampleUp exampleUp _ _ 7
    (by decide) hs (by decide) (by decide) (by decide) (by decide) (by decide)
  exact ⟨r, h1, h4, by rw [h2]; decide, by rw [h3]; decide⟩

/-- C56: if no error is reported the encoder moved between 60536 and 70536
counts, and the total phase is the number of pole pairs times the total
encoder motion up to the accepted remainder (and one rounding error of the
quotient and of the remainder). -/
theorem C56_no_error (desired : Int) (allow : Bool) (maxRemainder : ℚ) (up down : List Sample)
    (r : Direction) (h : calibrateDirection desired allow maxRemainder up down = .ok r)
    (hde : r.distanceError = false) (hre : r.remainderError = false)
    (hphase : |r.totalPhase| ≤ 2 ^ 40) :
    60536 ≤ |r.totalDelta| ∧ |r.totalDelta| ≤ 70536 ∧ 2 ∣ r.poles ∧
      |(r.totalPhase : ℚ) - (r.poles / 2 : ℚ) * r.totalDelta| ≤
        (maxRemainder + 1 / 2 ^ 12) * |(r.totalDelta : ℚ)| := by
  unfold calibrateDirection at h
  split at h
  · cases h
  simp only at h
  split at h
  · cases h
  next i p hinv =>
  split at h
  · cases h
  simp only [Except.ok.injEq] at h
  subst h
  simp only [decide_eq_false_iff_not, not_lt] at hde hre hphase
  generalize travel ((up.drop 4).map Sample.encoder) = delta at *
  generalize travel ((invertSamples i p (up.drop 4)).map Sample.phase) = phase at *
  have hdel : |if i = true then -delta else delta| = |delta| := by
    split
    · exact abs_neg _
    · rfl
  simp only [hdel]
  generalize hd : (if i = true then -delta else delta) = d at *
  have h2 := abs_le.1 hde
  refine ⟨by omega, by omega, ⟨rne (b64.roundQ ((phase : ℚ) / d)), by ring⟩, ?_⟩
  have hd0 : (60536 : ℚ) ≤ |(d : ℚ)| := by
    have : (60536 : ℤ) ≤ |d| := by omega
    exact_mod_cast this
  have hdpos : 0 < |(d : ℚ)| := by linarith
  have hdne : (d : ℚ) ≠ 0 := abs_pos.1 hdpos
  have hph : |(phase : ℚ)| ≤ 2 ^ 40 := by exact_mod_cast hphase
  -- size of the quotient
  have hqs : |(phase : ℚ) / d| < pow2 25 := by
    rw [abs_div, div_lt_iff₀ hdpos, show pow2 25 = 2 ^ 25 by rw [pow2_eq]; norm_num]
    nlinarith
  have e1 := roundQ_err b64 ((phase : ℚ) / d)
  have u1 := ulp_le (f := b64) hqs (by decide)
  have v1 : pow2 (25 - (b64.prec : ℤ)) = 1 / 2 ^ 28 := by
    rw [show (b64.prec : ℤ) = 53 from rfl, pow2_eq]; norm_num
  rw [v1] at u1
  generalize b64.roundQ ((phase : ℚ) / d) = ratio at *
  have e2 := roundQ_err b64 ((rne ratio : ℚ) - ratio)
  have hr2 : |(rne ratio : ℚ) - ratio| < pow2 0 := by
    have := rne_err ratio
    rw [show pow2 0 = 1 by rw [pow2_eq]; norm_num]; linarith
  have u2 := ulp_le (f := b64) hr2 (by decide)
  have v2 : pow2 (0 - (b64.prec : ℤ)) = 1 / 2 ^ 53 := by
    rw [show (b64.prec : ℤ) = 53 from rfl, pow2_eq]; norm_num
  rw [v2] at u2
  have e1 := abs_le.1 (e1.trans (by linarith : _ ≤ (1 : ℚ) / 2 ^ 28))
  have e2 := abs_le.1 (e2.trans (by linarith : _ ≤ (1 : ℚ) / 2 ^ 53))
  have hre := abs_le.1 hre
  have key : |(phase : ℚ) / d - rne ratio| ≤ maxRemainder + 1 / 2 ^ 12 := by
    rw [abs_le]
    constructor <;> norm_num at e1 e2 ⊢ <;> linarith
  have : (phase : ℚ) - ((rne ratio * 2 : ℤ) / 2 : ℚ) * d = ((phase : ℚ) / d - rne ratio) * d := by
    push_cast
    rw [sub_mul, div_mul_cancel₀ _ hdne]; ring
  rw [this, abs_mul]
  exact mul_le_mul_of_nonneg_right key hdpos.le

/-! ## Hall sensors -/

/-- calibrate_encoder.py:472-474 -/
def hallMapping : List Nat := [0, 0, 2, 1, 4, 5, 3, 0]

inductive HallError
  | states           -- not six states
  | separation       -- state 0 or 7
  | indexError       -- state above 7
  | notPossible
deriving DecidableEq, Repr

structure HallResult where
  offset : Int
  sign : Int
  polarity : Int
  phaseInvert : Int
deriving DecidableEq, Repr

/-- Python's `min` of a list of pairs, with the current minimum. -/
def minPair (best : ℚ × Nat) : List (ℚ × Nat) → ℚ × Nat
  | [] => best
  | x :: xs => minPair (if x.1 < best.1 ∨ (x.1 = best.1 ∧ x.2 < best.2) then x else best) xs

/-- calibrate_encoder.py:490-496: the first count that differs, or the last. -/
def nextCount (start : Nat) (next : Nat) : List Nat → Nat
  | [] => next
  | c :: cs => if c ≠ start then c else nextCount start c cs

/-- calibrate_encoder.py:467-520 `calibrate_hall`; `w` is
`_wrap_neg_pi_to_pi`. -/
def calibrateHall (w : ℚ → ℚ) (data : List (ℚ × Nat)) (desired : Int) (allowPhaseInvert : Bool) :
    Except HallError HallResult :=
  let states := data.map Prod.snd
  if states.dedup.length ≠ 6 then .error .states
  else if 0 ∈ states ∨ 7 ∈ states then .error .separation
  else match data.map fun x => (|w x.1|, x.2) with
    | [] => .error .states
    | x :: xs =>
      if states.any fun s => decide (8 ≤ s) then .error .indexError
      else
        let count (s : Nat) : Nat := hallMapping.getD s 0
        let offset : Int := -(count (minPair x xs).2)
        let start := count x.2
        let next := nextCount start start ((states.drop 1).map count)
        let sign : Int := if (((next + 6 + 3 : Int) - start) % 6 - 3) > 0 then 1 else -1
        if desired = -1 then
          if ¬ allowPhaseInvert then .error .notPossible
          else .ok { offset := offset, sign := -sign, polarity := 0, phaseInvert := 1 }
        else .ok { offset := offset, sign := sign, polarity := 0, phaseInvert := 0 }

/-- C57: the hall table numbers the six valid states so that neighbouring
numbers (cyclically) differ in exactly one sensor. -/
theorem C57_table :
    (∀ s ∈ List.range' 1 6, hallMapping.getD s 0 < 6) ∧
    (∀ s ∈ List.range' 1 6, ∀ t ∈ List.range' 1 6,
      hallMapping.getD s 0 = hallMapping.getD t 0 → s = t) ∧
    (∀ s ∈ List.range' 1 6, ∀ t ∈ List.range' 1 6,
      hallMapping.getD t 0 = (hallMapping.getD s 0 + 1) % 6 →
        ((s ^^^ t = 1) ∨ (s ^^^ t = 2) ∨ (s ^^^ t = 4))) := by decide

theorem minPair_spec (best : ℚ × Nat) (l : List (ℚ × Nat)) :
    minPair best l ∈ best :: l ∧ ∀ x ∈ best :: l, (minPair best l).1 ≤ x.1 := by
  induction l generalizing best with
  | nil => simp [minPair]
  | cons a l ih =>
    unfold minPair
    split
    · next h =>
      obtain ⟨h1, h2⟩ := ih a
      have ha := h2 a (by simp)
      refine ⟨by simp only [List.mem_cons] at h1 ⊢; tauto, fun x hx => ?_⟩
      rcases List.mem_cons.1 hx with rfl | hx
      · rcases h with h | h
        · linarith
        · linarith [h.1]
      · exact h2 x hx
    · next h =>
      obtain ⟨h1, h2⟩ := ih best
      have hb := h2 best (by simp)
      refine ⟨by simp only [List.mem_cons] at h1 ⊢; tauto, fun x hx => ?_⟩
      rcases List.mem_cons.1 hx with rfl | hx
      · exact hb
      · rcases List.mem_cons.1 hx with rfl | hx
        · have := not_lt.1 (fun hl => h (Or.inl hl)); linarith
        · exact h2 x (by simp [hx])

/-- The counts of a sweep in one direction: each is equal to the one before or
the next (`dir = 1`) or previous (`dir = 5`) of the six. -/
inductive Rotates (dir : Nat) : List Nat → Prop
  | one (a : Nat) : Rotates dir [a]
  | same {a : Nat} {l : List Nat} (h : Rotates dir (a :: l)) : Rotates dir (a :: a :: l)
  | step {a b : Nat} {l : List Nat} (hab : b = (a + dir) % 6) (h : Rotates dir (b :: l)) :
      Rotates dir (a :: b :: l)

theorem nextCount_rotates (dir : Nat) (m : List Nat) (h : Rotates dir m) (a : Nat) (l : List Nat)
    (hl : m = a :: l) (n : Nat) :
    nextCount a n l = (a + dir) % 6 ∨ ∀ b ∈ l, b = a := by
  induction h generalizing a l n with
  | one b =>
    injection hl with h1 h2
    subst h2; simp
  | @same b m h ih =>
    injection hl with h1 h2
    subst h1; subst h2
    rcases ih b m rfl b with h1 | h1
    · left; rw [nextCount, if_neg (by simp)]; exact h1
    · right; intro c hc
      rcases List.mem_cons.1 hc with rfl | hc
      · rfl
      · exact h1 c hc
  | @step b c m hab h ih =>
    injection hl with h1 h2
    subst h1; subst h2
    by_cases hc : c = b
    · rcases ih c m rfl c with h1 | h1
      · left; rw [nextCount, if_neg (by simp [hc]), ← hc]; exact h1
      · right; intro d hd
        rcases List.mem_cons.1 hd with rfl | hd
        · exact hc
        · rw [h1 d hd, hc]
    · left; rw [nextCount, if_pos hc]; exact hab

/-- Everything about the data that the hall theorem needs: six states 1..6
seen, their numbers advance in one direction. -/
structure HallSweep (dir : Nat) (data : List (ℚ × Nat)) : Prop where
  six : (data.map Prod.snd).dedup.length = 6
  valid : ∀ x ∈ data, 1 ≤ x.2 ∧ x.2 ≤ 6
  rotates : Rotates dir (data.map fun x => hallMapping.getD x.2 0)

/-- C57: for a sweep over all six hall states in one direction, calibration
finds the direction (negated, with inverted phase, when the opposite direction
is desired), and the offset is minus the number of the state at the sample
whose wrapped phase is closest to zero. -/
theorem C57_hall (w : ℚ → ℚ) (data : List (ℚ × Nat)) (desired : Int) (dir : Nat)
    (hdir : dir = 1 ∨ dir = 5) (h : HallSweep dir data) :
    ∃ r, calibrateHall w data desired true = .ok r ∧
      r.sign = (if dir = 1 then 1 else -1) * (if desired = -1 then -1 else 1) ∧
      r.phaseInvert = (if desired = -1 then 1 else 0) ∧ r.polarity = 0 ∧
      ∃ x ∈ data, (∀ y ∈ data, |w x.1| ≤ |w y.1|) ∧
        r.offset = -(hallMapping.getD x.2 0 : Int) := by
  obtain ⟨h6, hv, hrot⟩ := h
  unfold calibrateHall
  have h0 : ¬ (0 ∈ data.map Prod.snd ∨ 7 ∈ data.map Prod.snd) := by
    simp only [List.mem_map, not_or, not_exists, not_and]
    constructor <;> intro x hx he <;> have := hv x hx <;> omega
  simp only [h6, ne_eq, not_true_eq_false, if_false, if_neg h0]
  cases data with
  | nil => simp at h6
  | cons d ds =>
    simp only [List.map_cons]
    rw [if_neg (by
      simp only [List.any_eq_true, decide_eq_true_eq, not_exists, not_and]
      intro s hs
      obtain ⟨x, hx, rfl⟩ : ∃ x ∈ d :: ds, x.2 = s := by
        rcases List.mem_cons.1 hs with rfl | hs
        · exact ⟨d, by simp, rfl⟩
        · obtain ⟨x, hx, rfl⟩ := List.mem_map.1 hs; exact ⟨x, by simp [hx], rfl⟩
      have := hv x hx
      omega)]
    -- the offset
    obtain ⟨m1, m2⟩ := minPair_spec (|w d.1|, d.2) (ds.map fun x => (|w x.1|, x.2))
    have hoff : ∃ x ∈ d :: ds, (∀ y ∈ d :: ds, |w x.1| ≤ |w y.1|) ∧
        (minPair (|w d.1|, d.2) (ds.map fun x => (|w x.1|, x.2))).2 = x.2 := by
      have hm : minPair (|w d.1|, d.2) (ds.map fun x => (|w x.1|, x.2)) ∈
          (d :: ds).map fun x => (|w x.1|, x.2) := m1
      obtain ⟨x, hx, he⟩ := List.mem_map.1 hm
      refine ⟨x, hx, fun y hy => ?_, by rw [← he]⟩
      have := m2 (|w y.1|, y.2) (show _ ∈ (d :: ds).map fun x => (|w x.1|, x.2) from
        List.mem_map.2 ⟨y, hy, rfl⟩)
      rw [← he] at this
      exact this
    obtain ⟨x, hx, hx1, hx2⟩ := hoff
    rw [hx2]
    -- the direction
    have hlt : hallMapping.getD d.2 0 < 6 := by
      have := hv d (by simp)
      exact C57_table.1 d.2 (List.mem_range'_1.2 (by omega))
    have hnext : nextCount (hallMapping.getD d.2 0) (hallMapping.getD d.2 0)
        ((List.drop 1 (d.2 :: ds.map Prod.snd)).map fun s => hallMapping.getD s 0) =
        (hallMapping.getD d.2 0 + dir) % 6 := by
      have e : (List.drop 1 (d.2 :: ds.map Prod.snd)).map (fun s => hallMapping.getD s 0) =
          ds.map fun x => hallMapping.getD x.2 0 := by simp [Function.comp_def]
      rw [e]
      rcases nextCount_rotates dir _ hrot _ _ rfl (hallMapping.getD d.2 0) with h | h
      · exact h
      · exfalso
        -- all states are equal
        have hall : ∀ s ∈ (d :: ds).map Prod.snd, s = d.2 := by
          intro s hs
          obtain ⟨y, hy, rfl⟩ := List.mem_map.1 hs
          have hy' : hallMapping.getD y.2 0 = hallMapping.getD d.2 0 := by
            rcases List.mem_cons.1 hy with rfl | hy
            · rfl
            · exact h _ (List.mem_map.2 ⟨y, hy, rfl⟩)
          have v1 := hv y hy
          have v2 := hv d (by simp)
          exact C57_table.2.1 y.2 (List.mem_range'_1.2 (by omega)) d.2
            (List.mem_range'_1.2 (by omega)) hy'
        have hsub : ((d :: ds).map Prod.snd).dedup.Subperm [d.2] := by
          refine List.subperm_of_subset (List.nodup_dedup _) fun s hs => ?_
          simp [hall s (List.mem_dedup.1 hs)]
        have := hsub.length_le
        rw [h6] at this
        simp at this
    have hsign : (if (((nextCount (hallMapping.getD d.2 0) (hallMapping.getD d.2 0)
        ((List.drop 1 (d.2 :: ds.map Prod.snd)).map fun s => hallMapping.getD s 0) : Nat) + 6 + 3 :
          Int) - (hallMapping.getD d.2 0 : Nat)) % 6 - 3 > 0 then (1 : Int) else -1) =
        if dir = 1 then 1 else -1 := by
      rw [hnext]
      generalize hallMapping.getD d.2 0 = c at hlt
      rcases hdir with rfl | rfl
      · rw [if_pos rfl, if_pos (by omega)]
      · rw [if_neg (by decide : ¬ (5 = 1)), if_neg (by omega)]
    by_cases hd : desired = -1
    · rw [if_pos hd]
      refine ⟨_, rfl, ?_, by rw [if_pos hd], rfl, x, hx, hx1, rfl⟩
      show -(if _ then (1 : Int) else -1) = _
      rw [hsign, if_pos hd]; ring
    · rw [if_neg hd]
      refine ⟨_, rfl, ?_, by rw [if_neg hd], rfl, x, hx, hx1, rfl⟩
      show (if _ then (1 : Int) else -1) = _
      rw [hsign, if_neg hd]; ring

/-- A full turn; states 1, 3, 2, 6, 4, 5. -/
example : calibrateHall id [(1, 1), (2, 3), (3, 2), (-3, 6), (-2, 4), (-1/2, 5)] 1 true =
    .ok ⟨-5, 1, 0, 0⟩ := by decide +kernel

example : HallSweep 1 [(1, 1), (2, 3), (3, 2), (-3, 6), (-2, 4), (-1/2, 5)] where
  six := by decide
  valid := by decide
  rotates := .step (by decide) (.step (by decide) (.step (by decide) (.step (by decide)
    (.step (by decide) (.one _)))))

/-- C57: data without exactly six states, or with a state 0 or 7, is
refused. -/
theorem C57_refused (w : ℚ → ℚ) (data : List (ℚ × Nat)) (desired : Int) (allow : Bool)
    (h : (data.map Prod.snd).dedup.length ≠ 6 ∨ 0 ∈ data.map Prod.snd ∨ 7 ∈ data.map Prod.snd) :
    ∃ e, calibrateHall w data desired allow = .error e := by
  unfold calibrateHall
  by_cases h6 : (data.map Prod.snd).dedup.length = 6
  · rcases h with h | h
    · exact absurd h6 h
    · exact ⟨.separation, by simp only [h6, ne_eq, not_true_eq_false, if_false, if_pos h]⟩
  · exact ⟨.states, by simp only [ne_eq, if_pos h6]⟩

end Verif.Calib
