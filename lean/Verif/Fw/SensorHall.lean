import Verif.Fw.SensorCounts

/-!
# Property C65: hall sensors

From the three sensor pins to the count of the position source.
-/

namespace Verif.Fw

open Verif.Float Spec

/-- The hall sensors as the source sees them (`fw/motor_position.h` 859-863). -/
def hallReading (h : HallStatus) : Reading := ⟨false, true, h.count, 0, h.bits, false⟩

/-- One control cycle: sample the pins, update the source. -/
def hallCycle (A : Ar) (c : SourceConfig) (poles polarity : ℕ) (dt : Fl)
    (st : HallStatus × SourceStatus) (bits : ℕ) : Option (HallStatus × SourceStatus) :=
  match hallSample polarity st.1 bits with
  | none => none
  | some h =>
    match updateSource A c poles dt (hallReading h) st.2 with
    | none => none
    | some s => some (h, s.status)

namespace Spec

/-- The pins of hall sensors with some outputs inverted. -/
def hallPins (polarity : ℕ) (p : ℤ) : ℕ := hallBits p ^^^ polarity

end Spec

/-- Every count of the sensors gives a number that the firmware can reduce. -/
def HallConfigured (c : SourceConfig) (poles : ℕ) : Prop :=
  c.type = .hall ∧ c.debugOverride < 0 ∧ (c.sign = 1 ∨ c.sign = -1) ∧
    c.cpr = 6 * poles / 2 ∧ 0 < poles ∧ poles % 2 = 0 ∧ poles < 2 ^ 24 ∧
    ∀ k : ℤ, 0 ≤ k → k < 6 → -10 ≤ (k + toI32 c.offset) * c.sign

/-! ## C65: the sensors -/

/-- C65: the sample is the sector of the shaft, for every polarity. -/
theorem C65_sample (polarity : ℕ) (h : polarity < 8) (s : HallStatus) (p : ℤ) :
    ∃ s', hallSample polarity s (hallPins polarity p) = some s' ∧ (s'.count : ℤ) = p % 6 ∧
      s'.bits = hallPins polarity p ∧ hallPins polarity p < 8 := by
  have hlt : hallPins polarity p < 8 := by
    refine Nat.xor_lt_two_pow (n := 3) ?_ h
    unfold hallBits
    split_ifs <;> norm_num
  suffices hh : ∃ s', hallSample polarity s (hallPins polarity p) = some s' ∧
      (s'.count : ℤ) = p % 6 ∧ s'.bits = hallPins polarity p by
    obtain ⟨s', a, b, c⟩ := hh
    exact ⟨s', a, b, c, hlt⟩
  unfold hallSample hallPins
  have h6 : 0 ≤ p % 6 ∧ p % 6 < 6 := ⟨Int.emod_nonneg _ (by norm_num), Int.emod_lt_of_pos _ (by norm_num)⟩
  have hx : hallBits p ^^^ polarity ^^^ polarity = hallBits p := by
    rw [Nat.xor_assoc, Nat.xor_self, Nat.xor_zero]
  rw [hx]
  unfold hallBits
  obtain ⟨h0, h5⟩ := h6
  generalize p % 6 = k at h0 h5 ⊢
  interval_cases k <;> simp [hallMapping]

/-- C65: no sample changes the error counter. -/
theorem C65_errors_never_counted (polarity : ℕ) (s s' : HallStatus) (bits : ℕ)
    (h : hallSample polarity s bits = some s') : s'.error = s.error := by
  unfold hallSample at h
  have : ¬ 1 < bitsChanged (bits ^^^ s.bits) := by
    unfold bitsChanged; split_ifs <;> omega
  simp only [if_neg this] at h
  split at h
  · injection h with h; rw [← h]
  · exact absurd h (by simp)

/-- C65: a change of all three sensors at once, which no motion of the shaft by
one sector makes, is not counted as an error. -/
theorem C65_error_refuted :
    ∃ s', hallSample 0 ⟨hallPins 0 0, 0, 0⟩ (hallPins 0 3) = some s' ∧
      hallPins 0 0 ^^^ hallPins 0 3 = 7 ∧ s'.error = 0 :=
  ⟨⟨6, 3, 0⟩, by decide +kernel, by decide +kernel, rfl⟩

/-- C65: the two states that the sensors can not be in are taken for sector 0. -/
theorem C65_invalid_refuted :
    ∃ s1 s2, hallSample 0 ⟨4, 4, 0⟩ 0 = some s1 ∧ s1.count = 0 ∧ s1.error = 0 ∧
      hallSample 0 ⟨4, 4, 0⟩ 7 = some s2 ∧ s2.count = 0 ∧ s2.error = 0 ∧
      ∀ p, hallPins 0 p ≠ 0 ∧ hallPins 0 p ≠ 7 := by
  refine ⟨⟨0, 0, 0⟩, ⟨7, 0, 0⟩, by decide +kernel, rfl, rfl, by decide +kernel, rfl, rfl, fun p => ?_⟩
  unfold hallPins hallBits
  split_ifs <;> decide

/-- C65: a configured polarity above 7 reads outside of the table. -/
theorem C65_polarity_refuted : hallSample 8 ⟨1, 0, 0⟩ (hallPins 0 0) = none := by decide +kernel

/-! ## C65: the count -/

/-- The new count for a sector of the sensors. -/
theorem hallValue_spec {poles : ℕ} {offset sign : ℤ} {count : ℕ} {s : SourceStatus}
    (hp : 0 < poles) (hp2 : poles < 2 ^ 24) (hov : s.offsetValue < 3 * poles)
    (hx : -10 ≤ ((count : ℤ) + offset) * sign) :
    ∃ d : ℤ, -3 ≤ d ∧ d < 3 ∧
      (d - (((count : ℤ) + offset) * sign - s.offsetValue)) % 6 = 0 ∧
      (hallValue poles offset sign count s : ℤ) = (s.offsetValue + d) % (3 * poles : ℕ) := by
  unfold hallValue
  simp only
  generalize ((count : ℤ) + offset) * sign = x at hx ⊢
  have hcur : ∃ cur : ℤ, (x + 6).tmod 6 = cur ∧ -4 ≤ cur ∧ cur < 6 ∧ (cur - x) % 6 = 0 := by
    rcases le_or_gt 0 (x + 6) with h | h
    · rw [Int.tmod_eq_emod_of_nonneg h]
      exact ⟨_, rfl, by omega, by omega, by omega⟩
    · have hx' : x = -10 ∨ x = -9 ∨ x = -8 ∨ x = -7 := by omega
      rcases hx' with h | h | h | h <;> subst h
      · exact ⟨-4, by decide, by omega, by omega, by omega⟩
      · exact ⟨-3, by decide, by omega, by omega, by omega⟩
      · exact ⟨-2, by decide, by omega, by omega, by omega⟩
      · exact ⟨-1, by decide, by omega, by omega, by omega⟩
  obtain ⟨cur, e, h1, h2, h3⟩ := hcur
  rw [e]
  have hold : ((s.offsetValue : ℤ) % 6) ≤ 5 ∧ 0 ≤ ((s.offsetValue : ℤ) % 6) := by omega
  norm_num only
  rw [Int.tmod_eq_emod_of_nonneg (by omega)]
  refine ⟨(cur - (s.offsetValue : ℤ) % 6 + 6 + 3) % 6 - 3, by omega, by omega, by omega, ?_⟩
  have hd : -3 ≤ (cur - (s.offsetValue : ℤ) % 6 + 6 + 3) % 6 - 3 ∧
      (cur - (s.offsetValue : ℤ) % 6 + 6 + 3) % 6 - 3 < 3 := by omega
  generalize (cur - (s.offsetValue : ℤ) % 6 + 6 + 3) % 6 - 3 = d at hd ⊢
  rw [toU32_emod (by push_cast; omega) (by push_cast; omega)]
  rw [show (s.offsetValue : ℤ) + (3 * poles : ℕ) + d = s.offsetValue + d + (3 * poles : ℕ) by ring,
    Int.add_emod_right]

/-- One cycle of a hall source. -/
theorem hall_cycle (A : Ar) {c : SourceConfig} {poles polarity : ℕ} {dt : Fl}
    (hc : HallConfigured c poles) (hp : polarity < 8) (h : HallStatus) (s : SourceStatus)
    (hov : s.offsetValue < c.cpr) (q : ℤ) :
    ∃ h' s' d, hallCycle A c poles polarity dt (h, s) (hallPins polarity q) = some (h', s') ∧
      -3 ≤ d ∧ d < 3 ∧ (d - ((q + toI32 c.offset) * c.sign - s.offsetValue)) % 6 = 0 ∧
      (s'.offsetValue : ℤ) = (s.offsetValue + d) % c.cpr ∧ s'.activeTheta = true ∧
      s'.activeVelocity = true ∧ s'.activeAbsolute = false ∧ s'.offsetValue < c.cpr := by
  obtain ⟨ht, hd, hs, hcpr, hp0, hp2, hpb, hoff⟩ := hc
  have hcpr' : c.cpr = 3 * poles := by omega
  obtain ⟨h', eh, hcount, -, -⟩ := C65_sample polarity hp h q
  have hq0 := Int.emod_nonneg q (show (6 : ℤ) ≠ 0 by norm_num)
  have hq6 := Int.emod_lt_of_pos q (show (0 : ℤ) < 6 by norm_num)
  obtain ⟨d, d1, d2, d3, d4⟩ := hallValue_spec (poles := poles) (offset := toI32 c.offset)
    (sign := c.sign) (count := h'.count) (s := s) hp0 hpb (by omega)
    (by rw [hcount]; exact hoff _ hq0 hq6)
  have hnv : hallValue poles (toI32 c.offset) c.sign h'.count s < 3 * poles := by
    have := Int.emod_lt_of_pos ((s.offsetValue : ℤ) + d)
      (show (0 : ℤ) < (3 * poles : ℕ) by push_cast; omega)
    rw [← d4] at this
    exact_mod_cast this
  set nv := hallValue poles (toI32 c.offset) c.sign h'.count s with hnvd
  have hw : wrapIntCpr (wrapI32 ((wrapI32 nv + 0) * 1)) c.cpr = nv := by
    have : ((wrapIntCpr (wrapI32 ((wrapI32 nv + 0) * 1)) c.cpr : ℕ) : ℤ) = nv := by
      rw [wrapI32_of (n := (nv : ℤ)) (by omega) (by omega), add_zero, mul_one,
        wrapI32_of (n := (nv : ℤ)) (by omega) (by omega),
        wrapIntCpr_of (by omega) (by omega), Int.emod_eq_of_lt (by omega) (by omega)]
    exact_mod_cast this
  have hacq : acquire c poles (hallReading h') s = some ⟨{ s with
      raw := h'.bits
      offsetValue := nv
      nonce := (s.nonce + 1) % 256
      activeVelocity := true
      activeTheta := true
      activeAbsolute := false }, true, false⟩ := by
    unfold acquire hallReading
    simp only [ht, Bool.not_true, Bool.false_eq_true, if_false, ← hnvd, updateAbsolute]
    rw [if_neg (by omega), hw]
  obtain ⟨st, e, -, e1, e2, -, e4⟩ := updateSource_value (A := A) (dt := dt)
    (r := hallReading h') (by simp [ht]) rfl hd hacq
  obtain ⟨f1, f2, f3⟩ := e4 rfl
  refine ⟨h', st.status, d, ?_, d1, d2, ?_, ?_, f1, f2, f3, ?_⟩
  · unfold hallCycle
    simp only [eh, e]
  · rw [hcount] at d3
    rcases hs with h | h <;> rw [h] at d3 ⊢ <;> omega
  · rw [e1, d4, hcpr']
  · rw [e1, hcpr']; exact hnv

/-- C65: after each sample the count means the sector of the sensors, also if
sectors were skipped, from any state. -/
theorem C65_sector_partial (A : Ar) {c : SourceConfig} {poles polarity : ℕ} {dt : Fl}
    (hc : HallConfigured c poles) (hp : polarity < 8) (h : HallStatus) (s : SourceStatus)
    (hov : s.offsetValue < c.cpr) (q : ℤ) :
    ∃ h' s', hallCycle A c poles polarity dt (h, s) (hallPins polarity q) = some (h', s') ∧
      (s'.offsetValue : ℤ) % 6 = ((q + toI32 c.offset) * c.sign) % 6 ∧ s'.activeTheta = true ∧
      s'.activeVelocity = true ∧ s'.activeAbsolute = false ∧ s'.offsetValue < c.cpr := by
  obtain ⟨h', s', d, e, -, -, d3, d4, f1, f2, f3, f4⟩ := hall_cycle A (dt := dt) hc hp h s hov q
  refine ⟨h', s', e, ?_, f1, f2, f3, f4⟩
  obtain ⟨-, -, -, hcpr, -, hp2, -, -⟩ := hc
  have hdvd : (6 : ℤ) ∣ (c.cpr : ℤ) := by
    have : 6 ∣ c.cpr := by omega
    exact_mod_cast this
  rw [d4, Int.emod_emod_of_dvd _ hdvd]
  generalize (q + toI32 c.offset) * c.sign = x at d3 ⊢
  omega

/-- C65: over any sequence of samples during which the shaft moves at most two
sectors from one to the next, the count moves as the shaft, with the sign,
modulo the number of sectors of a revolution. -/
theorem C65_follows_partial (A : Ar) {c : SourceConfig} {poles polarity : ℕ} {dt : Fl}
    (hc : HallConfigured c poles) (hp : polarity < 8) (path : List ℤ) (h : HallStatus)
    (s : SourceStatus) (p : ℤ) (hov : s.offsetValue < c.cpr)
    (hsync : (s.offsetValue : ℤ) % 6 = ((p + toI32 c.offset) * c.sign) % 6) (hm : Moves 2 p path) :
    ∃ h' s', (path.map (hallPins polarity)).foldlM (hallCycle A c poles polarity dt) (h, s) =
        some (h', s') ∧
      (s'.offsetValue : ℤ) = (s.offsetValue + (path.getLastD p - p) * c.sign) % (3 * poles : ℕ) := by
  have hcpr' : c.cpr = 3 * poles := by
    obtain ⟨-, -, -, hcpr, -, hp2, -, -⟩ := hc; omega
  have hs := hc.2.2.1
  induction path generalizing h s p with
  | nil =>
    refine ⟨h, s, rfl, ?_⟩
    simp only [List.getLastD_nil, sub_self, zero_mul, add_zero]
    rw [Int.emod_eq_of_lt (by omega) (by omega)]
  | cons q l ih =>
    obtain ⟨hm1, hm2⟩ := hm
    have hm1' := abs_le.mp hm1
    obtain ⟨h1, s1, d, e, d1, d2, d3, d4, -, -, -, d5⟩ := hall_cycle A (dt := dt) hc hp h s hov q
    obtain ⟨h1', s1', e', k1, -, -, -, -⟩ := C65_sector_partial A (dt := dt) hc hp h s hov q
    rw [e] at e'
    simp only [Option.some.injEq, Prod.mk.injEq] at e'
    obtain ⟨rfl, rfl⟩ := e'
    have hd : d = (q - p) * c.sign := by
      rcases hs with hh | hh <;> rw [hh] at d3 hsync ⊢ <;> omega
    obtain ⟨h', s', e2, g⟩ := ih h1 s1 q d5 k1 hm2
    refine ⟨h', s', ?_, ?_⟩
    · rw [List.map_cons, List.foldlM_cons, e]; exact e2
    · rw [g, d4, hcpr', Int.emod_add_emod, List.getLastD_cons, hd]
      congr 1
      ring

/-- A hall source of a motor with four poles. -/
def hallExample (offset : ℚ) (sign : ℤ) : SourceConfig :=
  { exampleSource 12 offset sign 1 with type := .hall }

example : HallConfigured (hallExample 2 (-1)) 4 := by
  refine ⟨rfl, by decide, Or.inr rfl, rfl, by decide, by decide, by decide, fun k h0 h1 => ?_⟩
  rw [show toI32 (hallExample 2 (-1)).offset = 2 by decide +kernel]
  simp only [hallExample]
  show -10 ≤ (k + 2) * -1
  omega

example : Moves 2 0 [1, 3, 5, 7, 8, 6] := by simp [Moves]

/-- C65: with an offset of 6 and an inverted direction, two sectors backwards
should move the count from 5 to 7, but it becomes 1. -/
theorem C65_offset_refuted :
    ∃ h s, hallCycle .single (hallExample 6 (-1)) 4 0 (.fin (1 / 32768))
        (⟨hallPins 0 1, 1, 0⟩, { SourceStatus.init with offsetValue := 5 }) (hallPins 0 (-1)) =
          some (h, s) ∧ s.offsetValue = 1 ∧
      (5 : ℤ) % 6 = ((1 + 6) * (-1)) % 6 ∧ (5 + (-1 - 1) * (-1) : ℤ) % 12 = 7 := by
  refine ⟨_, _, rfl, by decide +kernel, by decide, by decide⟩

end Verif.Fw
