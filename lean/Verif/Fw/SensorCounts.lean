import Verif.Fw.Sensors
import Verif.Fw.PositionNearest
import Mathlib.Tactic.LinearCombination

/-!
# Properties C63 to C65: counts of the position sources

C63: absolute encoders.  C64: quadrature encoders.  C65: hall sensors.
-/

namespace Verif.Fw

open Verif.Float Spec

/-! ## One update of a source -/

section

variable {A : Ar} {c : SourceConfig} {poles : ℕ} {dt : Fl} {r : Reading} {s : SourceStatus}

theorem track_value (old : SourceStatus) :
    (track A c old s).offsetValue = s.offsetValue ∧ (track A c old s).raw = s.raw ∧
      (track A c old s).nonce = s.nonce ∧ (track A c old s).activeTheta = s.activeTheta ∧
      (track A c old s).activeVelocity = s.activeVelocity ∧
      (track A c old s).activeAbsolute = s.activeAbsolute := by
  unfold track
  split
  · simp
  · split
    · simp
    · split <;> simp

theorem settle_value (old : SourceStatus) (a : Acquired) :
    (settle A c dt old a).offsetValue = a.status.offsetValue ∧
      (settle A c dt old a).raw = a.status.raw ∧ (settle A c dt old a).nonce = a.status.nonce ∧
      (a.updated = true → (settle A c dt old a).activeTheta = a.status.activeTheta ∧
        (settle A c dt old a).activeVelocity = a.status.activeVelocity ∧
        (settle A c dt old a).activeAbsolute = a.status.activeAbsolute) := by
  unfold settle
  by_cases h : a.status.activeTheta = false ∧ a.status.activeVelocity = false
  · simp [h]
  · simp only [if_neg h]
    by_cases hu : a.updated = true
    · simp only [if_pos hu]
      have := track_value (A := A) (c := c) old (s := { a.status with
        sinceUpdate := A.add a.status.sinceUpdate dt
        filtered := A.add a.status.filtered (A.mul dt a.status.velocity) })
      simp only at this
      obtain ⟨h1, h2, h3, h4, h5, h6⟩ := this
      exact ⟨h1, h2, h3, fun _ => ⟨h4, h5, h6⟩⟩
    · simp only [if_neg hu]
      refine ⟨?_, ?_, ?_, fun h => absurd h hu⟩ <;> split <;> rfl

theorem compensate_value (hd : c.debugOverride < 0) (a : Acquired) :
    (compensate A c a).status.offsetValue = a.status.offsetValue ∧
      (compensate A c a).status.raw = a.status.raw ∧
      (compensate A c a).status.nonce = a.status.nonce ∧
      (compensate A c a).status.activeTheta = a.status.activeTheta ∧
      (compensate A c a).status.activeVelocity = a.status.activeVelocity ∧
      (compensate A c a).status.activeAbsolute = a.status.activeAbsolute ∧
      (compensate A c a).updated = a.updated := by
  unfold compensate
  rw [if_neg (not_le.mpr hd)]
  split <;> simp

/-- The counts after an update are those that were acquired. -/
theorem updateSource_value (ht : c.type ≠ .none) (he : r.error = false) (hd : c.debugOverride < 0)
    {a : Acquired} (ha : acquire c poles r s = some a) :
    ∃ st, updateSource A c poles dt r s = some st ∧ st.failed = false ∧
      st.status.offsetValue = a.status.offsetValue ∧ st.status.raw = a.status.raw ∧
      st.status.nonce = a.status.nonce ∧
      (a.updated = true → st.status.activeTheta = a.status.activeTheta ∧
        st.status.activeVelocity = a.status.activeVelocity ∧
        st.status.activeAbsolute = a.status.activeAbsolute) := by
  unfold updateSource
  simp only [if_neg ht, he, Bool.false_eq_true, if_false, ha]
  refine ⟨_, rfl, rfl, ?_⟩
  obtain ⟨c1, c2, c3, c4, c5, c6, c7⟩ := compensate_value (A := A) hd a
  obtain ⟨s1, s2, s3, s4⟩ := settle_value (A := A) (c := c) (dt := dt) s (compensate A c a)
  refine ⟨s1.trans c1, s2.trans c2, s3.trans c3, fun hu => ?_⟩
  obtain ⟨t1, t2, t3⟩ := s4 (c7.trans hu)
  exact ⟨t1.trans c4, t2.trans c5, t3.trans c6⟩

end

/-! ## C63: absolute encoders -/

/-- The types with an absolute position and a serial number of the sample. -/
def SourceType.Serial (t : SourceType) : Prop := t = .spi ∨ t = .uart ∨ t = .i2c

theorem acquire_serial {c : SourceConfig} {poles : ℕ} {r : Reading}
    {s : SourceStatus} (ht : c.type.Serial) (ha : r.active = true)
    (hn : r.nonce ≠ s.nonce) (hv : r.value < 2 ^ 30)
    (ho : |toI32 c.offset| ≤ 2 ^ 30) (hs : c.sign = 1 ∨ c.sign = -1) (hc : c.cpr ≤ 2 ^ 31)
    (hr : c.cpr ∣ 2 ^ 32 ∨ -(c.cpr : ℤ) ≤ (r.value + toI32 c.offset) * c.sign) :
    ∃ n : ℕ, (n : ℤ) = ((r.value + toI32 c.offset) * c.sign) % c.cpr ∧
      acquire c poles r s = some ⟨{ s with
        raw := r.value
        offsetValue := n
        nonce := r.nonce
        activeVelocity := true
        activeTheta := true
        activeAbsolute := true }, true, false⟩ := by
  have hoff := abs_le.mp ho
  have hprod : |((r.value : ℤ) + toI32 c.offset) * c.sign| ≤ 2147483647 := by
    rw [abs_mul]
    have h1 : |c.sign| = 1 := by rcases hs with h | h <;> simp [h]
    rw [h1, mul_one, abs_le]
    constructor <;> omega
  have hp2 := abs_le.mp hprod
  have hw : wrapI32 ((wrapI32 r.value + toI32 c.offset) * c.sign) =
      (r.value + toI32 c.offset) * c.sign := by
    rw [wrapI32_of (n := (r.value : ℤ)) (by omega) (by omega), wrapI32_of (by omega) (by omega)]
  refine ⟨wrapIntCpr ((r.value + toI32 c.offset) * c.sign) c.cpr, ?_, ?_⟩
  · rcases hr with h | h
    · exact wrapIntCpr_dvd (by simpa using h)
    · exact wrapIntCpr_of h (by omega)
  · unfold acquire
    rcases ht with h | h | h <;> simp only [h, ha, Bool.not_true, Bool.false_eq_true, if_false,
      updateAbsolute, if_neg hn, hw]

/-- C63: a new sample of an absolute encoder is reported as
`(value + offset) * sign` modulo the counts per revolution, and the source is
valid, if the counts per revolution divide 2^32 or the number is not less
than minus one revolution.  Missing: other numbers, see `C63_offset_refuted`. -/
theorem C63_absolute_partial (A : Ar) (c : SourceConfig) (poles : ℕ) (dt : Fl) (r : Reading)
    (s : SourceStatus) (ht : c.type.Serial) (he : r.error = false) (ha : r.active = true)
    (hn : r.nonce ≠ s.nonce) (hd : c.debugOverride < 0) (hv : r.value < 2 ^ 30)
    (ho : |toI32 c.offset| ≤ 2 ^ 30) (hs : c.sign = 1 ∨ c.sign = -1) (hc : c.cpr ≤ 2 ^ 31)
    (hr : c.cpr ∣ 2 ^ 32 ∨ -(c.cpr : ℤ) ≤ (r.value + toI32 c.offset) * c.sign) :
    ∃ st, updateSource A c poles dt r s = some st ∧ st.failed = false ∧
      (st.status.offsetValue : ℤ) = ((r.value + toI32 c.offset) * c.sign) % c.cpr ∧
      st.status.raw = r.value ∧ st.status.nonce = r.nonce ∧
      st.status.activeTheta = true ∧ st.status.activeVelocity = true ∧
      st.status.activeAbsolute = true := by
  obtain ⟨n, hn', hacq⟩ := acquire_serial (poles := poles) ht ha hn hv ho hs hc hr
  have ht0 : c.type ≠ .none := by rcases ht with h | h | h <;> simp [h]
  obtain ⟨st, e, e0, e1, e2, e3, e4⟩ := updateSource_value (A := A) (dt := dt) ht0 he hd hacq
  obtain ⟨f1, f2, f3⟩ := e4 rfl
  exact ⟨st, e, e0, by rw [e1]; exact hn', e2, e3, f1, f2, f3⟩

/-- C63: a sample with the same serial number does not change the position. -/
theorem C63_repeated (A : Ar) (c : SourceConfig) (poles : ℕ) (dt : Fl) (r : Reading)
    (s : SourceStatus) (ht : c.type.Serial) (he : r.error = false) (hn : r.nonce = s.nonce)
    (hd : c.debugOverride < 0) :
    ∃ st, updateSource A c poles dt r s = some st ∧ st.status.offsetValue = s.offsetValue := by
  have hacq : ∃ a, acquire c poles r s = some a ∧ a.status.offsetValue = s.offsetValue := by
    unfold acquire
    by_cases ha : r.active = true
    · rcases ht with h | h | h <;> simp [h, ha, updateAbsolute, hn]
    · rcases ht with h | h | h <;> simp [h, ha]
  obtain ⟨a, h1, h2⟩ := hacq
  have ht0 : c.type ≠ .none := by rcases ht with h | h | h <;> simp [h]
  obtain ⟨st, e, -, e1, -⟩ := updateSource_value (A := A) (dt := dt) ht0 he hd h1
  exact ⟨st, e, e1.trans h2⟩

/-- An SPI encoder without filter and compensation. -/
def exampleSource (cpr : ℕ) (offset : ℚ) (sign : ℤ) (timeout : ℚ) : SourceConfig where
  type := .spi
  incrementalIndex := 0
  cpr := cpr
  offset := .fin offset
  sign := sign
  debugOverride := -1
  timeout := .fin timeout
  pllHz := .fin 0
  table := fun _ => 0
  compScale := .fin 0
  compEnabled := false
  kp := .fin 0
  ki := .fin 0

example : ((exampleSource 16384 100 (-1) 1).type.Serial) ∧ (exampleSource 16384 100 (-1) 1).cpr ∣ 2 ^ 32 ∧
    |toI32 (exampleSource 16384 100 (-1) 1).offset| ≤ 2 ^ 30 := by
  refine ⟨Or.inl rfl, by decide, by decide +kernel⟩

/-- C63 is violated by an encoder with 10000 counts, an offset of 2 and
reversed direction: the reading 9999 is reported as 7295 instead of 9999. -/
theorem C63_offset_refuted :
    ∃ st, updateSource .single (exampleSource 10000 2 (-1) 1) 14 (.fin (1 / 32768))
        ⟨false, true, 9999, 1, 0, false⟩ .init = some st ∧
      st.status.offsetValue = 7295 ∧ ((9999 + 2) * (-1) : ℤ) % 10000 = 9999 := by
  refine ⟨_, rfl, by decide +kernel, by decide⟩

/-! ## C64: quadrature encoders -/

theorem quadPins_bits (p : ℤ) : pinBits (quadPins p) =
    if p % 4 = 0 then 0 else if p % 4 = 1 then 1 else if p % 4 = 2 then 3 else 2 := by
  have h0 := Int.emod_nonneg p (show (4 : ℤ) ≠ 0 by norm_num)
  have h1 := Int.emod_lt_of_pos p (show (0 : ℤ) < 4 by norm_num)
  unfold quadPins
  generalize p % 4 = m at *
  interval_cases m <;> decide

/-- One edge: the count follows a motion by at most one step. -/
theorem quadCallback_step {cpr : ℕ} {s : QuadStatus} {p q : ℤ} (hc : cpr < 2 ^ 31) (h0 : 0 < cpr)
    (hv : s.value < cpr) (hs : s.pins = pinBits (quadPins p)) (he : s.error < 65536)
    (hm : |q - p| ≤ 1) :
    ∃ s', quadCallback cpr s (quadPins q) = some s' ∧ s'.pins = pinBits (quadPins q) ∧
      (s'.value : ℤ) = (s.value + (q - p)) % cpr ∧ s'.error = s.error := by
  rw [abs_le] at hm
  obtain ⟨d, rfl⟩ : ∃ d, q = p + d := ⟨q - p, by omega⟩
  have hd : d = -1 ∨ d = 0 ∨ d = 1 := by omega
  have hm4 : p % 4 = 0 ∨ p % 4 = 1 ∨ p % 4 = 2 ∨ p % 4 = 3 := by omega
  have key : ∃ u, (((s.pins <<< 2) ||| pinBits (quadPins (p + d))) % 256) = u ∧
      quadUpdateTable[u]? = some d ∧ quadErrorTable[u]? = some 0 := by
    rw [hs]
    simp only [quadPins_bits]
    rcases hm4 with h | h | h | h <;> rcases hd with rfl | rfl | rfl <;>
      (simp only [h, show (p + -1) % 4 = (p % 4 + 3) % 4 by omega,
        show (p + 0) % 4 = p % 4 by omega, show (p + 1) % 4 = (p % 4 + 1) % 4 by omega]
       exact ⟨_, rfl, by decide, by decide⟩)
  obtain ⟨u, e1, e2, e3⟩ := key
  unfold quadCallback
  simp only [e1, e2, e3]
  refine ⟨_, rfl, rfl, ?_, ?_⟩
  · simp only
    rw [toU32_emod (by omega) (by omega), Int.add_emod_right]
    congr 1
    omega
  · simp only [Nat.add_zero]
    exact Nat.mod_eq_of_lt he

/-- C64: the count of the quadrature interrupt follows the shaft, for any
sequence of positions that differ by at most one step, and no error is
counted. -/
theorem C64_software {cpr : ℕ} (hc : cpr < 2 ^ 31) (h0 : 0 < cpr) (path : List ℤ) (p : ℤ)
    (s : QuadStatus) (hv : s.value < cpr) (hs : s.pins = pinBits (quadPins p)) (he : s.error < 65536)
    (hm : Moves 1 p path) :
    ∃ s', quadRun cpr s (path.map quadPins) = some s' ∧
      s'.pins = pinBits (quadPins (path.getLastD p)) ∧
      (s'.value : ℤ) = (s.value + (path.getLastD p - p)) % cpr ∧ s'.error = s.error := by
  induction path generalizing p s with
  | nil =>
    refine ⟨s, rfl, hs, ?_, rfl⟩
    simp only [List.getLastD_nil, sub_self, add_zero]
    rw [Int.emod_eq_of_lt (by omega) (by exact_mod_cast hv)]
  | cons q l ih =>
    obtain ⟨s1, e, f1, f2, f3⟩ := quadCallback_step hc h0 hv hs he hm.1
    have hv1 : s1.value < cpr := by
      have := Int.emod_lt_of_pos ((s.value : ℤ) + (q - p)) (show (0 : ℤ) < cpr by exact_mod_cast h0)
      rw [← f2] at this
      exact_mod_cast this
    obtain ⟨s', e', g1, g2, g3⟩ := ih q s1 hv1 f1 (by rw [f3]; exact he) hm.2
    refine ⟨s', ?_, ?_, ?_, g3.trans f3⟩
    · unfold quadRun at e' ⊢
      rw [List.map_cons, List.foldlM_cons, e]
      exact e'
    · rw [List.getLastD_cons]; exact g1
    · rw [g2, f2, Int.emod_add_emod, List.getLastD_cons]
      congr 1
      ring

example : Moves 1 0 [1, 2, 3, 4, 5, 4, 3] := by simp [Moves]

/-- C64: a step that was missed (both pins changed) is counted as an error and
not as motion. -/
theorem C64_missed_step {cpr : ℕ} (hc : cpr < 2 ^ 31) (h0 : 0 < cpr) {s : QuadStatus} {p : ℤ}
    (hv : s.value < cpr) (hs : s.pins = pinBits (quadPins p)) :
    ∃ s', quadCallback cpr s (quadPins (p + 2)) = some s' ∧ s'.value = s.value ∧
      s'.error = (s.error + 1) % 65536 := by
  have hm4 : p % 4 = 0 ∨ p % 4 = 1 ∨ p % 4 = 2 ∨ p % 4 = 3 := by omega
  have key : ∃ u, (((s.pins <<< 2) ||| pinBits (quadPins (p + 2))) % 256) = u ∧
      quadUpdateTable[u]? = some 0 ∧ quadErrorTable[u]? = some 1 := by
    rw [hs]
    simp only [quadPins_bits]
    rcases hm4 with h | h | h | h <;>
      (simp only [h, show (p + 2) % 4 = (p % 4 + 2) % 4 by omega]
       exact ⟨_, rfl, by decide, by decide⟩)
  obtain ⟨u, e1, e2, e3⟩ := key
  unfold quadCallback
  simp only [e1, e2, e3]
  refine ⟨_, rfl, ?_, rfl⟩
  simp only
  have := toU32_emod (n := (s.value : ℤ) + 0 + cpr) (m := cpr) (by omega) (by omega)
  rw [Int.add_emod_right, add_zero, Int.emod_eq_of_lt (by omega) (by exact_mod_cast hv)] at this
  exact_mod_cast this

/-- The pins are not read when the port is configured: a shaft that starts
with both outputs on and moves forward by one step is counted backward. -/
theorem C64_start_refuted :
    quadRun 4000 ⟨0, 0, 0⟩ ([3].map quadPins) = some ⟨2, 3999, 0⟩ ∧
      pinBits (quadPins 2) = 3 := by
  decide

/-- C64: the hardware counter follows the shaft if it moves by less than 2^15
steps and at most one revolution between two samples. -/
theorem C64_timer {cpr : ℕ} (hc : cpr ≤ 2 ^ 30) (h0 : 0 < cpr) {s : QuadTimer} {p q : ℤ}
    (hv : s.value < cpr) (ho : (s.old : ℤ) = p % 65536) (hm : |q - p| < 32768)
    (hm2 : |q - p| ≤ cpr) :
    ((quadTimer cpr s (q % 65536).toNat).value : ℤ) = (s.value + (q - p)) % cpr ∧
      ((quadTimer cpr s (q % 65536).toNat).old : ℤ) = q % 65536 := by
  rw [abs_lt] at hm
  rw [abs_le] at hm2
  have hq : (((q % 65536).toNat : ℕ) : ℤ) = q % 65536 :=
    Int.toNat_of_nonneg (Int.emod_nonneg _ (by norm_num))
  have hd : Int.bmod (((q % 65536).toNat : ℕ) - (s.old : ℤ)) 65536 = q - p := by
    rw [hq, ho]
    unfold Int.bmod
    have h1 : (q % 65536 - p % 65536) % ((65536 : ℕ) : ℤ) = (q - p) % 65536 := by
      rw [Nat.cast_ofNat, ← Int.sub_emod]
    simp only [h1]
    norm_num
    split <;> omega
  unfold quadTimer
  refine ⟨?_, hq⟩
  simp only [hd]
  rw [toU32_emod (by omega) (by omega), Int.add_emod_right]

example : |(-40 : ℤ) - 1000| < 32768 ∧ |(-40 : ℤ) - 1000| ≤ ((4000 : ℕ) : ℤ) := by decide

/-- A quadrature source takes over a motion of the port's count. -/
theorem quadValue_follows {cpr : ℕ} (hc : cpr < 2 ^ 30) (h0 : 0 < cpr) {sign : ℤ}
    (hs : sign = 1 ∨ sign = -1) {old new ov : ℕ} (hold : old < cpr) (hnew : new < cpr) (hov : ov < cpr) :
    ((quadValue cpr sign old new ov : ℕ) : ℤ) = (ov + ((new : ℤ) - old) * sign) % cpr := by
  unfold quadValue
  have hd : ((wrapIntCpr (wrapI32 ((new : ℤ) - old)) cpr : ℕ) : ℤ) = ((new : ℤ) - old) % cpr := by
    rw [wrapI32_of (by omega) (by omega)]
    exact wrapIntCpr_of (by omega) (by omega)
  have hlt := Int.emod_lt_of_pos ((new : ℤ) - old) (show (0 : ℤ) < cpr by exact_mod_cast h0)
  have hge := Int.emod_nonneg ((new : ℤ) - old) (show (cpr : ℤ) ≠ 0 by exact_mod_cast h0.ne')
  simp only [hd]
  rcases hs with rfl | rfl
  · rw [wrapI32_of (by omega) (by omega), wrapIntCpr_of (by omega) (by omega), mul_one, mul_one,
      Int.add_emod_emod]
  · rw [wrapI32_of (by omega) (by omega), wrapIntCpr_of (by omega) (by omega)]
    rw [show ((ov : ℤ) + ((new : ℤ) - old) % cpr * -1) = ov - ((new : ℤ) - old) % cpr by ring,
      Int.sub_emod_emod]
    congr 1
    ring

/-- What a quadrature port reports when the shaft is at a position. -/
def quadReading (cpr : ℕ) (p : ℤ) (index : Bool) : Reading :=
  ⟨false, true, (p % cpr).toNat, 0, 0, index⟩

/-- One update of a quadrature source without index pulse. -/
theorem quad_update (A : Ar) {c : SourceConfig} {poles : ℕ} {dt : Fl} {s : SourceStatus}
    (ht : c.type = .quadrature) (hd : c.debugOverride < 0) (hc : c.cpr < 2 ^ 30) (h0 : 0 < c.cpr)
    (hs : c.sign = 1 ∨ c.sign = -1) {p q : ℤ} (hraw : (s.raw : ℤ) = p % c.cpr)
    (hov : s.offsetValue < c.cpr) {index : Bool}
    (hi : index = false ∨ s.activeTheta = true ∨ c.incrementalIndex < 1) :
    ∃ st, updateSource A c poles dt (quadReading c.cpr q index) s = some st ∧
      (st.status.raw : ℤ) = q % c.cpr ∧
      (st.status.offsetValue : ℤ) = (s.offsetValue + (q - p) * c.sign) % c.cpr ∧
      st.status.activeVelocity = true ∧ st.status.activeTheta = s.activeTheta := by
  have hc0 : (c.cpr : ℤ) ≠ 0 := by exact_mod_cast h0.ne'
  have hcp : (0 : ℤ) < c.cpr := by exact_mod_cast h0
  have hq : (((q % c.cpr).toNat : ℕ) : ℤ) = q % c.cpr := Int.toNat_of_nonneg (Int.emod_nonneg _ hc0)
  have hnc : ¬ (s.activeTheta = false ∧ 1 ≤ c.incrementalIndex ∧ index = true) := by
    rintro ⟨h1, h2, h3⟩
    rcases hi with h | h | h
    · simp [h] at h3
    · simp [h] at h1
    · omega
  have hacq : acquire c poles (quadReading c.cpr q index) s = some ⟨{ s with
      raw := (q % c.cpr).toNat
      offsetValue := quadValue c.cpr c.sign s.raw (q % c.cpr).toNat s.offsetValue
      nonce := (s.nonce + 1) % 256
      activeVelocity := true }, true, false⟩ := by
    unfold acquire quadReading
    simp only [ht, Bool.not_true, Bool.false_eq_true, if_false]
    rw [if_neg hnc]
  obtain ⟨st, e, -, e1, e2, -, e4⟩ := updateSource_value (A := A) (dt := dt) (r := quadReading c.cpr q index)
    (by simp [ht]) rfl hd hacq
  obtain ⟨f1, f2, -⟩ := e4 rfl
  refine ⟨st, e, ?_, ?_, f2, f1⟩
  · rw [e2]; exact hq
  · rw [e1]
    have h1 : ((q % c.cpr).toNat : ℕ) < c.cpr := by
      have := Int.emod_lt_of_pos q hcp
      rw [← hq] at this
      exact_mod_cast this
    have h2 : s.raw < c.cpr := by
      have := Int.emod_lt_of_pos p hcp
      rw [← hraw] at this
      exact_mod_cast this
    simp only
    rw [quadValue_follows hc h0 hs h2 h1 hov, hq, hraw]
    have : ((s.offsetValue : ℤ) + (q % c.cpr - p % c.cpr) * c.sign) -
        (s.offsetValue + (q - p) * c.sign) = c.cpr * ((p / c.cpr - q / c.cpr) * c.sign) := by
      have e1 := Int.emod_add_mul_ediv q c.cpr
      have e2 := Int.emod_add_mul_ediv p c.cpr
      linear_combination c.sign * (e1 - e2)
    exact Int.emod_eq_emod_iff_emod_sub_eq_zero.mpr
      (Int.emod_eq_zero_of_dvd (this ▸ Dvd.intro _ rfl))

/-- C64: the position of a quadrature source follows the count of the port with
the configured sign, modulo the counts per revolution, over any sequence of
readings, however far apart.  Index pulses do not matter if there is no index or
if it was seen before. -/
theorem C64_source (A : Ar) {c : SourceConfig} {poles : ℕ} {dt : Fl}
    (ht : c.type = .quadrature) (hd : c.debugOverride < 0) (hc : c.cpr < 2 ^ 30) (h0 : 0 < c.cpr)
    (hs : c.sign = 1 ∨ c.sign = -1) (path : List (ℤ × Bool)) {s : SourceStatus} {p : ℤ}
    (hraw : (s.raw : ℤ) = p % c.cpr) (hov : s.offsetValue < c.cpr)
    (hi : s.activeTheta = true ∨ c.incrementalIndex < 1) :
    ∃ s', runSource A c poles dt s (path.map fun x => quadReading c.cpr x.1 x.2) = some s' ∧
      (s'.raw : ℤ) = (path.map Prod.fst).getLastD p % c.cpr ∧
      (s'.offsetValue : ℤ) =
        (s.offsetValue + ((path.map Prod.fst).getLastD p - p) * c.sign) % c.cpr ∧
      s'.activeTheta = s.activeTheta := by
  induction path generalizing s p with
  | nil =>
    refine ⟨s, rfl, hraw, ?_, rfl⟩
    simp only [List.map_nil, List.getLastD_nil, sub_self, zero_mul, add_zero]
    rw [Int.emod_eq_of_lt (by omega) (by exact_mod_cast hov)]
  | cons x l ih =>
    obtain ⟨q, i⟩ := x
    obtain ⟨st, e, f1, f2, f3, f4⟩ := quad_update A (poles := poles) (dt := dt) ht hd hc h0 hs
      (p := p) (q := q) hraw hov (index := i) (Or.inr hi)
    have hov' : st.status.offsetValue < c.cpr := by
      have := Int.emod_lt_of_pos ((s.offsetValue : ℤ) + (q - p) * c.sign)
        (show (0 : ℤ) < c.cpr by exact_mod_cast h0)
      rw [← f2] at this
      exact_mod_cast this
    obtain ⟨s', e', g1, g2, g3⟩ := ih f1 hov' (by rw [f4]; exact hi)
    refine ⟨s', ?_, ?_, ?_, g3.trans f4⟩
    · unfold runSource at e' ⊢
      rw [List.map_cons, List.foldlM_cons, e]
      exact e'
    · rw [List.map_cons, List.getLastD_cons]; exact g1
    · rw [g2, f2, Int.emod_add_emod, List.map_cons, List.getLastD_cons]
      congr 1
      ring

/-- C64: at the first index pulse the position becomes the configured offset. -/
theorem C64_index (A : Ar) {c : SourceConfig} {poles : ℕ} {dt : Fl}
    (ht : c.type = .quadrature) (hd : c.debugOverride < 0) (hi : 1 ≤ c.incrementalIndex)
    {s : SourceStatus} (hs : s.activeTheta = false) (p : ℤ) :
    ∃ st, updateSource A c poles dt (quadReading c.cpr p true) s = some st ∧
      st.status.offsetValue = flToU32 c.offset ∧ st.status.raw = (p % c.cpr).toNat ∧
      st.status.activeTheta = true ∧ st.status.activeAbsolute = true := by
  have hacq : acquire c poles (quadReading c.cpr p true) s = some ⟨{ s with
      raw := (p % c.cpr).toNat
      offsetValue := flToU32 c.offset
      nonce := (s.nonce + 1) % 256
      activeVelocity := true
      activeTheta := true
      activeAbsolute := true }, true, true⟩ := by
    unfold acquire quadReading
    simp only [ht, Bool.not_true, Bool.false_eq_true, if_false]
    rw [if_pos ⟨hs, hi, trivial⟩]
  obtain ⟨st, e, -, e1, e2, -, e4⟩ := updateSource_value (A := A) (dt := dt)
    (r := quadReading c.cpr p true) (by simp [ht]) rfl hd hacq
  obtain ⟨f1, f2, f3⟩ := e4 rfl
  exact ⟨st, e, e1, e2, f1, f3⟩

/-- C64: from the index pulse on, the position is the offset plus the motion
since the pulse, whatever further pulses come. -/
theorem C64_absolute_after_index (A : Ar) {c : SourceConfig} {poles : ℕ} {dt : Fl}
    (ht : c.type = .quadrature) (hd : c.debugOverride < 0) (hi : 1 ≤ c.incrementalIndex)
    (hc : c.cpr < 2 ^ 30) (ho : flToU32 c.offset < c.cpr) (hs : c.sign = 1 ∨ c.sign = -1)
    {s : SourceStatus} (hth : s.activeTheta = false) (p : ℤ) (path : List (ℤ × Bool)) :
    ∃ s', runSource A c poles dt s
        (quadReading c.cpr p true :: path.map fun x => quadReading c.cpr x.1 x.2) = some s' ∧
      (s'.offsetValue : ℤ) =
        (flToU32 c.offset + ((path.map Prod.fst).getLastD p - p) * c.sign) % c.cpr ∧
      s'.activeTheta = true := by
  have h0 : 0 < c.cpr := by omega
  obtain ⟨st, e, e1, e2, e3, -⟩ := C64_index A (poles := poles) (dt := dt) ht hd hi hth p
  have hraw : (st.status.raw : ℤ) = p % c.cpr := by
    rw [e2]
    exact Int.toNat_of_nonneg (Int.emod_nonneg _ (by exact_mod_cast h0.ne'))
  obtain ⟨s', e', -, g2, g3⟩ := C64_source A (poles := poles) (dt := dt) ht hd hc h0 hs path hraw
    (by rw [e1]; exact ho) (Or.inl e3)
  refine ⟨s', ?_, ?_, g3.trans e3⟩
  · unfold runSource at e' ⊢
    rw [List.foldlM_cons, e]
    exact e'
  · rw [g2, e1]

/-- The interrupts between two cycles and the update of the source. -/
def quadCycle (A : Ar) (c : SourceConfig) (poles : ℕ) (dt : Fl) (st : QuadStatus × SourceStatus)
    (pins : List (Bool × Bool)) : Option (QuadStatus × SourceStatus) :=
  match quadRun c.cpr st.1 pins with
  | none => none
  | some q =>
    match updateSource A c poles dt ⟨false, true, q.value, 0, 0, false⟩ st.2 with
    | none => none
    | some s => some (q, s.status)

/-- C64: from the pins to the position, over any number of control cycles and
edges between them: the position moves as the shaft, one count per edge, modulo
the counts per revolution.  Missing: it needs the pins to be known at the
start, see `C64_start_refuted`. -/
theorem C64_follows_partial (A : Ar) {c : SourceConfig} {poles : ℕ} {dt : Fl}
    (ht : c.type = .quadrature) (hd : c.debugOverride < 0) (hc : c.cpr < 2 ^ 30) (h0 : 0 < c.cpr)
    (hs : c.sign = 1 ∨ c.sign = -1) (cycles : List (List ℤ)) {q : QuadStatus} {s : SourceStatus} {p : ℤ}
    (hv : q.value < c.cpr) (hp : q.pins = pinBits (quadPins p)) (he : q.error < 65536)
    (hraw : s.raw = q.value) (hov : s.offsetValue < c.cpr) (hm : Moves 1 p cycles.flatten) :
    ∃ q' s', (cycles.map fun l => l.map quadPins).foldlM (quadCycle A c poles dt) (q, s) = some (q', s') ∧
      (s'.offsetValue : ℤ) =
        (s.offsetValue + (cycles.flatten.getLastD p - p) * c.sign) % c.cpr ∧
      q'.error = q.error := by
  induction cycles generalizing q s p with
  | nil =>
    refine ⟨q, s, rfl, ?_, rfl⟩
    simp only [List.flatten_nil, List.getLastD_nil, sub_self, zero_mul, add_zero]
    rw [Int.emod_eq_of_lt (by omega) (by exact_mod_cast hov)]
  | cons l ls ih =>
    have hm2 : ∀ (a : List ℤ) (p : ℤ) (b : List ℤ), Moves 1 p (a ++ b) →
        Moves 1 p a ∧ Moves 1 (a.getLastD p) b := by
      intro a
      induction a with
      | nil => intro p b h; exact ⟨trivial, h⟩
      | cons x a iha =>
        intro p b h
        obtain ⟨h1, h2⟩ := iha x b h.2
        exact ⟨⟨h.1, h1⟩, by rw [List.getLastD_cons]; exact h2⟩
    rw [List.flatten_cons] at hm
    obtain ⟨m1, m2⟩ := hm2 l p _ hm
    obtain ⟨q1, e, f1, f2, f3⟩ := C64_software (by omega) h0 l p q hv hp he m1
    have hcp : (0 : ℤ) < c.cpr := by exact_mod_cast h0
    have hv1 : q1.value < c.cpr := by
      have := Int.emod_lt_of_pos ((q.value : ℤ) + (l.getLastD p - p)) hcp
      rw [← f2] at this
      exact_mod_cast this
    have hread : (⟨false, true, q1.value, 0, 0, false⟩ : Reading) =
        quadReading c.cpr (q.value + (l.getLastD p - p)) false := by
      unfold quadReading
      rw [← f2]
      simp
    obtain ⟨st, es, g1, g2, -, -⟩ := quad_update A (poles := poles) (dt := dt) ht hd hc h0 hs
      (p := q.value) (q := q.value + (l.getLastD p - p)) (s := s)
      (by rw [hraw, Int.emod_eq_of_lt (by omega) (by exact_mod_cast hv)]) hov (index := false) (Or.inl rfl)
    rw [← hread] at es
    have hov1 : st.status.offsetValue < c.cpr := by
      have := Int.emod_lt_of_pos ((s.offsetValue : ℤ) +
        (q.value + (l.getLastD p - p) - q.value) * c.sign) hcp
      rw [← g2] at this
      exact_mod_cast this
    obtain ⟨q', s', e', k1, k2⟩ := ih (q := q1) (s := st.status) (p := l.getLastD p) hv1 f1
      (by rw [f3]; exact he) (by rw [← f2] at g1; exact_mod_cast g1) hov1 m2
    refine ⟨q', s', ?_, ?_, k2.trans f3⟩
    · rw [List.map_cons, List.foldlM_cons]
      have : quadCycle A c poles dt (q, s) (l.map quadPins) = some (q1, st.status) := by
        unfold quadCycle
        simp only [e, es]
      rw [this]
      exact e'
    · rw [k1, g2, Int.emod_add_emod]
      have hlast : (l ++ ls.flatten).getLastD p = ls.flatten.getLastD (l.getLastD p) := by
        simp only [List.getLastD_eq_getLast?, List.getLast?_append, Option.getD_or]
      rw [List.flatten_cons, hlast]
      congr 1
      ring

/-- A quadrature encoder with 4096 counts. -/
def quadExample : SourceConfig := { exampleSource 4096 100 (-1) 1 with type := .quadrature }

example : quadExample.type = .quadrature ∧ quadExample.debugOverride < 0 ∧ quadExample.cpr < 2 ^ 30 ∧
    0 < quadExample.cpr ∧ (quadExample.sign = 1 ∨ quadExample.sign = -1) ∧
    1 ≤ { quadExample with incrementalIndex := 1 }.incrementalIndex ∧
    flToU32 quadExample.offset < quadExample.cpr ∧
    Moves 1 0 [[1, 2, 3], [], [2, 1, 0, -1]].flatten := by
  refine ⟨rfl, by decide, by decide, by decide, Or.inr rfl, by decide, by decide +kernel, by simp [Moves]⟩

end Verif.Fw
