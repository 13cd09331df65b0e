import Verif.Fw.SensorHall

/-!
# Property C66: sources without new samples

A source is valid as long as its last sample is not older than `timeout_s`.
-/

namespace Verif.Fw

open Verif.Float Spec

/-! ## Specification -/

namespace Spec

/-- Nothing new from the device: it is not ready, or it still shows the sample
with the serial number that was used last. -/
def Stale (t : SourceType) (nonce : ℕ) (r : Reading) : Prop :=
  r.error = false ∧ (r.active = false ∨ t.Serial ∧ r.nonce = nonce)

/-- Something new from the device. -/
def Fresh (t : SourceType) (nonce : ℕ) (r : Reading) : Prop :=
  r.error = false ∧ r.active = true ∧
    (t.Serial ∧ r.nonce ≠ nonce ∨ t = .sineCosine ∨ t = .hall ∨ t = .quadrature)

/-- The time on the clock of the firmware, `n` cycles after `t`. -/
def clock (A : Ar) (dt t : Fl) : ℕ → Fl
  | 0 => t
  | n + 1 => A.add (clock A dt t n) dt

end Spec

theorem clock_succ (A : Ar) (dt t : Fl) (n : ℕ) : clock A dt t (n + 1) = clock A dt (A.add t dt) n := by
  induction n with
  | zero => rfl
  | succ n ih => rw [clock, ih]; rfl

/-! ## One cycle -/

section

variable {A : Ar} {c : SourceConfig} {poles : ℕ} {dt : Fl} {r : Reading} {s : SourceStatus}

theorem acquire_stale (ht : c.type ≠ .none ∧ c.type ≠ .sensorless) (h : Stale c.type s.nonce r) :
    ∃ a, acquire c poles r s = some a ∧ a.updated = false ∧ a.status.nonce = s.nonce ∧
      a.status.activeTheta = s.activeTheta ∧ a.status.activeVelocity = s.activeVelocity ∧
      a.status.sinceUpdate = s.sinceUpdate ∧
      a.status.activeAbsolute = (s.activeAbsolute || r.active) := by
  obtain ⟨-, h⟩ := h
  by_cases ha : r.active = true
  · obtain ⟨hs, hn⟩ : c.type.Serial ∧ r.nonce = s.nonce := by simpa [ha] using h
    refine ⟨⟨{ s with raw := r.value, activeAbsolute := true }, false, false⟩, ?_, rfl, rfl, rfl, rfl,
      rfl, by simp [ha]⟩
    unfold acquire
    rcases hs with h | h | h <;> simp only [h, ha, Bool.not_true, Bool.false_eq_true, if_false,
      updateAbsolute, hn, if_true]
  · refine ⟨⟨s, false, false⟩, ?_, rfl, rfl, rfl, rfl, rfl, by simp [ha]⟩
    have ha' : r.active = false := by simpa using ha
    unfold acquire
    rcases hc : c.type with _ | _ | _ | _ | _ | _ | _ | _ | _ <;> simp_all

theorem compensate_eq (hd : c.debugOverride < 0) (a : Acquired) :
    ∃ x, compensate A c a = { a with status := { a.status with compensated := x } } := by
  unfold compensate
  rw [if_neg (not_le.mpr hd)]
  split <;> exact ⟨_, rfl⟩

theorem stale_update (ht : c.type ≠ .none ∧ c.type ≠ .sensorless) (hd : c.debugOverride < 0)
    (h : Stale c.type s.nonce r) :
    ∃ st, updateSource A c poles dt r s = some st ∧ st.failed = false ∧ st.status.nonce = s.nonce ∧
      st.status.sinceUpdate = A.add s.sinceUpdate dt ∧
      st.status.activeTheta = (s.activeTheta && !(Fl.blt c.timeout (A.add s.sinceUpdate dt))) ∧
      st.status.activeVelocity = (s.activeVelocity && !(Fl.blt c.timeout (A.add s.sinceUpdate dt))) ∧
      ((s.activeTheta || s.activeVelocity) = true →
        Fl.blt c.timeout (A.add s.sinceUpdate dt) = true → st.status.activeAbsolute = false) := by
  obtain ⟨a, ea, h1, h2, h3, h4, h5, -⟩ := acquire_stale (poles := poles) ht h
  unfold updateSource
  simp only [if_neg ht.1, h.1, Bool.false_eq_true, if_false, ea]
  refine ⟨_, rfl, rfl, ?_⟩
  obtain ⟨x, ec⟩ := compensate_eq (A := A) hd a
  rw [ec]
  unfold settle
  simp only [h1, h3, h4, h5, Bool.false_eq_true, if_false]
  by_cases hb : s.activeTheta = false ∧ s.activeVelocity = false
  · rw [if_pos hb]
    exact ⟨h2, rfl, by simp [hb.1], by simp [hb.2], by simp [hb.1, hb.2]⟩
  · rw [if_neg hb]
    by_cases he : Fl.blt c.timeout (A.add s.sinceUpdate dt) = true
    · simp only [if_pos he]
      exact ⟨h2, trivial, by simp [he], by simp [he], fun _ _ => trivial⟩
    · simp only [if_neg he]
      have he' : Fl.blt c.timeout (A.add s.sinceUpdate dt) = false := by simpa using he
      exact ⟨h2, trivial, by simp [he'], by simp [he'], fun _ h => absurd h he⟩

theorem acquire_fresh (h : Fresh c.type s.nonce r) :
    ∃ a, acquire c poles r s = some a ∧ a.updated = true ∧ a.status.activeVelocity = true ∧
      (c.type ≠ .quadrature → a.status.activeTheta = true) ∧
      (c.type = .quadrature → c.incrementalIndex < 1 → a.status.activeTheta = s.activeTheta) ∧
      a.status.velocity = s.velocity ∧ a.status.sinceUpdate = s.sinceUpdate := by
  obtain ⟨-, ha, h⟩ := h
  unfold acquire
  rcases h with ⟨h | h | h, hn⟩ | h | h | h
  · simp only [h, ha, Bool.not_true, Bool.false_eq_true, if_false, updateAbsolute, if_neg hn]
    exact ⟨_, rfl, rfl, rfl, fun _ => rfl, fun h => by simp at h, rfl, rfl⟩
  · simp only [h, ha, Bool.not_true, Bool.false_eq_true, if_false, updateAbsolute, if_neg hn]
    exact ⟨_, rfl, rfl, rfl, fun _ => rfl, fun h => by simp at h, rfl, rfl⟩
  · simp only [h, ha, Bool.not_true, Bool.false_eq_true, if_false, updateAbsolute, if_neg hn]
    exact ⟨_, rfl, rfl, rfl, fun _ => rfl, fun h => by simp at h, rfl, rfl⟩
  · simp only [h, ha, Bool.not_true, Bool.false_eq_true, if_false, updateAbsolute]
    rw [if_neg (by omega)]
    exact ⟨_, rfl, rfl, rfl, fun _ => rfl, fun h => by simp at h, rfl, rfl⟩
  · simp only [h, ha, Bool.not_true, Bool.false_eq_true, if_false, updateAbsolute]
    rw [if_neg (by omega)]
    exact ⟨_, rfl, rfl, rfl, fun _ => rfl, fun h => by simp at h, rfl, rfl⟩
  · simp only [h, ha, Bool.not_true, Bool.false_eq_true, if_false]
    by_cases hi : s.activeTheta = false ∧ 1 ≤ c.incrementalIndex ∧ r.index = true
    · rw [if_pos hi]
      exact ⟨_, rfl, rfl, rfl, fun h => by simp at h, fun _ h => by omega, rfl, rfl⟩
    · rw [if_neg hi]
      exact ⟨_, rfl, rfl, rfl, fun h => by simp at h, fun _ _ => rfl, rfl, rfl⟩

/-- C66: a new sample starts the clock again and makes the source valid. -/
theorem C66_fresh (hd : c.debugOverride < 0) (h : Fresh c.type s.nonce r) :
    ∃ st, updateSource A c poles dt r s = some st ∧ st.status.sinceUpdate = .fin 0 ∧
      st.status.activeVelocity = true ∧
      (c.type ≠ .quadrature → st.status.activeTheta = true) ∧
      (c.type = .quadrature → c.incrementalIndex < 1 → st.status.activeTheta = s.activeTheta) := by
  obtain ⟨a, ea, h1, h2, h3, h4, -, -⟩ := acquire_fresh (poles := poles) h
  obtain ⟨he, ha, h⟩ := h
  have ht : c.type ≠ .none := by
    rcases h with ⟨h | h | h, -⟩ | h | h | h <;> simp [h]
  unfold updateSource
  simp only [if_neg ht, he, Bool.false_eq_true, if_false, ea]
  refine ⟨_, rfl, ?_⟩
  obtain ⟨-, -, -, c4, c5, c6, c7⟩ := compensate_value (A := A) hd a
  obtain ⟨-, -, -, s4⟩ := settle_value (A := A) (c := c) (dt := dt) s (compensate A c a)
  obtain ⟨t1, t2, -⟩ := s4 (c7.trans h1)
  refine ⟨?_, (t2.trans c5).trans h2, fun hq => (t1.trans c4).trans (h3 hq),
    fun hq hi => (t1.trans c4).trans (h4 hq hi)⟩
  unfold settle
  simp only [c5, h2, c7, h1, if_true, Bool.true_eq_false, and_false, if_false]

/-- C66: an error of the port makes the source invalid at once. -/
theorem C66_port_error (ht : c.type ≠ .none) (h : r.error = true) :
    ∃ st, updateSource A c poles dt r s = some st ∧ st.failed = true ∧
      st.status.activeTheta = false ∧ st.status.activeVelocity = false ∧
      st.status.activeAbsolute = false := by
  unfold updateSource
  simp only [if_neg ht, h, if_true]
  exact ⟨_, rfl, rfl, rfl, rfl, rfl⟩

/-- C66: for any arithmetic, over any number of cycles without news a source is
valid exactly as long as the clock has not passed the timeout. -/
theorem C66_valid_until_timeout (ht : c.type ≠ .none ∧ c.type ≠ .sensorless) (hd : c.debugOverride < 0)
    (l : List Reading) (hl : ∀ r ∈ l, Stale c.type s.nonce r) :
    ∃ s', runSource A c poles dt s l = some s' ∧
      s'.sinceUpdate = clock A dt s.sinceUpdate l.length ∧
      (s'.activeTheta = true ↔ s.activeTheta = true ∧ ∀ k, 1 ≤ k → k ≤ l.length →
        Fl.blt c.timeout (clock A dt s.sinceUpdate k) = false) ∧
      (s'.activeVelocity = true ↔ s.activeVelocity = true ∧ ∀ k, 1 ≤ k → k ≤ l.length →
        Fl.blt c.timeout (clock A dt s.sinceUpdate k) = false) := by
  induction l generalizing s with
  | nil =>
    refine ⟨s, rfl, rfl, ?_, ?_⟩ <;>
    · refine ⟨fun h => ⟨h, fun k h1 h2 => ?_⟩, fun h => h.1⟩
      simp only [List.length_nil] at h2
      omega
  | cons r l ih =>
    obtain ⟨st, e, -, e2, e3, e4, e5, -⟩ := stale_update (A := A) (poles := poles) (dt := dt) ht hd
      (hl r (by simp))
    obtain ⟨s', e', g1, g2, g3⟩ := ih (s := st.status) (fun r' h => by
      rw [e2]; exact hl r' (by simp [h]))
    have hk : ∀ k, clock A dt st.status.sinceUpdate k = clock A dt s.sinceUpdate (k + 1) := by
      intro k; rw [e3, ← clock_succ]
    have hall : ∀ b : Bool, ((b && !(Fl.blt c.timeout (A.add s.sinceUpdate dt))) = true ∧
        ∀ k, 1 ≤ k → k ≤ l.length → Fl.blt c.timeout (clock A dt st.status.sinceUpdate k) = false) ↔
        (b = true ∧ ∀ k, 1 ≤ k → k ≤ (r :: l).length →
          Fl.blt c.timeout (clock A dt s.sinceUpdate k) = false) := by
      intro b
      rw [Bool.and_eq_true, Bool.not_eq_true', and_assoc]
      refine and_congr_right fun _ => ⟨fun ⟨h1, h2⟩ k hk1 hk2 => ?_, fun h => ⟨?_, fun k hk1 hk2 => ?_⟩⟩
      · rcases k with _ | _ | k
        · omega
        · exact h1
        · have := h2 (k + 1) (by omega) (by simp only [List.length_cons] at hk2; omega)
          rwa [hk] at this
      · exact h 1 le_rfl (by simp)
      · rw [hk]
        exact h (k + 1) (by omega) (by simp only [List.length_cons]; omega)
    refine ⟨s', ?_, ?_, ?_, ?_⟩
    · unfold runSource at e' ⊢
      rw [List.foldlM_cons, e]
      exact e'
    · rw [g1, hk, List.length_cons]
    · rw [g2, e4]; exact hall _
    · rw [g3, e5]; exact hall _

end

/-! ## How long it takes -/

theorem clock_exact (dt t : ℚ) (n : ℕ) : clock .exact (.fin dt) (.fin t) n = .fin (t + n * dt) := by
  induction n with
  | zero => simp [clock]
  | succ n ih =>
    rw [clock, ih, add_fin]
    show Fl.fin (t + n * dt + dt) = _
    push_cast
    congr 1
    ring

/-- C66: in exact arithmetic the source is valid `n` cycles after its last
sample if and only if these took no longer than the timeout. -/
theorem C66_timeout_exact {c : SourceConfig} {poles : ℕ} {s : SourceStatus} {dt timeout : ℚ}
    (ht : c.type ≠ .none ∧ c.type ≠ .sensorless) (hd : c.debugOverride < 0)
    (hto : c.timeout = .fin timeout) (hdt : 0 ≤ dt) (hs : s.sinceUpdate = .fin 0)
    (ha : s.activeTheta = true) (l : List Reading) (hne : l ≠ [])
    (hl : ∀ r ∈ l, Stale c.type s.nonce r) :
    ∃ s', runSource .exact c poles (.fin dt) s l = some s' ∧
      (s'.activeTheta = true ↔ l.length * dt ≤ timeout) := by
  obtain ⟨s', e, -, g, -⟩ := C66_valid_until_timeout (A := .exact) (poles := poles) (dt := .fin dt) ht hd l hl
  refine ⟨s', e, ?_⟩
  rw [g, hs, hto]
  have hb : ∀ k : ℕ, Fl.blt (.fin timeout) (clock .exact (.fin dt) (.fin 0) k) = false ↔ k * dt ≤ timeout := by
    intro k
    rw [clock_exact, zero_add]
    rw [Fl.blt_fin, decide_eq_false_iff_not, not_lt]
  constructor
  · rintro ⟨-, h⟩
    exact (hb _).mp (h l.length (by
      have := List.length_pos_iff.mpr hne; omega) le_rfl)
  · intro h
    refine ⟨ha, fun k _ hk => (hb k).mpr (le_trans ?_ h)⟩
    have : (k : ℚ) ≤ l.length := by exact_mod_cast hk
    exact mul_le_mul_of_nonneg_right this hdt

/-- The clock in floating point, until it passes `T`. -/
theorem clock_near {A : Ar} (hA : Ar.Law3 A) {dt T ε : ℚ} (hdt : pow2 (-100) ≤ dt) (hT : dt ≤ T)
    (hTm : T ≤ 2 ^ 100) (hε : 2 * T * pow2 (-24) ≤ ε * dt) (n : ℕ) :
    (∃ k ≤ n, Fl.blt (.fin T) (clock A (.fin dt) (.fin 0) k) = true ∧ T < k * (1 + ε) * dt) ∨
    ∃ x, clock A (.fin dt) (.fin 0) n = .fin x ∧ 0 ≤ x ∧ x ≤ T ∧ n * (1 - ε) * dt ≤ x ∧
      x ≤ n * (1 + ε) * dt := by
  have h100 : (0 : ℚ) < pow2 (-100) := pow2_pos _
  have hd0 : 0 < dt := lt_of_lt_of_le h100 hdt
  induction n with
  | zero => exact Or.inr ⟨0, rfl, le_rfl, by linarith, by simp, by simp⟩
  | succ n ih =>
    rcases ih with ⟨k, hk, h1, h2⟩ | ⟨x, ex, hx0, x1, x2, x3⟩
    · exact Or.inl ⟨k, by omega, h1, h2⟩
    · have hxd : |x + dt| ≤ 2 * T := by rw [abs_of_nonneg (by linarith)]; linarith
      have hrel := hA.rel (x := x + dt) (by rw [abs_of_nonneg (by linarith)]; linarith)
      have hb : |x + dt| * pow2 (-24) ≤ ε * dt :=
        le_trans (mul_le_mul_of_nonneg_right hxd (pow2_pos _).le) hε
      have hr := abs_le.mp (le_trans hrel hb)
      have hfin : A.rnd (x + dt) = .fin (A.rq (x + dt)) := by
        refine hA.rnd_fin (le_trans hxd ?_)
        have : (2 : ℚ) * 2 ^ 100 ≤ pow2 127 := by decide +kernel
        linarith
      have hstep : clock A (.fin dt) (.fin 0) (n + 1) = .fin (A.rq (x + dt)) := by
        rw [clock, ex, add_fin, hfin]
      have hup : A.rq (x + dt) ≤ (n + 1 : ℕ) * (1 + ε) * dt := by push_cast; linarith [hr.2]
      by_cases hle : A.rq (x + dt) ≤ T
      · right
        exact ⟨_, hstep, hA.toLaw.nonneg (by linarith), hle, by push_cast; linarith [hr.1], hup⟩
      · left
        refine ⟨n + 1, le_rfl, ?_, lt_of_lt_of_le (not_le.mp hle) hup⟩
        rw [hstep, Fl.blt_fin, decide_eq_true_eq]
        exact not_le.mp hle

/-- C66: in binary32, if the timeout is not too long for the clock to count (a
relative error `ε` of the clock), the source is valid while `n` cycles take less
than the timeout, up to `ε`, and invalid after. -/
theorem C66_timeout_partial {A : Ar} (hA : Ar.Law3 A) {c : SourceConfig} {poles : ℕ} {s : SourceStatus}
    {dt timeout ε : ℚ} (ht : c.type ≠ .none ∧ c.type ≠ .sensorless) (hd : c.debugOverride < 0)
    (hto : c.timeout = .fin timeout) (hdt : pow2 (-100) ≤ dt) (hT : dt ≤ timeout)
    (hTm : timeout ≤ 2 ^ 100) (hε : 2 * timeout * pow2 (-24) ≤ ε * dt)
    (hs : s.sinceUpdate = .fin 0) (ha : s.activeTheta = true) (l : List Reading)
    (hl : ∀ r ∈ l, Stale c.type s.nonce r) :
    ∃ s', runSource A c poles (.fin dt) s l = some s' ∧
      (l.length * (1 + ε) * dt ≤ timeout → s'.activeTheta = true) ∧
      (timeout < l.length * (1 - ε) * dt → s'.activeTheta = false) := by
  obtain ⟨s', e, -, g, -⟩ := C66_valid_until_timeout (A := A) (poles := poles) (dt := .fin dt) ht hd l hl
  have hd0 : 0 < dt := lt_of_lt_of_le (pow2_pos _) hdt
  have hε0 : 0 ≤ ε := by
    by_contra h
    have h1 : ε * dt < 0 := mul_neg_of_neg_of_pos (not_le.mp h) hd0
    have h2 : 0 ≤ 2 * timeout * pow2 (-24) := mul_nonneg (by linarith) (pow2_pos _).le
    linarith
  have hmono : ∀ {k n : ℕ}, k ≤ n → k * (1 + ε) * dt ≤ n * (1 + ε) * dt := by
    intro k n h
    have : (k : ℚ) ≤ n := by exact_mod_cast h
    exact mul_le_mul_of_nonneg_right (mul_le_mul_of_nonneg_right this (by linarith)) hd0.le
  refine ⟨s', e, fun h => ?_, fun h => ?_⟩
  · rw [g, hs, hto]
    refine ⟨ha, fun k _ hk => ?_⟩
    rcases clock_near hA hdt hT hTm hε k with ⟨m, hm, -, h2⟩ | ⟨x, ex, -, x1, -, -⟩
    · exact absurd (lt_of_lt_of_le h2 (le_trans (hmono (le_trans hm hk)) h)) (lt_irrefl _)
    · rw [ex, Fl.blt_fin, decide_eq_false_iff_not, not_lt]
      exact x1
  · rw [← Bool.not_eq_true, g, hs, hto]
    rintro ⟨-, hall⟩
    rcases clock_near hA hdt hT hTm hε l.length with ⟨m, hm, h1, -⟩ | ⟨x, -, -, x1, x2, -⟩
    · rcases Nat.eq_zero_or_pos m with h0 | h0
      · subst h0
        rw [clock, Fl.blt_fin, decide_eq_true_eq] at h1
        linarith
      · rw [hall m h0 hm] at h1
        exact absurd h1 (by simp)
    · linarith

/-- With the default timeout of 0.2 s and 30 kHz the clock is right to one
part in a thousand: the source expires between 5994 and 6007 cycles. -/
example : pow2 (-100) ≤ (1 / 30000 : ℚ) ∧ (1 / 30000 : ℚ) ≤ 1 / 5 ∧
    2 * (1 / 5) * pow2 (-24) ≤ 1 / 1000 * (1 / 30000) ∧
    5994 * (1 + 1 / 1000) * (1 / 30000 : ℚ) ≤ 1 / 5 ∧ 1 / 5 < 6007 * (1 - 1 / 1000) * (1 / 30000 : ℚ) := by
  refine ⟨by decide +kernel, by norm_num, by decide +kernel, by norm_num, by norm_num⟩

/-- C66 is violated for long timeouts: with at least 1024 s and a control rate
of at least 16384 Hz the clock stops at 1024 s and the source never becomes
invalid, however long it has had no sample. -/
theorem C66_long_timeout_refuted {c : SourceConfig} {poles : ℕ} {s : SourceStatus} {dt timeout : ℚ}
    (ht : c.type ≠ .none ∧ c.type ≠ .sensorless) (hd : c.debugOverride < 0)
    (hto : c.timeout = .fin timeout) (hT : 1024 ≤ timeout) (hdt : 0 ≤ dt) (hdt2 : dt ≤ 1 / 16384)
    (hs : s.sinceUpdate = .fin 0) (ha : s.activeTheta = true) (l : List Reading)
    (hl : ∀ r ∈ l, Stale c.type s.nonce r) :
    ∃ s', runSource .single c poles (.fin dt) s l = some s' ∧ s'.activeTheta = true := by
  obtain ⟨s', e, -, g, -⟩ := C66_valid_until_timeout (A := .single) (poles := poles) (dt := .fin dt) ht hd l hl
  refine ⟨s', e, ?_⟩
  have hstop : ∀ n, ∃ x, clock .single (.fin dt) (.fin 0) n = .fin x ∧ 0 ≤ x ∧ x ≤ 1024 := by
    intro n
    induction n with
    | zero => exact ⟨0, rfl, le_rfl, by norm_num⟩
    | succ n ih =>
      obtain ⟨x, ex, x0, x1⟩ := ih
      have hm := Ar.single_law.mono (show x + dt ≤ 1024 + 1 / 16384 by linarith)
      rw [show Ar.single.rq (1024 + 1 / 16384) = 1024 by decide +kernel] at hm
      refine ⟨Ar.single.rq (x + dt), ?_, Ar.single_law.nonneg (by linarith), hm⟩
      rw [clock, ex, add_fin]
      refine Ar.single_law2.rnd_fin ?_
      rw [abs_of_nonneg (by linarith)]
      have : (2048 : ℚ) ≤ pow2 127 := by decide +kernel
      linarith
  rw [g, hs, hto]
  refine ⟨ha, fun k _ _ => ?_⟩
  obtain ⟨x, ex, -, x1⟩ := hstop k
  rw [ex, Fl.blt_fin, decide_eq_false_iff_not, not_lt]
  linarith

/-! ## What goes wrong -/

/-- C66 is violated for `active_absolute`: the cycle after the timeout sets it
again, from the same old sample. -/
theorem C66_absolute_refuted :
    ∃ s1 s2, runSource .single (exampleSource 16384 0 1 1) 14 (.fin 1)
        { SourceStatus.init with activeTheta := true, activeVelocity := true, activeAbsolute := true }
        [⟨false, true, 7, 0, 0, false⟩, ⟨false, true, 7, 0, 0, false⟩] = some s1 ∧
      s1.activeTheta = false ∧ s1.activeAbsolute = false ∧
      runSource .single (exampleSource 16384 0 1 1) 14 (.fin 1) s1 [⟨false, true, 7, 0, 0, false⟩] = some s2 ∧
      s2.activeTheta = false ∧ s2.activeAbsolute = true := by
  refine ⟨_, _, rfl, by decide +kernel, by decide +kernel, rfl, by decide +kernel, by decide +kernel⟩

/-- One cycle of an index source after the timeout. -/
theorem index_update {A : Ar} {c : SourceConfig} {poles : ℕ} {dt : Fl} {r : Reading}
    {s : SourceStatus} (ht : c.type = .index) (hd : c.debugOverride < 0) (he : r.error = false)
    (hb : Fl.blt c.timeout (A.add s.sinceUpdate dt) = true) :
    ∃ st, updateSource A c poles dt r s = some st ∧ st.status.activeTheta = false ∧
      (r.active = true → st.status.activeAbsolute = false) ∧
      st.status.sinceUpdate = A.add s.sinceUpdate dt := by
  by_cases ha : r.active = true
  · unfold updateSource acquire
    simp only [ht, he, ha, Bool.not_true, Bool.false_eq_true, if_false, reduceCtorEq]
    by_cases hi : r.index = true
    · simp only [if_pos hi]
      refine ⟨_, rfl, ?_⟩
      unfold compensate
      rw [if_neg (not_le.mpr hd)]
      unfold settle
      split <;> simp [hb]
    · simp only [if_neg hi]
      refine ⟨_, rfl, ?_⟩
      unfold compensate
      rw [if_neg (not_le.mpr hd)]
      unfold settle
      by_cases hv : s.activeVelocity = false
      · split <;> simp [hv]
      · split <;> simp [hv, hb]
  · obtain ⟨st, e, -, -, e3, e4, -, -⟩ := stale_update (A := A) (poles := poles) (dt := dt) (c := c) (s := s)
      (r := r) (by simp [ht]) hd ⟨he, Or.inl (by simpa using ha)⟩
    exact ⟨st, e, by rw [e4, hb]; simp, fun h => absurd h ha, e3⟩

/-- C66: until the time since the start passes the timeout, an index source is
valid exactly while its switch is closed. -/
theorem C66_index_partial {A : Ar} {c : SourceConfig} {poles : ℕ} {dt : Fl} {r : Reading}
    {s : SourceStatus} (ht : c.type = .index) (hd : c.debugOverride < 0) (he : r.error = false)
    (ha : r.active = true) (hb : Fl.blt c.timeout (A.add s.sinceUpdate dt) = false) :
    ∃ st, updateSource A c poles dt r s = some st ∧ st.status.activeTheta = r.index ∧
      st.status.activeAbsolute = r.index ∧
      (r.index = true → st.status.offsetValue = flToU32 c.offset) := by
  unfold updateSource acquire
  simp only [ht, he, ha, Bool.not_true, Bool.false_eq_true, if_false, reduceCtorEq]
  by_cases hi : r.index = true
  · simp only [if_pos hi]
    refine ⟨_, rfl, ?_⟩
    unfold compensate
    rw [if_neg (not_le.mpr hd)]
    unfold settle
    split <;> simp [hb, hi]
  · simp only [if_neg hi]
    refine ⟨_, rfl, ?_⟩
    unfold compensate
    rw [if_neg (not_le.mpr hd)]
    unfold settle
    by_cases hv : s.activeVelocity = false
    · split <;> simp [hv, hi]
    · split <;> simp [hv, hb, hi]

/-- C66 is violated by index sources (homing switches): once the time since the
start has passed the timeout, the source is never valid again, whatever the
switch does.  `hlast` says that there is a reading. -/
theorem C66_index_refuted {A : Ar} (hA : Ar.Law A) {c : SourceConfig} {poles : ℕ} {dt : ℚ} {t : ℚ}
    {s : SourceStatus} (ht : c.type = .index) (hd : c.debugOverride < 0) (hdt : 0 ≤ dt)
    (hs : s.sinceUpdate = .fin t) (hrep : A.Rep t) (hb : Fl.blt c.timeout (.fin t) = true)
    (l : List Reading) (hl : ∀ r ∈ l, r.error = false) (hlast : l ≠ []) :
    ∃ s', runSource A c poles (.fin dt) s l = some s' ∧ s'.activeTheta = false := by
  have hgrow : ∀ x : Fl, A.RepF x → Fl.blt c.timeout x = true →
      A.RepF (A.add x (.fin dt)) ∧ Fl.blt c.timeout (A.add x (.fin dt)) = true := by
    intro x hx hbx
    refine ⟨hA.repF_add _ _, ?_⟩
    rcases x with _ | sg | q
    · simp at hbx
    · exact hbx
    · have h1 : (Fl.fin q).Le (A.add (.fin q) (.fin dt)) := hA.le_rnd hx (by linarith)
      have h2 : c.timeout ≠ .nan := by rintro h; rw [h] at hbx; simp at hbx
      by_contra h3
      have h4 := (Fl.not_blt h2 h1.not_nan.2).mp (by simpa using h3)
      have h5 := (Fl.not_blt h2 (by simp : Fl.fin q ≠ .nan)).mpr (h1.trans h4)
      rw [h5] at hbx
      exact absurd hbx (by simp)
  suffices h : ∀ (l : List Reading) (s : SourceStatus), A.RepF s.sinceUpdate →
      Fl.blt c.timeout s.sinceUpdate = true → (∀ r ∈ l, r.error = false) →
      (l ≠ [] ∨ s.activeTheta = false) →
      ∃ s', runSource A c poles (.fin dt) s l = some s' ∧ s'.activeTheta = false from
    h l s (by rw [hs]; exact hrep) (by rw [hs]; exact hb) hl (Or.inl hlast)
  intro l
  induction l with
  | nil => intro s _ _ _ h; exact ⟨s, rfl, by simpa using h⟩
  | cons r l ih =>
    intro s h1 h2 h3 _
    obtain ⟨g1, g2⟩ := hgrow _ h1 h2
    obtain ⟨st, e, e1, -, e2⟩ := index_update (A := A) (poles := poles) (r := r) ht hd (h3 r (by simp)) g2
    obtain ⟨s', e', k⟩ := ih st.status (by rw [e2]; exact g1) (by rw [e2]; exact g2)
      (fun r' h => h3 r' (by simp [h])) (Or.inr e1)
    refine ⟨s', ?_, k⟩
    unfold runSource at e' ⊢
    rw [List.foldlM_cons, e]
    exact e'

/-- With the default timeout of 0.2 s and 30 kHz, a switch that closes 0.3 s
after the start is not seen. -/
example : Fl.blt (exampleSource 16384 0 1 (1 / 5)).timeout
    (Ar.single.add (.fin (3 / 10)) (.fin (1 / 30000))) = true := by decide +kernel

end Verif.Fw
