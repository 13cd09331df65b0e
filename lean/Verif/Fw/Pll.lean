import Verif.Fw.SensorTimeout
import Mathlib.Tactic.Positivity
import Mathlib.Tactic.FieldSimp

/-!
# Property C67: the filter of a source

`ISR_UpdateSources` (`fw/motor_position.h` 972-1029): the position without
filter, the limit of the velocity, and the convergence of the filter.
-/

namespace Verif.Fw

open Verif.Float Spec

/-! ## Wrapping -/

theorem exact_add (a b : ℚ) : Ar.exact.add (.fin a) (.fin b) = .fin (a + b) := rfl
theorem exact_mul (a b : ℚ) : Ar.exact.mul (.fin a) (.fin b) = .fin (a * b) := rfl
theorem exact_lit (a : ℚ) : Ar.exact.lit a = .fin a := rfl
theorem exact_sub (a b : ℚ) : Ar.exact.sub (.fin a) (.fin b) = .fin (a - b) := by
  rw [sub_fin]; rfl
theorem exact_div {a b : ℚ} (h : b ≠ 0) : Ar.exact.div (.fin a) (.fin b) = .fin (a / b) := by
  simp [Ar.div, h]

theorem truncQ_floor {q : ℚ} : (0 ≤ q → 0 ≤ q - truncQ q ∧ q - truncQ q < 1) ∧
    (q ≤ 0 → -1 < q - truncQ q ∧ q - truncQ q ≤ 0) := by
  obtain ⟨h1, h2, h3⟩ := truncQ_spec q
  rw [abs_lt] at h1
  refine ⟨fun h => ?_, fun h => ?_⟩
  · have := (h2 h).2
    constructor <;> linarith
  · have := (h3 h).2
    constructor <;> linarith

theorem wrapCpr_exact {y s : ℚ} (hs : 0 < s) (hy : |y| ≤ 1000 * s) :
    ∃ (r : ℚ) (n : ℤ), wrapCpr .exact (.fin y) (.fin s) = .fin r ∧ r = y + n * s ∧ 0 ≤ r ∧ r < s := by
  have hq : |y / s| ≤ 1000 := by
    rw [abs_div, abs_of_pos hs, div_le_iff₀ hs]; exact hy
  obtain ⟨t1, -⟩ := toI32_small (q := y / s) (by linarith)
  have tr := truncQ_floor (q := y / s)
  have e : wrapCpr .exact (.fin y) (.fin s) =
      if 0 ≤ y - truncQ (y / s) * s then .fin (y - truncQ (y / s) * s)
      else .fin (y - truncQ (y / s) * s + s) := by
    unfold wrapCpr
    rw [exact_div hs.ne', t1]
    simp only [exact_lit, exact_mul, exact_sub, exact_add, Fl.ble_fin, decide_eq_true_eq]
  rw [e]
  generalize truncQ (y / s) = D at tr
  have hys : y / s * s = y := div_mul_cancel₀ _ hs.ne'
  have hm : y - D * s = (y / s - D) * s := by rw [sub_mul, hys]
  rcases le_total 0 (y / s) with h | h
  · obtain ⟨a, b⟩ := tr.1 h
    have h0 : 0 ≤ y - D * s := by rw [hm]; exact mul_nonneg a hs.le
    rw [if_pos h0]
    refine ⟨_, -D, rfl, by push_cast; ring, h0, ?_⟩
    rw [hm]
    nlinarith
  · obtain ⟨a, b⟩ := tr.2 h
    by_cases h0 : 0 ≤ y - D * s
    · rw [if_pos h0]
      refine ⟨_, -D, rfl, by push_cast; ring, h0, ?_⟩
      rw [hm]
      nlinarith
    · rw [if_neg h0]
      refine ⟨_, 1 - D, rfl, by push_cast; ring, ?_, by linarith⟩
      have : -s < y - D * s := by rw [hm]; nlinarith
      linarith

/-- Two numbers in the same half open turn that differ by whole turns are equal. -/
theorem turn_unique {x y s lo : ℚ} {n : ℤ} (hs : 0 < s) (h : x = y + n * s) (hx : lo ≤ x) (hx' : x < lo + s)
    (hy : lo ≤ y) (hy' : y < lo + s) : x = y := by
  have hn : n = 0 := by
    have h1 : (n : ℚ) * s < 1 * s := by linarith
    have h2 : (-1 : ℚ) * s < n * s := by linarith
    have h1' : (n : ℚ) < 1 := lt_of_mul_lt_mul_right h1 hs.le
    have h2' : (-1 : ℚ) < n := lt_of_mul_lt_mul_right h2 hs.le
    have h3 : n < 1 := by exact_mod_cast h1'
    have h4 : -1 < n := by exact_mod_cast h2'
    omega
  rw [h, hn]; simp

/-- The balanced wrap removes whole turns. -/
theorem wrapBalanced_exact {y e s : ℚ} {n : ℤ} (hs : 0 < s) (hy : |y| ≤ 900 * s) (h : y = e + n * s)
    (he : |e| < s / 2) : wrapBalancedCpr .exact (.fin y) (.fin s) = .fin e := by
  have he' := abs_lt.mp he
  have hy' := abs_le.mp hy
  unfold wrapBalancedCpr
  simp only [exact_lit, exact_mul, exact_add]
  obtain ⟨r, m, er, hr, r0, r1⟩ := wrapCpr_exact (y := y + 3 / 2 * s) hs
    (by rw [abs_le]; constructor <;> linarith)
  rw [er, exact_sub]
  congr 1
  refine turn_unique (n := n + m + 1) (lo := -(s / 2)) hs ?_ (by linarith) (by linarith) (by linarith)
    (by linarith)
  rw [hr, h]
  push_cast
  ring

/-! ## C67: without filter -/

/-- A count below the resolution stays as it is. -/
theorem wrapCpr_count {A : Ar} (hA : Ar.Law2 A) {n cpr : ℕ} (h : n < cpr) (hc : cpr ≤ 2 ^ 24) :
    wrapCpr A (.fin n) (.fin cpr) = .fin n := by
  have hc0 : (0 : ℚ) < cpr := by exact_mod_cast (by omega : 0 < cpr)
  have hrep : A.Rep (((2 ^ 24 - 1 : ℤ) : ℚ) * pow2 (-24)) :=
    hA.unscale (by norm_num) (by norm_num) (by norm_num)
  have hle : (n : ℚ) / cpr ≤ ((2 ^ 24 - 1 : ℤ) : ℚ) * pow2 (-24) := by
    rw [div_le_iff₀ hc0, show pow2 (-24) = 1 / 16777216 from by decide +kernel]
    have h1 : (n : ℚ) + 1 ≤ cpr := by exact_mod_cast h
    have h2 : (cpr : ℚ) ≤ 16777216 := by exact_mod_cast hc
    push_cast
    linarith
  have hn0 : (0 : ℚ) ≤ n := Nat.cast_nonneg n
  have hq0 : (0 : ℚ) ≤ (n : ℚ) / cpr := div_nonneg hn0 hc0.le
  have hlt : ((2 ^ 24 - 1 : ℤ) : ℚ) * pow2 (-24) < 1 := by
    rw [show pow2 (-24) = 1 / 16777216 from by decide +kernel]; norm_num
  have hfin : A.rnd ((n : ℚ) / cpr) = .fin (A.rq ((n : ℚ) / cpr)) := by
    refine hA.rnd_fin ?_
    rw [abs_of_nonneg hq0]
    have : (1 : ℚ) ≤ pow2 127 := by decide +kernel
    exact (hle.trans hlt.le).trans this
  have h1 : A.rq ((n : ℚ) / cpr) < 1 := by
    have := hA.mono hle
    rw [hrep.1] at this
    exact lt_of_le_of_lt this hlt
  have h0 : 0 ≤ A.rq ((n : ℚ) / cpr) := hA.toLaw.nonneg hq0
  have ht : toI32 (A.div (.fin n) (.fin cpr)) = 0 := by
    have e : A.div (.fin n) (.fin cpr) = .fin (A.rq ((n : ℚ) / cpr)) := by
      simp only [Ar.div, hc0.ne', if_false]; exact hfin
    rw [e, (toI32_small (by rw [abs_of_nonneg h0]; linarith)).1]
    obtain ⟨a, b⟩ := (truncQ_spec (A.rq ((n : ℚ) / cpr))).2.1 h0
    have : truncQ (A.rq ((n : ℚ) / cpr)) < 1 := by exact_mod_cast lt_of_le_of_lt b h1
    omega
  have hz : A.rnd 0 = .fin 0 := hA.rep_zero.rnd
  have hnr : A.rnd (n : ℚ) = .fin n := hA.lit_nat (by omega)
  unfold wrapCpr
  rw [ht]
  have hl : A.lit ((0 : ℤ) : ℚ) = .fin 0 := by
    have := hA.lit_int (n := 0) (by norm_num); simpa using this
  simp only [hl, mul_fin, zero_mul, hz, sub_fin, sub_zero, hnr, Fl.ble_fin]
  rw [if_pos (by simp)]

/-- A new value without filter. -/
theorem track_unfiltered {A : Ar} {c : SourceConfig} (hp : c.pllHz = .fin 0) (old s : SourceStatus) :
    (track A c old s).filtered = s.compensated ∧
      ((track A c old s).velocity = .fin 0 ∨ (track A c old s).velocity = s.velocity) := by
  unfold track
  have : Fl.beq c.pllHz (.fin 0) = true := by rw [hp]; simp
  split
  · simp
  · split
    · simp
    · rw [if_neg (by simp [this])]; simp

/-- C67: without filter and compensation the filtered position is the count, in
binary32 also, and the velocity is and stays zero. -/
theorem C67_unfiltered {A : Ar} (hA : Ar.Law2 A) {c : SourceConfig} {poles : ℕ} {dt : Fl} {r : Reading}
    {s : SourceStatus} (hd : c.debugOverride < 0) (h : Fresh c.type s.nonce r)
    (hp : c.pllHz = .fin 0) (hcomp : c.compEnabled = false) (hc : c.cpr ≤ 2 ^ 24)
    (hv : s.velocity = .fin 0) :
    ∃ st, updateSource A c poles dt r s = some st ∧ st.status.velocity = .fin 0 ∧
      (st.status.offsetValue < c.cpr → st.status.filtered = .fin st.status.offsetValue) := by
  obtain ⟨a, ea, h1, h2, -, -, h5, -⟩ := acquire_fresh (poles := poles) h
  have ht : c.type ≠ .none := by
    rcases h.2.2 with ⟨h | h | h, -⟩ | h | h | h <;> simp [h]
  unfold updateSource
  simp only [if_neg ht, h.1, Bool.false_eq_true, if_false, ea]
  refine ⟨_, rfl, ?_⟩
  have hcc : compensate A c a =
      { a with status := { a.status with compensated := A.lit a.status.offsetValue } } := by
    unfold compensate
    rw [if_neg (not_le.mpr hd), hcomp]
    rfl
  rw [hcc]
  unfold settle
  simp only [h1, h2, Bool.true_eq_false, and_false, if_false, if_true]
  obtain ⟨k1, k2⟩ := track_unfiltered (A := A) hp s { a.status with
      compensated := A.lit a.status.offsetValue
      sinceUpdate := A.add a.status.sinceUpdate dt
      activeVelocity := true
      filtered := A.add a.status.filtered (A.mul dt a.status.velocity) }
  obtain ⟨m1, -, -, -, -, -⟩ := track_value (A := A) (c := c) s (s := { a.status with
      compensated := A.lit a.status.offsetValue
      sinceUpdate := A.add a.status.sinceUpdate dt
      activeVelocity := true
      filtered := A.add a.status.filtered (A.mul dt a.status.velocity) })
  refine ⟨?_, fun hlt => ?_⟩
  · rcases k2 with k | k
    · exact k
    · rw [k]; exact h5.trans hv
  · rw [m1] at hlt ⊢
    rw [k1, hA.lit_nat (by simp only at hlt; omega), hA.lit_nat hc]
    exact wrapCpr_count hA hlt hc

/-! ## C67: the limit of the velocity -/

theorem track_limit {A : Ar} {c : SourceConfig} {old s : SourceStatus}
    (hp : Fl.beq c.pllHz (.fin 0) = false) (h1 : old.activeVelocity = true)
    (h2 : ¬ (old.activeTheta = false ∧ s.activeTheta = true))
    (hm : (Fl.fin 0).Le (A.div (A.mul (A.lit (1 / 8)) (A.lit c.cpr)) s.sinceUpdate)) :
    (track A c old s).velocity = .nan ∨
      Fl.Le (track A c old s).velocity.abs (A.div (A.mul (A.lit (1 / 8)) (A.lit c.cpr)) s.sinceUpdate) := by
  unfold track
  rw [if_neg (by simp [h1]), if_neg h2, if_pos hp]
  simp only
  generalize A.div (A.mul (A.lit (1 / 8)) (A.lit c.cpr)) s.sinceUpdate = m at hm ⊢
  generalize A.add s.velocity _ = v
  rcases m with _ | ⟨_ | _⟩ | m
  · simp [Fl.Le] at hm
  · rcases v with _ | ⟨_ | _⟩ | v <;> simp [Fl.blt, Fl.ble, Fl.neg, Fl.Le, Fl.abs]
  · simp [Fl.Le, Fl.ble] at hm
  · have hm' : 0 ≤ m := by simpa [Fl.Le] using hm
    rcases v with _ | ⟨_ | _⟩ | v
    · simp [Fl.blt, Fl.ble, Fl.neg]
    · simp [Fl.blt, Fl.ble, Fl.Le, Fl.abs, abs_of_nonneg hm']
    · simp [Fl.blt, Fl.ble, Fl.neg, Fl.Le, Fl.abs, abs_of_nonneg hm']
    · right
      simp only [Fl.blt_fin, Fl.neg, decide_eq_true_eq]
      by_cases g1 : m < v
      · rw [if_pos g1]; simp [Fl.Le, Fl.abs, abs_of_nonneg hm']
      · rw [if_neg g1]
        by_cases g2 : v < -m
        · rw [if_pos g2]; simp [Fl.Le, Fl.abs, abs_of_nonneg hm']
        · rw [if_neg g2]
          simp only [Fl.Le, Fl.abs, Fl.ble_fin, decide_eq_true_eq, abs_le]
          exact ⟨not_lt.mp g2, not_lt.mp g1⟩

/-- C67: with the filter on, after a new sample the velocity is at most an
eighth of a revolution per time between samples, in any arithmetic, or NaN. -/
theorem C67_velocity_limit {A : Ar} {c : SourceConfig} {poles : ℕ} {dt : Fl} {r : Reading}
    {s : SourceStatus} (hd : c.debugOverride < 0) (h : Fresh c.type s.nonce r)
    (hp : Fl.beq c.pllHz (.fin 0) = false) (h1 : s.activeVelocity = true) (h2 : s.activeTheta = true)
    (hm : (Fl.fin 0).Le (A.div (A.mul (A.lit (1 / 8)) (A.lit c.cpr)) (A.add s.sinceUpdate dt))) :
    ∃ st, updateSource A c poles dt r s = some st ∧ (st.status.velocity = .nan ∨
      Fl.Le st.status.velocity.abs
        (A.div (A.mul (A.lit (1 / 8)) (A.lit c.cpr)) (A.add s.sinceUpdate dt))) := by
  obtain ⟨a, ea, k1, k2, -, -, -, k6⟩ := acquire_fresh (poles := poles) h
  have ht : c.type ≠ .none := by
    rcases h.2.2 with ⟨h | h | h, -⟩ | h | h | h <;> simp [h]
  obtain ⟨x, ec⟩ := compensate_eq (A := A) hd a
  unfold updateSource
  simp only [if_neg ht, h.1, Bool.false_eq_true, if_false, ea]
  refine ⟨_, rfl, ?_⟩
  rw [ec]
  unfold settle
  simp only [k1, k2, k6, Bool.true_eq_false, and_false, if_false, if_true]
  exact track_limit hp h1 (fun hh => by rw [h2] at hh; simp at hh) hm

/-! ## C67: the filter converges -/

namespace Spec

/-- A measure of the error of the filter: `a` is the error of the position, `b`
that of the velocity divided by the bandwidth. -/
def lag (a b : ℚ) : ℚ := a ^ 2 / 2 - a * b + 3 / 2 * b ^ 2

/-- It measures both errors. -/
theorem lag_bounds (a b : ℚ) : b ^ 2 ≤ lag a b ∧ a ^ 2 ≤ 6 * lag a b := by
  unfold lag
  constructor <;> nlinarith [sq_nonneg (a - b), sq_nonneg (a - 2 * b), sq_nonneg (2 * a - 3 * b)]

end Spec

/-- One step of the filter with error `e = a + h b` after the prediction. -/
theorem lag_step {a b h : ℚ} (h0 : 0 ≤ h) (h1 : h ≤ 63 / 100) :
    lag ((1 - 2 * h) * (a + h * b)) (b - h * (a + h * b)) ≤ (1 - h / 25) * lag a b := by
  have key : lag ((1 - 2 * h) * (a + h * b)) (b - h * (a + h * b)) =
      lag a b - h * ((1 - 3 / 2 * h) * (a + h * b) ^ 2 + (1 + h / 2) * b ^ 2) := by
    unfold lag; ring
  rw [key]
  have hb : lag a b / 25 ≤ (1 - 3 / 2 * h) * (a + h * b) ^ 2 + (1 + h / 2) * b ^ 2 := by
    obtain ⟨e, he⟩ : ∃ e, e = a + h * b := ⟨_, rfl⟩
    have ha : a = e - h * b := by rw [he]; ring
    rw [← he, ha]
    unfold lag
    nlinarith [sq_nonneg (e + b), sq_nonneg e, sq_nonneg b, mul_nonneg h0 (sq_nonneg (e + b)),
      mul_nonneg h0 (sq_nonneg b), mul_nonneg (sub_nonneg.mpr h1) (sq_nonneg e),
      mul_nonneg (sub_nonneg.mpr h1) (sq_nonneg b), mul_nonneg (mul_nonneg h0 h0) (sq_nonneg b),
      mul_nonneg (mul_nonneg h0 (sub_nonneg.mpr h1)) (sq_nonneg b)]
  nlinarith

namespace Spec

/-- The filter of a source with `cpr` counts follows a shaft at `X` counts with
velocity `u`, with an error of at most `V`; `w` is the bandwidth. -/
structure Tracks (cpr : ℕ) (w u V X : ℚ) (s : SourceStatus) : Prop where
  theta : s.activeTheta = true
  moving : s.activeVelocity = true
  since : s.sinceUpdate = .fin 0
  near : ∃ (f a b : ℚ) (n : ℤ), s.filtered = .fin f ∧ 0 ≤ f ∧ f < cpr ∧ f = X + a + n * cpr ∧
    s.velocity = .fin (u + w * b) ∧ lag a b ≤ V

/-- The filter is on with bandwidth `w`, slow enough for a sample every `dt`
(the firmware limits UART and I2C sources to a tenth of their rate, which is
`w dt ≤ 2 pi / 10`); the velocity `u` and an error below `L ^ 2` are within
what it can follow. -/
structure Bandwidth (c : SourceConfig) (w u dt L : ℚ) : Prop where
  on : Fl.beq c.pllHz (.fin 0) = false
  kp : c.kp = .fin (2 * w)
  ki : c.ki = .fin (w ^ 2)
  w_pos : 0 < w
  dt_pos : 0 < dt
  slow : w * dt ≤ 63 / 100
  cpr_pos : 0 < c.cpr
  L_nonneg : 0 ≤ L
  half : 10 * L ^ 2 < ((c.cpr : ℚ) / 2) ^ 2
  speed : (|u| + w * L) * dt ≤ c.cpr / 8

end Spec

theorem pred_bound {a b h L : ℚ} (h0 : 0 ≤ h) (h1 : h ≤ 63 / 100) (hl : lag a b ≤ L ^ 2) :
    (a + h * b) ^ 2 ≤ 10 * L ^ 2 := by
  refine le_trans ?_ (mul_le_mul_of_nonneg_left hl (by norm_num))
  unfold lag
  have e : (a + h * b) ^ 2 = ((a - b) + (1 + h) * b) ^ 2 := by ring
  rw [e]
  nlinarith [sq_nonneg ((a - b) - (1 + h) * b), sq_nonneg (a - b), sq_nonneg b,
    mul_nonneg h0 (sq_nonneg b), mul_nonneg (sub_nonneg.mpr h1) (sq_nonneg b),
    mul_nonneg (mul_nonneg h0 (sub_nonneg.mpr h1)) (sq_nonneg b)]

theorem settle_tracks {c : SourceConfig} {w u dt L V X : ℚ} (hb : Bandwidth c w u dt L)
    {old : SourceStatus} (ho : Tracks c.cpr w u V X old) (hV : V ≤ L ^ 2) {a : Acquired}
    (h1 : a.updated = true) (h2 : a.status.activeTheta = true) (h3 : a.status.activeVelocity = true)
    (h4 : a.status.sinceUpdate = old.sinceUpdate) (h5 : a.status.filtered = old.filtered)
    (h6 : a.status.velocity = old.velocity) {x : ℚ} {k : ℤ} (hx : a.status.compensated = .fin x)
    (x0 : 0 ≤ x) (x1 : x < c.cpr) (hxX : x = X + u * dt + k * c.cpr) :
    Tracks c.cpr w u ((1 - w * dt / 25) * V) (X + u * dt) (settle .exact c (.fin dt) old a) := by
  obtain ⟨o1, o2, o3, f, ea, b, n, of, f0, f1, fX, ov, ol⟩ := ho
  have hw := hb.w_pos
  have hdt := hb.dt_pos
  have hh0 : 0 ≤ w * dt := (mul_pos hw hdt).le
  have hc : (0 : ℚ) < c.cpr := by exact_mod_cast hb.cpr_pos
  have hL := hb.L_nonneg
  have hspeed := hb.speed
  have olL := le_trans ol hV
  -- the errors
  have hstep := lag_step (a := ea) (b := b) hh0 hb.slow
  obtain ⟨b', hb'⟩ : ∃ b', b' = b - w * dt * (ea + w * dt * b) := ⟨_, rfl⟩
  obtain ⟨e, he⟩ : ∃ e, e = ea + w * dt * b := ⟨_, rfl⟩
  rw [← he, ] at hstep hb'
  rw [← hb'] at hstep
  have hfac : 0 ≤ 1 - w * dt / 25 := by linarith [hb.slow]
  have hfac1 : 1 - w * dt / 25 ≤ 1 := by linarith
  have lag0 : 0 ≤ lag ea b := le_trans (sq_nonneg b) (lag_bounds ea b).1
  have hstepL : lag ((1 - 2 * (w * dt)) * e) b' ≤ L ^ 2 := by
    refine le_trans hstep (le_trans ?_ olL)
    nlinarith
  have hbL : |b| ≤ L := abs_le_of_sq_le_sq (le_trans (lag_bounds ea b).1 olL) hL
  have hbL' : |b'| ≤ L := abs_le_of_sq_le_sq (le_trans (lag_bounds _ b').1 hstepL) hL
  have heL : |e| < c.cpr / 2 := by
    have := pred_bound hh0 hb.slow olL
    rw [← he] at this
    exact abs_lt_of_sq_lt_sq (lt_of_le_of_lt this hb.half) (by linarith)
  have hvel : ∀ y : ℚ, |y| ≤ L → |u + w * y| * dt ≤ c.cpr / 8 := by
    intro y hy
    refine le_trans (mul_le_mul_of_nonneg_right ?_ hdt.le) hspeed
    refine le_trans (abs_add_le _ _) ?_
    rw [abs_mul, abs_of_pos hw]
    linarith [mul_le_mul_of_nonneg_left hy hw.le]
  have hv1 : |dt * (u + w * b)| ≤ c.cpr / 8 := by
    rw [abs_mul, abs_of_pos hdt, mul_comm]; exact hvel b hbL
  have hv1' := abs_le.mp hv1
  have heL' := abs_lt.mp heL
  -- the balanced error
  have hbal : wrapBalancedCpr .exact (.fin (-(f + dt * (u + w * b) - x))) (.fin c.cpr) = .fin (-e) := by
    refine wrapBalanced_exact (n := k - n) hc (by rw [abs_le]; constructor <;> linarith) ?_
      (by rw [abs_neg]; exact heL)
    rw [fX, hxX, he]
    push_cast
    ring
  have hclamp : -(1 / 8 * (c.cpr : ℚ) / dt) ≤ u + w * b + dt * w ^ 2 * -e ∧
      u + w * b + dt * w ^ 2 * -e ≤ 1 / 8 * (c.cpr : ℚ) / dt := by
    have e1 : u + w * b + dt * w ^ 2 * -e = u + w * b' := by rw [hb']; ring
    rw [e1, ← abs_le, le_div_iff₀ hdt]
    have := hvel b' hbL'
    linarith
  have hfil : |f + dt * (u + w * b) + dt * (2 * w) * -e| ≤ 1000 * c.cpr := by
    have : |dt * (2 * w) * -e| ≤ c.cpr := by
      rw [abs_mul, abs_neg, abs_of_pos (mul_pos hdt (by linarith))]
      have h63 := hb.slow
      nlinarith [abs_nonneg e]
    have := abs_le.mp this
    rw [abs_le]; constructor <;> linarith
  obtain ⟨r, m, er, hr, r0, r1⟩ := wrapCpr_exact hc hfil
  have hset : settle .exact c (.fin dt) old a = { a.status with
      sinceUpdate := .fin 0
      filtered := .fin r
      velocity := .fin (u + w * b') } := by
    unfold settle track
    simp only [h1, h2, h3, h4, h5, h6, hx, o1, o2, o3, of, ov, hb.kp, hb.ki, hb.on, exact_add, exact_mul,
      exact_sub, exact_lit, Bool.true_eq_false, false_and, and_false, if_false, if_true, Fl.neg, zero_add,
      exact_div hdt.ne', hbal, er, Fl.blt_fin, decide_eq_true_eq]
    rw [if_neg (not_lt.mpr hclamp.2), if_neg (not_lt.mpr hclamp.1)]
    congr 2
    rw [hb']; ring
  rw [hset]
  refine ⟨h2, h3, rfl, r, (1 - 2 * (w * dt)) * e, b', n + m, rfl, r0, r1, ?_, rfl, ?_⟩
  · rw [hr, fX, he]
    push_cast
    ring
  · refine le_trans hstep (mul_le_mul_of_nonneg_left ol hfac)

namespace Spec

/-- New samples of an absolute encoder on a shaft that moves `m` counts from one
to the next, from position `X` and serial number `nonce` on. -/
def Samples (c : SourceConfig) (m : ℤ) : ℕ → ℤ → List Reading → Prop
  | _, _, [] => True
  | nonce, X, r :: l => r.error = false ∧ r.active = true ∧ r.nonce ≠ nonce ∧ r.value < 2 ^ 30 ∧
      ((r.value + toI32 c.offset) * c.sign) % c.cpr = (X + m) % c.cpr ∧ Samples c m r.nonce (X + m) l

/-- An absolute encoder without compensation table. -/
structure PlainEncoder (c : SourceConfig) : Prop where
  type : c.type.Serial
  override : c.debugOverride < 0
  comp : c.compEnabled = false
  offset : |toI32 c.offset| ≤ 2 ^ 30
  sign : c.sign = 1 ∨ c.sign = -1
  cpr : c.cpr ∣ 2 ^ 32
  small : c.cpr ≤ 2 ^ 31

end Spec

/-- What the update does with a sample of an encoder without compensation. -/
theorem plain_update {A : Ar} {c : SourceConfig} (hc : PlainEncoder c) {poles : ℕ} {dt : Fl} {r : Reading}
    {s : SourceStatus} (he : r.error = false) (ha : r.active = true) (hn : r.nonce ≠ s.nonce)
    (hv : r.value < 2 ^ 30) :
    ∃ n : ℕ, (n : ℤ) = ((r.value + toI32 c.offset) * c.sign) % c.cpr ∧
      ∃ st, updateSource A c poles dt r s = some st ∧ st.status = settle A c dt s ⟨{ s with
        raw := r.value
        offsetValue := n
        nonce := r.nonce
        activeVelocity := true
        activeTheta := true
        activeAbsolute := true
        compensated := A.lit n }, true, false⟩ := by
  obtain ⟨n, hn', hacq⟩ := acquire_serial (poles := poles) hc.type ha hn hv hc.offset hc.sign hc.small
    (Or.inl hc.cpr)
  refine ⟨n, hn', ?_⟩
  have ht : c.type ≠ .none := by rcases hc.type with h | h | h <;> simp [h]
  unfold updateSource
  simp only [if_neg ht, he, Bool.false_eq_true, if_false, hacq]
  refine ⟨_, rfl, ?_⟩
  unfold compensate
  rw [if_neg (not_le.mpr hc.override), hc.comp]
  rfl

/-- A count and a position of the shaft that agree modulo a turn. -/
theorem count_turn {n cpr : ℕ} {X : ℤ} (h0 : 0 < cpr) (h : (n : ℤ) = X % cpr) :
    (0 : ℚ) ≤ n ∧ (n : ℚ) < cpr ∧ ∃ k : ℤ, (n : ℚ) = X + k * cpr := by
  have h1 := Int.emod_lt_of_pos X (show (0 : ℤ) < cpr by exact_mod_cast h0)
  rw [← h] at h1
  refine ⟨Nat.cast_nonneg n, by exact_mod_cast h1, -(X / cpr), ?_⟩
  have h2 : (n : ℤ) = X + -(X / cpr) * cpr := by
    rw [h, Int.emod_def]; ring
  exact_mod_cast h2

/-- C67: in exact arithmetic the filter converges to a shaft that turns at
constant speed: from an error of at most `V` of the measure `lag` on, which is
a combination of the squared errors of position and velocity, every sample
reduces it by the factor `1 - w dt / 25`. -/
theorem C67_converges {c : SourceConfig} (hc : PlainEncoder c) {poles : ℕ} {w u dt L : ℚ}
    (hb : Bandwidth c w u dt L) {m : ℤ} (hm : u * dt = m) (l : List Reading) {s : SourceStatus}
    {V : ℚ} {X : ℤ} (hs : Tracks c.cpr w u V X s) (hV : V ≤ L ^ 2) (hl : Samples c m s.nonce X l) :
    ∃ s', runSource .exact c poles (.fin dt) s l = some s' ∧
      Tracks c.cpr w u ((1 - w * dt / 25) ^ l.length * V) ((X + l.length * m : ℤ) : ℚ) s' := by
  induction l generalizing s V X with
  | nil => exact ⟨s, rfl, by simpa using hs⟩
  | cons r l ih =>
    obtain ⟨r1, r2, r3, r4, r5, r6⟩ := hl
    obtain ⟨n, hn, st, est, hst⟩ := plain_update (A := .exact) hc (poles := poles) (dt := .fin dt) r1 r2 r3 r4
    obtain ⟨n0, n1, k, hk⟩ := count_turn hb.cpr_pos (hn.trans r5)
    have ht := settle_tracks hb hs hV (a := ⟨{ s with
        raw := r.value
        offsetValue := n
        nonce := r.nonce
        activeVelocity := true
        activeTheta := true
        activeAbsolute := true
        compensated := Ar.exact.lit n }, true, false⟩) rfl rfl rfl rfl rfl rfl (x := n) (k := k) rfl n0 n1
        (by rw [hm]; exact_mod_cast hk)
    rw [← hst, hm] at ht
    have hfac : 0 ≤ 1 - w * dt / 25 := by linarith [hb.slow]
    have hfac1 : 1 - w * dt / 25 ≤ 1 := by linarith [mul_pos hb.w_pos hb.dt_pos]
    have hV0 : 0 ≤ V := by
      obtain ⟨f, a, b, n, -, -, -, -, -, h⟩ := hs.near
      exact le_trans (le_trans (sq_nonneg b) (lag_bounds a b).1) h
    have hnonce : st.status.nonce = r.nonce := by
      rw [hst]
      exact (settle_value (A := .exact) (c := c) (dt := .fin dt) s _).2.2.1
    obtain ⟨s', e', ht'⟩ := ih (s := st.status) (X := X + m) (V := (1 - w * dt / 25) * V)
      (by exact_mod_cast ht) (by nlinarith) (by rw [hnonce]; exact r6)
    refine ⟨s', ?_, ?_⟩
    · unfold runSource at e' ⊢
      rw [List.foldlM_cons, est]
      exact e'
    · have e1 : X + ((r :: l).length : ℤ) * m = X + m + l.length * m := by
        rw [List.length_cons]; push_cast; ring
      have e2 : (1 - w * dt / 25) ^ (r :: l).length * V =
          (1 - w * dt / 25) ^ l.length * ((1 - w * dt / 25) * V) := by
        rw [List.length_cons, pow_succ]; ring
      rw [e1, e2]
      exact ht'

/-- C67: the first sample sets the position and the velocity zero; from there
the filter converges to any speed with `15 (u / w)^2` less than half a turn
squared. -/
theorem C67_from_start {c : SourceConfig} (hc : PlainEncoder c) {poles : ℕ} {w u dt L : ℚ}
    (hb : Bandwidth c w u dt L) {m : ℤ} (hm : u * dt = m) (r : Reading) (l : List Reading)
    (hL : 3 / 2 * (u / w) ^ 2 ≤ L ^ 2) {X : ℤ}
    (hl : Samples c m SourceStatus.init.nonce X (r :: l)) :
    ∃ s', runSource .exact c poles (.fin dt) .init (r :: l) = some s' ∧
      Tracks c.cpr w u ((1 - w * dt / 25) ^ l.length * (3 / 2 * (u / w) ^ 2))
        ((X + (l.length + 1) * m : ℤ) : ℚ) s' := by
  obtain ⟨r1, r2, r3, r4, r5, r6⟩ := hl
  obtain ⟨n, hn, st, est, hst⟩ := plain_update (A := .exact) hc (poles := poles) (dt := .fin dt) r1 r2 r3 r4
  obtain ⟨n0, n1, k, hk⟩ := count_turn hb.cpr_pos (hn.trans r5)
  have hcp : (0 : ℚ) < c.cpr := by exact_mod_cast hb.cpr_pos
  obtain ⟨q, j, eq, hq, q0, q1⟩ := wrapCpr_exact hcp (y := n)
    (by rw [abs_of_nonneg n0]; linarith)
  have hqn : q = n := turn_unique (lo := 0) (n := j) hcp hq q0 (by linarith) n0 (by linarith)
  have hstart : Tracks c.cpr w u (3 / 2 * (u / w) ^ 2) ((X + m : ℤ) : ℚ) st.status := by
    have hset : st.status = { SourceStatus.init with
        raw := r.value
        offsetValue := n
        nonce := r.nonce
        activeVelocity := true
        activeTheta := true
        activeAbsolute := true
        compensated := .fin n
        filtered := .fin n } := by
      rw [hst]
      unfold settle track SourceStatus.init
      simp only [exact_lit, Bool.true_eq_false, and_self, if_false, if_true, eq, hqn]
    rw [hset]
    refine ⟨rfl, rfl, rfl, n, 0, -(u / w), k, rfl, n0, n1, ?_, ?_, ?_⟩
    · rw [hk]; push_cast; ring
    · show Fl.fin 0 = _
      congr 1
      have := hb.w_pos.ne'
      field_simp
      ring
    · unfold lag
      have : (-(u / w)) ^ 2 = (u / w) ^ 2 := by ring
      rw [this]; linarith
  have hnonce : st.status.nonce = r.nonce := by
    rw [hst]
    exact (settle_value (A := .exact) (c := c) (dt := .fin dt) _ _).2.2.1
  obtain ⟨s', e', ht'⟩ := C67_converges hc (poles := poles) hb hm l hstart hL (by rw [hnonce]; exact r6)
  refine ⟨s', ?_, ?_⟩
  · unfold runSource at e' ⊢
    rw [List.foldlM_cons, est]
    exact e'
  · have e1 : X + ((l.length : ℤ) + 1) * m = X + m + l.length * m := by ring
    rw [e1]
    exact ht'

/-- An encoder with 16384 counts, a filter with a bandwidth of 2500 per second
and a sample every 1 / 32768 s, for a shaft at two revolutions per second. -/
example : Bandwidth { exampleSource 16384 0 1 1 with pllHz := .fin 400, kp := .fin 5000, ki := .fin 6250000 }
      2500 32768 (1 / 32768) 30 ∧
    PlainEncoder { exampleSource 16384 0 1 1 with pllHz := .fin 400, kp := .fin 5000, ki := .fin 6250000 } ∧
    (32768 : ℚ) * (1 / 32768) = (1 : ℤ) ∧ 3 / 2 * ((32768 : ℚ) / 2500) ^ 2 ≤ 30 ^ 2 := by
  refine ⟨⟨by decide +kernel, by norm_num, by norm_num, by norm_num, by norm_num, by norm_num, by decide,
    by norm_num, by norm_num [exampleSource], by norm_num [exampleSource]⟩,
    ⟨Or.inl rfl, by decide, rfl, by decide +kernel, Or.inl rfl, by decide, by decide⟩, by norm_num,
    by norm_num⟩

/-- The same encoder with a bandwidth of 32768 per second (a `pll_filter_hz` of
about 5215), which the firmware does not limit for SPI encoders. -/
def fastSource : SourceConfig :=
  { exampleSource 16384 0 1 1 with pllHz := .fin 5215, kp := .fin 65536, ki := .fin 1073741824 }

/-- C67: above the bandwidth of `C67_converges` the filter is unstable: the
shaft stands at 8193, the filter starts at 8192, and after 18 samples it is
at 4012, a quarter of a revolution off. -/
theorem C67_fast_refuted :
    ∃ s, runSource .exact fastSource 14 (.fin (1 / 32768))
        { SourceStatus.init with
          activeTheta := true, activeVelocity := true, activeAbsolute := true, filtered := .fin 8192 }
        ((List.range 18).map fun k => ⟨false, true, 8193, k + 1, 0, false⟩) = some s ∧
      s.filtered = .fin 4012 := by
  refine ⟨_, rfl, by decide +kernel⟩

end Verif.Fw
