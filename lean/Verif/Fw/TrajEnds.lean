import Verif.Fw.TrajDone
import Mathlib.Algebra.Order.Archimedean.Basic

/-!
# Trajectories end

Property C70: in exact arithmetic, a motion to a fixed target ends when the
distance of one control period of acceleration is small against the resolution
of the distance.

The first part is about sequences of rationals: `u` is the velocity in units of
one velocity step `a / rate`, `y` the distance to the target in units of
`a / rate²`, and `N` the distance as the code sees it, in units of the
resolution `q`.  Each direction of motion is a stroke; a stroke ends with an
overshoot, and the overshoot after two strokes is smaller than the distance at
their start.
-/

namespace Verif.Fw

open Verif.Float

/-- The displacement of one cycle at velocity `u`: the velocity, truncated toward
zero to the resolution `ρ`. -/
structure Moves (ρ u δ : ℚ) : Prop where
  fwd : 0 ≤ u → 0 ≤ δ ∧ δ ≤ u ∧ u - ρ < δ ∧ (1 ≤ u → ρ ≤ δ)
  bwd : u ≤ 0 → δ ≤ 0 ∧ u ≤ δ ∧ δ < u + ρ ∧ (u ≤ -1 → δ ≤ -ρ)

theorem Moves.neg {ρ u δ : ℚ} (h : Moves ρ u δ) : Moves ρ (-u) (-δ) := by
  constructor
  · intro hu
    obtain ⟨a, b, c, d⟩ := h.bwd (by linarith)
    exact ⟨by linarith, by linarith, by linarith, fun g => by have := d (by linarith); linarith⟩
  · intro hu
    obtain ⟨a, b, c, d⟩ := h.fwd (by linarith)
    exact ⟨by linarith, by linarith, by linarith, fun g => by have := d (by linarith); linarith⟩

/-- A cycle of a motion in positive direction that does not complete. -/
structure Stroke (q u : ℚ) (N : ℤ) (u' : ℚ) : Prop where
  pos : 0 ≤ u
  next : (0 < N ∧ u ^ 2 / 2 ≤ N * q ∧ 1 ≤ u' ∧ u ≤ u' ∧ u' ≤ u + 1) ∨
    (0 < N ∧ N * q < u ^ 2 / 2 ∧ u' = u - 1) ∨ (N = 0 ∧ 1 ≤ u ∧ u' = u - 1) ∨
    (N < 0 ∧ 0 < u ∧ u' = u - 1)

/-- A motion: velocities, distances and visible distances, in the direction of a
stroke. -/
structure Motion (q ρ : ℚ) (u w : ℕ → ℚ) (N : ℕ → ℤ) : Prop where
  hq : 64 ≤ q
  hρ : 0 < ρ
  hρ1 : ρ ≤ 1
  step : ∀ i, 0 ≤ u i → (0 < u i ∨ 0 < N i) → Stroke q (u i) (N i) (u (i + 1))
  move : ∀ i, Moves ρ (u (i + 1)) (w i - w (i + 1))
  mono : ∀ i j, w i ≤ w j → N i ≤ N j
  low : ∀ i, w i ≤ 0 → N i ≤ 0
  cross : ∀ i j, N i < 0 → w j < w i + 1 → N j ≤ 0
  ended : ∀ i, N i = 0 → -1 < u i → u i ≤ 0 → False

variable {q ρ : ℚ} {u w : ℕ → ℚ} {N : ℕ → ℤ}

/-- What a property must satisfy to hold until the end of a stroke. -/
def Carried (u w : ℕ → ℚ) (N : ℕ → ℤ) (P : ℚ → ℚ → Prop) : Prop :=
  ∀ i, P (u i) (w i) → 0 ≤ u i → (0 < u i ∨ 0 < N i) → 0 ≤ u (i + 1) → P (u (i + 1)) (w (i + 1))

/-- Braking until the velocity is at most one step. -/
theorem Motion.brake (M : Motion q ρ u w N) {P : ℚ → ℚ → Prop} (hP : Carried u w N P) (j : ℕ) :
    ∀ n, u n ≤ j → 0 < u n → N n ≤ 0 → P (u n) (w n) →
      ∃ m, n ≤ m ∧ 0 < u m ∧ u m ≤ 1 ∧ N m ≤ 0 ∧ P (u m) (w m) := by
  induction j with
  | zero =>
    intro n h1 h2
    simp at h1
    linarith
  | succ j ih =>
    intro n h1 h2 h3 h4
    by_cases h : u n ≤ 1
    · exact ⟨n, le_rfl, h2, h, h3, h4⟩
    · rw [not_le] at h
      have e : u (n + 1) = u n - 1 := by
        rcases (M.step n h2.le (Or.inl h2)).next with ⟨a, _⟩ | ⟨a, _⟩ | ⟨_, _, a⟩ | ⟨_, _, a⟩
        · omega
        · omega
        · exact a
        · exact a
      have hm := ((M.move n).fwd (by linarith)).1
      obtain ⟨m, a, b⟩ := ih (n + 1) (by push_cast at h1; linarith) (by linarith)
        ((M.mono (n + 1) n (by linarith)).trans h3)
        (hP n h4 h2.le (Or.inl h2) (by linarith))
      exact ⟨m, by omega, b⟩

/-- While the target is ahead the velocity stays at or above one step. -/
theorem Stroke.fast {u u' : ℚ} {N : ℤ} (hq : 64 ≤ q) (h : Stroke q u N u') (hN : 0 < N) : 1 ≤ u' := by
  rcases h.next with ⟨_, _, a, _⟩ | ⟨_, a, e⟩ | ⟨a, _⟩ | ⟨a, _⟩
  · exact a
  · have h1 : (1 : ℚ) ≤ N := by exact_mod_cast hN
    have h2 : (64 : ℚ) ≤ N * q := by nlinarith
    have := h.pos
    by_contra c
    rw [not_le] at c
    have : u < 2 := by linarith
    nlinarith
  · omega
  · omega

/-- A stroke comes to a velocity of at most one step, with the target reached. -/
theorem Motion.slow (M : Motion q ρ u w N) {P : ℚ → ℚ → Prop} (hP : Carried u w N P) (j : ℕ) :
    ∀ n, w n < j * ρ → 0 ≤ u n → (0 < u n ∨ 0 < N n) → P (u n) (w n) →
      ∃ m, n ≤ m ∧ 0 < u m ∧ u m ≤ 1 ∧ N m ≤ 0 ∧ P (u m) (w m) := by
  induction j with
  | zero =>
    intro n h1 h2 h3 h4
    have := M.low n (by push_cast at h1; linarith)
    obtain ⟨k, hk⟩ := exists_nat_ge (u n)
    exact M.brake hP k n hk (by rcases h3 with h | h <;> [exact h; omega]) this h4
  | succ j ih =>
    intro n h1 h2 h3 h4
    by_cases hN : 0 < N n
    · have hf := (M.step n h2 h3).fast M.hq hN
      have hm := ((M.move n).fwd (by linarith)).2.2.2 hf
      obtain ⟨m, a, b⟩ := ih (n + 1) (by push_cast at h1; linarith) (by linarith) (Or.inl (by linarith))
        (hP n h4 h2 h3 (by linarith))
      exact ⟨m, by omega, b⟩
    · obtain ⟨k, hk⟩ := exists_nat_ge (u n)
      exact M.brake hP k n hk (by rcases h3 with h | h <;> [exact h; omega]) (by omega) h4

/-- A stroke ends behind the target, with a velocity of less than one step
backwards. -/
theorem Motion.stroke (M : Motion q ρ u w N) {P : ℚ → ℚ → Prop} (hP : Carried u w N P) {n : ℕ}
    (h2 : 0 ≤ u n) (h3 : 0 < u n ∨ 0 < N n) (h4 : P (u n) (w n)) :
    ∃ m, n < m ∧ -1 < u m ∧ u m ≤ 0 ∧ N m < 0 ∧
      ∃ u0 w0, 0 < u0 ∧ u0 ≤ 1 ∧ P u0 w0 ∧ w0 ≤ w m := by
  obtain ⟨k, hk⟩ := exists_nat_ge ((w n + 1) / ρ)
  have hρ := M.hρ
  obtain ⟨m, a, b, c, d, e⟩ := M.slow hP k n
    (by rw [div_le_iff₀ hρ] at hk; linarith) h2 h3 h4
  have hs := (M.step m b.le (Or.inl b)).next
  have eu : u (m + 1) = u m - 1 := by
    rcases hs with ⟨a, _⟩ | ⟨a, _⟩ | ⟨_, _, a⟩ | ⟨_, _, a⟩
    · omega
    · omega
    · exact a
    · exact a
  obtain ⟨m1, m2, m3, -⟩ := (M.move m).bwd (by linarith)
  have hw : w m ≤ w (m + 1) := by linarith
  have hN : N m < 0 := by
    rcases hs with ⟨a, _⟩ | ⟨a, _⟩ | ⟨a, b', _⟩ | ⟨a, _⟩
    · omega
    · omega
    · exfalso
      have e1 : u m = 1 := le_antisymm c b'
      have e2 : u (m + 1) = 0 := by linarith
      rw [e2] at m2
      have e3 : w (m + 1) = w m := by linarith
      have e4 : N (m + 1) = 0 := by
        have := M.mono (m + 1) m e3.le
        have := M.mono m (m + 1) e3.ge
        omega
      exact M.ended (m + 1) e4 (by linarith) (by linarith)
    · exact a
  have hN' : N (m + 1) < 0 := by
    have h := M.cross m (m + 1) hN (by linarith)
    rcases lt_or_eq_of_le h with h | h
    · exact h
    · exact (M.ended (m + 1) h (by linarith) (by linarith)).elim
  exact ⟨m + 1, by omega, by linarith, by linarith, hN', u m, w m, b, c, e, hw⟩

/-- How far a stroke may come: `U` is the largest velocity so far, `w0` the
distance at the start.  `κ` bounds the overshoot of braking from `U`. -/
def Reach (κ : ℚ → ℚ) (η : ℚ → ℚ) (w0 : ℚ) (u w : ℚ) : Prop :=
  ∃ U, 0 ≤ U ∧ u ≤ U ∧ U ^ 2 / 2 - 3 / 2 * U ≤ w0 - w ∧ η U ≤ w0 ∧ u ^ 2 / 2 - u / 2 - κ U ≤ w

/-- The bounds are carried through a stroke, if they hold after acceleration. -/
theorem Motion.reach (M : Motion q ρ u w N) {κ κ' : ℚ → ℚ} {w0 : ℚ}
    (hκ : ∀ U V, 0 ≤ U → U ≤ V → κ U ≤ κ V)
    (hacc : ∀ i, 0 ≤ u i → 0 < N i → u i ^ 2 / 2 ≤ N i * q → 1 ≤ u (i + 1) → u i ≤ u (i + 1) →
      u (i + 1) ≤ u i + 1 → u (i + 1) ^ 2 / 2 - u (i + 1) / 2 - κ (u (i + 1)) ≤ w (i + 1) ∧
      κ' (u (i + 1)) ≤ w (i + 1) + (u (i + 1) ^ 2 / 2 - 3 / 2 * u (i + 1))) :
    Carried u w N (Reach κ κ' w0) := by
  rintro i ⟨U, hU, h1, h2, h3, h4⟩ h5 h6 h7
  obtain ⟨d1, d2, d3, -⟩ := (M.move i).fwd h7
  have hρ1 := M.hρ1
  have brake : u (i + 1) = u i - 1 → Reach κ κ' w0 (u (i + 1)) (w (i + 1)) := by
    intro e
    refine ⟨U, hU, by linarith, by linarith, h3, ?_⟩
    rw [e] at d2 ⊢
    nlinarith
  rcases (M.step i h5 h6).next with ⟨a1, a2, a3, a4, a5⟩ | ⟨_, _, e⟩ | ⟨_, _, e⟩ | ⟨_, _, e⟩
  · obtain ⟨b1, b2⟩ := hacc i h5 a1 a2 a3 a4 a5
    by_cases c : u (i + 1) ≤ U
    · refine ⟨U, hU, c, by linarith, h3, ?_⟩
      have := hκ _ _ h7 c
      linarith
    · rw [not_le] at c
      have g : u (i + 1) ^ 2 / 2 - 3 / 2 * u (i + 1) ≤ w0 - w (i + 1) := by
        by_cases g : U + (u (i + 1) - U) / 2 - 3 / 2 ≤ 0
        · nlinarith
        · rw [not_le] at g
          nlinarith
      exact ⟨u (i + 1), h7, le_rfl, g, by linarith, b1⟩
  · exact brake e
  · exact brake e
  · exact brake e

/-- A cycle that does not complete: `y` and `y'` are the distances before and
after. -/
structure Runs (q ρ u y u' y' : ℚ) : Prop where
  move : Moves ρ u' (y - y')
  dir : Stroke q u ⌊y / q⌋ u' ∨ Stroke q (-u) (-⌊y / q⌋) (-u')

section
variable {y : ℕ → ℚ}

theorem floor_pos_iff (hq : 0 < q) (y : ℚ) : 0 < ⌊y / q⌋ ↔ q ≤ y := by
  rw [← Int.add_one_le_iff, Int.le_floor, le_div_iff₀ hq]
  norm_num

theorem floor_neg_iff (hq : 0 < q) (y : ℚ) : ⌊y / q⌋ < 0 ↔ y < 0 := by
  rw [Int.floor_lt, div_lt_iff₀ hq]
  norm_num

theorem floor_nonpos_iff (hq : 0 < q) (y : ℚ) : ⌊y / q⌋ ≤ 0 ↔ y < q := by
  rw [← not_lt, floor_pos_iff hq, not_le]

theorem runs_ended (h : ∀ n, Runs q ρ (u n) (y n) (u (n + 1)) (y (n + 1))) (i : ℕ)
    (h0 : ⌊y i / q⌋ = 0) (h1 : -1 < u i) (h2 : u i < 1) : False := by
  rcases (h i).dir with g | g
  · rcases g.next with ⟨a, _⟩ | ⟨a, _⟩ | ⟨_, a, _⟩ | ⟨a, _⟩
    · omega
    · omega
    · linarith
    · omega
  · rcases g.next with ⟨a, _⟩ | ⟨a, _⟩ | ⟨_, a, _⟩ | ⟨a, _⟩
    · omega
    · omega
    · linarith
    · omega

/-- The motion seen in positive direction. -/
theorem motion_up (hq : 64 ≤ q) (hρ : 0 < ρ) (hρ1 : ρ ≤ 1)
    (h : ∀ n, Runs q ρ (u n) (y n) (u (n + 1)) (y (n + 1))) :
    Motion q ρ u y (fun n => ⌊y n / q⌋) := by
  have q0 : 0 < q := by linarith
  refine ⟨hq, hρ, hρ1, ?_, fun i => (h i).move, ?_, ?_, ?_, ?_⟩
  · intro i h1 h2
    rcases (h i).dir with g | g
    · exact g
    · have h3 := g.pos
      have h4 : u i = 0 := by linarith
      rcases h2 with h2 | h2
      · linarith
      · exfalso
        rcases g.next with ⟨a, _⟩ | ⟨a, _⟩ | ⟨a, _⟩ | ⟨_, a, _⟩
        · omega
        · omega
        · omega
        · linarith
  · intro i j hij
    exact Int.floor_le_floor (by gcongr)
  · intro i hi
    exact (floor_nonpos_iff q0 _).mpr (by linarith)
  · intro i j hi hj
    exact (floor_nonpos_iff q0 _).mpr (by have := (floor_neg_iff q0 _).mp hi; linarith)
  · intro i h0 h1 h2
    exact runs_ended h i h0 h1 (by linarith)

/-- The motion seen in negative direction. -/
theorem motion_down (hq : 64 ≤ q) (hρ : 0 < ρ) (hρ1 : ρ ≤ 1)
    (h : ∀ n, Runs q ρ (u n) (y n) (u (n + 1)) (y (n + 1))) :
    Motion q ρ (fun n => -u n) (fun n => -y n) (fun n => -⌊y n / q⌋) := by
  have q0 : 0 < q := by linarith
  refine ⟨hq, hρ, hρ1, ?_, ?_, ?_, ?_, ?_, ?_⟩
  · intro i h1 h2
    rcases (h i).dir with g | g
    · have h3 := g.pos
      have h4 : u i = 0 := by linarith
      rcases h2 with h2 | h2
      · linarith
      · exfalso
        rcases g.next with ⟨a, _⟩ | ⟨a, _⟩ | ⟨a, _⟩ | ⟨_, a, _⟩
        · omega
        · omega
        · omega
        · linarith
    · exact g
  · intro i
    have := (h i).move.neg
    rw [show -(y i - y (i + 1)) = -y i - -y (i + 1) by ring] at this
    exact this
  · intro i j hij
    have := Int.floor_le_floor (show y j / q ≤ y i / q by gcongr; linarith)
    omega
  · intro i hi
    have := (floor_neg_iff q0 (y i)).not.mpr (by linarith)
    omega
  · intro i j hi hj
    have h1 : q ≤ y i := (floor_pos_iff q0 _).mp (by omega)
    have := (floor_neg_iff q0 (y j)).not.mpr (by linarith)
    omega
  · intro i h0 h1 h2
    exact runs_ended h i (by omega) (by linarith) (by linarith)

/-- A stroke in positive direction from rest: bound of the overshoot. -/
theorem stroke_up (hq : 64 ≤ q) (hρ : 0 < ρ) (hρ1 : ρ ≤ 1)
    (h : ∀ n, Runs q ρ (u n) (y n) (u (n + 1)) (y (n + 1))) {n : ℕ} (h0 : 0 ≤ u n) (h1 : u n < 1)
    (hN : 0 < ⌊y n / q⌋) :
    ∃ m, n < m ∧ -1 < u m ∧ u m ≤ 0 ∧ ⌊y m / q⌋ < 0 ∧
      ∃ U, 0 ≤ U ∧ U ^ 2 - 7 / 2 * U + 1 / 2 ≤ y n ∧ -(3 / 2 * U + 9 / 8) ≤ y m := by
  have q0 : 0 < q := by linarith
  have M := motion_up hq hρ hρ1 h
  have hy := (floor_pos_iff q0 _).mp hN
  have hc : Carried u y (fun n => ⌊y n / q⌋)
      (Reach (fun U => 3 / 2 * U + 1) (fun U => U ^ 2 - 7 / 2 * U + 1 / 2) (y n)) := by
    refine M.reach ?_ ?_
    · intro U V _ hUV
      linarith
    · intro i a1 a2 a3 a4 a5 a6
      have hfl : ((⌊y i / q⌋ : ℤ) : ℚ) * q ≤ y i := by
        have := Int.floor_le (y i / q)
        rwa [le_div_iff₀ q0] at this
      obtain ⟨d1, d2, -, -⟩ := ((h i).move).fwd (by linarith)
      constructor
      · nlinarith
      · nlinarith
  obtain ⟨m, b1, b2, b3, b4, u0, w0, b5, b6, ⟨U, c1, c2, c3, c4, c5⟩, b7⟩ :=
    M.stroke hc h0 (Or.inr hN) ⟨u n, h0, le_rfl, by nlinarith, by nlinarith, by nlinarith⟩
  refine ⟨m, b1, b2, b3, b4, U, c1, c4, ?_⟩
  dsimp only at c5
  nlinarith [sq_nonneg (u0 - 1 / 2)]

/-- A stroke in negative direction from rest: bound of the overshoot. -/
theorem stroke_down (hq : 64 ≤ q) (hρ : 0 < ρ) (hρ1 : ρ ≤ 1)
    (h : ∀ n, Runs q ρ (u n) (y n) (u (n + 1)) (y (n + 1))) {n : ℕ} (h0 : u n ≤ 0) (h1 : -1 < u n)
    (hN : ⌊y n / q⌋ < 0) :
    ∃ m, n < m ∧ 0 ≤ u m ∧ u m < 1 ∧ 0 < ⌊y m / q⌋ ∧
      ∃ U, 0 ≤ U ∧ U ^ 2 / 2 - 5 / 2 * U ≤ -y n ∧ y m ≤ U ^ 2 / 2 + U / 2 + 1 / 8 := by
  have q0 : 0 < q := by linarith
  have M := motion_down hq hρ hρ1 h
  have hy := (floor_neg_iff q0 _).mp hN
  have hc : Carried (fun n => -u n) (fun n => -y n) (fun n => -⌊y n / q⌋)
      (Reach (fun U => U ^ 2 / 2 + U / 2) (fun U => U ^ 2 / 2 - 5 / 2 * U) (-y n)) := by
    refine M.reach ?_ ?_
    · intro U V hU hUV
      nlinarith
    · intro i a1 a2 a3 a4 a5 a6
      have hn := (floor_neg_iff q0 (y i)).mp (by omega)
      obtain ⟨d1, d2, -, -⟩ := ((h i).move).bwd (by linarith)
      constructor
      · nlinarith
      · nlinarith
  obtain ⟨m, b1, b2, b3, b4, u0, w0, b5, b6, ⟨U, c1, c2, c3, c4, c5⟩, b7⟩ :=
    M.stroke hc (n := n) (by linarith) (Or.inr (by omega))
      ⟨-u n, by linarith, le_rfl, by nlinarith, by nlinarith, by nlinarith⟩
  dsimp only at b2 b3 b4 b7 c5
  refine ⟨m, b1, by linarith, by linarith, by omega, U, c1, c4, ?_⟩
  nlinarith [sq_nonneg (u0 - 1 / 2)]

/-- Two strokes bring the motion nearer to the target. -/
theorem two_strokes {D y0 U ε V z : ℚ} (hD : 64 ≤ D) (h0 : y0 < 2 * D)
    (h1 : U ^ 2 - 7 / 2 * U + 1 / 2 ≤ y0) (h2 : -(3 / 2 * U + 9 / 8) ≤ -ε)
    (h3 : V ^ 2 / 2 - 5 / 2 * V ≤ ε) (h4 : z ≤ V ^ 2 / 2 + V / 2 + 1 / 8) : z < D := by
  have a := sq_nonneg (V - 9)
  have b := sq_nonneg (U - 13)
  nlinarith

/-- No motion from rest goes on forever. -/
theorem no_endless_rest (hq : 64 ≤ q) (hρ : 0 < ρ) (hρ1 : ρ ≤ 1)
    (h : ∀ n, Runs q ρ (u n) (y n) (u (n + 1)) (y (n + 1))) (k : ℕ) :
    ∀ n, 0 ≤ u n → u n < 1 → 0 < ⌊y n / q⌋ → ⌊y n / q⌋ ≤ k → False := by
  have q0 : 0 < q := by linarith
  induction k with
  | zero => intro n _ _ h1 h2; push_cast at h2; omega
  | succ k ih =>
    intro n h0 h1 hN hk
    obtain ⟨m, -, a1, a2, a3, U, a4, a5, a6⟩ := stroke_up hq hρ hρ1 h h0 h1 hN
    obtain ⟨p, -, b1, b2, b3, V, b4, b5, b6⟩ := stroke_down hq hρ hρ1 h a2 a1 a3
    refine ih p b1 b2 b3 ?_
    have e1 : (1 : ℚ) ≤ (⌊y n / q⌋ : ℤ) := by exact_mod_cast hN
    have e2 : y n < 2 * ((⌊y n / q⌋ : ℤ) * q) := by
      have := Int.lt_floor_add_one (y n / q)
      rw [div_lt_iff₀ q0] at this
      nlinarith
    have e3 := two_strokes (D := (⌊y n / q⌋ : ℤ) * q) (by nlinarith) e2 a5 (ε := -y m)
      (by linarith) b5 b6
    have e4 : ((⌊y p / q⌋ : ℤ) : ℚ) * q ≤ y p := by
      have := Int.floor_le (y p / q)
      rwa [le_div_iff₀ q0] at this
    have e5 : ((⌊y p / q⌋ : ℤ) : ℚ) < (⌊y n / q⌋ : ℤ) :=
      lt_of_mul_lt_mul_right (e4.trans_lt e3) q0.le
    have e6 : ⌊y p / q⌋ < ⌊y n / q⌋ := by exact_mod_cast e5
    push_cast at hk
    omega

/-- No motion goes on forever. -/
theorem no_endless (hq : 64 ≤ q) (hρ : 0 < ρ) (hρ1 : ρ ≤ 1)
    (h : ∀ n, Runs q ρ (u n) (y n) (u (n + 1)) (y (n + 1))) : False := by
  have any : ∀ (u w : ℕ → ℚ) (N : ℕ → ℤ), Carried u w N (fun _ _ => True) :=
    fun _ _ _ _ _ _ _ _ => trivial
  have down : ∀ n, u n < 0 ∨ (u n = 0 ∧ ⌊y n / q⌋ < 0) → False := by
    intro n hn
    have M := motion_down hq hρ hρ1 h
    obtain ⟨m, a1, a2, a3, a4, -⟩ := M.stroke (any _ _ _) (n := n)
      (by rcases hn with hn | hn <;> linarith)
      (by
        rcases hn with hn | hn
        · left; linarith
        · right; omega) trivial
    exact no_endless_rest hq hρ hρ1 h (⌊y m / q⌋.toNat) m (by linarith) (by linarith) (by omega)
      (Int.self_le_toNat _)
  have up : 0 ≤ u 0 → (0 < u 0 ∨ 0 < ⌊y 0 / q⌋) → False := by
    intro h0 h1
    have M := motion_up hq hρ hρ1 h
    obtain ⟨m, a1, a2, a3, a4, -⟩ := M.stroke (any _ _ _) (n := 0) h0 h1 trivial
    rcases lt_or_eq_of_le a3 with a3 | a3
    · exact down m (Or.inl a3)
    · exact down m (Or.inr ⟨a3, a4⟩)
  rcases lt_trichotomy (u 0) 0 with c | c | c
  · exact down 0 (Or.inl c)
  · rcases lt_trichotomy ⌊y 0 / q⌋ 0 with e | e | e
    · exact down 0 (Or.inr ⟨c, e⟩)
    · exact runs_ended h 0 e (by linarith) (by linarith)
    · exact up c.ge (Or.inr e)
  · exact up c.le (Or.inl c)

end

end Verif.Fw
