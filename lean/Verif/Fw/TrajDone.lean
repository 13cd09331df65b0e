import Verif.Fw.TrajLimits

/-!
# Completed trajectories

Property C37: what holds when the controller reports that a trajectory is
complete.
-/

namespace Verif.Fw

open Verif.Float TrajWitness

variable {A : Ar}

/-- A cycle in which nothing but the trajectory generator and the motor speed
limit act: bounds, stop position and slip limits are off. -/
structure QuietCycle (c : TrajConfig) (d : TrajData) : Prop where
  vslip : c.maxVelocitySlip.isFinite = false
  pslip : c.maxPositionSlip.isFinite = false
  bounds : d.ignoreBounds = true ∨ (c.positionMin = .nan ∧ c.positionMax = .nan)
  stop : d.stopRaw = none

/-- A motor speed limit at or above the target velocity does not act. -/
theorem motorLimit_quiet {M v : ℚ} (h : |v| ≤ M) : motorLimit (.fin M) (.fin v) = .fin v := by
  rw [abs_le] at h
  unfold motorLimit
  rw [show (Fl.fin M).neg = .fin (-M) from rfl, Fl.blt_fin, Fl.blt_fin,
    decide_eq_false (by linarith), decide_eq_false (by linarith)]
  rfl

theorem slips_quiet {c : TrajConfig} {d : TrajData} (hq : QuietCycle c d) (i : TrajIn) :
    (∀ z, velocitySlip A c.maxVelocitySlip i.measured z = z) ∧
    (∀ z, positionSlip A c.maxPositionSlip i.posRel z = z) := by
  constructor
  · intro z; unfold velocitySlip; rw [hq.vslip]; rfl
  · intro z; unfold positionSlip; rw [hq.pslip]; rfl

/-- In quiet cycles the last stages do nothing. -/
theorem updateCommand_quiet (c : TrajConfig) (i : TrajIn) (s : TrajStatus)
    (d : TrajData) (h : QuietCycle c d) :
    updateCommand A c i s d =
      ((prepare A c i s d).velocityCommand,
        { (prepare A c i s d).s with
              cp := some (prepare A c i s d).cp
              cv := some (prepare A c i s d).cv
              controlPosition := intToFloat A ((prepare A c i s d).cp + i.delta) },
        (prepare A c i s d).d) := by
  have hd := prepare_data (A := A) c i s d
  have hb : ∀ cp, bounds A c (prepare A c i s d).d.ignoreBounds i.delta cp = (cp, false) := by
    intro cp
    unfold Verif.Fw.bounds
    rcases h.bounds with e | ⟨e1, e2⟩
    · rw [hd.2, e]; rfl
    · rw [e1, e2]; simp [saturateMin, saturateMax, Fl.isNan]
  have hst : ∀ cp vc, stopAt A (prepare A c i s d).d.stopRaw cp vc = none := by
    intro cp vc; rw [hd.1, h.stop]; rfl
  unfold updateCommand
  dsimp only
  rw [hb]
  unfold finish
  rw [hst]
  rfl

/-- C37 without limits: the command is complete at once, the control position is
the target advanced by one period of the target velocity, and the velocity is the
target velocity (up to the speed limit of the motor).  In any arithmetic. -/
theorem C37_no_limits (c : TrajConfig) (i : TrajIn) (s : TrajStatus) (d : TrajData) (target : ℤ)
    (hn : d.velLimit = .nan ∧ d.accelLimit = .nan) (ht : d.posRaw = some target)
    (hq : QuietCycle c d) :
    let u := updateCommand A c i s d
    let v := motorLimit i.motorMax (velocityArg i.velocity)
    u.2.1.done = true ∧ u.1 = v ∧ u.2.1.cv = some v ∧
      u.2.1.cp = some (target + posStep A i.rateHz v) ∧ u.2.2.posRaw = none := by
  have hl : noLimits d = true := by unfold noLimits; rw [hn.1, hn.2]; rfl
  have hb : begin i c (velocityArg i.velocity) s d =
      ({ s with done := true, cp := some target, cv := some (velocityArg i.velocity) },
        { d with position := .nan, posRaw := none }) := by
    unfold begin
    dsimp only
    rw [hl, ht]
    rfl
  have hp : prepare A c i s d =
      { velocityCommand := motorLimit i.motorMax (velocityArg i.velocity)
        cp := target + posStep A i.rateHz (motorLimit i.motorMax (velocityArg i.velocity))
        cv := motorLimit i.motorMax (velocityArg i.velocity)
        s := { s with done := true, cp := some target, cv := some (velocityArg i.velocity) }
        d := { d with position := .nan, posRaw := none } } := by
    unfold prepare
    dsimp only
    rw [hb]
    unfold advance
    rw [if_pos rfl]
    have e1 : derefF (some (velocityArg i.velocity)) = velocityArg i.velocity := rfl
    rw [e1, (slips_quiet hq i).1, (slips_quiet hq i).2]
    rfl
  dsimp only
  rw [updateCommand_quiet (A := A) c i s d hq, hp]
  exact ⟨rfl, rfl, rfl, rfl, rfl⟩

/-- With limits: the state after a quiet cycle, in terms of the trajectory
generator. -/
theorem update_limited (c : TrajConfig) (i : TrajIn) (s : TrajStatus) (d : TrajData) {cp : ℤ}
    (hcp : s.cp = some cp) (hl : noLimits d = false) (hq : QuietCycle c d) :
    let t := updateTrajectory A i (velocityArg i.velocity) { s with done := false } d
    let u := updateCommand A c i s d
    let v := motorLimit i.motorMax (derefF t.1.cv)
    u.1 = v ∧ u.2.1.cv = some v ∧ u.2.1.done = t.1.done ∧
      u.2.1.cp = some (cp + posStep A i.rateHz v) ∧
      u.2.2 = { t.2 with posRaw := t.2.posRaw.map (· + posStep A i.rateHz (velocityArg i.velocity)) } := by
  have hp := prepare_limited (A := A) c i s d (by rw [hcp]; rfl) hl
  dsimp only at hp
  rw [(slips_quiet hq i).1, (slips_quiet hq i).2] at hp
  have hcp' : (updateTrajectory A i (velocityArg i.velocity) { s with done := false } d).1.cp =
      some cp := by
    unfold updateTrajectory
    dsimp only
    split
    · exact hcp
    · exact hcp
  rw [hcp'] at hp
  dsimp only
  rw [updateCommand_quiet (A := A) c i s d hq, hp]
  exact ⟨rfl, rfl, rfl, rfl, rfl⟩

/-- What the trajectory generator returns when it completes. -/
theorem updateTrajectory_done (hA : A.Law2) (i : TrajIn) {v : ℚ} (rv : A.Rep v) (s : TrajStatus)
    (d : TrajData) (hL : d.velLimit = .nan ∨ ∃ l, d.velLimit = .fin l ∧ 0 ≤ l ∧ A.Rep l)
    (hd : (updateTrajectory A i (.fin v) { s with done := false } d).1.done = true) :
    (updateTrajectory A i (.fin v) { s with done := false } d).1.cv =
      some (clampVelocity d.velLimit (.fin v)) ∧
    (updateTrajectory A i (.fin v) { s with done := false } d).2.posRaw = none := by
  obtain ⟨q, e, rq, e2⟩ := clamp_clamp hA hL rv
  revert hd
  unfold updateTrajectory
  dsimp only
  rw [e]
  cases hp : d.posRaw with
  | none =>
    dsimp only
    intro hd
    refine ⟨?_, hp⟩
    rw [Bool.false_or] at hd
    revert hd
    unfold velocityModeLimits
    dsimp only
    rw [e2]
    split
    · intro _; rfl
    · split
      · intro _; rfl
      · intro h; cases h
  | some target =>
    dsimp only
    intro hd
    rw [Bool.false_or] at hd
    rw [hd]
    refine ⟨?_, rfl⟩
    revert hd
    unfold velocityAndAccelLimits velocityOnlyLimit
    dsimp only
    split
    · split
      · intro _; rfl
      · intro h; cases h
    · split
      · intro _; rfl
      · intro h; cases h

/-- C37, velocity.  Whenever a cycle reports that the trajectory is complete, the
velocity command and the control velocity are the commanded velocity (clamped to
the velocity limits of the command and of the motor), the control position moves
by this velocity, and the target position has been given up.  In any
arithmetic. -/
theorem C37_velocity (hA : A.Law2) (c : TrajConfig) (i : TrajIn) (s : TrajStatus) (d : TrajData)
    {v : ℚ} {cp : ℤ} (hv : velocityArg i.velocity = .fin v) (rv : A.Rep v) (hcp : s.cp = some cp)
    (hL : d.velLimit = .nan ∨ ∃ l, d.velLimit = .fin l ∧ 0 ≤ l ∧ A.Rep l)
    (hl : noLimits d = false) (hq : QuietCycle c d)
    (hd : (updateCommand A c i s d).2.1.done = true) :
    let v' := motorLimit i.motorMax (clampVelocity d.velLimit (.fin v))
    (updateCommand A c i s d).1 = v' ∧ (updateCommand A c i s d).2.1.cv = some v' ∧
    (updateCommand A c i s d).2.1.cp = some (cp + posStep A i.rateHz v') ∧
    (updateCommand A c i s d).2.2.posRaw = none := by
  have h := update_limited (A := A) c i s d hcp hl hq
  dsimp only at h
  rw [hv] at h
  rw [h.2.2.1] at hd
  have h2 := updateTrajectory_done hA i rv s d hL hd
  have e : derefF (updateTrajectory A i (.fin v) { s with done := false } d).1.cv =
      clampVelocity d.velLimit (.fin v) := by rw [h2.1]; rfl
  dsimp only
  rw [h.1, h.2.1, h.2.2.2.2, h.2.2.2.1, e]
  refine ⟨rfl, rfl, rfl, ?_⟩
  dsimp only
  rw [h2.2]
  rfl

/-! ## Position -/

theorem clamp_le {l v : ℚ} (h0 : 0 ≤ l) :
    clampVelocity (.fin l) (.fin v) = .fin (max (-l) (min v l)) := by
  unfold clampVelocity
  rw [if_neg (by simp [Fl.isNan])]
  dsimp only
  rw [Fl.blt_fin]
  by_cases c1 : l < v
  · rw [decide_eq_true c1, if_pos rfl, show (Fl.fin l).neg = .fin (-l) from rfl, Fl.blt_fin,
      decide_eq_false (by linarith), if_neg Bool.false_ne_true, min_eq_right c1.le,
      max_eq_right (by linarith)]
  · rw [decide_eq_false c1, if_neg Bool.false_ne_true, show (Fl.fin l).neg = .fin (-l) from rfl,
      Fl.blt_fin, min_eq_left (not_lt.mp c1)]
    by_cases c2 : v < -l
    · rw [decide_eq_true c2, if_pos rfl, max_eq_left c2.le]
    · rw [decide_eq_false c2, if_neg Bool.false_ne_true, max_eq_right (not_lt.mp c2)]

theorem data_posRaw_none (d : TrajData) (f : ℤ → ℤ) (h : d.posRaw = none) :
    { d with posRaw := d.posRaw.map f } = d := by
  cases d
  simp_all

theorem turns_intToFloat (n : ℤ) (h : |n| < 9223372036854775808) :
    ∃ q, intToFloat .exact n = .fin q ∧ q ≤ turns n ∧ turns n < q + 1 / 65536 := by
  have e : wrapI32 (n / 4294967296) = n / 4294967296 := by
    unfold wrapI32
    rw [abs_lt] at h
    omega
  refine ⟨((n / 4294967296 : ℤ) : ℚ) / 65536, ?_, ?_, ?_⟩
  · unfold intToFloat
    rw [e]
    simp [Ar.lit, Ar.div]
  · unfold turns
    have h1 : 4294967296 * (n / 4294967296) ≤ n := by omega
    have h2 : ((4294967296 * (n / 4294967296) : ℤ) : ℚ) ≤ n := by exact_mod_cast h1
    push_cast at h2
    linarith
  · unfold turns
    have h1 : n < 4294967296 * (n / 4294967296) + 4294967296 := by omega
    have h2 : (n : ℚ) < ((4294967296 * (n / 4294967296) + 4294967296 : ℤ) : ℚ) := by exact_mod_cast h1
    push_cast at h2
    linarith

/-- The completion test in exact arithmetic. -/
theorem complete_exact {t a v0 v1 vf dx : ℚ} (ht : 0 < t) (h1 : |v1 - v0| ≤ a * t)
    (h : complete .exact (.fin t) (.fin a) (.fin v0) (.fin v1) (.fin vf) (.fin dx) = true) :
    |dx| ≤ 10 * t * (|vf| + a * t) := by
  unfold complete at h
  simp only [Bool.and_eq_true, Bool.or_eq_true] at h
  obtain ⟨h2, h3⟩ := h
  have hat : 0 ≤ a * t := (abs_nonneg _).trans h1
  have hv1 : v1 ≠ 0 := by
    rintro rfl
    by_cases hd : dx = 0 <;> simp [Ar.div, hd, Fl.abs, Ar.mul, Fl.ble] at h3
  have h4 : |dx| ≤ 10 * t * |v1| := by
    rw [div_fin _ hv1, Ar.exact_rnd] at h3
    have : (Fl.fin (dx / v1)).abs = .fin |dx / v1| := rfl
    rw [this, show Ar.exact.mul (.fin 10) (.fin t) = .fin (10 * t) from Ar.exact_rnd _,
      Fl.ble_fin, decide_eq_true_eq, abs_div, div_le_iff₀ (abs_pos.mpr hv1)] at h3
    exact h3
  have h5 : |v1 - vf| ≤ a * t := by
    rcases h2 with g | g
    · have g1 := g.1
      have g2 := g.2
      unfold Fl.min at g1
      unfold Fl.max at g2
      rw [Fl.blt_fin] at g1 g2
      by_cases c : v1 < v0
      · have c' : ¬ v0 < v1 := not_lt.mpr c.le
        simp [c, c'] at g1 g2
        rw [abs_le] at h1 ⊢
        constructor <;> linarith
      · by_cases c' : v0 < v1
        · simp [c, c'] at g1 g2
          rw [abs_le] at h1 ⊢
          constructor <;> linarith
        · simp [c, c'] at g1 g2
          have : v1 = v0 := le_antisymm (not_lt.mp c') (not_lt.mp c)
          rw [abs_le]
          constructor <;> linarith
    · have e1 : (Ar.exact.sub (.fin v1) (.fin vf)).abs = .fin |v1 - vf| := by
        simp [Ar.sub, Fl.neg, Ar.add, Fl.abs, sub_eq_add_neg]
      have e2 : Ar.exact.mul (Ar.exact.mul (.fin a) (Ar.exact.lit (1 / 2))) (.fin t) =
          .fin (a * (1 / 2) * t) := by
        simp [Ar.mul, Ar.lit]
      rw [e1, e2, Fl.blt_fin, decide_eq_true_eq] at g
      linarith
  have h6 : |v1| ≤ |vf| + a * t := by
    have := abs_add_le (v1 - vf) vf
    rw [sub_add_cancel] at this
    linarith
  have : 10 * t * |v1| ≤ 10 * t * (|vf| + a * t) :=
    mul_le_mul_of_nonneg_left h6 (by linarith)
  linarith

/-- When position mode completes, the distance to the target is small. -/
theorem done_distance {r v0 vf dx : ℚ} (hr : 0 < r) {L a : Fl}
    (ha : a = .nan ∧ (∃ l, L = .fin l ∧ 0 ≤ l) ∨ ∃ x, a = .fin x ∧ 0 < x) (z1 z2 : Bool)
    (h : (velocityAndAccelLimits .exact z1 z2 (.fin r) L a (.fin vf) (.fin v0) (.fin dx)).2 = true) :
    (∃ l, a = .nan ∧ L = .fin l ∧ |dx| ≤ l / r) ∨
    (∃ x, a = .fin x ∧ |dx| ≤ 10 / r * (|vf| + x / r)) := by
  have hT : Ar.exact.div (Ar.exact.lit 1) (.fin r) = .fin (1 / r) := by
    simp [Ar.div, Ar.lit, hr.ne']
  unfold velocityAndAccelLimits at h
  dsimp only at h
  rw [hT] at h
  rcases ha with ⟨rfl, l, rfl, hl⟩ | ⟨x, rfl, hx⟩
  · left
    refine ⟨l, rfl, rfl, ?_⟩
    rw [if_pos (show Fl.nan.isNan = true from rfl)] at h
    unfold velocityOnlyLimit at h
    dsimp only at h
    have e : ∀ b : Bool, Ar.exact.sub (.fin dx) (Ar.exact.mul (Ar.exact.mul (.fin (-signOf b)) (.fin l))
        (.fin (1 / r))) = .fin (dx + signOf b * (l / r)) := by
      intro b
      simp only [Ar.mul, Ar.exact_rnd, Ar.sub, Fl.neg, Ar.add]
      congr 1
      ring
    rw [e] at h
    by_cases hd : dx < 0
    · rw [Fl.blt_fin, Fl.blt_fin, decide_eq_true hd, show signOf true = 1 from rfl] at h
      split at h
      · rename_i g
        have : ¬ dx + 1 * (l / r) < 0 := by
          intro c; rw [decide_eq_true c] at g; simp at g
        rw [abs_of_neg hd]
        linarith
      · cases h
    · rw [Fl.blt_fin, Fl.blt_fin, decide_eq_false hd, show signOf false = -1 from rfl] at h
      split at h
      · rename_i g
        have : dx + -1 * (l / r) < 0 := by
          by_contra c; rw [decide_eq_false c] at g; simp at g
        rw [abs_of_nonneg (not_lt.mp hd)]
        linarith
      · cases h
  · right
    refine ⟨x, rfl, ?_⟩
    rw [if_neg (show ¬ (Fl.fin x).isNan = true by simp [Fl.isNan])] at h
    have hS : Step .exact x (1 / r) (x * (1 / r)) :=
      ⟨hx, by positivity, Ar.exact_rnd _⟩
    have hac := accel_values (A := .exact) hx.le z1 L (.fin v0) (.fin vf) (.fin dx)
    dsimp only at hac
    generalize calculateAcceleration Ar.exact z1 L (.fin x) (.fin v0) (.fin vf) (.fin dx) = w at *
    obtain ⟨e, he, -, -, -, e4⟩ := v1_cases Ar.exact_law2 hS hac (v0 := v0)
    rw [he, Ar.exact_rnd] at h
    split at h
    · rename_i hc
      have := complete_exact (by positivity) (by rw [add_sub_cancel_left]; exact e4) hc
      calc |dx| ≤ 10 * (1 / r) * (|vf| + x * (1 / r)) := this
        _ = _ := by ring
    · cases h

/-- C37, position, in exact arithmetic.  When a cycle completes a trajectory to
a position, the distance that remained to the target was at most
* with an acceleration limit `a`: ten periods of the target velocity, plus ten
  periods of one velocity step, plus the resolution of 2^-16 turns;
* with a velocity limit only: one period at this velocity, plus the resolution.
From then on target and control position both move with the target velocity
(`C37_stays`).  The control position is not set to the target, so equality fails
(`C37_position_refuted`). -/
theorem C37_position_partial (c : TrajConfig) (i : TrajIn) (s : TrajStatus) (d : TrajData)
    {r v v0 : ℚ} {cp target : ℤ} (hr : 0 < r) (hrate : i.rateHz = .fin r)
    (hv : velocityArg i.velocity = .fin v) (hcp : s.cp = some cp) (hcv : s.cv = some (.fin v0))
    (htgt : d.posRaw = some target) (hfar : |target - cp| < 9223372036854775808)
    (hL : d.velLimit = .nan ∨ ∃ l, d.velLimit = .fin l ∧ 0 ≤ l)
    (ha : d.accelLimit = .nan ∧ d.velLimit ≠ .nan ∨ ∃ x, d.accelLimit = .fin x ∧ 0 < x)
    (hq : QuietCycle c d) (hd : (updateCommand .exact c i s d).2.1.done = true) :
    (∃ l, d.accelLimit = .nan ∧ d.velLimit = .fin l ∧
      |turns (target - cp)| < l / r + 1 / 65536) ∨
    (∃ x, d.accelLimit = .fin x ∧
      |turns (target - cp)| < 10 / r * (|v| + x / r) + 1 / 65536) := by
  have hl : noLimits d = false := by
    unfold noLimits
    rcases ha with ⟨_, h⟩ | ⟨x, h, _⟩
    · rcases hL with e | ⟨l, e, _⟩
      · exact absurd e h
      · rw [e]; rfl
    · rw [h]; simp [Fl.isNan]
  have hL2 : d.velLimit = .nan ∨ ∃ l, d.velLimit = .fin l ∧ 0 ≤ l ∧ Ar.exact.Rep l :=
    hL.imp id fun ⟨l, x, y⟩ => ⟨l, x, y, rfl, rfl⟩
  have h := update_limited (A := .exact) c i s d hcp hl hq
  dsimp only at h
  rw [hv] at h
  rw [h.2.2.1] at hd
  obtain ⟨q, eq, -, -⟩ := clamp_clamp Ar.exact_law2 (v := v) hL2 ⟨rfl, rfl⟩
  have hqv : |q| ≤ |v| := by
    rcases hL with e | ⟨l, e, h0⟩
    · rw [e] at eq
      injection eq with eq
      rw [eq]
    · rw [e] at eq
      rw [clamp_le h0] at eq
      injection eq with eq
      rw [← eq, abs_le]
      rcases abs_cases v with ⟨k, _⟩ | ⟨k, _⟩ <;> rw [k] <;> constructor
      · exact le_max_of_le_right (le_min (by linarith) (by linarith))
      · exact max_le (by linarith) (min_le_left _ _)
      · exact le_max_of_le_right (le_min (by linarith) (by linarith))
      · exact max_le (by linarith) ((min_le_left _ _).trans (by linarith))
  obtain ⟨dx, edx, d1, d2⟩ := turns_intToFloat (target - cp) hfar
  unfold updateTrajectory at hd
  dsimp only at hd
  rw [eq, htgt, hcv, hcp, hrate] at hd
  dsimp only at hd
  rw [Bool.false_or] at hd
  unfold distance derefI derefF at hd
  simp only [Option.getD_some] at hd
  rw [edx] at hd
  have ha' : d.accelLimit = .nan ∧ (∃ l, d.velLimit = .fin l ∧ 0 ≤ l) ∨
      ∃ x, d.accelLimit = .fin x ∧ 0 < x :=
    ha.imp (fun ⟨x, y⟩ => ⟨x, hL.resolve_left y⟩) id
  have hdx : |turns (target - cp)| < |dx| + 1 / 65536 := by
    rcases abs_cases (turns (target - cp)) with ⟨k, _⟩ | ⟨k, _⟩
    · rw [k]; have := le_abs_self dx; linarith
    · rw [k]; have := neg_abs_le dx; linarith
  rcases done_distance hr ha' _ _ hd with ⟨l, e1, e2, e3⟩ | ⟨x, e1, e2⟩
  · exact Or.inl ⟨l, e1, e2, by linarith⟩
  · refine Or.inr ⟨x, e1, ?_⟩
    have : 10 / r * (|q| + x / r) ≤ 10 / r * (|v| + x / r) :=
      mul_le_mul_of_nonneg_left (by linarith) (by positivity)
    linarith

/-- C37: a completed trajectory stays complete.  With the target given up and the
control velocity at the target velocity `q`, any number of cycles with the same
velocity keep reporting completion and move the control position by the same step
that the target would have moved. -/
theorem C37_stays (hA : A.Law2) (c : TrajConfig) (i : TrajIn) (d : TrajData) {q a t m r : ℚ}
    (rq : A.Rep q) (ra : A.Rep a) (hrate : i.rateHz = .fin r)
    (hT : A.div (A.lit 1) (.fin r) = .fin t) (hS : Step A a t m)
    (hstep : (A.rnd (q - m)).blt (.fin q) = true)
    (hv : velocityArg i.velocity = .fin q) (hcl : clampVelocity d.velLimit (.fin q) = .fin q)
    (hmot : motorLimit i.motorMax (.fin q) = .fin q) (ha : d.accelLimit = .fin a)
    (hp : d.posRaw = none) (hq : QuietCycle c d) (n : Nat) (x : TrajRun) {cp : ℤ} (hd : x.d = d)
    (hcp : x.s.cp = some cp) (hcv : x.s.cv = some (.fin q)) :
    let y := trajRun A c x (List.replicate (n + 1) (.cycle i))
    y.s.done = true ∧ y.s.cv = some (.fin q) ∧ y.vc = .fin q ∧ y.d = d ∧
      y.s.cp = some (cp + (n + 1) * posStep A i.rateHz (.fin q)) := by
  have hl : noLimits d = false := by unfold noLimits; rw [ha]; simp [Fl.isNan]
  have one : ∀ (x : TrajRun) (cp : ℤ), x.d = d → x.s.cp = some cp → x.s.cv = some (.fin q) →
      let y := trajStep A c x (.cycle i)
      y.s.done = true ∧ y.s.cv = some (.fin q) ∧ y.vc = .fin q ∧ y.d = d ∧
        y.s.cp = some (cp + posStep A i.rateHz (.fin q)) := by
    intro x cp hd hcp hcv
    have hu : updateTrajectory A i (.fin q) { x.s with done := false } d =
        ({ x.s with cv := some (.fin q), done := true }, d) := by
      unfold updateTrajectory
      dsimp only
      rw [hcl, hp, hcv, ha, hrate]
      dsimp only
      rw [show derefF (some (Fl.fin q)) = .fin q from rfl,
        velocityMode_eq hA ra hT hS hcl rq rq, if_neg (lt_irrefl q), hstep, if_pos rfl]
      rfl
    have h := update_limited (A := A) c i x.s d hcp hl hq
    dsimp only at h
    rw [hv, hu] at h
    dsimp only at h
    rw [show derefF (some (Fl.fin q)) = .fin q from rfl, hmot] at h
    unfold trajStep
    dsimp only
    rw [hd, h.1, h.2.1, h.2.2.1, h.2.2.2.1, h.2.2.2.2]
    exact ⟨rfl, rfl, rfl, data_posRaw_none d _ hp, rfl⟩
  induction n generalizing x cp with
  | zero =>
    have h := one x cp hd hcp hcv
    dsimp only at h ⊢
    rw [show List.replicate (0 + 1) (TrajOp.cycle i) = [.cycle i] from rfl]
    unfold trajRun
    rw [List.foldl_cons, List.foldl_nil]
    refine ⟨h.1, h.2.1, h.2.2.1, h.2.2.2.1, ?_⟩
    rw [h.2.2.2.2]
    norm_num
  | succ n ih =>
    have h := one x cp hd hcp hcv
    have h2 := ih (trajStep A c x (.cycle i)) h.2.2.2.1 h.2.2.2.2 h.2.1
    dsimp only at h2 ⊢
    rw [show List.replicate (n + 1 + 1) (TrajOp.cycle i) =
      .cycle i :: List.replicate (n + 1) (.cycle i) from rfl]
    unfold trajRun at h2 ⊢
    rw [List.foldl_cons]
    refine ⟨h2.1, h2.2.1, h2.2.2.1, h2.2.2.2.1, ?_⟩
    rw [h2.2.2.2.2]
    congr 1
    push_cast
    ring

/-! ## Velocity mode reaches its target -/

/-- The control velocity after a number of cycles of velocity mode, until it is
done. -/
def velocityModeRun (A : Ar) (rateHz velLimit accelLimit velocity : Fl) : Nat → Fl → Fl × Bool
  | 0, cv => (cv, false)
  | n + 1, cv =>
    let r := velocityModeLimits A rateHz velLimit accelLimit velocity cv
    if r.2 then r else velocityModeRun A rateHz velLimit accelLimit velocity n r.1

/-- In exact arithmetic velocity mode reaches any target velocity `q` in the
expected number of cycles. -/
theorem C37_velocity_reached {a r q : ℚ} (hr : 0 < r) (hpos : 0 < a) {L vf : Fl}
    (hq : clampVelocity L vf = .fin q) (n : Nat) (v0 : ℚ) (hn : |q - v0| < n * (a / r)) :
    velocityModeRun .exact (.fin r) L (.fin a) vf n (.fin v0) = (.fin q, true) := by
  have hT : Ar.exact.div (Ar.exact.lit 1) (.fin r) = .fin (1 / r) := by
    simp [Ar.div, Ar.lit, hr.ne']
  have hS : Step .exact a (1 / r) (a / r) := by
    refine ⟨hpos, by positivity, ?_⟩
    show Ar.exact.rnd (a * (1 / r)) = _
    rw [Ar.exact_rnd, mul_one_div]
  have hm : 0 < a / r := by positivity
  induction n generalizing v0 with
  | zero =>
    have := abs_nonneg (q - v0)
    push_cast at hn
    linarith
  | succ n ih =>
    unfold velocityModeRun
    dsimp only
    rw [velocityMode_eq Ar.exact_law2 ⟨rfl, rfl⟩ hT hS hq ⟨rfl, rfl⟩ ⟨rfl, rfl⟩, Ar.exact_rnd,
      Ar.exact_rnd, Fl.blt_fin, Fl.blt_fin]
    push_cast at hn
    by_cases c : v0 < q
    · rw [if_pos c]
      by_cases c2 : v0 + a / r < q
      · rw [decide_eq_true c2, if_pos rfl, if_neg Bool.false_ne_true]
        apply ih
        rw [abs_of_pos (by linarith)] at hn ⊢
        linarith
      · rw [decide_eq_false c2, if_neg Bool.false_ne_true, if_pos rfl]
    · rw [if_neg c]
      by_cases c2 : v0 - a / r < q
      · rw [decide_eq_true c2, if_pos rfl, if_pos rfl]
      · rw [decide_eq_false c2, if_neg Bool.false_ne_true, if_neg Bool.false_ne_true]
        apply ih
        rw [abs_of_nonpos (by linarith)] at hn ⊢
        linarith

/-! ## Witnesses -/

/-- A completed trajectory need not be at its target: at 32768 Hz with an
acceleration of 32768 and a target velocity of 0, the trajectory is reported
complete 5·2^-16 turns away from the target, and stays there. -/
theorem C37_position_refuted :
    let u := updateCommand .single (cfg .nan .nan) (limitedCycle (.fin 0)) (moving 0 (1 / 2))
      (limitedCommand (some (-5 * 4294967296)) 100 32768)
    u.2.1.done = true ∧ u.2.1.cp = some 0 ∧ u.2.1.controlPosition = .fin 0 ∧
      u.2.1.cv = some (.fin 0) ∧ u.2.2.posRaw = none := by
  decide +kernel

/-- In binary32 a small acceleration is lost: from 100 turns per second, with an
acceleration limit of 0.05 at 32768 Hz, the control velocity never changes and the
trajectory never completes, whatever the number of cycles. -/
theorem C37_stall_refuted (n : Nat) :
    velocityModeRun .single (.fin 32768) .nan (.fin (13421773 / 268435456)) (.fin 200) n (.fin 100) =
      (.fin 100, false) := by
  induction n with
  | zero => rfl
  | succ n ih =>
    unfold velocityModeRun
    have e : velocityModeLimits .single (.fin 32768) .nan (.fin (13421773 / 268435456)) (.fin 200)
        (.fin 100) = (.fin 100, false) := by decide +kernel
    rw [e]
    exact ih

/-- The hypotheses of `C37_position_partial` are met by a completing cycle. -/
example : (updateCommand .exact (cfg .nan .nan) (limitedCycle (.fin 0)) (moving 0 (1 / 2))
      (limitedCommand (some (-5 * 4294967296)) 100 32768)).2.1.done = true ∧
    QuietCycle (cfg .nan .nan) (limitedCommand (some (-5 * 4294967296)) 100 32768) :=
  ⟨by decide +kernel, rfl, rfl, Or.inl rfl, rfl⟩

/-- The step hypothesis of `C37_stays`. -/
example : (Ar.single.rnd (2 - 1)).blt (.fin 2) = true := by decide +kernel

end Verif.Fw
