import Verif.Fw.TrajCompletes
import Mathlib.Algebra.Order.Archimedean.Basic

/-!
# Properties C36 and C70: above the velocity limit

A motion that starts faster than its velocity limit, as after a command that lowers
the limit, slows down to the limit first.
-/

namespace Verif.Fw

open Verif.Float

/-- C36, in exact arithmetic: above the velocity limit a cycle that does not complete
the trajectory slows down by one velocity step, but not below the limit, whatever the
target velocity and the distance are. -/
theorem C36_overspeed_partial {l a r v vf : ℚ} (ha : 0 < a) (hr : 0 < r) (hm : a / r ≤ 2 * l)
    (hv : l < |v|) (dx : Fl) (z1 z2 : Bool) :
    let R := velocityAndAccelLimits .exact z1 z2 (.fin r) (.fin l) (.fin a) (.fin vf) (.fin v) dx
    R.2 = true ∨ R = (.fin (if 0 < v then max l (v - a / r) else min (-l) (v + a / r)), false) := by
  have hmp : 0 < a / r := by positivity
  have hl : 0 < l := by linarith
  dsimp only
  unfold velocityAndAccelLimits
  dsimp only
  rw [if_neg (show ¬ (Fl.fin a).isNan = true by simp [Fl.isNan]), exact_lit, exact_div hr.ne']
  have hacc : calculateAcceleration .exact z1 (.fin l) (.fin a) (.fin v) (.fin vf) dx =
      copysign z1 (.fin a) (.fin (-v)) := by
    unfold calculateAcceleration
    rw [if_pos (by simpa [Fl.isFinite, Fl.abs] using hv)]
    rfl
  rw [hacc]
  rcases lt_trichotomy v 0 with h | h | h
  · rw [abs_of_neg h] at hv
    rw [copysign_pos ha.le (by linarith), exact_mul, exact_add, show v + a * (1 / r) = v + a / r by ring,
      if_neg (not_lt.mpr h.le)]
    split
    · exact Or.inl rfl
    · right
      congr 1
      by_cases hc : v + a / r < -l
      · rw [min_eq_right hc.le, cruise, if_neg]
        simp only [Fl.abs, min_abs_fin, max_abs_fin, Fl.blt_fin, Fl.isFinite, Bool.true_and,
          Bool.and_eq_true, decide_eq_true_eq, not_and]
        intro g
        rw [abs_of_neg h, abs_of_neg (by linarith : v + a / r < 0), min_lt_iff] at g
        rcases g with g | g <;> linarith
      · rw [not_lt] at hc
        rw [min_eq_left hc]
        by_cases he : v + a / r = -l
        · rw [he, cruise, if_neg]
          simp only [Fl.abs, min_abs_fin, max_abs_fin, Fl.blt_fin, Fl.isFinite, Bool.true_and,
            Bool.and_eq_true, decide_eq_true_eq, not_and]
          intro g
          rw [abs_of_neg h, abs_neg, abs_of_pos hl, min_lt_iff] at g
          rcases g with g | g <;> linarith
        · have hc' : -l < v + a / r := lt_of_le_of_ne hc (Ne.symm he)
          rw [cruise, if_pos, copysign_neg hl.le h]
          simp only [Fl.abs, min_abs_fin, max_abs_fin, Fl.blt_fin, Fl.isFinite, Bool.true_and,
            Bool.and_eq_true, decide_eq_true_eq]
          refine ⟨min_lt_of_right_lt ?_, lt_max_of_lt_left (by rw [abs_of_neg h]; exact hv)⟩
          rw [abs_lt]
          constructor <;> linarith
  · rw [h, abs_zero] at hv; linarith
  · rw [abs_of_pos h] at hv
    rw [copysign_neg ha.le (by linarith), exact_mul, exact_add, show v + -a * (1 / r) = v - a / r by ring,
      if_pos h]
    split
    · exact Or.inl rfl
    · right
      congr 1
      by_cases hc : l < v - a / r
      · rw [max_eq_right hc.le, cruise, if_neg]
        simp only [Fl.abs, min_abs_fin, max_abs_fin, Fl.blt_fin, Fl.isFinite, Bool.true_and,
          Bool.and_eq_true, decide_eq_true_eq, not_and]
        intro g
        rw [abs_of_pos h, abs_of_pos (by linarith : 0 < v - a / r), min_lt_iff] at g
        rcases g with g | g <;> linarith
      · rw [not_lt] at hc
        rw [max_eq_left hc]
        by_cases he : v - a / r = l
        · rw [he, cruise, if_neg]
          simp only [Fl.abs, min_abs_fin, max_abs_fin, Fl.blt_fin, Fl.isFinite, Bool.true_and,
            Bool.and_eq_true, decide_eq_true_eq, not_and]
          intro g
          rw [abs_of_pos h, abs_of_pos hl, min_lt_iff] at g
          rcases g with g | g <;> linarith
        · have hc' : v - a / r < l := lt_of_le_of_ne hc he
          rw [cruise, if_pos, copysign_pos hl.le h]
          simp only [Fl.abs, min_abs_fin, max_abs_fin, Fl.blt_fin, Fl.isFinite, Bool.true_and,
            Bool.and_eq_true, decide_eq_true_eq]
          refine ⟨min_lt_of_right_lt ?_, lt_max_of_lt_left (by rw [abs_of_pos h]; exact hv)⟩
          rw [abs_lt]
          constructor <;> linarith

example : (velocityAndAccelLimits .exact false false (.fin 100) (.fin 1) (.fin 25) (.fin 0) (.fin (-3))
    (.fin 10)) = (.fin (-11 / 4), false) := by decide +kernel

/-! ## Motions that start above the limit -/

theorem afterCycles_shift {A : Ar} (c : TrajConfig) (x : TrajRun) (ins : ℕ → TrajIn) (n : ℕ) :
    afterCycles A c x ins (n + 1) =
      afterCycles A c (trajStep A c x (.cycle (ins 0))) (fun k => ins (k + 1)) n := by
  unfold afterCycles trajRun
  rw [List.range_succ_eq_map, List.map_cons, List.foldl_cons, List.map_map]
  rfl

theorem overspeed_step {c : TrajConfig} {d : TrajData} {r a l : ℚ} {target : ℤ}
    (S : MotionSetup c d r a target) (hl : d.velLimit = .fin l) {x : TrajRun} {cp : ℤ} {v : ℚ}
    (hd : x.d = d) (hcp : x.s.cp = some cp) (hcv : x.s.cv = some (.fin v)) (hv : l < |v|)
    (hdist : |turns (target - cp)| < 32768) (hfast : |v| ≤ r / 4)
    {i : TrajIn} (hi : MotionCycle d r i)
    (hM : i.motorMax = .inf false ∨ ∃ M, i.motorMax = .fin M ∧ |v| ≤ M) :
    Ended r a target (trajStep .exact c x (.cycle i)) ∨
    ∃ cp' v', (trajStep .exact c x (.cycle i)).d = d ∧
      (trajStep .exact c x (.cycle i)).s.cp = some cp' ∧
      (trajStep .exact c x (.cycle i)).s.cv = some (.fin v') ∧
      |v'| = max l (|v| - a / r) ∧ |turns (target - cp')| ≤ |turns (target - cp)| + |v'| / r := by
  have hr := S.hr
  have ha := S.ha
  have hm : 0 < a / r := by positivity
  have hlm : a / r ≤ l := by
    rcases S.limit with e | ⟨l', e, g⟩
    · rw [e] at hl; cases hl
    · rw [e] at hl; cases hl; exact g
  have hlim : noLimits d = false := by
    unfold noLimits; rw [S.accel]; simp [Fl.isNan]
  have hU := update_limited (A := .exact) c i x.s x.d hcp (by rw [hd]; exact hlim)
    (by rw [hd]; exact S.quiet)
  dsimp only at hU
  rw [hi.still, hd] at hU
  have hT : updateTrajectory .exact i (.fin 0) { x.s with done := false } d =
      ({ x.s with
          cv := some (velocityAndAccelLimits .exact i.z1 i.z2 (.fin r) (.fin l) (.fin a) (.fin 0) (.fin v)
            (.fin ((⌊turns (target - cp) * 65536⌋ : ℤ) / 65536))).1
          done := (velocityAndAccelLimits .exact i.z1 i.z2 (.fin r) (.fin l) (.fin a) (.fin 0) (.fin v)
            (.fin ((⌊turns (target - cp) * 65536⌋ : ℤ) / 65536))).2 },
       if (velocityAndAccelLimits .exact i.z1 i.z2 (.fin r) (.fin l) (.fin a) (.fin 0) (.fin v)
            (.fin ((⌊turns (target - cp) * 65536⌋ : ℤ) / 65536))).2
       then { d with position := .nan, posRaw := none } else d) := by
    unfold updateTrajectory
    rw [hl, clamp_zero (Or.inr ⟨l, rfl, by linarith⟩), S.target]
    dsimp only
    rw [hcv, hcp, hi.rate, S.accel]
    rw [show derefF (some (Fl.fin v)) = .fin v from rfl, show derefI (some cp) = cp from rfl,
      distance_exact hdist, Bool.false_or]
  have hz : posStep .exact (.fin r) (.fin 0) = 0 := by
    unfold posStep
    rw [exact_div hr.ne', exact_lit, exact_mul, zero_div, mul_zero]
    decide +kernel
  rcases C36_overspeed_partial (vf := 0) ha hr (by linarith) hv
    (.fin ((⌊turns (target - cp) * 65536⌋ : ℤ) / 65536)) i.z1 i.z2 with hdone | hR
  · left
    have hv0 := velocityAndAccel_done hdone
    rw [hT] at hU
    dsimp only at hU
    rw [hv0, hdone, show derefF (some (Fl.fin 0)) = .fin 0 from rfl,
      motor_free hi (by rw [abs_zero]; positivity) (Or.inr ⟨l, hl, by rw [abs_zero]; linarith⟩),
      hi.rate, hz] at hU
    have hpos := C37_position_partial c i x.s d hr hi.rate hi.still hcp hcv S.target (by
        unfold turns at hdist
        rw [abs_div, abs_of_pos (show (0 : ℚ) < 281474976710656 by norm_num), div_lt_iff₀ (by norm_num)] at hdist
        have k3 : |((target - cp : ℤ) : ℚ)| < 9223372036854775808 := by linarith
        exact_mod_cast k3)
      (Or.inr ⟨l, hl, by linarith⟩) (Or.inr ⟨a, S.accel, ha⟩) S.quiet hU.2.2.1
    refine ⟨?_, ?_, cp, ?_, ?_⟩
    · unfold trajStep
      dsimp only
      rw [hd, hU.2.2.1]
    · unfold trajStep
      dsimp only
      rw [hd, hU.1]
    · unfold trajStep
      dsimp only
      rw [hd, hU.2.2.2.1, add_zero]
    · rcases hpos with ⟨l', e, -⟩ | ⟨b, e, g⟩
      · rw [S.accel] at e; cases e
      · rw [S.accel] at e; cases e
        have : 10 / r * (|0| + a / r) = 10 * (a / r ^ 2) := by
          rw [abs_zero]; field_simp; ring
        linarith
  · right
    generalize hv'e : (if 0 < v then max l (v - a / r) else min (-l) (v + a / r)) = v' at hR
    have habs : |v'| = max l (|v| - a / r) := by
      rw [← hv'e]
      split
      · rename_i g
        rw [abs_of_pos g, abs_of_pos (lt_max_of_lt_left (by linarith))]
      · rename_i g
        rw [abs_of_nonpos (not_lt.mp g), abs_of_neg (lt_of_le_of_lt (min_le_left _ _) (by linarith))]
        rcases le_total (-l) (v + a / r) with q | q
        · rw [min_eq_left q, max_eq_left (by linarith), neg_neg]
        · rw [min_eq_right q, max_eq_right (by linarith)]
          ring
    have hle : |v'| ≤ |v| := by
      rw [habs]
      exact max_le hv.le (by linarith)
    rw [hR] at hT
    rw [hT] at hU
    dsimp only at hU
    have hmot : motorLimit i.motorMax (.fin v') = .fin v' := by
      rcases hM with e | ⟨M, e, g⟩
      · rw [e]; rfl
      · rw [e]; exact motorLimit_quiet (hle.trans g)
    rw [if_neg Bool.false_ne_true, show derefF (some (Fl.fin v')) = .fin v' from rfl, hmot, hi.rate] at hU
    have k4 : |v' / r| ≤ 1 / 4 := by
      rw [abs_div, abs_of_pos hr, div_le_iff₀ hr]
      linarith
    refine ⟨cp + posStep .exact (.fin r) (.fin v'), v', ?_, ?_, ?_, habs, ?_⟩
    · unfold trajStep
      dsimp only
      rw [hd, hU.2.2.2.2, hz, S.target]
      have := S.target
      cases d
      simp_all
    · unfold trajStep
      dsimp only
      rw [hd, hU.2.2.2.1]
    · unfold trajStep
      dsimp only
      rw [hd, hU.2.1]
    · have e1 : turns (target - (cp + posStep .exact (.fin r) (.fin v'))) =
          turns (target - cp) - turns (posStep .exact (.fin r) (.fin v')) := by
        unfold turns; push_cast; ring
      rw [e1, posStep_turns hr k4]
      have e2 : |(truncQ (4294967296 * (v' / r)) : ℚ)| ≤ 4294967296 * (|v'| / r) := by
        have h1 := (truncQ_spec (4294967296 * (v' / r))).2
        rcases le_total 0 (4294967296 * (v' / r)) with g | g
        · have h2 := (h1.1 g)
          have h3 : (0 : ℚ) ≤ truncQ (4294967296 * (v' / r)) := by exact_mod_cast h2.1
          have h4 : 0 ≤ v' / r := by linarith
          rw [abs_of_nonneg h3]
          have : |v'| / r = v' / r := by
            rw [← abs_of_pos hr, ← abs_div, abs_of_pos hr, abs_of_nonneg h4]
          rw [this]; exact h2.2
        · have h2 := (h1.2 g)
          have h3 : (truncQ (4294967296 * (v' / r)) : ℚ) ≤ 0 := by exact_mod_cast h2.1
          have h4 : v' / r ≤ 0 := by linarith
          rw [abs_of_nonpos h3]
          have : |v'| / r = -(v' / r) := by
            rw [← abs_of_pos hr, ← abs_div, abs_of_pos hr, abs_of_nonpos h4]
          rw [this]; linarith [h2.2]
      have e3 := abs_sub (turns (target - cp)) (truncQ (4294967296 * (v' / r)) / 4294967296)
      have e4 : |(truncQ (4294967296 * (v' / r)) : ℚ) / 4294967296| ≤ |v'| / r := by
        rw [abs_div, abs_of_pos (show (0 : ℚ) < 4294967296 by norm_num), div_le_iff₀ (by norm_num)]
        linarith
      linarith

theorem overspeed_ends {c : TrajConfig} {r a l V : ℚ} {target : ℤ} (n : ℕ) :
    ∀ {x : TrajRun} {ins : ℕ → TrajIn} {cp : ℤ} {v : ℚ}, MotionSetup c x.d r a target →
      x.d.velLimit = .fin l → (∀ k, MotionCycle x.d r (ins k)) →
      (∀ k, (ins k).motorMax = .inf false ∨ ∃ M, (ins k).motorMax = .fin M ∧ V ≤ M) →
      x.s.cp = some cp → x.s.cv = some (.fin v) → |v| ≤ V → l < |v| → |v| ≤ l + n * (a / r) →
      |turns (target - cp)| + v ^ 2 / (2 * a) + l / r ≤ 32767 →
      ∃ k, Ended r a target (afterCycles .exact c x ins (k + 1)) := by
  induction n with
  | zero =>
    intro x ins cp v _ _ _ _ _ _ _ h1 h2
    norm_num at h2
    linarith
  | succ n ih =>
    intro x ins cp v S hl hi hM hcp hcv hV h1 h2 hd
    have hr := S.hr
    have ha := S.ha
    have hm : 0 < a / r := by positivity
    have hlp : 0 < l := by
      rcases S.limit with e | ⟨l', e, g⟩
      · rw [e] at hl; cases hl
      · rw [e] at hl; cases hl; linarith
    have hlr : 0 < l / r := by positivity
    have hq : 0 ≤ v ^ 2 / (2 * a) := by positivity
    have ht : |turns (target - cp)| < 32768 := by linarith
    have hfast : |v| ≤ r / 4 := by
      have h3 : v ^ 2 / (2 * a) ≤ 32767 := by linarith [abs_nonneg (turns (target - cp))]
      rw [div_le_iff₀ (by positivity)] at h3
      have h4 := S.fine
      rw [div_le_iff₀ (by positivity)] at h4
      have h5 : |v| ^ 2 ≤ (r / 4) ^ 2 := by
        rw [sq_abs]
        nlinarith
      exact (sq_le_sq₀ (abs_nonneg v) (by positivity)).mp h5
    rcases overspeed_step S hl rfl hcp hcv h1 ht hfast (hi 0)
      ((hM 0).imp id fun ⟨M, e, g⟩ => ⟨M, e, hV.trans g⟩) with hE | ⟨cp', v', g1, g2, g3, g4, g5⟩
    · refine ⟨0, ?_⟩
      rw [afterCycles_shift]
      exact hE
    · have hsq : v' ^ 2 / (2 * a) = |v'| ^ 2 / (2 * a) := by rw [sq_abs]
      have hsq0 : v ^ 2 / (2 * a) = |v| ^ 2 / (2 * a) := by rw [sq_abs]
      generalize hy : trajStep .exact c x (.cycle (ins 0)) = y at g1 g2 g3
      rcases le_or_gt (|v| - a / r) l with hlow | hhigh
      · rw [max_eq_left hlow] at g4
        have hmono : l ^ 2 / (2 * a) ≤ |v| ^ 2 / (2 * a) := by
          apply div_le_div_of_nonneg_right _ (by positivity)
          exact pow_le_pow_left₀ hlp.le h1.le 2
        obtain ⟨k, hk⟩ := C70_completes_partial (x := y) (ins := fun k => ins (k + 1)) (cp := cp')
          (v0 := v') (target := target) (by rw [g1]; exact S) (fun k => by rw [g1]; exact hi (k + 1)) g2 g3
          (fun l' e => by rw [g1, hl] at e; cases e; exact g4.le) (by
            rw [hsq, g4]
            rw [g4] at g5
            linarith)
        refine ⟨k + 1, ?_⟩
        rw [afterCycles_shift, hy]
        exact hk
      · rw [max_eq_right hhigh.le] at g4
        have hstep : |v'| ^ 2 / (2 * a) + |v'| / r ≤ |v| ^ 2 / (2 * a) := by
          rw [g4]
          have : |v| ^ 2 / (2 * a) - ((|v| - a / r) ^ 2 / (2 * a) + (|v| - a / r) / r) = a / (2 * r ^ 2) := by
            field_simp
            ring
          have : 0 < a / (2 * r ^ 2) := by positivity
          linarith
        obtain ⟨k, hk⟩ := ih (x := y) (ins := fun k => ins (k + 1)) (cp := cp') (v := v')
          (by rw [g1]; exact S) (by rw [g1]; exact hl) (fun k => by rw [g1]; exact hi (k + 1))
          (fun k => hM (k + 1)) g2 g3 (by linarith) (by linarith) (by
            push_cast at h2
            linarith) (by linarith)
        refine ⟨k + 1, ?_⟩
        rw [afterCycles_shift, hy]
        exact hk

/-- C70, in exact arithmetic, from any velocity: also from above the velocity limit
the motion ends.  In addition to `C70_completes_partial` the motor must be able to
keep the initial velocity, and the path of one cycle at that velocity is allowed for
in the distance. -/
theorem C70_any_velocity_partial {c : TrajConfig} {x : TrajRun} {ins : ℕ → TrajIn} {r a v0 : ℚ}
    {cp target : ℤ} (S : MotionSetup c x.d r a target) (hi : ∀ n, MotionCycle x.d r (ins n))
    (hM : ∀ n, (ins n).motorMax = .inf false ∨ ∃ M, (ins n).motorMax = .fin M ∧ |v0| ≤ M)
    (hcp : x.s.cp = some cp) (hcv : x.s.cv = some (.fin v0))
    (hd : |turns (target - cp)| + v0 ^ 2 / (2 * a) + |v0| / r ≤ 32767) :
    ∃ n, Ended r a target (afterCycles .exact c x ins (n + 1)) := by
  have hr := S.hr
  have ha := S.ha
  have hm : 0 < a / r := by positivity
  have hv0 : 0 ≤ |v0| / r := by positivity
  by_cases h : ∃ l, x.d.velLimit = .fin l ∧ l < |v0|
  · obtain ⟨l, hl, h1⟩ := h
    obtain ⟨n, hn⟩ := exists_nat_ge ((|v0| - l) / (a / r))
    rw [div_le_iff₀ hm] at hn
    refine overspeed_ends n S hl hi hM hcp hcv le_rfl h1 (by linarith) ?_
    have : l / r ≤ |v0| / r := div_le_div_of_nonneg_right h1.le hr.le
    linarith
  · refine C70_completes_partial S hi hcp hcv (fun l e => ?_) (by linarith)
    by_contra hc
    exact h ⟨l, e, not_le.mp hc⟩

/-- 10 turns to go at 4 turns per second, with a limit of 2. -/
example (ins : ℕ → TrajIn) (h : ∀ n, (ins n).rateHz = .fin 15000 ∧ (ins n).velocity = .fin 0 ∧
    (ins n).motorMax = .fin 50) :
    ∃ n, Ended 15000 25 2814749767106560 (afterCycles .exact ⟨.fin 0, .nan, .nan, .nan, .nan⟩
      { usualMove with s := { usualMove.s with cv := some (.fin 4) } } ins (n + 1)) := by
  apply C70_any_velocity_partial (v0 := 4) (cp := 0)
  · exact ⟨by norm_num, by norm_num, by norm_num, by norm_num, rfl, rfl,
      Or.inr ⟨2, rfl, by norm_num⟩, ⟨rfl, rfl, Or.inr ⟨rfl, rfl⟩, rfl⟩⟩
  · intro n
    obtain ⟨h1, h2, h3⟩ := h n
    exact ⟨h1, by rw [h2]; rfl, Or.inr ⟨50, h3, Or.inr ⟨2, rfl, by norm_num⟩⟩⟩
  · intro n
    exact Or.inr ⟨50, (h n).2.2, by norm_num⟩
  · rfl
  · rfl
  · unfold turns
    norm_num

end Verif.Fw
