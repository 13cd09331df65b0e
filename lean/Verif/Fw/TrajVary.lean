import Verif.Fw.TrajLimits

/-!
# Commands with different velocity limits

`Fw/TrajLimits.lean` keeps one velocity limit over a run.  Here every command has its
own, and the velocity stays within the largest one, also while it is above the limit of
the command in force.  Together with `Fw/CommandPrep.lean` this bounds the velocity by
the configured maximum, whatever is commanded.
-/

namespace Verif.Fw.Vary

open Verif.Float Verif.Fw

variable {A : Ar}

theorem Within.mono {l V : ℚ} (h : l ≤ V) {v : Fl} (hv : Within A l v) : Within A V v := by
  obtain ⟨q, e, r, hq⟩ := hv
  exact ⟨q, e, r, hq.trans h⟩

/-- Velocity mode: towards a target within the limit the velocity stays in any larger
bound. -/
theorem velocityMode_within (hA : A.Law2) {V L a t m r v0 : ℚ} (hL : 0 ≤ L) (rL : A.Rep L)
    (hV : L ≤ V) (ra : A.Rep a) (hT : A.div (A.lit 1) (.fin r) = .fin t) (h : Step A a t m) {vf : Fl}
    (hf : vf ≠ .nan) (rf : A.RepF vf) (r0 : A.Rep v0) (h0 : |v0| ≤ V) :
    Within A V (velocityModeLimits A (.fin r) (.fin L) (.fin a) vf (.fin v0)).1 := by
  obtain ⟨q, e, rq, hq'⟩ := clamp_within hA hL rL hf rf
  have hq : |q| ≤ V := hq'.trans hV
  rw [velocityMode_eq hA ra hT h e rq r0]
  have hm := (h.rep hA).2
  have hw : Within A V (.fin q) := ⟨q, rfl, rq, hq⟩
  split
  · split
    · rename_i g1 g2
      have h1 := hA.toLaw.le_rnd r0 (x := v0 + m) (by linarith)
      have h2 := Fl.Le_of_blt g2
      have e2 : ∀ w, A.rnd (v0 + m) = w → Within A V w := by
        intro w hw
        rw [hw] at h1 h2
        rcases w with _ | ⟨_ | _⟩ | x
        · exact absurd h1 (by simp [Fl.Le])
        · exact absurd h2 (by simp [Fl.Le, Fl.ble])
        · exact absurd h1 (by simp [Fl.Le, Fl.ble])
        · rw [Fl.Le_fin] at h1 h2
          rw [abs_le] at h0 hq
          exact ⟨x, rfl, hA.rep_of_rnd hw, abs_le.mpr ⟨by linarith, by linarith⟩⟩
      exact e2 _ rfl
    · exact hw
  · split
    · exact hw
    · rename_i g1 g2
      have h1 := hA.toLaw.rnd_le r0 (x := v0 - m) (by linarith)
      have h2 := (Fl.not_blt (x := A.rnd (v0 - m)) (y := .fin q) (Ar.rnd_ne_nan _) (by simp)).mp
        (by simpa using g2)
      have e2 : ∀ w, A.rnd (v0 - m) = w → Within A V w := by
        intro w hw
        rw [hw] at h1 h2
        rcases w with _ | ⟨_ | _⟩ | x
        · exact absurd h1 (by simp [Fl.Le])
        · exact absurd h1 (by simp [Fl.Le, Fl.ble])
        · exact absurd h2 (by simp [Fl.Le, Fl.ble])
        · rw [Fl.Le_fin] at h1 h2
          rw [abs_le] at h0 hq
          exact ⟨x, rfl, hA.rep_of_rnd hw, abs_le.mpr ⟨by linarith, by linarith⟩⟩
      exact e2 _ rfl

theorem cruise_within (hA : A.Law2) {V L v0 : ℚ} (hL : 0 ≤ L) (rL : A.Rep L) (hV : L ≤ V)
    (z : Bool) {v1 : Fl} (r1 : A.RepF v1) (n1 : v1 ≠ .nan) (h : L ≤ |v0| → Within A V v1) :
    Within A V (cruise z (.fin L) (.fin v0) v1) := by
  by_cases h0 : |v0| < L
  · exact Within.mono hV (Verif.Fw.cruise_within hA hL rL z h0.le r1 n1 (fun e => absurd e h0.ne))
  · unfold cruise
    split
    · exact Within.mono hV (copysign_within hA hL rL z _)
    · exact h (not_lt.mp h0)

/-- Position mode with both limits: the velocity stays in any bound that is at least the
limit and at least the acceleration of one cycle, also when it is above the limit. -/
theorem positionMode_within (hA : A.Law2) {V L a t m r v0 vf dx : ℚ} (hL : 0 ≤ L) (rL : A.Rep L)
    (hV : L ≤ V) (rV : A.Rep V) (ra : A.Rep a) (hT : A.div (A.lit 1) (.fin r) = .fin t)
    (h : Step A a t m) (hm2 : m ≤ V) (rf : A.Rep vf) (hf : |vf| ≤ L) (r0 : A.Rep v0)
    (h0 : |v0| ≤ V) (z1 z2 : Bool) :
    Within A V (velocityAndAccelLimits A z1 z2 (.fin r) (.fin L) (.fin a) (.fin vf) (.fin v0)
      (.fin dx)).1 := by
  unfold velocityAndAccelLimits
  dsimp only
  rw [if_neg (show ¬ (Fl.fin a).isNan = true by simp [Fl.isNan]), hT]
  have hm := (h.rep hA).2
  have hfV : Within A V (.fin vf) := ⟨vf, rfl, rf, hf.trans hV⟩
  have h0' := abs_le.mp h0
  have hf' := abs_le.mp hf
  rcases le_or_gt |v0| L with hle | hgt
  · have hac := accel_cases hA z1 h.a_pos ra hle r0 rf (dx := dx)
    generalize hr : calculateAcceleration A z1 (.fin L) (.fin a) (.fin v0) (.fin vf) (.fin dx) = r at hac
    obtain ⟨e, he, e1, e2, e3, e4⟩ := v1_cases hA h hac.1 (v0 := v0)
    rw [he]
    split
    · exact hfV
    · rename_i hc
      refine cruise_within hA hL rL hV z2 (hA.repF_rnd _) (Ar.rnd_ne_nan _) ?_
      intro hv1
      have hv : |v0| = L := le_antisymm hle hv1
      have hv' : v0 = L ∨ v0 = -L := by
        rcases abs_cases v0 with c | c
        · left; linarith
        · right; linarith
      rcases hac.2 hv with g | ⟨g, g2⟩ | ⟨g, g2⟩ | ⟨g, g2⟩
      · rw [e3 g, add_zero, r0.rnd]
        exact ⟨v0, rfl, r0, h0⟩
      · apply rnd_within hA rV
        rw [e2 g2, abs_le]
        rcases hv' with c | c
        · constructor <;> linarith
        · linarith
      · apply rnd_within hA rV
        rw [e1 g2, abs_le]
        rcases hv' with c | c
        · linarith
        · constructor <;> linarith
      · by_contra hn
        apply hc
        have hnz : A.rnd (v0 + e) ≠ .fin 0 := by
          intro c; rw [c] at hn
          exact hn ⟨0, rfl, hA.rep_zero, by simpa using hL.trans hV⟩
        have nn := Ar.rnd_ne_nan (A := A) (v0 + e)
        have htp := h.t_pos
        subst g g2
        unfold complete
        have e10 : (Fl.fin 0).ble (A.mul (.fin 10) (.fin t)) = true := by
          exact hA.toLaw.le_rnd hA.toLaw.rep_zero (by linarith)
        generalize A.rnd (v0 + e) = w at *
        have p : (A.div (.fin 0) w).abs = .fin 0 := by
          rcases w with _ | s | x
          · exact absurd rfl nn
          · simp [Ar.div, Fl.abs]
          · have : x ≠ 0 := fun c => hnz (by rw [c])
            rw [div_fin _ this, zero_div, hA.rep_zero.rnd]
            simp [Fl.abs]
        have c : ((Fl.min (.fin v0) w).ble (.fin v0) && (Fl.fin v0).ble (Fl.max (.fin v0) w)) = true := by
          rcases w with _ | ⟨_ | _⟩ | x
          · exact absurd rfl nn
          · simp [Fl.min, Fl.max, Fl.blt, Fl.ble]
          · simp [Fl.min, Fl.max, Fl.blt, Fl.ble]
          · unfold Fl.min Fl.max
            rw [Fl.blt_fin, Fl.blt_fin]
            by_cases g1 : x < v0
            · simp [g1, g1.le, not_lt.mpr g1.le]
            · by_cases g2 : v0 < x
              · simp [g1, g2, g2.le]
              · simp [g1, g2]
        rw [p, e10]
        simp only [Bool.and_true, Bool.or_eq_true]
        exact Or.inl c
  · have hr : calculateAcceleration A z1 (.fin L) (.fin a) (.fin v0) (.fin vf) (.fin dx) =
        if 0 < v0 then .fin (-a) else .fin a := by
      unfold calculateAcceleration
      rw [if_pos (by simp [Fl.isFinite, Fl.abs, hgt]), copysign_fin h.a_pos.le]
      have hne : v0 ≠ 0 := by rintro rfl; rw [abs_zero] at hgt; linarith
      have hs : signBit z1 (Fl.fin v0).neg = decide (0 < v0) := by
        rcases lt_or_gt_of_ne hne with g | g
        · simp [Fl.neg, signBit, hne]
        · simp [Fl.neg, signBit, hne]
      rw [hs]; simp
    rw [hr]
    have hv1 : Within A V (A.add (.fin v0) (A.mul (if 0 < v0 then .fin (-a) else .fin a) (.fin t))) := by
      split
      · rw [h.neg hA, Ar.add_fin]
        exact rnd_within hA rV (abs_le.mpr ⟨by linarith, by linarith⟩)
      · rw [h.m_eq, Ar.add_fin]
        exact rnd_within hA rV (abs_le.mpr ⟨by linarith, by linarith⟩)
    generalize A.add (.fin v0) (A.mul (if 0 < v0 then .fin (-a) else .fin a) (.fin t)) = v1 at hv1
    split
    · exact hfV
    · have n1 : v1 ≠ .nan := by obtain ⟨q, rfl, _⟩ := hv1; simp
      have r1 : A.RepF v1 := by obtain ⟨q, rfl, r, _⟩ := hv1; exact r
      exact cruise_within hA hL rL hV z2 r1 n1 (fun _ => hv1)

/-! ## Runs -/

/-- The limits of a command: some velocity limit up to `V`, and either no acceleration
limit or one that changes the velocity by at most `V` per cycle. -/
def LimitsOk (A : Ar) (V t : ℚ) (d : TrajData) : Prop :=
  ∃ l, d.velLimit = .fin l ∧ 0 ≤ l ∧ l ≤ V ∧ A.Rep l ∧
    (d.accelLimit = .nan ∨ ∃ a m, d.accelLimit = .fin a ∧ A.Rep a ∧ Step A a t m ∧ m ≤ V)

def Inv (A : Ar) (V t : ℚ) (r : TrajRun) : Prop :=
  r.s.cp.isSome ∧ (∃ v, r.s.cv = some v ∧ Within A V v) ∧ Within A V r.vc ∧ LimitsOk A V t r.d

theorem updateTrajectory_within (hA : A.Law2) {V r t : ℚ} (rV : A.Rep V)
    (hT : A.div (A.lit 1) (.fin r) = .fin t) (i : TrajIn) (hr : i.rateHz = .fin r) {v : Fl}
    (hv : v ≠ .nan) (rv : A.RepF v) (s : TrajStatus) (d : TrajData) (hd : LimitsOk A V t d) {v0 : Fl}
    (h0 : s.cv = some v0) (w0 : Within A V v0) :
    ∃ v', (updateTrajectory A i v s d).1.cv = some v' ∧ Within A V v' ∧
      LimitsOk A V t (updateTrajectory A i v s d).2 := by
  obtain ⟨q, rfl, rq, hq⟩ := w0
  have hd' := hd
  obtain ⟨L, hd1, hL, hLV, rL, hacc⟩ := hd
  obtain ⟨p, ep, rp, hp⟩ := clamp_within hA hL rL hv rv
  unfold updateTrajectory
  dsimp only
  rw [hd1, ep, h0, hr]
  cases hpr : d.posRaw with
  | none =>
    refine ⟨_, rfl, ?_, hd'⟩
    rcases hacc with e | ⟨a, m, e, ra, st, hm⟩
    · rw [e]
      unfold velocityModeLimits
      dsimp only
      rw [if_pos (show Fl.nan.isNan = true from rfl)]
      exact Within.mono hLV (clamp_within hA hL rL (v := .fin p) (by simp) rp)
    · rw [e]
      exact velocityMode_within hA hL rL hLV ra hT st (by simp) (show A.RepF (.fin p) from rp) rq hq
  | some target =>
    refine ⟨_, rfl, ?_, ?_⟩
    · obtain ⟨dx, edx⟩ := intToFloat_fin hA (target - derefI s.cp)
      rcases hacc with e | ⟨a, m, e, ra, st, hm⟩
      · rw [e]
        unfold velocityAndAccelLimits
        dsimp only
        rw [if_pos (show Fl.nan.isNan = true from rfl)]
        exact Within.mono hLV (velocityOnly_within hA hL rL rp hp _ _)
      · rw [e]
        unfold distance
        rw [edx]
        exact positionMode_within hA hL rL hLV rV ra hT st hm rp hp rq hq _ _
    · dsimp only
      split
      · exact ⟨L, rfl, hL, hLV, rL, hacc⟩
      · exact hd'

theorem inv_cycle (hA : A.Law2) {V r t : ℚ} (hV : 0 ≤ V) (rV : A.Rep V)
    (hT : A.div (A.lit 1) (.fin r) = .fin t) (c : TrajConfig) (hc : c.maxVelocitySlip.isFinite = false)
    (x : TrajRun) (h : Inv A V t x) (i : TrajIn) (hi : CycleOk A r i) :
    Inv A V t (trajStep A c x (.cycle i)) := by
  obtain ⟨hcp, ⟨v0, hcv, w0⟩, _, hd⟩ := h
  have hv := velocityArg_ok hA hi.2.1
  obtain ⟨v', e', w', d'⟩ := updateTrajectory_within hA rV hT i hi.1 hv.1 hv.2
    { x.s with done := false } x.d hd hcv w0
  have hp := prepare_limited (A := A) c i x.s x.d hcp (by
    obtain ⟨l, e, _⟩ := hd
    unfold noLimits; rw [e]; rfl)
  unfold trajStep updateCommand
  dsimp only
  rw [hp]
  dsimp only
  rw [e']
  have wm : Within A V (motorLimit i.motorMax (derefF (some v'))) := motorLimit_within hA i hi w'
  have hslip : ∀ z, velocitySlip A c.maxVelocitySlip i.measured z = z := by
    intro z; unfold velocitySlip; rw [hc]; rfl
  rw [hslip]
  have w0 : Within A V (.fin 0) := ⟨0, rfl, hA.rep_zero, by simpa using hV⟩
  unfold finish
  split
  · exact ⟨rfl, ⟨_, rfl, w0⟩, w0, d'⟩
  · refine ⟨rfl, ⟨_, rfl, ?_⟩, ?_, d'⟩
    · split
      · exact w0
      · exact wm
    · dsimp only
      split
      · exact w0
      · exact wm

theorem run_within (hA : A.Law2) {V r t : ℚ} (hV : 0 ≤ V) (rV : A.Rep V)
    (hT : A.div (A.lit 1) (.fin r) = .fin t) (c : TrajConfig)
    (hc : c.maxVelocitySlip.isFinite = false) (x : TrajRun) (h : Inv A V t x)
    (ops : List TrajOp)
    (hops : ∀ op ∈ ops, (∃ d, op = .command d ∧ LimitsOk A V t d) ∨ (∃ i, op = .cycle i ∧ CycleOk A r i)) :
    Inv A V t (trajRun A c x ops) := by
  unfold trajRun
  induction ops generalizing x with
  | nil => exact h
  | cons op ops ih =>
    rw [List.foldl_cons]
    apply ih
    · rcases hops op (List.mem_cons_self ..) with ⟨d, rfl, hd⟩ | ⟨i, rfl, hi⟩
      · exact ⟨h.1, h.2.1, h.2.2.1, hd⟩
      · exact inv_cycle hA hV rV hT c hc x h i hi
    · exact fun o ho => hops o (List.mem_cons_of_mem _ ho)

end Verif.Fw.Vary
