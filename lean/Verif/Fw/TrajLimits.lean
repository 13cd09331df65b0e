import Verif.Fw.TrajBounds

/-!
# Velocity and acceleration limits of trajectories

Property C36, over any sequence of commands and control cycles.
-/

namespace Verif.Fw

open Verif.Float

variable {A : Ar}

/-- A finite float whose magnitude is at most `L`. -/
def Within (A : Ar) (L : ℚ) (v : Fl) : Prop := ∃ q, v = .fin q ∧ A.Rep q ∧ |q| ≤ L

theorem within_fin {L q : ℚ} : Within A L (.fin q) ↔ A.Rep q ∧ |q| ≤ L := by
  constructor
  · rintro ⟨p, h, hr, hl⟩
    cases h
    exact ⟨hr, hl⟩
  · rintro ⟨hr, hl⟩
    exact ⟨q, rfl, hr, hl⟩

theorem within_pm (hA : A.Law2) {L : ℚ} (hL : 0 ≤ L) (rL : A.Rep L) (s : Bool) :
    Within A L (if s then (Fl.fin L).neg else .fin L) := by
  split
  · exact ⟨-L, rfl, hA.rep_neg rL, by rw [abs_neg, abs_of_nonneg hL]⟩
  · exact ⟨L, rfl, rL, by rw [abs_of_nonneg hL]⟩

/-- The clamp of the target velocity. -/
theorem clamp_within (hA : A.Law2) {L : ℚ} (hL : 0 ≤ L) (rL : A.Rep L) {v : Fl} (hv : v ≠ .nan)
    (rv : A.RepF v) : Within A L (clampVelocity (.fin L) v) := by
  unfold clampVelocity
  rw [if_neg (by simp [Fl.isNan])]
  dsimp only
  have p := within_pm hA hL rL false
  have n := within_pm hA hL rL true
  simp only [if_true, Bool.false_eq_true, if_false] at p n
  rcases v with _ | ⟨_ | _⟩ | q
  · exact absurd rfl hv
  · rw [show (Fl.fin L).blt (.inf false) = true from rfl, if_pos rfl]
    split
    · exact n
    · exact p
  · rw [show (Fl.fin L).blt (.inf true) = false from rfl, if_neg Bool.false_ne_true]
    rw [show (Fl.inf true).blt (Fl.fin L).neg = true from rfl, if_pos rfl]
    exact n
  · rw [Fl.blt_fin]
    by_cases h : L < q
    · rw [decide_eq_true h, if_pos rfl]
      split
      · exact n
      · exact p
    · rw [decide_eq_false h, if_neg Bool.false_ne_true, show (Fl.fin L).neg = .fin (-L) from rfl, Fl.blt_fin]
      by_cases h2 : q < -L
      · rw [decide_eq_true h2, if_pos rfl]; exact n
      · rw [decide_eq_false h2, if_neg Bool.false_ne_true]
        exact ⟨q, rfl, rv, by rw [abs_le]; constructor <;> linarith⟩

/-! ## Distances are finite -/

theorem pow127 : (2147483648 : ℚ) ≤ pow2 127 := by decide +kernel

theorem lit_i32 (hA : A.Law2) {n : ℤ} (h : |n| ≤ 2147483648) :
    ∃ q, A.lit n = .fin q ∧ |q| ≤ 2147483648 := by
  have hq : |(n : ℚ)| ≤ 2147483648 := by exact_mod_cast h
  refine ⟨A.rq n, ?_, ?_⟩
  · unfold Ar.lit Ar.rnd
    rw [if_neg]
    rw [hA.small (hq.trans pow127)]
    simp
  · have r : A.Rep (2147483648 : ℚ) := by
      have e : pow2 31 = 2147483648 := by decide +kernel
      have := hA.scale (x := 1) (k := 31) (by simpa using hA.rep_int (n := 1) (by norm_num))
        (by norm_num) (by rw [one_mul, e, abs_of_pos (by norm_num)]; exact pow127)
      rwa [one_mul, e] at this
    rw [abs_le] at hq ⊢
    have a := hA.mono hq.1
    have b := hA.mono hq.2
    rw [hA.odd, r.1] at a
    rw [r.1] at b
    exact ⟨a, b⟩

theorem div_fin (a : ℚ) {b : ℚ} (h : b ≠ 0) : A.div (.fin a) (.fin b) = A.rnd (a / b) := by
  simp [Ar.div, h]

theorem intToFloat_fin (hA : A.Law2) (v : ℤ) : ∃ q, intToFloat A v = .fin q := by
  unfold intToFloat
  obtain ⟨q, e, h⟩ := lit_i32 hA (n := wrapI32 (v / 4294967296)) (by
    unfold wrapI32
    rw [abs_le]
    constructor <;> omega)
  rw [e, lit65536 hA]
  refine ⟨A.rq (q / 65536), ?_⟩
  rw [div_fin _ (by norm_num)]
  unfold Ar.rnd
  rw [if_neg]
  rw [hA.small]
  · simp
  · rw [abs_div, abs_of_pos (show (0 : ℚ) < 65536 by norm_num)]
    have := pow127
    have : |q| / 65536 ≤ |q| := div_le_self (abs_nonneg q) (by norm_num)
    linarith

/-! ## One step of the velocity -/

/-- The change of velocity of one cycle, `accel_limit * period`. -/
structure Step (A : Ar) (a t m : ℚ) : Prop where
  a_pos : 0 < a
  t_pos : 0 < t
  m_eq : A.mul (.fin a) (.fin t) = .fin m

theorem Step.rep (hA : A.Law2) {a t m : ℚ} (h : Step A a t m) : A.Rep m ∧ 0 ≤ m := by
  have e : A.rnd (a * t) = .fin m := h.m_eq
  refine ⟨hA.rep_of_rnd e, ?_⟩
  have := hA.toLaw.le_rnd hA.toLaw.rep_zero (mul_pos h.a_pos h.t_pos).le
  rw [e] at this
  simpa using this

theorem Step.neg (hA : A.Law2) {a t m : ℚ} (h : Step A a t m) :
    A.mul (.fin (-a)) (.fin t) = .fin (-m) := by
  show A.rnd (-a * t) = _
  rw [neg_mul, hA.toLaw.rnd_neg _ (mul_pos h.a_pos h.t_pos).ne',
    show A.rnd (a * t) = .fin m from h.m_eq]
  rfl

theorem Step.zero (hA : A.Law2) {a t m : ℚ} (_ : Step A a t m) :
    A.mul (.fin 0) (.fin t) = .fin 0 := by
  show A.rnd (0 * t) = _
  rw [zero_mul]
  exact hA.toLaw.rep_zero.rnd

theorem copysign_fin {a : ℚ} (ha : 0 ≤ a) (z : Bool) (x : Fl) :
    copysign z (.fin a) x = if signBit z x then .fin (-a) else .fin a := by
  unfold copysign
  simp [Fl.abs, Fl.neg, abs_of_nonneg ha]

theorem sub_sign (hA : A.Law2) {x y : ℚ} (rx : A.Rep x) (ry : A.Rep y) (z : Bool) :
    (x < y → signBit z (A.sub (.fin x) (.fin y)) = true) ∧
    (y < x → signBit z (A.sub (.fin x) (.fin y)) = false) ∧
    (x = y → A.sub (.fin x) (.fin y) = .fin 0) := by
  have e : A.sub (.fin x) (.fin y) = A.rnd (x - y) := by
    simp [Ar.sub, Fl.neg, Ar.add, sub_eq_add_neg]
  rw [e]
  refine ⟨fun h => ?_, fun h => ?_, fun h => ?_⟩
  · unfold Ar.rnd
    split
    · simp [signBit, h]
    · have h1 : A.rq (x - y) ≤ 0 := hA.toLaw.nonpos (by linarith)
      have h2 : A.rq (x - y) ≠ 0 := fun g => absurd (hA.sub_zero rx ry g) (by linarith)
      simp [signBit, h2, lt_of_le_of_ne h1 h2]
  · unfold Ar.rnd
    split
    · simp [signBit, h.le]
    · have h1 : 0 ≤ A.rq (x - y) := hA.toLaw.nonneg (by linarith)
      have h2 : A.rq (x - y) ≠ 0 := fun g => absurd (hA.sub_zero rx ry g) (by linarith)
      simp [signBit, h2, h1]
  · subst h
    rw [sub_self]
    exact hA.toLaw.rep_zero.rnd

theorem signBit_neg (z : Bool) {x : Fl} (h : x ≠ .fin 0) (hn : x ≠ .nan) :
    signBit z x.neg = !signBit (!z) x := by
  rcases x with _ | s | q
  · exact absurd rfl hn
  · rfl
  · have : q ≠ 0 := fun e => h (by rw [e])
    rcases lt_or_gt_of_ne this with g | g
    · simp [signBit, Fl.neg, this, g, g.le]
    · simp [signBit, Fl.neg, this, g, g.le]

/-- What the acceleration may be while the speed is within the limit. -/
theorem accel_cases (hA : A.Law2) {L a v0 vf dx : ℚ} (z : Bool) (ha : 0 < a) (ra : A.Rep a)
    (h0 : |v0| ≤ L)
    (r0 : A.Rep v0) (rf : A.Rep vf) :
    let r := calculateAcceleration A z (.fin L) (.fin a) (.fin v0) (.fin vf) (.fin dx)
    (r = .fin a ∨ r = .fin (-a) ∨ r = .fin 0) ∧
    (|v0| = L → r = .fin 0 ∨ (vf < v0 ∧ r = .fin (-a)) ∨ (v0 < vf ∧ r = .fin a) ∨
      (v0 = vf ∧ dx = 0)) := by
  have hcs : ∀ x, copysign z (.fin a) x = .fin a ∨ copysign z (.fin a) x = .fin (-a) := by
    intro x
    rw [copysign_fin ha.le]
    split
    · exact Or.inr rfl
    · exact Or.inl rfl
  have hcs' : ∀ x, copysign z (.fin a) x = .fin a ∨ copysign z (.fin a) x = .fin (-a) ∨
      copysign z (.fin a) x = .fin 0 := fun x => (hcs x).imp_right Or.inl
  intro r
  have hr : r = calculateAcceleration A z (.fin L) (.fin a) (.fin v0) (.fin vf) (.fin dx) := rfl
  unfold calculateAcceleration at hr
  rw [if_neg (by simp [Fl.isFinite, Fl.abs, h0])] at hr
  dsimp only at hr
  -- the braking branch
  have brake : v0 ≠ vf → r = copysign z (.fin a) (A.sub (.fin v0) (.fin vf)).neg →
      (vf < v0 ∧ r = .fin (-a)) ∨ (v0 < vf ∧ r = .fin a) := by
    intro hne e
    rcases lt_or_gt_of_ne hne with g | g
    · right
      refine ⟨g, ?_⟩
      have s := (sub_sign hA r0 rf (!z)).1 g
      have nz : A.sub (.fin v0) (.fin vf) ≠ .fin 0 := by
        intro c
        have := (sub_sign hA r0 rf false).1 g
        rw [c] at this
        simp [signBit] at this
      have nn : A.sub (.fin v0) (.fin vf) ≠ .nan := by
        intro c
        have h1 := (sub_sign hA r0 rf false).1 g
        rw [c] at h1
        simp [signBit] at h1
      rw [e, copysign_fin ha.le, signBit_neg z nz nn, s]
      rfl
    · left
      refine ⟨g, ?_⟩
      have s := (sub_sign hA r0 rf (!z)).2.1 g
      have nz : A.sub (.fin v0) (.fin vf) ≠ .fin 0 := by
        intro c
        have := (sub_sign hA r0 rf true).2.1 g
        rw [c] at this
        simp [signBit] at this
      have nn : A.sub (.fin v0) (.fin vf) ≠ .nan := by
        intro c
        have h1 := (sub_sign hA r0 rf true).2.1 g
        rw [c] at h1
        simp [signBit] at h1
      rw [e, copysign_fin ha.le, signBit_neg z nz nn, s]
      rfl
  split at hr
  · rename_i hg
    split at hr
    · split at hr
      · rename_i h3
        refine ⟨hr ▸ hcs' _, fun h => ?_⟩
        simp [Fl.isNan, Fl.abs, h] at h3
      · exact ⟨Or.inr (Or.inr hr), fun _ => Or.inl hr⟩
    · rename_i hd
      refine ⟨hr ▸ hcs' _, fun h => ?_⟩
      by_cases hne : v0 = vf
      · exfalso
        apply hd
        rw [(sub_sign hA r0 rf false).2.2 hne]
        have e1 : A.mul (.fin 0) (.fin 0) = .fin 0 := by
          show A.rnd (0 * 0) = _
          rw [zero_mul]; exact hA.toLaw.rep_zero.rnd
        rw [e1]
        have e2 : A.div (.fin 0) (A.mul (.fin 2) (.fin a)) = .fin 0 := by
          show A.div (.fin 0) (A.rnd (2 * a)) = .fin 0
          have hle := hA.toLaw.le_rnd ra (x := 2 * a) (by linarith)
          generalize A.rnd (2 * a) = w at *
          rcases w with _ | s | b
          · exact absurd hle (by simp [Fl.Le])
          · rfl
          · rw [Fl.Le_fin] at hle
            show (if b = 0 then _ else A.rnd (0 / b)) = _
            rw [if_neg (by linarith), zero_div]; exact hA.toLaw.rep_zero.rnd
        rw [e2]
        simp [Fl.abs]
      · exact Or.inr ((brake hne hr).imp_right Or.inl)
  · rename_i hg
    refine ⟨hr ▸ hcs' _, fun h => ?_⟩
    by_cases hne : v0 = vf
    · right; right; right
      refine ⟨hne, ?_⟩
      by_contra hd
      apply hg
      rw [(sub_sign hA r0 rf false).2.2 hne]
      have e1 : A.mul (.fin 0) (.fin dx) = .fin 0 := by
        show A.rnd (0 * dx) = _
        rw [zero_mul]; exact hA.toLaw.rep_zero.rnd
      rw [e1]
      simp [hd]
    · exact Or.inr ((brake hne hr).imp_right Or.inl)

/-- The velocity before the completion test. -/
theorem v1_cases (hA : A.Law2) {a t m v0 : ℚ} (h : Step A a t m) {r : Fl}
    (hr : r = .fin a ∨ r = .fin (-a) ∨ r = .fin 0) :
    ∃ e : ℚ, A.add (.fin v0) (A.mul r (.fin t)) = A.rnd (v0 + e) ∧ (r = .fin a → e = m) ∧
      (r = .fin (-a) → e = -m) ∧ (r = .fin 0 → e = 0) ∧ |e| ≤ m := by
  have hm := (h.rep hA).2
  have ha := h.a_pos
  rcases hr with e | e | e
  · refine ⟨m, by rw [e, h.m_eq]; rfl, fun _ => rfl, fun g => ?_, fun g => ?_, by
      rw [abs_of_nonneg hm]⟩
    · rw [e] at g; injection g with g; linarith
    · rw [e] at g; injection g with g; linarith
  · refine ⟨-m, by rw [e, h.neg hA]; rfl, fun g => ?_, fun _ => rfl, fun g => ?_, by
      rw [abs_neg, abs_of_nonneg hm]⟩
    · rw [e] at g; injection g with g; linarith
    · rw [e] at g; injection g with g; linarith
  · refine ⟨0, by rw [e, h.zero hA]; rfl, fun g => ?_, fun g => ?_, fun _ => rfl, by
      rw [abs_zero]; exact hm⟩
    · rw [e] at g; injection g with g; linarith
    · rw [e] at g; injection g with g; linarith

theorem rnd_within (hA : A.Law2) {L x : ℚ} (rL : A.Rep L) (h : |x| ≤ L) : Within A L (A.rnd x) := by
  rw [abs_le] at h
  have h1 := hA.toLaw.le_rnd (hA.toLaw.rep_neg rL) h.1
  have h2 := hA.toLaw.rnd_le rL h.2
  have e : ∀ w, A.rnd x = w → Within A L w := by
    intro w hw
    rw [hw] at h1 h2
    rcases w with _ | ⟨_ | _⟩ | q
    · exact absurd h1 (by simp [Fl.Le])
    · exact absurd h2 (by simp [Fl.Le, Fl.ble])
    · exact absurd h1 (by simp [Fl.Le, Fl.ble])
    · rw [Fl.Le_fin] at h1 h2
      exact ⟨q, rfl, hA.rep_of_rnd hw, abs_le.mpr ⟨h1, h2⟩⟩
  exact e _ rfl

theorem copysign_within (hA : A.Law2) {L : ℚ} (hL : 0 ≤ L) (rL : A.Rep L) (z : Bool) (x : Fl) :
    Within A L (copysign z (.fin L) x) := by
  have := within_pm hA hL rL (signBit z x)
  rw [copysign_fin hL]
  exact this

/-- The sign of a difference is exact. -/
theorem blt_sub (hA : A.Law2) {q v0 : ℚ} (rq : A.Rep q) (r0 : A.Rep v0) :
    (Fl.fin 0).blt (A.sub (.fin q) (.fin v0)) = decide (v0 < q) := by
  have hs := sub_sign hA rq r0 false
  rcases lt_trichotomy q v0 with c | c | c
  · rw [decide_eq_false (by linarith)]
    have h2 := hs.1 c
    generalize A.sub (.fin q) (.fin v0) = w at *
    rcases w with _ | ⟨_ | _⟩ | x
    · rfl
    · simp [signBit] at h2
    · rfl
    · rw [Fl.blt_fin, decide_eq_false]
      intro hx
      simp [signBit, hx.ne', not_lt.mpr hx.le] at h2
  · rw [hs.2.2 c, decide_eq_false (by linarith)]
    simp
  · rw [decide_eq_true c]
    have h2 := (sub_sign hA rq r0 true).2.1 c
    generalize A.sub (.fin q) (.fin v0) = w at *
    rcases w with _ | ⟨_ | _⟩ | x
    · simp [signBit] at h2
    · rfl
    · simp [signBit] at h2
    · have h3 : x ≠ 0 := by rintro rfl; simp [signBit] at h2
      simp [signBit, h3] at h2
      rw [Fl.blt_fin, decide_eq_true (lt_of_le_of_ne h2 (Ne.symm h3))]

theorem mul_one (hA : A.Law2) {a : ℚ} (ra : A.Rep a) (s : Bool) :
    A.mul (.fin a) (.fin (signOf s)) = .fin (if s then a else -a) := by
  show A.rnd (a * signOf s) = _
  cases s
  · rw [show a * signOf false = -a by simp [signOf], (hA.rep_neg ra).rnd]
    rfl
  · rw [show a * signOf true = a by simp [signOf], ra.rnd]
    rfl

/-- Velocity mode, in terms of the clamped target `q`. -/
theorem velocityMode_eq (hA : A.Law2) {a t m r v0 q : ℚ} {L vf : Fl} (ra : A.Rep a)
    (hT : A.div (A.lit 1) (.fin r) = .fin t) (h : Step A a t m)
    (hq : clampVelocity L vf = .fin q) (rq : A.Rep q) (r0 : A.Rep v0) :
    velocityModeLimits A (.fin r) L (.fin a) vf (.fin v0) =
      if v0 < q then
        if (A.rnd (v0 + m)).blt (.fin q) then (A.rnd (v0 + m), false) else (.fin q, true)
      else
        if (A.rnd (v0 - m)).blt (.fin q) then (.fin q, true) else (A.rnd (v0 - m), false) := by
  unfold velocityModeLimits
  dsimp only
  rw [hq, if_neg (show ¬ (Fl.fin a).isNan = true by simp [Fl.isNan]), hT, blt_sub hA rq r0,
    mul_one hA ra]
  by_cases g : v0 < q
  · rw [decide_eq_true g, if_pos g, if_pos rfl, h.m_eq, Ar.add_fin]
    cases (A.rnd (v0 + m)).blt (.fin q) <;> rfl
  · rw [decide_eq_false g, if_neg g, if_neg Bool.false_ne_true, h.neg hA, Ar.add_fin,
      ← sub_eq_add_neg]
    cases (A.rnd (v0 - m)).blt (.fin q) <;> rfl

/-- Velocity mode keeps the velocity limit. -/
theorem velocityMode_within (hA : A.Law2) {L a t m r v0 : ℚ} (hL : 0 ≤ L) (rL : A.Rep L)
    (ra : A.Rep a) (hT : A.div (A.lit 1) (.fin r) = .fin t) (h : Step A a t m) {vf : Fl}
    (hf : vf ≠ .nan) (rf : A.RepF vf) (r0 : A.Rep v0) (h0 : |v0| ≤ L) :
    Within A L (velocityModeLimits A (.fin r) (.fin L) (.fin a) vf (.fin v0)).1 := by
  obtain ⟨q, e, rq, hq⟩ := clamp_within hA hL rL hf rf
  rw [velocityMode_eq hA ra hT h e rq r0]
  have hm := (h.rep hA).2
  have hw : Within A L (.fin q) := ⟨q, rfl, rq, hq⟩
  split
  · split
    · rename_i g1 g2
      have h1 := hA.toLaw.le_rnd r0 (x := v0 + m) (by linarith)
      have h2 := Fl.Le_of_blt g2
      have e2 : ∀ w, A.rnd (v0 + m) = w → Within A L w := by
        intro w hw
        rw [hw] at h1 h2
        rcases w with _ | ⟨_ | _⟩ | x
        · exact absurd h1 (by simp [Fl.Le])
        · exact absurd h2 (by simp [Fl.Le, Fl.ble])
        · exact absurd h1 (by simp [Fl.Le, Fl.ble])
        · rw [Fl.Le_fin] at h1 h2
          rw [abs_le] at h0 hq
          exact ⟨x, rfl, hA.rep_of_rnd hw, abs_le.mpr ⟨by linarith, by linarith⟩⟩
      exact e2 _ rfl
    · exact hw
  · split
    · exact hw
    · rename_i g1 g2
      have h1 := hA.toLaw.rnd_le r0 (x := v0 - m) (by linarith)
      have h2 := (Fl.not_blt (x := A.rnd (v0 - m)) (y := .fin q) (Ar.rnd_ne_nan _) (by simp)).mp
        (by simpa using g2)
      have e2 : ∀ w, A.rnd (v0 - m) = w → Within A L w := by
        intro w hw
        rw [hw] at h1 h2
        rcases w with _ | ⟨_ | _⟩ | x
        · exact absurd h1 (by simp [Fl.Le])
        · exact absurd h1 (by simp [Fl.Le, Fl.ble])
        · exact absurd h2 (by simp [Fl.Le, Fl.ble])
        · rw [Fl.Le_fin] at h1 h2
          rw [abs_le] at h0 hq
          exact ⟨x, rfl, hA.rep_of_rnd hw, abs_le.mpr ⟨by linarith, by linarith⟩⟩
      exact e2 _ rfl

/-- The cruise correction keeps the limit unless the speed was at the limit and
grew. -/
theorem cruise_within (hA : A.Law2) {L v0 : ℚ} (hL : 0 ≤ L) (rL : A.Rep L) (z : Bool)
    (h0 : |v0| ≤ L) {v1 : Fl} (r1 : A.RepF v1) (n1 : v1 ≠ .nan)
    (h : |v0| = L → Within A L v1) : Within A L (cruise z (.fin L) (.fin v0) v1) := by
  unfold cruise
  split
  · exact copysign_within hA hL rL z _
  · rename_i g
    by_cases he : |v0| = L
    · exact h he
    · have hlt : |v0| < L := lt_of_le_of_ne h0 he
      rcases v1 with _ | ⟨_ | _⟩ | x
      · exact absurd rfl n1
      · exfalso; apply g
        simp [Fl.isFinite, Fl.min, Fl.max, Fl.abs, Fl.blt, Fl.ble, hlt, h0]
      · exfalso; apply g
        simp [Fl.isFinite, Fl.min, Fl.max, Fl.abs, Fl.blt, Fl.ble, hlt, h0]
      · refine ⟨x, rfl, r1, ?_⟩
        by_contra hx
        rw [not_le] at hx
        apply g
        have : |v0| < |x| := hlt.trans hx
        simp [Fl.isFinite, Fl.min, Fl.max, Fl.abs, hlt, hx, this, not_lt.mpr this.le]

/-- Position mode with both limits keeps the velocity limit as long as one cycle
of acceleration is at most twice the limit. -/
theorem positionMode_within (hA : A.Law2) {L a t m r v0 vf dx : ℚ} (hL : 0 ≤ L) (rL : A.Rep L)
    (ra : A.Rep a) (hT : A.div (A.lit 1) (.fin r) = .fin t) (h : Step A a t m) (hm2 : m ≤ 2 * L)
    (rf : A.Rep vf) (hf : |vf| ≤ L) (r0 : A.Rep v0) (h0 : |v0| ≤ L) (z1 z2 : Bool) :
    Within A L (velocityAndAccelLimits A z1 z2 (.fin r) (.fin L) (.fin a) (.fin vf) (.fin v0)
      (.fin dx)).1 := by
  unfold velocityAndAccelLimits
  dsimp only
  rw [if_neg (show ¬ (Fl.fin a).isNan = true by simp [Fl.isNan]), hT]
  have hac := accel_cases hA z1 h.a_pos ra h0 r0 rf (dx := dx)
  generalize hr : calculateAcceleration A z1 (.fin L) (.fin a) (.fin v0) (.fin vf) (.fin dx) = r at hac
  obtain ⟨e, he, e1, e2, e3, e4⟩ := v1_cases hA h hac.1 (v0 := v0)
  rw [he]
  have hm := (h.rep hA).2
  split
  · exact ⟨vf, rfl, rf, hf⟩
  · rename_i hc
    refine cruise_within hA hL rL z2 h0 (hA.repF_rnd _) (Ar.rnd_ne_nan _) ?_
    intro hv
    have h0' := abs_le.mp h0
    have hf' := abs_le.mp hf
    have hv' : v0 = L ∨ v0 = -L := by
      rcases abs_cases v0 with c | c
      · left; linarith
      · right; linarith
    rcases hac.2 hv with g | ⟨g, g2⟩ | ⟨g, g2⟩ | ⟨g, g2⟩
    · rw [e3 g, add_zero, r0.rnd]
      exact ⟨v0, rfl, r0, h0⟩
    · apply rnd_within hA rL
      rw [e2 g2, abs_le]
      rcases hv' with c | c
      · constructor <;> linarith
      · linarith
    · apply rnd_within hA rL
      rw [e1 g2, abs_le]
      rcases hv' with c | c
      · linarith
      · constructor <;> linarith
    · -- at the limit, at the target: complete
      by_contra hn
      apply hc
      have hnz : A.rnd (v0 + e) ≠ .fin 0 := by
        intro c; rw [c] at hn
        exact hn ⟨0, rfl, hA.rep_zero, by simpa using hL⟩
      have nn := Ar.rnd_ne_nan (A := A) (v0 + e)
      have htp := h.t_pos
      subst g g2
      unfold complete
      have e10 : (Fl.fin 0).ble (A.mul (.fin 10) (.fin t)) = true := by
        exact hA.toLaw.le_rnd hA.toLaw.rep_zero (by linarith)
      generalize A.rnd (v0 + e) = w at *
      have p : (A.div (.fin 0) w).abs = .fin 0 := by
        rcases w with _ | s | x
        · exact absurd rfl nn
        · simp [Ar.div, Fl.abs]
        · have : x ≠ 0 := fun c => hnz (by rw [c])
          rw [div_fin _ this, zero_div, hA.rep_zero.rnd]
          simp [Fl.abs]
      have c : ((Fl.min (.fin v0) w).ble (.fin v0) && (Fl.fin v0).ble (Fl.max (.fin v0) w)) = true := by
        rcases w with _ | ⟨_ | _⟩ | x
        · exact absurd rfl nn
        · simp [Fl.min, Fl.max, Fl.blt, Fl.ble]
        · simp [Fl.min, Fl.max, Fl.blt, Fl.ble]
        · unfold Fl.min Fl.max
          rw [Fl.blt_fin, Fl.blt_fin]
          by_cases g1 : x < v0
          · simp [g1, g1.le, not_lt.mpr g1.le]
          · by_cases g2 : v0 < x
            · simp [g1, g2, g2.le]
            · simp [g1, g2]
      rw [p, e10]
      simp only [Bool.and_true, Bool.or_eq_true]
      exact Or.inl c

/-- Position mode with a velocity limit only. -/
theorem velocityOnly_within (hA : A.Law2) {L vf : ℚ} (hL : 0 ≤ L) (rL : A.Rep L) (rf : A.Rep vf)
    (hf : |vf| ≤ L) (t dx : Fl) :
    Within A L (velocityOnlyLimit A t dx (.fin L) (.fin vf)).1 := by
  unfold velocityOnlyLimit
  dsimp only
  split
  · exact ⟨vf, rfl, rf, hf⟩
  · apply rnd_within hA rL
    unfold signOf
    split <;> simp [abs_of_nonneg hL]

/-! ## The limit in `UpdateCommand` -/

/-- The limits of a command: a finite velocity limit `L`, and either no
acceleration limit or one that changes the velocity by at most `2 L` per cycle. -/
def LimitsOk (A : Ar) (L t : ℚ) (d : TrajData) : Prop :=
  d.velLimit = .fin L ∧
    (d.accelLimit = .nan ∨
      ∃ a m, d.accelLimit = .fin a ∧ A.Rep a ∧ Step A a t m ∧ m ≤ 2 * L)

/-- A cycle: fixed rate, velocity a float, and a motor speed limit that is not
negative. -/
def CycleOk (A : Ar) (r : ℚ) (i : TrajIn) : Prop :=
  i.rateHz = .fin r ∧ A.RepF i.velocity ∧
    (i.motorMax = .nan ∨ i.motorMax = .inf false ∨ ∃ M, i.motorMax = .fin M ∧ 0 ≤ M ∧ A.Rep M)

/-- Invariant: the velocity command and the control velocity are within `L`. -/
def VelInv (A : Ar) (L t : ℚ) (r : TrajRun) : Prop :=
  r.s.cp.isSome ∧ (∃ v, r.s.cv = some v ∧ Within A L v) ∧ Within A L r.vc ∧ LimitsOk A L t r.d

theorem motorLimit_within (hA : A.Law2) {L : ℚ} (i : TrajIn) {r : ℚ} (hi : CycleOk A r i) {v : Fl}
    (hv : Within A L v) : Within A L (motorLimit i.motorMax v) := by
  obtain ⟨q, rfl, rq, hq⟩ := hv
  unfold motorLimit
  rcases hi.2.2 with e | e | ⟨M, e, hM, rM⟩
  · rw [e]
    simp only [Fl.neg, Fl.blt_nan_left, Fl.blt_nan_right, Bool.false_eq_true, if_false]
    exact ⟨q, rfl, rq, hq⟩
  · rw [e]
    simp only [Fl.neg, Fl.blt, Fl.ble, Bool.false_eq_true, if_false, Bool.false_and, Bool.not_true,
      Bool.not_false]
    exact ⟨q, rfl, rq, hq⟩
  · rw [e]
    rw [show (Fl.fin M).neg = .fin (-M) from rfl, Fl.blt_fin, Fl.blt_fin]
    rw [abs_le] at hq
    by_cases h1 : M < q
    · rw [decide_eq_true h1, if_pos rfl]
      exact ⟨M, rfl, rM, by rw [abs_of_nonneg hM]; linarith⟩
    · rw [decide_eq_false h1, if_neg Bool.false_ne_true]
      by_cases h2 : q < -M
      · rw [decide_eq_true h2, if_pos rfl]
        exact ⟨-M, rfl, hA.rep_neg rM, by rw [abs_neg, abs_of_nonneg hM]; linarith⟩
      · rw [decide_eq_false h2, if_neg Bool.false_ne_true]
        exact ⟨q, rfl, rq, abs_le.mpr hq⟩

theorem velocityArg_ok (hA : A.Law2) {v : Fl} (h : A.RepF v) :
    velocityArg v ≠ .nan ∧ A.RepF (velocityArg v) := by
  unfold velocityArg
  split
  · exact ⟨by simp, hA.rep_zero⟩
  · rename_i g
    exact ⟨fun c => g (by rw [c]; rfl), h⟩

/-- With a velocity limit, a control position, and no slip limit, one cycle goes
through the trajectory generator. -/
theorem prepare_limited (c : TrajConfig) (i : TrajIn) (s : TrajStatus) (d : TrajData)
    (hcp : s.cp.isSome) (hl : noLimits d = false) :
    prepare A c i s d =
      let t := updateTrajectory A i (velocityArg i.velocity) { s with done := false } d
      let vc := motorLimit i.motorMax (derefF t.1.cv)
      { velocityCommand := vc
        cp := positionSlip A c.maxPositionSlip i.posRel
          (derefI t.1.cp + posStep A i.rateHz vc)
        cv := velocitySlip A c.maxVelocitySlip i.measured vc
        s := t.1
        d := { t.2 with posRaw := t.2.posRaw.map (· + posStep A i.rateHz (velocityArg i.velocity)) } } := by
  have hb : begin i c (velocityArg i.velocity) s d = ({ s with done := false }, d) := by
    unfold begin
    rw [hl]
    cases hp : d.posRaw <;> cases hc : s.cp <;> simp_all
  unfold prepare
  dsimp only
  rw [hb]
  unfold advance
  rw [if_neg (by simp)]

theorem updateTrajectory_within (hA : A.Law2) {L r t : ℚ} (hL : 0 ≤ L) (rL : A.Rep L)
    (hT : A.div (A.lit 1) (.fin r) = .fin t) (i : TrajIn) (hr : i.rateHz = .fin r) {v : Fl}
    (hv : v ≠ .nan) (rv : A.RepF v) (s : TrajStatus) (d : TrajData) (hd : LimitsOk A L t d) {v0 : Fl}
    (h0 : s.cv = some v0) (w0 : Within A L v0) :
    ∃ v', (updateTrajectory A i v s d).1.cv = some v' ∧ Within A L v' ∧
      LimitsOk A L t (updateTrajectory A i v s d).2 := by
  obtain ⟨q, rfl, rq, hq⟩ := w0
  obtain ⟨p, ep, rp, hp⟩ := clamp_within hA hL rL hv rv
  have hd1 := hd.1
  unfold updateTrajectory
  dsimp only
  rw [hd1, ep, h0, hr]
  cases hpr : d.posRaw with
  | none =>
    refine ⟨_, rfl, ?_, hd⟩
    rcases hd.2 with e | ⟨a, m, e, ra, st, hm⟩
    · rw [e]
      unfold velocityModeLimits
      dsimp only
      rw [if_pos (show Fl.nan.isNan = true from rfl)]
      exact clamp_within hA hL rL (v := .fin p) (by simp) rp
    · rw [e]
      exact velocityMode_within hA hL rL ra hT st (by simp) (show A.RepF (.fin p) from rp) rq hq
  | some target =>
    refine ⟨_, rfl, ?_, ?_⟩
    · obtain ⟨dx, edx⟩ := intToFloat_fin hA (target - derefI s.cp)
      rcases hd.2 with e | ⟨a, m, e, ra, st, hm⟩
      · rw [e]
        unfold velocityAndAccelLimits
        dsimp only
        rw [if_pos (show Fl.nan.isNan = true from rfl)]
        exact velocityOnly_within hA hL rL rp hp _ _
      · rw [e]
        unfold distance
        rw [edx]
        exact positionMode_within hA hL rL ra hT st hm rp hp rq hq _ _
    · dsimp only
      split
      · exact ⟨rfl, hd.2⟩
      · exact hd

theorem velInv_cycle (hA : A.Law2) {L r t : ℚ} (hL : 0 ≤ L) (rL : A.Rep L)
    (hT : A.div (A.lit 1) (.fin r) = .fin t) (c : TrajConfig) (hc : c.maxVelocitySlip.isFinite = false)
    (x : TrajRun) (h : VelInv A L t x) (i : TrajIn) (hi : CycleOk A r i) :
    VelInv A L t (trajStep A c x (.cycle i)) := by
  obtain ⟨hcp, ⟨v0, hcv, w0⟩, _, hd⟩ := h
  have hv := velocityArg_ok hA hi.2.1
  obtain ⟨v', e', w', d'⟩ := updateTrajectory_within hA hL rL hT i hi.1 hv.1 hv.2
    { x.s with done := false } x.d hd hcv w0
  have hp := prepare_limited (A := A) c i x.s x.d hcp (by unfold noLimits; rw [hd.1]; rfl)
  unfold trajStep updateCommand
  dsimp only
  rw [hp]
  dsimp only
  rw [e']
  have wm : Within A L (motorLimit i.motorMax (derefF (some v'))) := motorLimit_within hA i hi w'
  have hslip : ∀ z, velocitySlip A c.maxVelocitySlip i.measured z = z := by
    intro z; unfold velocitySlip; rw [hc]; rfl
  rw [hslip]
  have w0 : Within A L (.fin 0) := ⟨0, rfl, hA.rep_zero, by simpa using hL⟩
  unfold finish
  split
  · exact ⟨rfl, ⟨_, rfl, w0⟩, w0, d'⟩
  · refine ⟨rfl, ⟨_, rfl, ?_⟩, ?_, d'⟩
    · split
      · exact w0
      · exact wm
    · dsimp only
      split
      · exact w0
      · exact wm

/-- C36, velocity.  Once the commanded velocity is within the velocity limit `L`
it stays within it, over any sequence of commands with this limit and control
cycles, whatever targets, velocities, accelerations, bounds and motor speed
limits occur.  Missing: a finite `max_velocity_slip`
(`C36_velocity_slip_refuted`) and accelerations above `2 L` per cycle
(`C36_large_acceleration_refuted`). -/
theorem C36_velocity_limit_partial (hA : A.Law2) {L r t : ℚ} (hL : 0 ≤ L) (rL : A.Rep L)
    (hT : A.div (A.lit 1) (.fin r) = .fin t) (c : TrajConfig)
    (hc : c.maxVelocitySlip.isFinite = false) (x : TrajRun) (h : VelInv A L t x)
    (ops : List TrajOp)
    (hops : ∀ op ∈ ops, (∃ d, op = .command d ∧ LimitsOk A L t d) ∨ (∃ i, op = .cycle i ∧ CycleOk A r i)) :
    ∃ v w : ℚ, (trajRun A c x ops).s.cv = some (.fin v) ∧ |v| ≤ L ∧
      (trajRun A c x ops).vc = .fin w ∧ |w| ≤ L := by
  have hinv : VelInv A L t (trajRun A c x ops) := by
    unfold trajRun
    induction ops generalizing x with
    | nil => exact h
    | cons op ops ih =>
      rw [List.foldl_cons]
      apply ih
      · rcases hops op (List.mem_cons_self ..) with ⟨d, rfl, hd⟩ | ⟨i, rfl, hi⟩
        · exact ⟨h.1, h.2.1, h.2.2.1, hd⟩
        · exact velInv_cycle hA hL rL hT c hc x h i hi
      · exact fun o ho => hops o (List.mem_cons_of_mem _ ho)
  obtain ⟨_, ⟨_, e, v, rfl, _, hv⟩, ⟨w, e2, _, hw⟩, _⟩ := hinv
  exact ⟨v, w, e, hv, e2, hw⟩

/-! ## Acceleration -/

/-- A velocity step of at most `m` is finite and changes the velocity by at most
`δ` after rounding. -/
def StepBound (A : Ar) (v0 m δ : ℚ) : Prop :=
  ∀ e, |e| ≤ m → ∃ x, A.rnd (v0 + e) = .fin x ∧ |x - v0| ≤ δ

theorem stepBound_exact (v0 m : ℚ) : StepBound .exact v0 m m := by
  intro e he
  exact ⟨v0 + e, Ar.exact_rnd _, by rw [add_sub_cancel_left]; exact he⟩

theorem stepBound_law (hA : A.Law2) {v0 m : ℚ} (r0 : A.Rep v0) (h : |v0| + m ≤ pow2 127) :
    StepBound A v0 m (2 * m) := by
  intro e he
  refine ⟨A.rq (v0 + e), ?_, ?_⟩
  · unfold Ar.rnd
    rw [if_neg]
    rw [hA.small ((abs_add_le v0 e).trans (by linarith))]
    exact Bool.false_ne_true
  · have := hA.nearest r0 (v0 + e)
    rw [show v0 - (v0 + e) = -e by ring, abs_neg] at this
    have h2 : A.rq (v0 + e) - v0 = (A.rq (v0 + e) - (v0 + e)) + e := by ring
    rw [h2]
    exact (abs_add_le _ _).trans (by linarith)

/-- Velocity mode changes the velocity by at most one step, also when it
completes. -/
theorem velocityMode_step (hA : A.Law2) {a t m r v0 q δ : ℚ} {L vf : Fl} (ra : A.Rep a)
    (hT : A.div (A.lit 1) (.fin r) = .fin t) (h : Step A a t m)
    (hq : clampVelocity L vf = .fin q) (rq : A.Rep q) (r0 : A.Rep v0) (hs : StepBound A v0 m δ) :
    ∃ v', (velocityModeLimits A (.fin r) L (.fin a) vf (.fin v0)).1 = .fin v' ∧ |v' - v0| ≤ δ := by
  rw [velocityMode_eq hA ra hT h hq rq r0]
  have hm := (h.rep hA).2
  obtain ⟨x, ex, hx⟩ := hs m (by rw [abs_of_nonneg hm])
  obtain ⟨y, ey, hy⟩ := hs (-m) (by rw [abs_neg, abs_of_nonneg hm])
  rw [← sub_eq_add_neg] at ey
  rw [ex, ey, Fl.blt_fin, Fl.blt_fin]
  split
  · rename_i g
    by_cases c : x < q
    · rw [decide_eq_true c, if_pos rfl]; exact ⟨x, rfl, hx⟩
    · rw [decide_eq_false c, if_neg Bool.false_ne_true]
      refine ⟨q, rfl, ?_⟩
      rw [abs_le] at hx ⊢
      constructor <;> linarith
  · rename_i g
    by_cases c : y < q
    · rw [decide_eq_true c, if_pos rfl]
      refine ⟨q, rfl, ?_⟩
      rw [abs_le] at hy ⊢
      constructor <;> linarith
    · rw [decide_eq_false c, if_neg Bool.false_ne_true]; exact ⟨y, rfl, hy⟩

/-- The acceleration is the limit, its negative, or zero. -/
theorem accel_values {a : ℚ} (ha : 0 ≤ a) (z : Bool) (L v0 vf dx : Fl) :
    let r := calculateAcceleration A z L (.fin a) v0 vf dx
    r = .fin a ∨ r = .fin (-a) ∨ r = .fin 0 := by
  have hcs : ∀ x, copysign z (.fin a) x = .fin a ∨ copysign z (.fin a) x = .fin (-a) ∨
      copysign z (.fin a) x = .fin 0 := by
    intro x
    rw [copysign_fin ha]
    split
    · exact Or.inr (Or.inl rfl)
    · exact Or.inl rfl
  intro r
  have hr : r = calculateAcceleration A z L (.fin a) v0 vf dx := rfl
  unfold calculateAcceleration at hr
  dsimp only at hr
  rw [hr]
  split
  · exact hcs _
  · split
    · split
      · split
        · exact hcs _
        · exact Or.inr (Or.inr rfl)
      · exact hcs _
    · exact hcs _

/-- The cruise correction does not increase the change of velocity. -/
theorem cruise_step {v0 x : ℚ} {L : Fl} (hL : L = .nan ∨ ∃ l, L = .fin l ∧ 0 ≤ l) (z : Bool) :
    ∃ v', cruise z L (.fin v0) (.fin x) = .fin v' ∧ |v' - v0| ≤ |x - v0| := by
  rcases hL with rfl | ⟨l, rfl, hl⟩
  · exact ⟨x, by simp [cruise, Fl.isFinite], le_refl _⟩
  · unfold cruise
    split
    · rename_i g
      rw [copysign_fin hl]
      have hg : min |v0| |x| < l ∧ l < max |v0| |x| := by
        simp only [Fl.isFinite, Fl.min, Fl.max, Fl.abs, Fl.blt_fin, Bool.true_and,
          Bool.and_eq_true] at g
        by_cases c : |x| < |v0|
        · have c' : ¬ |v0| < |x| := not_lt.mpr c.le
          simp [c, c'] at g
          rw [min_eq_right c.le, max_eq_left c.le]
          exact g
        · have c2 := not_lt.mp c
          by_cases c' : |v0| < |x|
          · simp [c, c'] at g
            rw [min_eq_left c2, max_eq_right c2]
            exact g
          · simp [c, c'] at g
            linarith [g.1, g.2]
      have key : ∀ w : ℚ, |w| = l → 0 ≤ w * v0 → |w - v0| ≤ |x - v0| := by
        intro w hw hs
        have h1 : |w - v0| = abs (l - |v0|) := by
          rcases abs_cases w with ⟨c1, c2⟩ | ⟨c1, c2⟩
          · rcases lt_or_eq_of_le c2 with c3 | c3
            · have : 0 ≤ v0 := by
                by_contra hn
                have := mul_neg_of_pos_of_neg c3 (not_le.mp hn)
                linarith
              rw [abs_of_nonneg this, ← hw, c1]
            · have : l = 0 := by rw [← hw, ← c3, abs_zero]
              rw [← c3, this, zero_sub, zero_sub, abs_neg, abs_neg, abs_abs]
          · have : v0 ≤ 0 := by
              by_contra hn
              have := mul_neg_of_neg_of_pos c2 (not_le.mp hn)
              linarith
            rw [abs_of_nonpos this, ← hw, c1, ← abs_neg]
            congr 1
            ring
        rw [h1]
        have h2 : abs (|x| - |v0|) ≤ |x - v0| := abs_abs_sub_abs_le x v0
        refine le_trans ?_ h2
        rcases le_total |v0| |x| with c | c
        · rw [min_eq_left c, max_eq_right c] at hg
          rw [abs_of_nonneg (show 0 ≤ l - |v0| by linarith),
            abs_of_nonneg (show 0 ≤ |x| - |v0| by linarith)]
          linarith
        · rw [min_eq_right c, max_eq_left c] at hg
          rw [abs_of_nonpos (show l - |v0| ≤ 0 by linarith),
            abs_of_nonpos (show |x| - |v0| ≤ 0 by linarith)]
          linarith
      by_cases hz : v0 = 0
      · by_cases hzz : z = true
        · refine ⟨-l, by simp [signBit, hz, hzz], key _ (by rw [abs_neg, abs_of_nonneg hl]) (by
            rw [hz, mul_zero])⟩
        · refine ⟨l, by simp [signBit, hz, hzz], key _ (abs_of_nonneg hl) (by rw [hz, mul_zero])⟩
      · by_cases hn : v0 < 0
        · exact ⟨-l, by simp [signBit, hz, hn], key _ (by rw [abs_neg, abs_of_nonneg hl])
            (mul_nonneg_of_nonpos_of_nonpos (by linarith) hn.le)⟩
        · exact ⟨l, by simp [signBit, hz, hn], key _ (abs_of_nonneg hl)
            (mul_nonneg hl (not_lt.mp hn))⟩
    · exact ⟨x, rfl, le_refl _⟩

/-- Position mode with an acceleration limit: a cycle that does not complete
changes the velocity by at most one step; one that completes sets the target
velocity `vf`, which is within one step or half a step away from such a
velocity. -/
theorem positionMode_step (hA : A.Law2) {a t m r v0 vf δ : ℚ} {L dx : Fl}
    (hL : L = .nan ∨ ∃ l, L = .fin l ∧ 0 ≤ l) (hT : A.div (A.lit 1) (.fin r) = .fin t)
    (h : Step A a t m) (hs : StepBound A v0 m δ) (z1 z2 : Bool) :
    ∃ v' done, velocityAndAccelLimits A z1 z2 (.fin r) L (.fin a) (.fin vf) (.fin v0) dx =
        (.fin v', done) ∧
      (done = false → |v' - v0| ≤ δ) ∧
      (done = true → v' = vf ∧ (|v' - v0| ≤ δ ∨ ∃ x, A.Rep x ∧ |x - v0| ≤ δ ∧
        (A.sub (.fin x) (.fin vf)).abs.blt
          (A.mul (A.mul (.fin a) (A.lit (1 / 2))) (.fin t)) = true)) := by
  unfold velocityAndAccelLimits
  dsimp only
  rw [if_neg (show ¬ (Fl.fin a).isNan = true by simp [Fl.isNan]), hT]
  have hac := accel_values (A := A) h.a_pos.le z1 L (.fin v0) (.fin vf) dx
  dsimp only at hac
  generalize calculateAcceleration A z1 L (.fin a) (.fin v0) (.fin vf) dx = w at hac
  obtain ⟨e, he, -, -, -, e4⟩ := v1_cases hA h hac (v0 := v0)
  obtain ⟨x, ex, hx⟩ := hs e e4
  rw [he, ex]
  split
  · rename_i hc
    refine ⟨vf, true, rfl, by simp, fun _ => ⟨rfl, ?_⟩⟩
    unfold complete at hc
    simp only [Bool.and_eq_true, Bool.or_eq_true] at hc
    rcases hc.1 with g | g
    · left
      have g1 := g.1
      have g2 := g.2
      unfold Fl.min at g1
      unfold Fl.max at g2
      rw [Fl.blt_fin] at g1 g2
      by_cases c : x < v0
      · have c' : ¬ v0 < x := not_lt.mpr c.le
        simp [c, c'] at g1 g2
        rw [abs_le] at hx ⊢
        constructor <;> linarith
      · by_cases c' : v0 < x
        · simp [c, c'] at g1 g2
          rw [abs_le] at hx ⊢
          constructor <;> linarith
        · simp [c, c'] at g1 g2
          have : vf = v0 := le_antisymm g2 g1
          rw [this, sub_self, abs_zero]
          exact (abs_nonneg _).trans hx
    · exact Or.inr ⟨x, hA.rep_of_rnd ex, hx, g⟩
  · obtain ⟨v', e1, e2⟩ := cruise_step (v0 := v0) (x := x) hL z2
    exact ⟨v', false, by rw [e1], fun _ => e2.trans hx, by simp⟩

/-- A cycle whose acceleration is looked at: fixed rate, finite or absent
velocity, bounds, stop position and velocity slip not acting, and a motor speed
limit that is not below the present speed `v0`. -/
structure FreeCycle (A : Ar) (c : TrajConfig) (i : TrajIn) (d : TrajData) (r v0 : ℚ) : Prop where
  rate : i.rateHz = .fin r
  vel : i.velocity = .nan ∨ ∃ q, i.velocity = .fin q ∧ A.Rep q
  motor : i.motorMax = .nan ∨ i.motorMax = .inf false ∨ ∃ M, i.motorMax = .fin M ∧ |v0| ≤ M
  slip : c.maxVelocitySlip.isFinite = false
  bounds : d.ignoreBounds = true ∨ (c.positionMin = .nan ∧ c.positionMax = .nan)
  stop : d.stopRaw = none

theorem motorLimit_step {m : Fl} {v0 v : ℚ}
    (h : m = .nan ∨ m = .inf false ∨ ∃ M, m = .fin M ∧ |v0| ≤ M) :
    ∃ v', motorLimit m (.fin v) = .fin v' ∧ |v' - v0| ≤ |v - v0| := by
  rcases h with rfl | rfl | ⟨M, rfl, hM⟩
  · exact ⟨v, by simp [motorLimit, Fl.neg], le_refl _⟩
  · exact ⟨v, by simp [motorLimit, Fl.neg, Fl.blt, Fl.ble], le_refl _⟩
  · unfold motorLimit
    rw [show (Fl.fin M).neg = .fin (-M) from rfl, Fl.blt_fin, Fl.blt_fin]
    rw [abs_le] at hM
    by_cases h1 : M < v
    · rw [decide_eq_true h1, if_pos rfl]
      refine ⟨M, rfl, ?_⟩
      rw [abs_of_nonneg (by linarith), abs_of_nonneg (by linarith)]
      linarith
    · rw [decide_eq_false h1, if_neg Bool.false_ne_true]
      by_cases h2 : v < -M
      · rw [decide_eq_true h2, if_pos rfl]
        refine ⟨-M, rfl, ?_⟩
        rw [abs_of_nonpos (by linarith), abs_of_nonpos (by linarith)]
        linarith
      · rw [decide_eq_false h2, if_neg Bool.false_ne_true]
        exact ⟨v, rfl, le_refl _⟩

theorem clamp_fin (hA : A.Law2) {L : Fl} {v : ℚ} (hL : L = .nan ∨ ∃ l, L = .fin l ∧ 0 ≤ l ∧ A.Rep l)
    (rv : A.Rep v) : ∃ q, clampVelocity L (.fin v) = .fin q ∧ A.Rep q := by
  rcases hL with rfl | ⟨l, rfl, hl, rl⟩
  · exact ⟨v, rfl, rv⟩
  · obtain ⟨q, e, rq, -⟩ := clamp_within hA hl rl (v := .fin v) (by simp) rv
    exact ⟨q, e, rq⟩

theorem clamp_clamp (hA : A.Law2) {L : Fl} {v : ℚ} (hL : L = .nan ∨ ∃ l, L = .fin l ∧ 0 ≤ l ∧ A.Rep l)
    (rv : A.Rep v) : ∃ q, clampVelocity L (.fin v) = .fin q ∧ A.Rep q ∧
      clampVelocity L (.fin q) = .fin q := by
  rcases hL with rfl | ⟨l, rfl, hl, rl⟩
  · exact ⟨v, rfl, rv, rfl⟩
  · obtain ⟨q, e, rq, hq⟩ := clamp_within hA hl rl (v := .fin v) (by simp) rv
    refine ⟨q, e, rq, ?_⟩
    rw [abs_le] at hq
    have h1 : ¬ l < q := by linarith
    have h2 : ¬ q < -l := by linarith
    unfold clampVelocity
    simp [Fl.isNan, Fl.neg, h1, h2]

/-- One cycle with an acceleration limit, over any arithmetic: `δ` bounds a step,
`ε` bounds the distance accepted as near to the target velocity. -/
theorem accel_cycle (hA : A.Law2) {a t m r v0 δ ε : ℚ} (ra : A.Rep a)
    (hT : A.div (A.lit 1) (.fin r) = .fin t) (h : Step A a t m) (r0 : A.Rep v0)
    (hs : StepBound A v0 m δ)
    (hε : ∀ x y, A.Rep x → A.Rep y → (A.sub (.fin x) (.fin y)).abs.blt
          (A.mul (A.mul (.fin a) (A.lit (1 / 2))) (.fin t)) = true → |x - y| ≤ ε)
    (hε0 : 0 ≤ ε) (c : TrajConfig) (i : TrajIn) (s : TrajStatus) (d : TrajData)
    (hL : d.velLimit = .nan ∨ ∃ l, d.velLimit = .fin l ∧ 0 ≤ l ∧ A.Rep l)
    (ha : d.accelLimit = .fin a) (hcp : s.cp.isSome) (hcv : s.cv = some (.fin v0))
    (hf : FreeCycle A c i d r v0) :
    ∃ v', (updateCommand A c i s d).1 = .fin v' ∧
      (updateCommand A c i s d).2.1.cv = some (.fin v') ∧ |v' - v0| ≤ δ + ε ∧
      (d.posRaw = none ∨ (updateCommand A c i s d).2.1.done = false → |v' - v0| ≤ δ) := by
  obtain ⟨v, ev, rv⟩ : ∃ v, velocityArg i.velocity = .fin v ∧ A.Rep v := by
    rcases hf.vel with e | ⟨q, e, rq⟩
    · rw [e]; exact ⟨0, rfl, hA.rep_zero⟩
    · rw [e]; exact ⟨q, rfl, rq⟩
  obtain ⟨q, eq, rq, eq2⟩ := clamp_clamp hA hL rv
  have hL' : d.velLimit = .nan ∨ ∃ l, d.velLimit = .fin l ∧ 0 ≤ l :=
    hL.imp id fun ⟨l, h1, h2, _⟩ => ⟨l, h1, h2⟩
  have hp := prepare_limited (A := A) c i s d hcp (by
    unfold noLimits; rw [ha]; simp [Fl.isNan])
  have hslip : ∀ z, velocitySlip A c.maxVelocitySlip i.measured z = z := by
    intro z; unfold velocitySlip; rw [hf.slip]; rfl
  -- the trajectory step
  have ht : ∃ v1 done dd, updateTrajectory A i (.fin v) { s with done := false } d =
      ({ s with cv := some (.fin v1), done := done }, dd) ∧ dd.stopRaw = d.stopRaw ∧
      dd.ignoreBounds = d.ignoreBounds ∧ |v1 - v0| ≤ δ + ε ∧
      (d.posRaw = none ∨ done = false → |v1 - v0| ≤ δ) := by
    unfold updateTrajectory
    dsimp only
    rw [eq, hcv, ha, hf.rate]
    cases hpr : d.posRaw with
    | none =>
      obtain ⟨v1, e1, h1⟩ := velocityMode_step hA ra hT h eq2 rq r0 hs
      dsimp only
      refine ⟨v1, (velocityModeLimits A (.fin r) d.velLimit (.fin a) (.fin q) (.fin v0)).2, d,
        ?_, rfl, rfl, by linarith, fun _ => h1⟩
      rw [show derefF (some (Fl.fin v0)) = .fin v0 from rfl, e1]
      simp
    | some target =>
      dsimp only
      obtain ⟨v1, dn, e1, h1, h2⟩ := positionMode_step hA (dx := distance A target (derefI s.cp))
        hL' hT h hs i.z1 i.z2 (vf := q)
      rw [show derefF (some (Fl.fin v0)) = .fin v0 from rfl, e1]
      refine ⟨v1, dn, if dn then { d with position := .nan, posRaw := none, accelLimit := .fin a } else d,
        by simp, ?_, ?_, ?_, ?_⟩
      · split <;> rfl
      · split <;> rfl
      · cases dn with
        | false => have := h1 rfl; linarith
        | true =>
          obtain ⟨e2, g | ⟨x, rx, hx, near⟩⟩ := h2 rfl
          · linarith
          · have h3 := hε x q rx rq near
            rw [e2]
            rw [abs_le] at hx h3 ⊢
            constructor <;> linarith
      · intro g
        exact h1 (g.resolve_left (by simp))
  obtain ⟨v1, dn, dd, et, es, ei, hd1, hd2⟩ := ht
  obtain ⟨v', em, hm⟩ := motorLimit_step (v := v1) hf.motor
  have hb : ∀ cp, bounds A c dd.ignoreBounds i.delta cp = (cp, false) := by
    intro cp
    unfold Verif.Fw.bounds
    rcases hf.bounds with e | ⟨e1, e2⟩
    · rw [ei, e]; rfl
    · rw [e1, e2]; simp [saturateMin, saturateMax, Fl.isNan]
  have hu : updateCommand A c i s d = finish A i (.fin v')
      (positionSlip A c.maxPositionSlip i.posRel (derefI s.cp + posStep A i.rateHz (.fin v')))
      false (.fin v') { s with cv := some (.fin v1), done := dn }
      { dd with posRaw := dd.posRaw.map (· + posStep A i.rateHz (.fin v)) } := by
    unfold updateCommand
    rw [hp, ev, et]
    dsimp only
    rw [show derefF (some (Fl.fin v1)) = .fin v1 from rfl, em, hb, hslip]
  rw [hu]
  unfold finish
  have hst : ∀ cp vc, stopAt A dd.stopRaw cp vc = none := by
    intro cp vc; rw [es, hf.stop]; rfl
  rw [hst]
  refine ⟨v', rfl, rfl, hm.trans hd1, fun g => hm.trans (hd2 g)⟩

/-- C36, acceleration, in exact arithmetic: a cycle changes the commanded
velocity by at most acceleration times period, or one and a half times this in
the cycle that completes a trajectory to a position (`C36_completion_refuted`).
Cycles that hit a position bound or a stop position are excluded: they stop at
once (`C36_bound_refuted`). -/
theorem C36_acceleration_partial {a r v0 : ℚ} (hr : 0 < r) (hpos : 0 < a) (c : TrajConfig)
    (i : TrajIn) (s : TrajStatus) (d : TrajData)
    (hL : d.velLimit = .nan ∨ ∃ l, d.velLimit = .fin l ∧ 0 ≤ l)
    (ha : d.accelLimit = .fin a) (hcp : s.cp.isSome) (hcv : s.cv = some (.fin v0))
    (hf : FreeCycle .exact c i d r v0) :
    ∃ v', (updateCommand .exact c i s d).1 = .fin v' ∧
      (updateCommand .exact c i s d).2.1.cv = some (.fin v') ∧
      |v' - v0| ≤ 3 / 2 * (a / r) ∧
      (d.posRaw = none ∨ (updateCommand .exact c i s d).2.1.done = false → |v' - v0| ≤ a / r) := by
  have hT : Ar.exact.div (Ar.exact.lit 1) (.fin r) = .fin (1 / r) := by
    simp [Ar.div, Ar.lit, hr.ne']
  have hS : Step .exact a (1 / r) (a / r) := by
    refine ⟨hpos, by positivity, ?_⟩
    show Ar.exact.rnd (a * (1 / r)) = _
    rw [Ar.exact_rnd, mul_one_div]
  have hpr : 0 < a / r := by positivity
  obtain ⟨v', h1, h2, h3, h4⟩ := accel_cycle Ar.exact_law2 ⟨rfl, rfl⟩ hT hS ⟨rfl, rfl⟩
    (stepBound_exact v0 (a / r)) (ε := a / r / 2) (by
      intro x y _ _ g
      have e1 : (Ar.exact.sub (.fin x) (.fin y)).abs = .fin |x - y| := by
        simp [Ar.sub, Fl.neg, Ar.add, Fl.abs, sub_eq_add_neg]
      have e2 : Ar.exact.mul (Ar.exact.mul (.fin a) (Ar.exact.lit (1 / 2))) (.fin (1 / r)) =
          .fin (a * (1 / 2) * (1 / r)) := by
        simp [Ar.mul, Ar.lit]
      rw [e1, e2, Fl.blt_fin, decide_eq_true_eq] at g
      rw [show a / r / 2 = a * (1 / 2) * (1 / r) by ring]
      exact g.le) (by positivity) c i s d
    (hL.imp id fun ⟨l, x, y⟩ => ⟨l, x, y, rfl, rfl⟩) ha hcp hcv hf
  exact ⟨v', h1, h2, by linarith, h4⟩

/-- C36, acceleration, in any arithmetic (binary32 in particular), `m` being the
float `acceleration * period`: a cycle changes the commanded velocity by at most
`2 m` through rounding, and by at most `4 m` in the cycle that completes a
trajectory to a position.  (With `m` below half an ulp of the velocity one step is
either lost or rounded up to a whole ulp, so the factor is needed:
`C36_rounding_refuted`.) -/
theorem C36_acceleration_rounded_partial (hA : A.Law2) {a t m r v0 : ℚ} (ra : A.Rep a)
    (hT : A.div (A.lit 1) (.fin r) = .fin t) (h : Step A a t m) (r0 : A.Rep v0)
    (hbig : |v0| + m ≤ pow2 127) (c : TrajConfig) (i : TrajIn) (s : TrajStatus) (d : TrajData)
    (hmax : m ≤ pow2 126)
    (hL : d.velLimit = .nan ∨ ∃ l, d.velLimit = .fin l ∧ 0 ≤ l ∧ A.Rep l)
    (ha : d.accelLimit = .fin a) (hcp : s.cp.isSome) (hcv : s.cv = some (.fin v0))
    (hf : FreeCycle A c i d r v0) :
    ∃ v', (updateCommand A c i s d).1 = .fin v' ∧
      (updateCommand A c i s d).2.1.cv = some (.fin v') ∧ |v' - v0| ≤ 4 * m ∧
      (d.posRaw = none ∨ (updateCommand A c i s d).2.1.done = false → |v' - v0| ≤ 2 * m) := by
  have hm := (h.rep hA).2
  obtain ⟨v', h1, h2, h3, h4⟩ := accel_cycle hA ra hT h r0 (stepBound_law hA r0 hbig) (ε := 2 * m) (by
    intro x y rx ry g
    -- the threshold is at most m
    have hth : (A.mul (A.mul (.fin a) (A.lit (1 / 2))) (.fin t)).Le (.fin m) := by
      have hhalf : A.lit (1 / 2) = .fin (1 / 2) := by
        have := hA.unscale (n := 1) (k := -1) (by norm_num) (by norm_num) (by norm_num)
        have e : pow2 (-1) = 1 / 2 := by decide +kernel
        rw [e] at this
        push_cast at this
        rw [one_mul] at this
        exact this.rnd
      rw [hhalf]
      have e1 : (A.rnd (a * (1 / 2))).Le (.fin a) := hA.toLaw.rnd_le ra (by linarith [h.a_pos])
      have e2 := hA.toLaw.le_rnd hA.toLaw.rep_zero (x := a * (1 / 2)) (by linarith [h.a_pos])
      show (A.mul (A.rnd (a * (1 / 2))) (.fin t)).Le _
      generalize A.rnd (a * (1 / 2)) = w at *
      rcases w with _ | ⟨_ | _⟩ | b
      · exact absurd e1 (by simp [Fl.Le])
      · exact absurd e1 (by simp [Fl.Le, Fl.ble])
      · exact absurd e2 (by simp [Fl.Le, Fl.ble])
      · rw [Fl.Le_fin] at e1
        have := hA.toLaw.rnd_mono (mul_le_mul_of_nonneg_right e1 h.t_pos.le)
        rw [show A.rnd (a * t) = .fin m from h.m_eq] at this
        exact this
    have e : A.sub (.fin x) (.fin y) = A.rnd (x - y) := by
      simp [Ar.sub, Fl.neg, Ar.add, sub_eq_add_neg]
    rw [e] at g
    have g' := Fl.Le.trans (Fl.Le_of_blt g) hth
    have hz : A.rnd (x - y) = .fin (A.rq (x - y)) := by
      unfold Ar.rnd at g' ⊢
      split
      · rename_i ho; rw [if_pos ho] at g'
        exact absurd g' (by simp [Fl.abs, Fl.Le, Fl.ble])
      · rfl
    rw [hz] at g'
    have g2 : |A.rq (x - y)| ≤ m := by simpa [Fl.abs] using g'
    have rz : A.Rep (A.rq (x - y)) := hA.rep_of_rnd hz
    have r2 : A.Rep (A.rq (x - y) * 2) := by
      have e2 : pow2 1 = 2 := by decide +kernel
      have := hA.scale rz (k := 1) (by norm_num) (by
        rw [e2, abs_mul, abs_of_pos (show (0 : ℚ) < 2 by norm_num)]
        have : pow2 127 = 2 * pow2 126 := by decide +kernel
        linarith)
      rwa [e2] at this
    by_contra hc
    rw [not_le] at hc
    have n := hA.nearest r2 (x - y)
    have s1 : 0 ≤ x - y → 0 ≤ A.rq (x - y) := fun k => hA.toLaw.nonneg k
    have s2 : x - y ≤ 0 → A.rq (x - y) ≤ 0 := fun k => hA.toLaw.nonpos k
    have s3 : A.rq (x - y) = 0 → x = y := fun k => hA.sub_zero rx ry k
    clear hz g' rz r2 e g
    generalize A.rq (x - y) = z at *
    rcases eq_or_ne z 0 with hz0 | hz0
    · rw [s3 hz0, sub_self, abs_zero] at hc
      linarith
    · rcases le_total 0 (x - y) with k | k
      · have k1 := lt_of_le_of_ne (s1 k) (Ne.symm hz0)
        rw [abs_of_nonneg k] at hc
        rw [abs_of_pos k1] at g2
        rw [abs_of_nonpos (show z - (x - y) ≤ 0 by linarith),
          abs_of_nonpos (show z * 2 - (x - y) ≤ 0 by linarith)] at n
        linarith
      · have k1 := lt_of_le_of_ne (s2 k) hz0
        rw [abs_of_nonpos k] at hc
        rw [abs_of_neg k1] at g2
        rw [abs_of_nonneg (show 0 ≤ z - (x - y) by linarith),
          abs_of_nonneg (show 0 ≤ z * 2 - (x - y) by linarith)] at n
        linarith) (by linarith) c i s d hL ha hcp hcv hf
  exact ⟨v', h1, h2, by linarith, h4⟩

/-! ## Witnesses -/

open TrajWitness

/-- A cycle at 32768 Hz. -/
def limitedCycle (velocity : Fl) : TrajIn := { still velocity with motorMax := .nan }

/-- A trajectory in progress. -/
def moving (cp : ℤ) (v : ℚ) : TrajStatus := ⟨some cp, some (.fin v), false, .fin 0⟩

/-- A command with both limits. -/
def limitedCommand (target : Option ℤ) (vel acc : ℚ) : TrajData where
  position := .fin 0
  velocity := .fin 0
  posRaw := target
  stopRaw := none
  velLimit := .fin vel
  accelLimit := .fin acc
  ignoreBounds := true

/-- The cycle that completes a trajectory may change the velocity by more than
acceleration times period: at 32768 Hz with an acceleration of 32768 (a step of
1), a target velocity of 1.4375 and a target 2^-16 turns away, the velocity goes
from 0 to 1.4375 in one cycle. -/
theorem C36_completion_refuted :
    let u := updateCommand .single (cfg .nan .nan) (limitedCycle (.fin (23 / 16))) (moving 0 0)
      (limitedCommand (some 4294967296) 100 32768)
    u.1 = .fin (23 / 16) ∧ u.2.1.cv = some (.fin (23 / 16)) ∧ u.2.1.done = true ∧
      Ar.single.mul (.fin 32768) (Ar.single.div (Ar.single.lit 1) (.fin 32768)) = .fin 1 := by
  decide +kernel

/-- A position bound stops the command at once: from a velocity of 50 to 0, with a
step of 1. -/
theorem C36_bound_refuted :
    let u := updateCommand .single (cfg (.fin (-1)) (.fin 1)) (limitedCycle (.fin 60))
      (moving 281474976710656 50) { limitedCommand none 100 32768 with ignoreBounds := false }
    u.1 = .fin 0 ∧ u.2.1.cv = some (.fin 0) := by
  decide +kernel

/-- In binary32 a step is rounded to the spacing of the velocity: at a velocity of
2^23 + 1 and a step of 0.75 the velocity changes by 1. -/
theorem C36_rounding_refuted :
    let u := updateCommand .single (cfg .nan .nan) (limitedCycle (.fin 0)) (moving 0 8388609)
      { limitedCommand none 1 24576 with velLimit := .nan }
    u.1 = .fin 8388608 ∧
      Ar.single.mul (.fin 24576) (Ar.single.div (Ar.single.lit 1) (.fin 32768)) = .fin (3 / 4) := by
  decide +kernel

/-- With a finite `max_velocity_slip` the control velocity leaves the limit: it is
dragged along by the measured velocity. -/
theorem C36_velocity_slip_refuted :
    let u := updateCommand .single { cfg .nan .nan with maxVelocitySlip := .fin 1 }
      { limitedCycle (.fin 2) with measured := .fin 50 } (moving 0 2) (limitedCommand none 2 32768)
    u.2.1.cv = some (.fin 49) := by
  decide +kernel

/-- With a step of more than twice the velocity limit the limit is exceeded: limit
1, step 4, from velocity 1 to −3 while braking for a target behind. -/
theorem C36_large_acceleration_refuted :
    let u := updateCommand .single (cfg .nan .nan) (limitedCycle (.fin (-1))) (moving 0 1)
      (limitedCommand (some (-281474976710656)) 1 131072)
    u.1 = .fin (-3) ∧ u.2.1.cv = some (.fin (-3)) := by
  decide +kernel

/-- The hypotheses of the limit theorems are met at 32768 Hz with a velocity limit
of 2 and an acceleration of 32768. -/
example : Ar.single.div (Ar.single.lit 1) (.fin 32768) = .fin (1 / 32768) ∧
    Ar.single.mul (.fin 32768) (.fin (1 / 32768)) = .fin 1 ∧ (1 : ℚ) ≤ 2 * 2 := by
  decide +kernel

example : Step .single 32768 (1 / 32768) 1 :=
  ⟨by norm_num, by norm_num, by decide +kernel⟩

example : CycleOk .single 32768 (still (.fin 1)) :=
  ⟨rfl, ⟨by decide +kernel, by decide +kernel⟩,
    Or.inr (Or.inr ⟨500, rfl, by norm_num, ⟨by decide +kernel, by decide +kernel⟩⟩)⟩

example : VelInv .single 2 (1 / 32768)
    ⟨moving 0 1, limitedCommand (some 281474976710656) 2 32768, .fin 1⟩ :=
  ⟨rfl, ⟨.fin 1, rfl, 1, rfl, ⟨by decide +kernel, by decide +kernel⟩, by decide⟩,
    ⟨1, rfl, ⟨by decide +kernel, by decide +kernel⟩, by decide⟩,
    rfl, Or.inr ⟨32768, 1, rfl, ⟨by decide +kernel, by decide +kernel⟩,
      ⟨by norm_num, by norm_num, by decide +kernel⟩, by norm_num⟩⟩

example : FreeCycle .exact (cfg .nan .nan) (still (.fin 1)) (limitedCommand none 2 32768) 32768 1 :=
  ⟨rfl, Or.inr ⟨1, rfl, rfl, rfl⟩, Or.inr (Or.inr ⟨500, rfl, by norm_num⟩), rfl,
    Or.inl rfl, rfl⟩

end Verif.Fw
