import Verif.Fw.TrajEnds
import Verif.Fw.Pll

/-!
# The trajectory generator completes

Property C70 for the model of the firmware, in exact arithmetic.
-/

namespace Verif.Fw

open Verif.Float

/-- The braking test of the code passes: the target is ahead and not nearer than
the stopping distance. -/
def Ahead (a v dx : ℚ) : Prop := 0 ≤ v * dx ∧ dx ≠ 0 ∧ v * v / (2 * a) ≤ |dx|

theorem signBit_fin {z : Bool} {x : ℚ} (h : x ≠ 0) : signBit z (.fin x) = decide (x < 0) := by
  simp [signBit, h]

theorem copysign_neg {z : Bool} {a x : ℚ} (ha : 0 ≤ a) (h : x < 0) :
    copysign z (.fin a) (.fin x) = .fin (-a) := by
  unfold copysign
  rw [signBit_fin h.ne, decide_eq_true h, if_pos rfl]
  simp [Fl.abs, Fl.neg, abs_of_nonneg ha]

theorem copysign_pos {z : Bool} {a x : ℚ} (ha : 0 ≤ a) (h : 0 < x) :
    copysign z (.fin a) (.fin x) = .fin a := by
  unfold copysign
  rw [signBit_fin h.ne', decide_eq_false (not_lt.mpr h.le), if_neg Bool.false_ne_true]
  simp [Fl.abs, abs_of_nonneg ha]

theorem copysign_zero (z : Bool) {a : ℚ} (ha : 0 ≤ a) :
    copysign z (.fin a) (.fin 0) = .fin (if z then -a else a) := by
  unfold copysign
  cases z <;> simp [signBit, Fl.abs, Fl.neg, abs_of_nonneg ha]

/-- The velocity is within the limit. -/
def Allowed (L : Fl) (v : ℚ) : Prop := L = .nan ∨ ∃ l, L = .fin l ∧ |v| ≤ l

theorem not_over {L : Fl} {v : ℚ} (h : Allowed L v) : (L.isFinite && L.blt (Fl.fin v).abs) = false := by
  rcases h with rfl | ⟨l, rfl, h⟩
  · rfl
  · rw [show (Fl.fin v).abs = .fin |v| from rfl, Fl.blt_fin, decide_eq_false (not_lt.mpr h), Bool.and_false]

/-- Away from the target, or too near to it: braking. -/
theorem accel_brake {L : Fl} {a v dx : ℚ} (ha : 0 < a) (hL : Allowed L v) (z : Bool)
    (h : ¬ Ahead a v dx) :
    calculateAcceleration .exact z L (.fin a) (.fin v) (.fin 0) (.fin dx) =
      copysign z (.fin a) (.fin (-v)) := by
  unfold calculateAcceleration
  rw [not_over hL, if_neg Bool.false_ne_true]
  dsimp only
  rw [exact_sub, exact_mul, exact_mul, exact_mul, exact_div (by positivity), sub_zero, Fl.ble_fin,
    Fl.beq_fin, show (Fl.fin dx).abs = .fin |dx| from rfl, Fl.ble_fin]
  unfold Ahead at h
  by_cases c1 : 0 ≤ v * dx
  · by_cases c2 : dx = 0
    · simp [c2, Fl.neg]
    · have c3 : ¬ v * v / (2 * a) ≤ |dx| := fun c3 => h ⟨c1, c2, c3⟩
      simp [c1, c2, c3, Fl.neg]
  · simp [c1, Fl.neg]

/-- Toward the target: acceleration below the limit, nothing at the limit. -/
theorem accel_ahead {L : Fl} {a v dx : ℚ} (ha : 0 < a) (hL : Allowed L v) (z : Bool)
    (h : Ahead a v dx) :
    calculateAcceleration .exact z L (.fin a) (.fin v) (.fin 0) (.fin dx) =
      if L.isNan || (Fl.fin v).abs.blt L then copysign z (.fin a) (.fin dx) else .fin 0 := by
  unfold calculateAcceleration
  rw [not_over hL, if_neg Bool.false_ne_true]
  dsimp only
  rw [exact_sub, exact_mul, exact_mul, exact_mul, exact_div (by positivity), sub_zero, Fl.ble_fin,
    Fl.beq_fin, show (Fl.fin dx).abs = .fin |dx| from rfl, Fl.ble_fin]
  obtain ⟨c1, c2, c3⟩ := h
  simp [c1, c2, c3]

theorem min_abs_fin (x y : ℚ) : Fl.min (.fin x) (.fin y) = .fin (min x y) := by
  unfold Fl.min
  rw [Fl.blt_fin]
  by_cases h : y < x
  · rw [decide_eq_true h, if_pos rfl, min_eq_right h.le]
  · rw [decide_eq_false h, if_neg Bool.false_ne_true, min_eq_left (not_lt.mp h)]

theorem max_abs_fin (x y : ℚ) : Fl.max (.fin x) (.fin y) = .fin (max x y) := by
  unfold Fl.max
  rw [Fl.blt_fin]
  by_cases h : x < y
  · rw [decide_eq_true h, if_pos rfl, max_eq_right h.le]
  · rw [decide_eq_false h, if_neg Bool.false_ne_true, max_eq_left (not_lt.mp h)]

/-- The cruise correction does nothing within the limit. -/
theorem cruise_allowed {L : Fl} {v0 v1 : ℚ} (h0 : Allowed L v0) (h1 : Allowed L v1) (z : Bool) :
    cruise z L (.fin v0) (.fin v1) = .fin v1 := by
  unfold cruise
  rcases h0 with rfl | ⟨l, rfl, h0⟩
  · rfl
  · rcases h1 with h1 | ⟨l', h1, h1'⟩
    · cases h1
    · cases h1
      rw [show (Fl.fin v0).abs = .fin |v0| from rfl, show (Fl.fin v1).abs = .fin |v1| from rfl,
        max_abs_fin, Fl.blt_fin, decide_eq_false (not_lt.mpr (max_le h0 h1')), Bool.and_false,
        if_neg Bool.false_ne_true]

/-- The cruise correction when the limit is passed. -/
theorem cruise_over {l v0 v1 : ℚ} (h0 : |v0| < l) (h1 : l < |v1|) (z : Bool) :
    cruise z (.fin l) (.fin v0) (.fin v1) = copysign z (.fin l) (.fin v0) := by
  unfold cruise
  rw [show (Fl.fin v0).abs = .fin |v0| from rfl, show (Fl.fin v1).abs = .fin |v1| from rfl,
    max_abs_fin, min_abs_fin, Fl.blt_fin, Fl.blt_fin,
    decide_eq_true (lt_of_le_of_lt (min_le_left _ _) h0),
    decide_eq_true (lt_of_lt_of_le h1 (le_max_right _ _))]
  rfl

/-- At the target with less than one step of velocity the trajectory completes. -/
theorem complete_at {t a v0 v1 : ℚ} (ht : 0 < t) (h1 : v1 ≠ 0) (h : v0 * v1 ≤ 0) :
    complete .exact (.fin t) (.fin a) (.fin v0) (.fin v1) (.fin 0) (.fin 0) = true := by
  unfold complete
  dsimp only
  rw [min_abs_fin, max_abs_fin, exact_div h1, Fl.ble_fin, Fl.ble_fin, exact_mul, zero_div,
    show (Fl.fin 0).abs = .fin |0| from rfl, Fl.ble_fin, abs_zero,
    decide_eq_true (show 0 ≤ 10 * t by positivity)]
  have a1 : min v0 v1 ≤ 0 := by
    by_contra c
    rw [not_le, lt_min_iff] at c
    have := mul_pos c.1 c.2
    linarith
  have a2 : 0 ≤ max v0 v1 := by
    by_contra c
    rw [not_le, max_lt_iff] at c
    have := mul_pos_of_neg_of_neg c.1 c.2
    linarith
  rw [decide_eq_true a1, decide_eq_true a2]
  rfl

/-- The velocity after a cycle that does not complete. -/
structure Next (L : Fl) (a m v dx v' : ℚ) : Prop where
  allowed : Allowed L v'
  ahead : Ahead a v dx → (0 < dx → m ≤ v' ∧ v ≤ v' ∧ v' ≤ v + m) ∧
    (dx < 0 → m ≤ -v' ∧ -v ≤ -v' ∧ -v' ≤ -v + m)
  brake : ¬ Ahead a v dx → (0 < v ∧ v' = v - m) ∨ (v < 0 ∧ v' = v + m)
  near : dx = 0 → m ≤ |v|

theorem velocityAndAccel_next {L : Fl} {a r v dx : ℚ} (ha : 0 < a) (hr : 0 < r) (hL : Allowed L v)
    (hm : L = .nan ∨ ∃ l, L = .fin l ∧ a / r ≤ l) (z1 z2 : Bool) :
    let R := velocityAndAccelLimits .exact z1 z2 (.fin r) L (.fin a) (.fin 0) (.fin v) (.fin dx)
    R.2 = true ∨ ∃ v', R = (.fin v', false) ∧ Next L a (a / r) v dx v' := by
  have hmp : 0 < a / r := by positivity
  have allow : ∀ x : ℚ, |x| ≤ max |v| (a / r) → Allowed L x := by
    intro x hx
    rcases hm with e | ⟨l, e, h⟩
    · exact Or.inl e
    · rcases hL with e' | ⟨l', e', h'⟩
      · exact Or.inl e'
      · rw [e] at e'
        cases e'
        exact Or.inr ⟨l, e, hx.trans (max_le h' h)⟩
  dsimp only
  unfold velocityAndAccelLimits
  dsimp only
  rw [if_neg (show ¬ (Fl.fin a).isNan = true by simp [Fl.isNan]), exact_lit, exact_div hr.ne']
  by_cases hA : Ahead a v dx
  · rw [accel_ahead ha hL z1 hA]
    obtain ⟨c1, c2, c3⟩ := id hA
    split
    · -- acceleration
      rename_i hlim
      rcases lt_or_gt_of_ne c2 with hd | hd
      · rw [copysign_neg ha.le hd, exact_mul, exact_add, show v + -a * (1 / r) = v - a / r by ring]
        split
        · exact Or.inl rfl
        · right
          have hv : v ≤ 0 := by
            by_contra c
            have := mul_neg_of_pos_of_neg (not_le.mp c) hd
            linarith
          by_cases hw : Allowed L (v - a / r)
          · refine ⟨v - a / r, by rw [cruise_allowed hL hw], hw, ?_, fun h => (h hA).elim, ?_⟩
            · exact fun _ => ⟨fun h => by linarith, fun _ => ⟨by linarith, by linarith, by linarith⟩⟩
            · intro h; exact (c2 h).elim
          · rcases hL with e | ⟨l, rfl, hl⟩
            · exact (hw (Or.inl e)).elim
            · have h1 : l < |v - a / r| := by
                by_contra c
                exact hw (Or.inr ⟨l, rfl, not_lt.mp c⟩)
              have h2 : |v| < l := by simpa [Fl.isNan, Fl.abs] using hlim
              obtain ⟨l', el, hl'⟩ : ∃ l', Fl.fin l = .fin l' ∧ a / r ≤ l' := by
                rcases hm with e | e
                · cases e
                · exact e
              cases el
              rw [abs_of_nonpos (by linarith)] at h1
              rw [abs_of_nonpos hv] at h2
              have hv' : v < 0 := by
                rcases lt_or_eq_of_le hv with g | g
                · exact g
                · rw [g] at h1; linarith
              refine ⟨-l, by rw [cruise_over (by rw [abs_of_nonpos hv]; exact h2)
                (by rw [abs_of_nonpos (by linarith)]; exact h1), copysign_neg (by linarith) hv'],
                Or.inr ⟨l, rfl, by rw [abs_neg, abs_of_pos (by linarith)]⟩, ?_, fun h => (h hA).elim, ?_⟩
              · exact fun _ => ⟨fun h => by linarith, fun _ => ⟨by linarith, by linarith, by linarith⟩⟩
              · intro h; exact (c2 h).elim
      · rw [copysign_pos ha.le hd, exact_mul, exact_add, show v + a * (1 / r) = v + a / r by ring]
        split
        · exact Or.inl rfl
        · right
          have hv : 0 ≤ v := by
            by_contra c
            have := mul_neg_of_neg_of_pos (not_le.mp c) hd
            linarith
          by_cases hw : Allowed L (v + a / r)
          · refine ⟨v + a / r, by rw [cruise_allowed hL hw], hw, ?_, fun h => (h hA).elim, ?_⟩
            · exact fun _ => ⟨fun _ => ⟨by linarith, by linarith, by linarith⟩, fun h => by linarith⟩
            · intro h; exact (c2 h).elim
          · rcases hL with e | ⟨l, rfl, hl⟩
            · exact (hw (Or.inl e)).elim
            · have h1 : l < |v + a / r| := by
                by_contra c
                exact hw (Or.inr ⟨l, rfl, not_lt.mp c⟩)
              have h2 : |v| < l := by simpa [Fl.isNan, Fl.abs] using hlim
              obtain ⟨l', el, hl'⟩ : ∃ l', Fl.fin l = .fin l' ∧ a / r ≤ l' := by
                rcases hm with e | e
                · cases e
                · exact e
              cases el
              rw [abs_of_nonneg (by linarith)] at h1
              rw [abs_of_nonneg hv] at h2
              have hv' : 0 < v := by
                rcases lt_or_eq_of_le hv with g | g
                · exact g
                · rw [← g] at h1; linarith
              refine ⟨l, by rw [cruise_over (by rw [abs_of_nonneg hv]; exact h2)
                (by rw [abs_of_nonneg (by linarith)]; exact h1), copysign_pos (by linarith) hv'],
                Or.inr ⟨l, rfl, by rw [abs_of_pos (by linarith)]⟩, ?_, fun h => (h hA).elim, ?_⟩
              · exact fun _ => ⟨fun _ => ⟨by linarith, by linarith, by linarith⟩, fun h => by linarith⟩
              · intro h; exact (c2 h).elim
    · -- at the limit
      rename_i hlim
      rw [exact_mul, exact_add, zero_mul, add_zero]
      split
      · exact Or.inl rfl
      · right
        rcases hL with e | ⟨l, rfl, hl⟩
        · rw [e] at hlim; simp [Fl.isNan] at hlim
        · have h2 : l ≤ |v| := by simpa [Fl.isNan, Fl.abs] using hlim
          have h3 : |v| = l := le_antisymm hl h2
          obtain ⟨l', el, hl'⟩ : ∃ l', Fl.fin l = .fin l' ∧ a / r ≤ l' := by
            rcases hm with e | e
            · cases e
            · exact e
          cases el
          refine ⟨v, by rw [cruise_allowed (Or.inr ⟨l, rfl, hl⟩) (Or.inr ⟨l, rfl, hl⟩)],
            Or.inr ⟨l, rfl, hl⟩, ?_, fun h => (h hA).elim, ?_⟩
          · refine fun _ => ⟨fun hd => ?_, fun hd => ?_⟩
            · have hv : 0 ≤ v := by
                by_contra c
                have := mul_neg_of_neg_of_pos (not_le.mp c) hd
                linarith
              rw [abs_of_nonneg hv] at h3
              exact ⟨by linarith, le_rfl, by linarith⟩
            · have hv : v ≤ 0 := by
                by_contra c
                have := mul_neg_of_pos_of_neg (not_le.mp c) hd
                linarith
              rw [abs_of_nonpos hv] at h3
              exact ⟨by linarith, le_rfl, by linarith⟩
          · intro h; exact (c2 h).elim
  · rw [accel_brake ha hL z1 hA]
    rcases lt_trichotomy v 0 with hv | hv | hv
    · rw [copysign_pos ha.le (by linarith), exact_mul, exact_add, show v + a * (1 / r) = v + a / r by ring]
      have hw : Allowed L (v + a / r) := by
        apply allow
        rw [abs_of_neg hv, abs_le]
        have := le_max_left (-v) (a / r)
        have := le_max_right (-v) (a / r)
        constructor <;> linarith
      split
      · exact Or.inl rfl
      · rename_i hc
        right
        refine ⟨v + a / r, by rw [cruise_allowed hL hw], hw, fun h => (hA h).elim,
          fun _ => Or.inr ⟨hv, rfl⟩, ?_⟩
        rintro rfl
        by_contra c
        rw [abs_of_neg hv, not_le] at c
        exact hc (complete_at (by positivity) (by linarith) (mul_nonpos_of_nonpos_of_nonneg hv.le (by linarith)))
    · have hd : dx = 0 := by
        by_contra c
        exact hA ⟨by rw [hv, zero_mul], c, by rw [hv]; simp⟩
      left
      subst hv hd
      rw [neg_zero, copysign_zero _ ha.le, exact_mul, exact_add]
      rw [if_pos]
      apply complete_at (by positivity)
      · split
        · rw [show 0 + -a * (1 / r) = -(a / r) by ring]; linarith
        · rw [show 0 + a * (1 / r) = a / r by ring]; linarith
      · simp
    · rw [copysign_neg ha.le (by linarith), exact_mul, exact_add, show v + -a * (1 / r) = v - a / r by ring]
      have hw : Allowed L (v - a / r) := by
        apply allow
        rw [abs_of_pos hv, abs_le]
        have := le_max_left v (a / r)
        have := le_max_right v (a / r)
        constructor <;> linarith
      split
      · exact Or.inl rfl
      · rename_i hc
        right
        refine ⟨v - a / r, by rw [cruise_allowed hL hw], hw, fun h => (hA h).elim,
          fun _ => Or.inl ⟨hv, rfl⟩, ?_⟩
        rintro rfl
        by_contra c
        rw [abs_of_pos hv, not_le] at c
        exact hc (complete_at (by positivity) (by linarith) (mul_nonpos_of_nonneg_of_nonpos hv.le (by linarith)))

/-! ## In units of one cycle of acceleration -/

/-- A cycle that does not complete is a cycle of a stroke.  `q` is the resolution
of the distance in units of `a / r²`. -/
theorem next_stroke {L : Fl} {a r u' : ℚ} {v : ℚ} {N : ℤ} (ha : 0 < a) (hr : 0 < r)
    (h : Next L a (a / r) v (N / 65536) (u' * (a / r))) :
    let q := 1 / 65536 / (a / r ^ 2)
    Stroke q (v / (a / r)) N u' ∨ Stroke q (-(v / (a / r))) (-N) (-u') := by
  have hm : 0 < a / r := by positivity
  obtain ⟨u, rfl⟩ : ∃ u, v = u * (a / r) := ⟨v / (a / r), by field_simp⟩
  have hu : u * (a / r) / (a / r) = u := by field_simp
  have hsq : u * (a / r) * (u * (a / r)) / (2 * a) = u ^ 2 / 2 * (a / r ^ 2) := by
    field_simp
  have hh : 0 < a / r ^ 2 := by positivity
  set H := a / r ^ 2 with hH
  have hN : ∀ x : ℚ, x * (1 / 65536 / H) * H = x / 65536 := by
    intro x
    field_simp
  dsimp only
  rw [hu]
  have cmp : ∀ x : ℚ, u ^ 2 / 2 ≤ x * (1 / 65536 / H) ↔ u ^ 2 / 2 * H ≤ x / 65536 := by
    intro x
    rw [← hN x]
    exact (mul_le_mul_iff_left₀ hh).symm
  have N0 : ((N : ℚ) / 65536 = 0) ↔ N = 0 := by
    constructor
    · intro g; have : (N : ℚ) = 0 := by linarith
      exact_mod_cast this
    · rintro rfl; norm_num
  have Npos : (0 < (N : ℚ) / 65536) ↔ 0 < N := by
    constructor
    · intro g; have : (0 : ℚ) < N := by linarith
      exact_mod_cast this
    · intro g; have : (0 : ℚ) < N := by exact_mod_cast g
      linarith
  have Nneg : ((N : ℚ) / 65536 < 0) ↔ N < 0 := by
    constructor
    · intro g; have : (N : ℚ) < 0 := by linarith
      exact_mod_cast this
    · intro g; have : (N : ℚ) < 0 := by exact_mod_cast g
      linarith
  have scale : ∀ x y : ℚ, x * (a / r) ≤ y * (a / r) ↔ x ≤ y := fun x y => mul_le_mul_iff_left₀ hm
  by_cases hA : Ahead a (u * (a / r)) (N / 65536)
  · obtain ⟨g1, g2⟩ := h.ahead hA
    obtain ⟨c1, c2, c3⟩ := hA
    rw [hsq] at c3
    rcases lt_or_gt_of_ne c2 with hd | hd
    · right
      have hN' := Nneg.mp hd
      obtain ⟨e1, e2, e3⟩ := g2 hd
      have hu0 : u ≤ 0 := by
        by_contra c
        have : 0 < u * (a / r) := mul_pos (not_le.mp c) hm
        have := mul_neg_of_pos_of_neg this hd
        linarith
      refine ⟨by linarith, Or.inl ⟨by omega, ?_, ?_, ?_, ?_⟩⟩
      · rw [neg_sq, cmp]
        rw [abs_of_neg hd] at c3
        push_cast
        linarith
      · rw [← scale]; linarith
      · rw [← scale]; linarith
      · rw [← scale]; linarith
    · left
      have hN' := Npos.mp hd
      obtain ⟨e1, e2, e3⟩ := g1 hd
      have hu0 : 0 ≤ u := by
        by_contra c
        have : u * (a / r) < 0 := mul_neg_of_neg_of_pos (not_le.mp c) hm
        have := mul_neg_of_neg_of_pos this hd
        linarith
      refine ⟨hu0, Or.inl ⟨hN', ?_, ?_, ?_, ?_⟩⟩
      · rw [cmp]
        rwa [abs_of_pos hd] at c3
      · rw [← scale]; linarith
      · rw [← scale]; linarith
      · rw [← scale]; linarith
  · rcases h.brake hA with ⟨g, e⟩ | ⟨g, e⟩
    · left
      have hu0 : 0 < u := by
        by_contra c
        have := mul_nonpos_of_nonpos_of_nonneg (not_lt.mp c) hm.le
        linarith
      have e' : u' = u - 1 := by
        apply mul_right_cancel₀ hm.ne'
        linarith
      refine ⟨hu0.le, Or.inr ?_⟩
      rcases lt_trichotomy N 0 with hN' | hN' | hN'
      · exact Or.inr (Or.inr ⟨hN', hu0, e'⟩)
      · refine Or.inr (Or.inl ⟨hN', ?_, e'⟩)
        have := h.near (N0.mpr hN')
        rw [abs_of_pos g] at this
        rw [← scale]; linarith
      · refine Or.inl ⟨hN', ?_, e'⟩
        by_contra c
        rw [not_lt, cmp] at c
        have hd := Npos.mpr hN'
        exact hA ⟨(mul_pos g hd).le, hd.ne', by rw [hsq, abs_of_pos hd]; exact c⟩
    · right
      have hu0 : u < 0 := by
        by_contra c
        have := mul_nonneg (not_lt.mp c) hm.le
        linarith
      have e' : u' = u + 1 := by
        apply mul_right_cancel₀ hm.ne'
        linarith
      refine ⟨by linarith, Or.inr ?_⟩
      rcases lt_trichotomy N 0 with hN' | hN' | hN'
      · refine Or.inl ⟨by omega, ?_, by linarith⟩
        by_contra c
        rw [not_lt, neg_sq, cmp] at c
        push_cast at c
        have hd := Nneg.mpr hN'
        exact hA ⟨(mul_pos_of_neg_of_neg g hd).le, hd.ne, by rw [hsq, abs_of_neg hd]; linarith⟩
      · refine Or.inr (Or.inl ⟨by omega, ?_, by linarith⟩)
        have := h.near (N0.mpr hN')
        rw [abs_of_neg g] at this
        rw [← scale]; linarith
      · exact Or.inr (Or.inr ⟨by omega, by linarith, by linarith⟩)

/-- Truncation to the resolution of the position. -/
theorem moves_trunc {ρ : ℚ} (hρ : 0 < ρ) (hρ1 : ρ ≤ 1) (u : ℚ) :
    Moves ρ u (truncQ (u / ρ) * ρ) := by
  obtain ⟨t1, t2, t3⟩ := truncQ_spec (u / ρ)
  rw [abs_lt] at t1
  have e : u / ρ * ρ = u := by field_simp
  constructor
  · intro h
    obtain ⟨a1, a2⟩ := t2 (by positivity)
    have a1' : (0 : ℚ) ≤ truncQ (u / ρ) := by exact_mod_cast a1
    refine ⟨by positivity, ?_, ?_, ?_⟩
    · calc _ ≤ u / ρ * ρ := mul_le_mul_of_nonneg_right a2 hρ.le
        _ = u := e
    · have := mul_lt_mul_of_pos_right (show u / ρ - 1 < truncQ (u / ρ) by linarith) hρ
      linarith
    · intro h1
      have : 1 ≤ truncQ (u / ρ) := by
        have h2 : 1 ≤ u / ρ := by rw [le_div_iff₀ hρ]; linarith
        have h3 := truncQ_mono h2
        have h4 : truncQ 1 = 1 := by decide +kernel
        omega
      have : (1 : ℚ) ≤ truncQ (u / ρ) := by exact_mod_cast this
      nlinarith
  · intro h
    obtain ⟨a1, a2⟩ := t3 (div_nonpos_of_nonpos_of_nonneg h hρ.le)
    have a1' : (truncQ (u / ρ) : ℚ) ≤ 0 := by exact_mod_cast a1
    refine ⟨mul_nonpos_of_nonpos_of_nonneg a1' hρ.le, ?_, ?_, ?_⟩
    · calc u = u / ρ * ρ := e.symm
        _ ≤ _ := mul_le_mul_of_nonneg_right a2 hρ.le
    · have := mul_lt_mul_of_pos_right (show (truncQ (u / ρ) : ℚ) < u / ρ + 1 by linarith) hρ
      linarith
    · intro h1
      have : truncQ (u / ρ) ≤ -1 := by
        have h2 : u / ρ ≤ -1 := by rw [div_le_iff₀ hρ]; linarith
        have h3 := truncQ_mono h2
        have h4 : truncQ (-1) = -1 := by decide +kernel
        omega
      have : (truncQ (u / ρ) : ℚ) ≤ -1 := by exact_mod_cast this
      nlinarith

/-! ## The range of the motion -/

/-- The motion can brake within `Y`. -/
structure Ranged (Y u y : ℚ) : Prop where
  hi : y ≤ Y + 1 / 8
  lo : -(Y + 1 / 8) ≤ y
  fwd : 0 ≤ u → u ^ 2 / 2 - u / 2 - Y ≤ y
  bwd : u ≤ 0 → u ^ 2 / 2 + u / 2 - Y ≤ -y

theorem Ranged.neg {Y u y : ℚ} (h : Ranged Y u y) : Ranged Y (-u) (-y) := by
  refine ⟨by linarith [h.lo], by linarith [h.hi], fun g => ?_, fun g => ?_⟩
  · have := h.bwd (by linarith)
    rw [neg_sq]; linarith
  · have := h.fwd (by linarith)
    rw [neg_sq]; linarith

theorem ranged_stroke {q ρ Y u u' w w' : ℚ} {N : ℤ} (hq : 64 ≤ q) (hY : 4 * q ≤ Y) (hρ1 : ρ ≤ 1)
    (h : Ranged Y u w) (hs : Stroke q u N u') (hm : Moves ρ u' (w - w'))
    (h1 : N * q - q ≤ w) (h2 : N ≤ 0 → w < q) (h3 : N < 0 → w < 0) : Ranged Y u' w' := by
  obtain ⟨hi, lo, fwd, -⟩ := h
  have h0 := hs.pos
  have f := fwd h0
  rcases hs.next with ⟨a1, a2, a3, a4, a5⟩ | ⟨a1, a2, e⟩ | ⟨a1, a2, e⟩ | ⟨a1, a2, e⟩
  · obtain ⟨d1, d2, d3, -⟩ := hm.fwd (by linarith)
    have k : u ^ 2 / 2 - q ≤ w := by linarith
    have k2 := sq_nonneg (u - 3)
    have k3 := sq_nonneg (u - 1)
    refine ⟨by linarith, by nlinarith, fun _ => ?_, fun g => by linarith⟩
    have : u' ^ 2 ≤ (u + 1) ^ 2 := by nlinarith
    nlinarith
  · obtain ⟨d1, d2, d3, -⟩ := hm.fwd (by
      have := hs.fast hq a1
      linarith)
    have k := hs.fast hq a1
    refine ⟨by linarith, ?_, fun _ => ?_, fun g => by linarith⟩
    · subst e; nlinarith
    · subst e; nlinarith
  · obtain ⟨d1, d2, d3, -⟩ := hm.fwd (by linarith)
    have k := h2 a1.le
    subst e
    refine ⟨by linarith, by nlinarith [sq_nonneg (u - 3 / 2)], fun _ => by nlinarith, fun g => ?_⟩
    have : u = 1 := by linarith
    subst this
    linarith
  · have k := h3 a1
    subst e
    rcases le_or_gt 1 u with c | c
    · obtain ⟨d1, d2, d3, -⟩ := hm.fwd (by linarith)
      refine ⟨by linarith, by nlinarith [sq_nonneg (u - 3 / 2)], fun _ => by nlinarith, fun g => ?_⟩
      have : u = 1 := by linarith
      subst this
      linarith
    · obtain ⟨d1, d2, d3, -⟩ := hm.bwd (by linarith)
      refine ⟨by linarith, by linarith, fun g => by linarith, fun g => ?_⟩
      nlinarith

theorem ranged_runs {q ρ Y u u' y y' : ℚ} (hq : 64 ≤ q) (hY : 4 * q ≤ Y) (hρ1 : ρ ≤ 1)
    (h : Ranged Y u y) (hs : Runs q ρ u y u' y') : Ranged Y u' y' := by
  have q0 : 0 < q := by linarith
  have f1 : ((⌊y / q⌋ : ℤ) : ℚ) * q ≤ y := by
    have := Int.floor_le (y / q)
    rwa [le_div_iff₀ q0] at this
  have f2 : y < ((⌊y / q⌋ : ℤ) + 1 : ℚ) * q := by
    have := Int.lt_floor_add_one (y / q)
    rwa [div_lt_iff₀ q0] at this
  rcases hs.dir with g | g
  · exact ranged_stroke hq hY hρ1 h g hs.move (by linarith)
      (fun g => (floor_nonpos_iff q0 _).mp g) (fun g => (floor_neg_iff q0 _).mp g)
  · have := ranged_stroke (w' := -y') hq hY hρ1 h.neg g
      (by have := hs.move.neg; rwa [show -(y - y') = -y - -y' by ring] at this)
      (by push_cast; linarith)
      (fun g => by
        have : ¬ ⌊y / q⌋ < 0 := by omega
        rw [floor_neg_iff q0] at this
        linarith)
      (fun g => by
        have := (floor_pos_iff q0 y).mp (by omega)
        linarith)
    have := this.neg
    rwa [neg_neg, neg_neg] at this

/-! ## The model -/

theorem toI32_trunc {x : ℚ} (h : |x| ≤ 2147483647) : toI32 (.fin x) = truncQ x := by
  obtain ⟨-, t2, t3⟩ := truncQ_spec x
  rw [abs_le] at h
  have b1 : (truncQ x : ℚ) ≤ 2147483647 := by
    rcases le_total 0 x with c | c
    · linarith [(t2 c).2]
    · have : (truncQ x : ℚ) ≤ 0 := by exact_mod_cast (t3 c).1
      linarith
  have b2 : (-2147483647 : ℚ) ≤ truncQ x := by
    rcases le_total 0 x with c | c
    · have : (0 : ℚ) ≤ truncQ x := by exact_mod_cast (t2 c).1
      linarith
    · linarith [(t3 c).2]
  have b1' : truncQ x ≤ 2147483647 := by exact_mod_cast b1
  have b2' : -2147483647 ≤ truncQ x := by exact_mod_cast b2
  simp only [toI32]
  omega

/-- The position step of a cycle, in turns. -/
theorem posStep_turns {r v : ℚ} (hr : 0 < r) (h : |v / r| ≤ 1 / 4) :
    turns (posStep .exact (.fin r) (.fin v)) = truncQ (4294967296 * (v / r)) / 4294967296 := by
  unfold posStep
  rw [exact_div hr.ne', exact_lit, exact_mul, toI32_trunc]
  · unfold turns
    push_cast
    ring
  · rw [abs_mul, abs_of_pos (by norm_num)]
    linarith

/-- The visible distance. -/
theorem distance_exact {target cp : ℤ} (h : |turns (target - cp)| < 32768) :
    distance .exact target cp = .fin ((⌊turns (target - cp) * 65536⌋ : ℤ) / 65536) := by
  have hf : ⌊turns (target - cp) * 65536⌋ = (target - cp) / 4294967296 := by
    rw [Int.floor_eq_iff]
    unfold turns
    generalize target - cp = n
    have h1 : 4294967296 * (n / 4294967296) ≤ n := by omega
    have h2 : n < 4294967296 * (n / 4294967296) + 4294967296 := by omega
    have h1' : (4294967296 : ℚ) * ((n / 4294967296 : ℤ) : ℚ) ≤ n := by exact_mod_cast h1
    have h2' : (n : ℚ) < 4294967296 * ((n / 4294967296 : ℤ) : ℚ) + 4294967296 := by exact_mod_cast h2
    constructor <;> linarith
  rw [hf]
  unfold distance intToFloat
  have hw : wrapI32 ((target - cp) / 4294967296) = (target - cp) / 4294967296 := by
    unfold turns at h
    generalize target - cp = n at *
    rw [abs_lt] at h
    have h1 : (n : ℚ) < 9223372036854775808 := by linarith
    have h2 : (-9223372036854775808 : ℚ) < n := by linarith
    have h1' : n < 9223372036854775808 := by exact_mod_cast h1
    have h2' : -9223372036854775808 < n := by exact_mod_cast h2
    unfold wrapI32
    omega
  rw [hw, exact_lit, exact_lit, exact_div (by norm_num)]

/-- What the commands and the cycles of the motion satisfy: rate `r`, target
velocity 0, an acceleration limit `a`, a velocity limit of at least one velocity
step, and a motor fast enough. -/
structure MotionSetup (c : TrajConfig) (d : TrajData) (r a : ℚ) (target : ℤ) : Prop where
  hr : 0 < r
  ha : 0 < a
  /-- one cycle of acceleration moves at least the resolution of the control
  position -/
  coarse : 1 / 4294967296 ≤ a / r ^ 2
  /-- and at most 1/64 of the resolution of the distance -/
  fine : a / r ^ 2 ≤ 1 / 4194304
  target : d.posRaw = some target
  accel : d.accelLimit = .fin a
  limit : d.velLimit = .nan ∨ ∃ l, d.velLimit = .fin l ∧ a / r ≤ l
  quiet : QuietCycle c d

/-- What each cycle satisfies. -/
structure MotionCycle (d : TrajData) (r : ℚ) (i : TrajIn) : Prop where
  rate : i.rateHz = .fin r
  still : velocityArg i.velocity = .fin 0
  motor : i.motorMax = .inf false ∨ ∃ M, i.motorMax = .fin M ∧
    (r / 4 ≤ M ∨ ∃ l, d.velLimit = .fin l ∧ l ≤ M)

theorem clamp_zero {L : Fl} (h : L = .nan ∨ ∃ l, L = .fin l ∧ 0 ≤ l) :
    clampVelocity L (.fin 0) = .fin 0 := by
  rcases h with rfl | ⟨l, rfl, h⟩
  · rfl
  · rw [clamp_le h, min_eq_left h, max_eq_right (by linarith)]

/-- The state of a motion that is under way. -/
structure Moving (d : TrajData) (r a : ℚ) (target : ℤ) (x : TrajRun) (cp : ℤ) (v : ℚ) : Prop where
  data : x.d = d
  pos : x.s.cp = some cp
  vel : x.s.cv = some (.fin v)
  allowed : Allowed d.velLimit v
  range : Ranged (32767 / (a / r ^ 2)) (v / (a / r)) (turns (target - cp) / (a / r ^ 2))

theorem ranged_fast {h u y : ℚ} (h0 : 0 < h) (hf : h ≤ 1 / 4194304) (hr : Ranged (32767 / h) u y) :
    |u| * h ≤ 1 / 4 ∧ |y * h| < 32768 := by
  obtain ⟨hi, lo, fwd, bwd⟩ := hr
  have e : 32767 / h * h = 32767 := by field_simp
  have e1 := mul_le_mul_of_nonneg_right hi h0.le
  have e2 := mul_le_mul_of_nonneg_right lo h0.le
  rw [add_mul, e] at e1
  rw [neg_mul, add_mul, e] at e2
  have key : ∀ x : ℚ, 0 ≤ x → x ^ 2 / 2 - x / 2 ≤ 2 * (32767 / h) + 1 / 8 → x * h ≤ 1 / 4 := by
    intro x hx hb
    have := mul_le_mul_of_nonneg_right hb (by positivity : (0 : ℚ) ≤ h * h)
    have e3 : 2 * (32767 / h) * (h * h) = 65534 * h := by field_simp; norm_num
    rw [add_mul, e3] at this
    by_contra c
    rw [not_le] at c
    nlinarith
  constructor
  · rcases le_total 0 u with c | c
    · rw [abs_of_nonneg c]
      exact key u c (by linarith [fwd c])
    · rw [abs_of_nonpos c]
      exact key (-u) (by linarith) (by rw [neg_sq]; linarith [bwd c])
  · rw [abs_lt]
    constructor <;> linarith

theorem motor_free {d : TrajData} {r v : ℚ} {i : TrajIn} (hi : MotionCycle d r i)
    (h1 : |v| ≤ r / 4) (h2 : Allowed d.velLimit v) : motorLimit i.motorMax (.fin v) = .fin v := by
  rcases hi.motor with e | ⟨M, e, g⟩
  · rw [e]; rfl
  · rw [e]
    apply motorLimit_quiet
    rcases g with g | ⟨l, e2, g⟩
    · linarith
    · rcases h2 with e3 | ⟨l', e3, g'⟩
      · rw [e3] at e2; cases e2
      · rw [e3] at e2; cases e2
        exact g'.trans g

/-- The end of a motion: the trajectory is done, the commanded velocity is 0, and
the control position is within ten cycles of acceleration and the resolution of
the distance. -/
structure Ended (r a : ℚ) (target : ℤ) (x : TrajRun) : Prop where
  done : x.s.done = true
  still : x.vc = .fin 0
  there : ∃ cp, x.s.cp = some cp ∧ |turns (target - cp)| < 10 * (a / r ^ 2) + 1 / 65536

theorem velocityAndAccel_done {L : Fl} {a r v dx : ℚ} {z1 z2 : Bool}
    (h : (velocityAndAccelLimits .exact z1 z2 (.fin r) L (.fin a) (.fin 0) (.fin v) (.fin dx)).2 = true) :
    (velocityAndAccelLimits .exact z1 z2 (.fin r) L (.fin a) (.fin 0) (.fin v) (.fin dx)).1 = .fin 0 := by
  revert h
  unfold velocityAndAccelLimits
  dsimp only
  rw [if_neg (show ¬ (Fl.fin a).isNan = true by simp [Fl.isNan])]
  split
  · intro _; rfl
  · intro h; cases h

/-- A cycle of a motion under way completes it, or is a cycle of a stroke. -/
theorem moving_step {c : TrajConfig} {d : TrajData} {r a : ℚ} {target : ℤ}
    (S : MotionSetup c d r a target) {x : TrajRun} {cp : ℤ} {v : ℚ} (h : Moving d r a target x cp v)
    {i : TrajIn} (hi : MotionCycle d r i) :
    Ended r a target (trajStep .exact c x (.cycle i)) ∨
    ∃ cp' v', Moving d r a target (trajStep .exact c x (.cycle i)) cp' v' ∧
      Runs (1 / 65536 / (a / r ^ 2)) (1 / 4294967296 / (a / r ^ 2)) (v / (a / r))
        (turns (target - cp) / (a / r ^ 2)) (v' / (a / r)) (turns (target - cp') / (a / r ^ 2)) := by
  have hr := S.hr
  have ha := S.ha
  have hh : 0 < a / r ^ 2 := by positivity
  have hm : 0 < a / r := by positivity
  have hlim := S.limit
  have hl : noLimits d = false := by
    unfold noLimits; rw [S.accel]; simp [Fl.isNan]
  have hU := update_limited (A := .exact) c i x.s x.d h.pos (by rw [h.data]; exact hl)
    (by rw [h.data]; exact S.quiet)
  dsimp only at hU
  rw [hi.still, h.data] at hU
  obtain ⟨k1, k2⟩ := ranged_fast hh S.fine h.range
  rw [div_mul_cancel₀ _ hh.ne'] at k2
  have hT : updateTrajectory .exact i (.fin 0) { x.s with done := false } d =
      ({ x.s with
          cv := some (velocityAndAccelLimits .exact i.z1 i.z2 (.fin r) d.velLimit (.fin a) (.fin 0) (.fin v)
            (.fin ((⌊turns (target - cp) * 65536⌋ : ℤ) / 65536))).1
          done := (velocityAndAccelLimits .exact i.z1 i.z2 (.fin r) d.velLimit (.fin a) (.fin 0) (.fin v)
            (.fin ((⌊turns (target - cp) * 65536⌋ : ℤ) / 65536))).2 },
       if (velocityAndAccelLimits .exact i.z1 i.z2 (.fin r) d.velLimit (.fin a) (.fin 0) (.fin v)
            (.fin ((⌊turns (target - cp) * 65536⌋ : ℤ) / 65536))).2
       then { d with position := .nan, posRaw := none } else d) := by
    unfold updateTrajectory
    rw [clamp_zero (hlim.imp id fun ⟨l, e, g⟩ => ⟨l, e, hm.le.trans g⟩), S.target]
    dsimp only
    rw [h.vel, h.pos, hi.rate, S.accel]
    rw [show derefF (some (Fl.fin v)) = .fin v from rfl, show derefI (some cp) = cp from rfl,
      distance_exact k2, Bool.false_or]
  have hfl : ⌊turns (target - cp) * 65536⌋ = ⌊turns (target - cp) / (a / r ^ 2) / (1 / 65536 / (a / r ^ 2))⌋ := by
    congr 1
    field_simp
  have hz : posStep .exact (.fin r) (.fin 0) = 0 := by
    unfold posStep
    rw [exact_div hr.ne', exact_lit, exact_mul, zero_div, mul_zero]
    decide +kernel
  rcases velocityAndAccel_next (v := v) (dx := (⌊turns (target - cp) * 65536⌋ : ℤ) / 65536) ha hr
    h.allowed hlim i.z1 i.z2 with hdone | ⟨v', hR, hN⟩
  · left
    have hv0 := velocityAndAccel_done hdone
    rw [hT] at hU
    dsimp only at hU
    rw [hv0, hdone, show derefF (some (Fl.fin 0)) = .fin 0 from rfl,
      motor_free hi (by rw [abs_zero]; positivity)
        (hlim.imp id fun ⟨l, e, g⟩ => ⟨l, e, by rw [abs_zero]; exact hm.le.trans g⟩), hi.rate, hz] at hU
    have hpos := C37_position_partial c i x.s d hr hi.rate hi.still h.pos h.vel S.target (by
        unfold turns at k2
        rw [abs_div, abs_of_pos (show (0 : ℚ) < 281474976710656 by norm_num), div_lt_iff₀ (by norm_num)] at k2
        have k3 : |((target - cp : ℤ) : ℚ)| < 9223372036854775808 := by linarith
        exact_mod_cast k3)
      (hlim.imp id fun ⟨l, e, g⟩ => ⟨l, e, hm.le.trans g⟩) (Or.inr ⟨a, S.accel, ha⟩) S.quiet hU.2.2.1
    refine ⟨?_, ?_, cp, ?_, ?_⟩
    · unfold trajStep
      dsimp only
      rw [h.data, hU.2.2.1]
    · unfold trajStep
      dsimp only
      rw [h.data, hU.1]
    · unfold trajStep
      dsimp only
      rw [h.data, hU.2.2.2.1, add_zero]
    · rcases hpos with ⟨l, e, -⟩ | ⟨b, e, g⟩
      · rw [S.accel] at e; cases e
      · rw [S.accel] at e; cases e
        have : 10 / r * (|0| + a / r) = 10 * (a / r ^ 2) := by
          rw [abs_zero]; field_simp; ring
        linarith
  · right
    rw [hR] at hT
    rw [hT] at hU
    dsimp only at hU
    rw [if_neg Bool.false_ne_true, show derefF (some (Fl.fin v')) = .fin v' from rfl] at hU
    have hvu : v' / (a / r) * (a / r) = v' := by field_simp
    have hst := next_stroke ha hr (by rw [hvu]; exact hN)
    dsimp only at hst
    rw [hfl] at hst
    have hρ : 0 < 1 / 4294967296 / (a / r ^ 2) := by positivity
    have hρ1 : 1 / 4294967296 / (a / r ^ 2) ≤ 1 := by
      rw [div_le_one hh]; exact S.coarse
    have hq : 64 ≤ 1 / 65536 / (a / r ^ 2) := by
      rw [le_div_iff₀ hh]; linarith [S.fine]
    have hY : 4 * (1 / 65536 / (a / r ^ 2)) ≤ 32767 / (a / r ^ 2) := by
      rw [mul_div_assoc', div_le_div_iff_of_pos_right hh]; norm_num
    have hmv := moves_trunc hρ hρ1 (v' / (a / r))
    have harg : v' / (a / r) / (1 / 4294967296 / (a / r ^ 2)) = 4294967296 * (v' / r) := by
      field_simp
    rw [harg] at hmv
    have runs : Runs (1 / 65536 / (a / r ^ 2)) (1 / 4294967296 / (a / r ^ 2)) (v / (a / r))
        (turns (target - cp) / (a / r ^ 2)) (v' / (a / r))
        (turns (target - cp) / (a / r ^ 2) -
          truncQ (4294967296 * (v' / r)) * (1 / 4294967296 / (a / r ^ 2))) :=
      ⟨by rw [sub_sub_cancel]; exact hmv, hst⟩
    have hrange := ranged_runs hq hY hρ1 h.range runs
    obtain ⟨k3, -⟩ := ranged_fast hh S.fine hrange
    have k4 : |v' / r| ≤ 1 / 4 := by
      have : |v' / (a / r)| * (a / r ^ 2) = |v' / r| := by
        rw [abs_div, abs_of_pos hm, abs_div, abs_of_pos hr]
        field_simp
      rw [← this]; exact k3
    have hmot : motorLimit i.motorMax (.fin v') = .fin v' := by
      rw [abs_div, abs_of_pos hr, div_le_iff₀ hr] at k4
      exact motor_free hi (by linarith) hN.allowed
    rw [hmot, hi.rate] at hU
    have hsame : turns (target - (cp + posStep .exact (.fin r) (.fin v'))) / (a / r ^ 2) =
        turns (target - cp) / (a / r ^ 2) -
          truncQ (4294967296 * (v' / r)) * (1 / 4294967296 / (a / r ^ 2)) := by
      have e1 : turns (target - (cp + posStep .exact (.fin r) (.fin v'))) =
          turns (target - cp) - turns (posStep .exact (.fin r) (.fin v')) := by
        unfold turns; push_cast; ring
      rw [e1, posStep_turns hr k4]
      ring
    refine ⟨cp + posStep .exact (.fin r) (.fin v'), v', ⟨?_, ?_, ?_, hN.allowed, ?_⟩, ?_⟩
    · unfold trajStep
      dsimp only
      rw [h.data, hU.2.2.2.2, hz, S.target]
      have := S.target
      cases d
      simp_all
    · unfold trajStep
      dsimp only
      rw [h.data, hU.2.2.2.1]
    · unfold trajStep
      dsimp only
      rw [h.data, hU.2.1]
    · rw [hsame]; exact hrange
    · rw [hsame]; exact runs

/-- The state after the first `n` cycles. -/
def afterCycles (A : Ar) (c : TrajConfig) (x : TrajRun) (ins : ℕ → TrajIn) (n : ℕ) : TrajRun :=
  trajRun A c x ((List.range n).map fun k => .cycle (ins k))

theorem afterCycles_succ {A : Ar} (c : TrajConfig) (x : TrajRun) (ins : ℕ → TrajIn) (n : ℕ) :
    afterCycles A c x ins (n + 1) = trajStep A c (afterCycles A c x ins n) (.cycle (ins n)) := by
  unfold afterCycles trajRun
  rw [List.range_succ, List.map_append, List.foldl_append]
  rfl

/-- C70, in exact arithmetic.  A motion to a fixed target with an acceleration
limit ends: after finitely many cycles the trajectory is done, the velocity is 0
and the control position is at the target, whatever the measured positions and
speeds of the cycles are.  The distance, with the stopping
distance, must be below 32767 turns.  Missing: accelerations of more than 1/64 of
the resolution of the distance (2^-16 turns) per cycle squared, where it is false
(`C70_endless_refuted`), accelerations below the resolution of the position,
velocity limits below one velocity step (`C70_overspeed_refuted`) or below the
present velocity, and rounding. -/
theorem C70_completes_partial {c : TrajConfig} {x : TrajRun} {ins : ℕ → TrajIn} {r a v0 : ℚ}
    {cp target : ℤ} (S : MotionSetup c x.d r a target) (hi : ∀ n, MotionCycle x.d r (ins n))
    (hcp : x.s.cp = some cp) (hcv : x.s.cv = some (.fin v0))
    (hv : ∀ l, x.d.velLimit = .fin l → |v0| ≤ l)
    (hd : |turns (target - cp)| + v0 ^ 2 / (2 * a) ≤ 32767) :
    ∃ n, Ended r a target (afterCycles .exact c x ins (n + 1)) := by
  have hr := S.hr
  have ha := S.ha
  have hh : 0 < a / r ^ 2 := by positivity
  have hm : 0 < a / r := by positivity
  by_contra hno
  rw [not_exists] at hno
  have h0 : Moving x.d r a target x cp v0 := by
    refine ⟨rfl, hcp, hcv, ?_, ?_⟩
    · rcases S.limit with e | ⟨l, e, -⟩
      · exact Or.inl e
      · exact Or.inr ⟨l, e, hv l e⟩
    · have e : 32767 / (a / r ^ 2) * (a / r ^ 2) = 32767 := by field_simp
      have e1 : (v0 / (a / r)) ^ 2 / 2 = v0 ^ 2 / (2 * a) / (a / r ^ 2) := by field_simp
      have e2 : (v0 / (a / r)) ^ 2 / 2 + |turns (target - cp)| / (a / r ^ 2) ≤ 32767 / (a / r ^ 2) := by
        rw [e1, ← add_div, div_le_div_iff_of_pos_right hh]
        linarith
      have e3 := abs_le.mp (le_of_eq (abs_div (turns (target - cp)) (a / r ^ 2)))
      rw [abs_of_pos hh] at e3
      have e4 := sq_nonneg (v0 / (a / r))
      refine ⟨by linarith, by linarith, fun g => by linarith, fun g => by linarith⟩
  have all : ∀ n, ∃ p : ℤ × ℚ, Moving x.d r a target (afterCycles .exact c x ins n) p.1 p.2 := by
    intro n
    induction n with
    | zero => exact ⟨(cp, v0), h0⟩
    | succ n ih =>
      obtain ⟨p, hp⟩ := ih
      rw [afterCycles_succ]
      rcases moving_step S hp (hi n) with g | ⟨cp', v', g, -⟩
      · have := hno n
        rw [afterCycles_succ] at this
        exact (this g).elim
      · exact ⟨(cp', v'), g⟩
  choose p hp using all
  refine no_endless (q := 1 / 65536 / (a / r ^ 2)) (ρ := 1 / 4294967296 / (a / r ^ 2))
    (u := fun n => (p n).2 / (a / r)) (y := fun n => turns (target - (p n).1) / (a / r ^ 2)) ?_ ?_ ?_ ?_
  · rw [le_div_iff₀ hh]; linarith [S.fine]
  · positivity
  · rw [div_le_one hh]; exact S.coarse
  · intro n
    rcases moving_step S (hp n) (hi n) with g | ⟨cp', v', g, hruns⟩
    · have := hno n
      rw [afterCycles_succ] at this
      exact (this g).elim
    · have hp' := hp (n + 1)
      rw [afterCycles_succ] at hp'
      have e1 : cp' = (p (n + 1)).1 := by
        have := g.pos
        rw [hp'.pos] at this
        injection this with this
        exact this.symm
      have e2 : v' = (p (n + 1)).2 := by
        have := g.vel
        rw [hp'.vel] at this
        injection this with this
        injection this with this
        exact this.symm
      rw [e1, e2] at hruns
      exact hruns

/-- A motion of 10 turns at 15 kHz with an acceleration of 25 and a velocity limit
of 2, with a motor speed limit of 50. -/
def usualMove : TrajRun :=
  { s := { cp := some 0, cv := some (.fin 0), done := false, controlPosition := .fin 0 }
    d := { position := .fin 10, velocity := .fin 0, posRaw := some 2814749767106560, stopRaw := none,
           velLimit := .fin 2, accelLimit := .fin 25, ignoreBounds := false }
    vc := .fin 0 }

example (ins : ℕ → TrajIn) (h : ∀ n, (ins n).rateHz = .fin 15000 ∧ (ins n).velocity = .fin 0 ∧
    (ins n).motorMax = .fin 50) :
    ∃ n, Ended 15000 25 2814749767106560
      (afterCycles .exact ⟨.fin 0, .nan, .nan, .nan, .nan⟩ usualMove ins (n + 1)) := by
  apply C70_completes_partial (v0 := 0) (cp := 0)
  · exact ⟨by norm_num, by norm_num, by norm_num, by norm_num, rfl, rfl,
      Or.inr ⟨2, rfl, by norm_num⟩, ⟨rfl, rfl, Or.inr ⟨rfl, rfl⟩, rfl⟩⟩
  · intro n
    obtain ⟨h1, h2, h3⟩ := h n
    exact ⟨h1, by rw [h2]; rfl, Or.inr ⟨50, h3, Or.inr ⟨2, rfl, by norm_num⟩⟩⟩
  · rfl
  · rfl
  · intro l h
    cases h
    norm_num
  · unfold turns
    norm_num

end Verif.Fw
