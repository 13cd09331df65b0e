import Verif.Float.Arith

/-!
# Further facts about rounding

Representable numbers are closed under scaling by powers of two, their
difference does not underflow to zero, and rounding returns a nearest
representable number.
-/

namespace Verif.Float

theorem emin_le_ulpExp (f : Fmt) (x : ℚ) : f.emin ≤ f.ulpExp x := by
  unfold Fmt.ulpExp; split <;> omega

/-- A representable number is a short multiple of a power of two. -/
theorem rep_mul {f : Fmt} {x : ℚ} (h : f.roundQ x = x) :
    ∃ n : ℤ, x = n * pow2 (f.ulpExp x) := ⟨rne (x / pow2 (f.ulpExp x)), h.symm⟩

theorem pow2_split {a b : ℤ} (h : a ≤ b) : ∃ n : ℤ, pow2 b = n * pow2 a := by
  obtain ⟨d, hd⟩ := Int.eq_ofNat_of_zero_le (show 0 ≤ b - a by omega)
  refine ⟨(2:ℤ) ^ d, ?_⟩
  rw [show b = (d : ℤ) + a by omega, pow2_add, pow2_natCast]
  push_cast; rfl

/-- A representable number is a multiple of the smallest subnormal. -/
theorem rep_emin {f : Fmt} {x : ℚ} (h : f.roundQ x = x) : ∃ n : ℤ, x = n * pow2 f.emin := by
  obtain ⟨n, hn⟩ := rep_mul h
  obtain ⟨m, hm⟩ := pow2_split (emin_le_ulpExp f x)
  exact ⟨n * m, by rw [hm] at hn; rw [hn]; push_cast; ring⟩

theorem ulpExp_scale {f : Fmt} {x : ℚ} {k : ℤ} (hk : 0 ≤ k) :
    f.ulpExp (x * pow2 k) ≤ f.ulpExp x + k := by
  by_cases hx : x = 0
  · subst hx; rw [zero_mul]; unfold Fmt.ulpExp; simp only [if_true]; omega
  · have hx' : x * pow2 k ≠ 0 := mul_ne_zero hx (pow2_pos k).ne'
    have h1 := (ilog2_spec (abs_pos.mpr hx)).2
    have h2 : ilog2 |x * pow2 k| < ilog2 |x| + 1 + k := by
      apply ilog2_lt_of_lt_pow2 (abs_pos.mpr hx')
      rw [abs_mul, abs_of_pos (pow2_pos k), pow2_add]
      exact mul_lt_mul_of_pos_right h1 (pow2_pos k)
    unfold Fmt.ulpExp
    rw [if_neg hx, if_neg hx']
    omega

/-- Scaling up by a power of two is exact. -/
theorem roundQ_scale {f : Fmt} {x : ℚ} (h : f.roundQ x = x) {k : ℤ} (hk : 0 ≤ k) :
    f.roundQ (x * pow2 k) = x * pow2 k := by
  obtain ⟨n, hn⟩ := rep_mul h
  obtain ⟨m, hm⟩ := pow2_split (ulpExp_scale (f := f) (x := x) hk)
  apply roundQ_of_mul (n * m)
  conv_lhs => rw [hn]
  rw [mul_assoc, ← pow2_add, hm]
  push_cast; ring

/-- The difference of two representable numbers rounds to zero only when they
are equal (gradual underflow). -/
theorem roundQ_sub_zero {f : Fmt} (hp : 1 ≤ f.prec) {x y : ℚ} (hx : f.roundQ x = x)
    (hy : f.roundQ y = y) (h : f.roundQ (x - y) = 0) : x = y := by
  obtain ⟨n, hn⟩ := rep_emin hx
  obtain ⟨m, hm⟩ := rep_emin hy
  by_contra hne
  have hd : x - y = ((n - m : ℤ) : ℚ) * pow2 f.emin := by rw [hn, hm]; push_cast; ring
  have hnm : n ≠ m := by
    rintro rfl; exact hne (by rw [hn, hm])
  have hpos := pow2_pos f.emin
  have hr := roundQ_pow2 hp (le_refl f.emin)
  rcases lt_or_gt_of_ne hnm with hlt | hlt
  · have h1 : x - y ≤ -pow2 f.emin := by
      rw [hd]
      have : ((n - m : ℤ) : ℚ) ≤ -1 := by exact_mod_cast (by omega : n - m ≤ -1)
      nlinarith
    have h2 := roundQ_le_of_le hp (y := -pow2 f.emin) (by rw [roundQ_neg, hr]) h1
    linarith
  · have h1 : pow2 f.emin ≤ x - y := by
      rw [hd]
      have : (1 : ℚ) ≤ ((n - m : ℤ) : ℚ) := by exact_mod_cast (by omega : 1 ≤ n - m)
      nlinarith
    have h2 := le_roundQ_of_le hp hr h1
    linarith

theorem rne_nearest (t : ℚ) (n : ℤ) : |(rne t : ℚ) - t| ≤ |(n : ℚ) - t| := by
  have h := rne_err t
  by_cases e : n = rne t
  · rw [e]
  · have h1 : (1 : ℚ) ≤ |(n : ℚ) - rne t| := by
      have : 1 ≤ |n - rne t| := Int.one_le_abs (by omega)
      exact_mod_cast this
    have h2 : |(n : ℚ) - rne t| ≤ |(n : ℚ) - t| + |(rne t : ℚ) - t| := by
      have := abs_add_le ((n : ℚ) - t) (-((rne t : ℚ) - t))
      rw [abs_neg, show (n : ℚ) - t + -((rne t : ℚ) - t) = (n : ℚ) - rne t by ring] at this
      exact this
    linarith

theorem near_multiple {f : Fmt} {y r : ℚ} (n : ℤ) (h : r = n * pow2 (f.ulpExp y)) :
    |f.roundQ y - y| ≤ |r - y| := by
  have hp := pow2_pos (f.ulpExp y)
  have := rne_nearest (y / pow2 (f.ulpExp y)) n
  unfold Fmt.roundQ
  have e1 : ∀ m : ℤ, |(m : ℚ) * pow2 (f.ulpExp y) - y|
      = |(m : ℚ) - y / pow2 (f.ulpExp y)| * pow2 (f.ulpExp y) := by
    intro m
    rw [← abs_of_pos hp, ← abs_mul, abs_of_pos hp]
    congr 1
    field_simp
  rw [h, e1, e1]
  exact mul_le_mul_of_nonneg_right this hp.le

theorem near_pos {f : Fmt} (hp : 1 ≤ f.prec) {y r : ℚ} (hy : 0 < y) (hr : f.roundQ r = r) :
    |f.roundQ y - y| ≤ |r - y| := by
  by_cases hs : ilog2 |y| - ((f.prec : ℤ) - 1) ≤ f.emin
  · obtain ⟨n, hn⟩ := rep_emin hr
    apply near_multiple n
    have : f.ulpExp y = f.emin := by unfold Fmt.ulpExp; rw [if_neg hy.ne']; omega
    rw [this]; exact hn
  · have hu : f.ulpExp y = ilog2 |y| - ((f.prec : ℤ) - 1) := by
      unfold Fmt.ulpExp; rw [if_neg hy.ne']; omega
    have hb := (ilog2_spec (abs_pos.mpr hy.ne')).1
    rw [abs_of_pos hy] at hb hu hs
    by_cases hrb : pow2 (ilog2 y) ≤ r
    · obtain ⟨n, hn⟩ := rep_mul hr
      have h1 := ulpExp_mono (f := f) (pow2_pos (ilog2 y)) hrb
      have h2 : f.ulpExp (pow2 (ilog2 y)) = f.ulpExp y := by
        have := le_ilog2_of_pow2_le (le_refl (pow2 (ilog2 y)))
        have h3 := ilog2_mono (pow2_pos _) hb
        unfold Fmt.ulpExp
        rw [if_neg hy.ne', if_neg (pow2_pos _).ne', abs_of_pos (pow2_pos _), abs_of_pos hy]
        omega
      rw [h2] at h1
      obtain ⟨m, hm⟩ := pow2_split h1
      apply near_multiple (n * m)
      rw [hm] at hn; push_cast; rw [mul_assoc]; exact hn
    · obtain ⟨m, hm⟩ := pow2_split (a := f.ulpExp y) (b := ilog2 y) (by omega)
      have := near_multiple (f := f) (y := y) (r := pow2 (ilog2 y)) m hm
      refine this.trans ?_
      rw [abs_of_nonpos (by linarith), abs_of_nonpos (by linarith [not_le.mp hrb])]
      linarith [not_le.mp hrb]

/-- Rounding returns a nearest representable number. -/
theorem roundQ_nearest {f : Fmt} (hp : 1 ≤ f.prec) {y r : ℚ} (hr : f.roundQ r = r) :
    |f.roundQ y - y| ≤ |r - y| := by
  rcases lt_trichotomy y 0 with h | h | h
  · have := near_pos hp (y := -y) (r := -r) (by linarith) (by rw [roundQ_neg, hr])
    rw [roundQ_neg] at this
    have e1 : |-f.roundQ y - -y| = |f.roundQ y - y| := by rw [← abs_neg]; congr 1; ring
    have e2 : |-r - -y| = |r - y| := by rw [← abs_neg]; congr 1; ring
    rwa [e1, e2] at this
  · subst h; rw [roundQ_zero]; simp
  · exact near_pos hp h hr

namespace Ar

/-- The further laws of a floating point arithmetic. -/
structure Law2 (A : Ar) : Prop extends Law A where
  sub_zero : ∀ {x y : ℚ}, A.Rep x → A.Rep y → A.rq (x - y) = 0 → x = y
  nearest : ∀ {r : ℚ}, A.Rep r → ∀ y : ℚ, |A.rq y - y| ≤ |r - y|
  rep_int : ∀ {n : ℤ}, |n| ≤ 2 ^ 24 → A.Rep n
  small : ∀ {x : ℚ}, |x| ≤ pow2 127 → A.over (A.rq x) = false
  scale : ∀ {x : ℚ} {k : ℤ}, A.Rep x → 0 ≤ k → |x * pow2 k| ≤ pow2 127 → A.Rep (x * pow2 k)
  unscale : ∀ {n : ℤ} {k : ℤ}, |n| ≤ 2 ^ 24 → -100 ≤ k → k ≤ 0 → A.Rep (n * pow2 k)

theorem exact_law2 : Law2 exact where
  toLaw := exact_law
  sub_zero := fun _ _ h => by simpa [exact, sub_eq_zero] using h
  nearest := fun _ y => by simp [exact]
  rep_int := fun _ => ⟨rfl, rfl⟩
  small := fun _ => rfl
  scale := fun _ _ _ => ⟨rfl, rfl⟩
  unscale := fun _ _ _ => ⟨rfl, rfl⟩

theorem single_small {x : ℚ} (h : |x| ≤ pow2 127) : single.over (single.rq x) = false := by
  have h1 := roundQ_pow2 (f := b32) (by decide) (k := 127) (by decide)
  rw [abs_le] at h
  have h2 := roundQ_le_of_le (by decide) h1 h.2
  have h3 := le_roundQ_of_le (f := b32) (by decide) (y := -pow2 127) (by rw [roundQ_neg, h1]) h.1
  have h4 : |b32.roundQ x| < pow2 128 := by
    have : pow2 127 < pow2 128 := by decide +kernel
    rw [abs_lt]; constructor <;> linarith
  simp only [single, decide_eq_false_iff_not, not_le]
  exact h4

theorem single_law2 : Law2 single where
  toLaw := single_law
  sub_zero := fun hx hy h => roundQ_sub_zero (by decide) hx.1 hy.1 h
  nearest := fun hr _ => roundQ_nearest (by decide) hr.1
  rep_int := by
    intro n h
    have hr : single.rq (n : ℚ) = n := by
      have := roundQ_exact (f := b32) (by decide) (n := n) (e := 0) (by decide) h
      have e : pow2 0 = 1 := by decide +kernel
      rwa [e, mul_one] at this
    refine ⟨hr, ?_⟩
    rw [← hr]
    apply single_small
    have h1 : |(n : ℚ)| ≤ 2 ^ 24 := by exact_mod_cast h
    exact h1.trans (by decide +kernel)
  small := single_small
  scale := by
    intro x k h hk hs
    have hr : single.rq (x * pow2 k) = x * pow2 k := roundQ_scale h.1 hk
    exact ⟨hr, by rw [← hr]; exact single_small hs⟩
  unscale := by
    intro n k h h1 h2
    have hr : single.rq ((n : ℚ) * pow2 k) = n * pow2 k :=
      roundQ_exact (f := b32) (by decide) (by simp only [b32]; omega) h
    refine ⟨hr, ?_⟩
    rw [← hr]
    apply single_small
    have h1 : |(n : ℚ)| ≤ 2 ^ 24 := by exact_mod_cast h
    have h3 : pow2 k ≤ 1 := by
      have := pow2_le (a := k) (b := 0) h2
      have e : pow2 0 = 1 := by decide +kernel
      rwa [e] at this
    rw [abs_mul, abs_of_pos (pow2_pos k)]
    have h4 : |(n : ℚ)| * pow2 k ≤ 2 ^ 24 * 1 :=
      mul_le_mul h1 h3 (pow2_pos k).le (by positivity)
    exact h4.trans (by decide +kernel)

end Ar

end Verif.Float
