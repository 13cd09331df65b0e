import Verif.Calib.Angles
import Mathlib.Data.List.Rotate
import Mathlib.Algebra.BigOperators.Group.List.Basic
import Mathlib.Tactic.FieldSimp

/-!
# Encoder calibration: resampling

Model of lib/python/moteus/calibrate_encoder.py:112-172 (`_linspace`,
`_interpolate`, `_window_average`) with the proofs of C54 and C55.  `rnd` is
the rounding of each float operation; `id` is exact arithmetic.
-/

namespace Verif.Calib

open Verif.Float

/-! ## Model -/

/-- calibrate_encoder.py:112-118 `_linspace`, element `i`. -/
def linspaceAt (rnd : ℚ → ℚ) (start stop : ℚ) (count i : Nat) : ℚ :=
  if i + 1 = count then stop
  else rnd (rnd (rnd (i * rnd (stop - start)) / ((count : ℚ) - 1)) + start)

/-- calibrate_encoder.py:112-118 `_linspace` -/
def linspace (rnd : ℚ → ℚ) (start stop : ℚ) (count : Nat) : List ℚ :=
  (List.range count).map (linspaceAt rnd start stop count)

/-- calibrate_encoder.py:134-136, the inner loop.  `x` has `n` elements. -/
def advance (n : Nat) (x : Nat → ℚ) (point : ℚ) (xindex : Nat) : Nat :=
  if xindex + 2 < n ∧ point ≥ x (xindex + 1) then advance n x point (xindex + 1) else xindex
termination_by n - xindex
decreasing_by omega

/-- calibrate_encoder.py:131-150: the value and the new `xindex` for one
point. -/
def interpStep (rnd : ℚ → ℚ) (n : Nat) (x y : Nat → ℚ) (point : ℚ) (xindex : Nat) : ℚ × Nat :=
  if point < x xindex then (y xindex, xindex)
  else
    let i := advance n x point xindex
    if point > x (i + 1) then (y (i + 1), i)
    else
      let length := rnd (x (i + 1) - x i)
      if length = 0 then (y (i + 1), i)
      else
        let ratio := rnd (rnd (point - x i) / length)
        (rnd (rnd (rnd (y (i + 1) - y i) * ratio) + y i), i)

/-- calibrate_encoder.py:124-152, the loop over the points. -/
def interpLoop (rnd : ℚ → ℚ) (n : Nat) (x y : Nat → ℚ) : Nat → List ℚ → List ℚ
  | _, [] => []
  | xindex, p :: ps =>
    let r := interpStep rnd n x y p xindex
    r.1 :: interpLoop rnd n x y r.2 ps

/-- calibrate_encoder.py:121-152 `_interpolate`; `none` for a failed
assertion. -/
def interpolate (rnd : ℚ → ℚ) (points xs ys : List ℚ) : Option (List ℚ) :=
  if xs.length > 1 ∧ xs.length = ys.length then
    some (interpLoop rnd xs.length (fun i => xs.getD i 0) (fun i => ys.getD i 0) 0 points)
  else none

/-- calibrate_encoder.py:156-161 `wrap`; a negative result of the first branch
is an index from the end in Python. -/
def wrapIndex (n : Nat) (v : Int) : Int :=
  if v < 0 then v + n else if v ≥ n then v - n else v

/-- `values[v]` with Python's negative indices. -/
def pyIndex (values : List ℚ) (v : Int) : Option ℚ :=
  if 0 ≤ v then values[v.toNat]?
  else if 0 ≤ v + values.length then values[(v + values.length).toNat]? else none

/-- calibrate_encoder.py:164-170: element `i`; `none` is an exception
(`ZeroDivisionError` or `IndexError`). -/
def windowAt (values : List ℚ) (window : Nat) (i : Nat) : Option ℚ :=
  let start := (i : Int) - (window / 2 : Nat)
  let stop := (i : Int) + (window / 2 : Nat)
  let count := (stop - start).toNat
  match (List.range count).mapM fun (j : Nat) =>
      pyIndex values (wrapIndex values.length (start + j)) with
  | none => none
  | some errs => if errs.length = 0 then none else some (errs.sum / errs.length)

/-- calibrate_encoder.py:155-172 `_window_average`, exact arithmetic. -/
def windowAverage (values : List ℚ) (window : Nat) : Option (List ℚ) :=
  (List.range values.length).mapM (windowAt values window)

/-! ## linspace -/

theorem linspace_length (rnd : ℚ → ℚ) (a b : ℚ) (n : Nat) : (linspace rnd a b n).length = n := by
  simp [linspace]

/-- C54: the points are evenly spaced from the start to the end. -/
theorem C54_linspace_exact (a b : ℚ) (n i : Nat) (hi : i < n) (hn : 2 ≤ n) :
    (linspace id a b n)[i]? = some (a + (b - a) * i / (n - 1)) := by
  rw [linspace, List.getElem?_map, List.getElem?_range hi]
  simp only [Option.map_some, linspaceAt, id]
  have h1 : (n : ℚ) - 1 ≠ 0 := by
    have : (2:ℚ) ≤ n := by exact_mod_cast hn
    linarith
  split
  · next h =>
    have : (n : ℚ) = i + 1 := by exact_mod_cast h.symm
    rw [this] at h1 ⊢
    have h2 : (i : ℚ) + 1 - 1 = i := by ring
    rw [h2] at h1 ⊢
    rw [mul_div_cancel_right₀ _ h1]; congr 1; ring
  · congr 1; field_simp; ring

/-- C54, Python floats: the first point is the start, the last the end, and
the points never decrease. -/
theorem C54_linspace_float (a b : ℚ) (n : Nat) (ha : b64.roundQ a = a) (hab : a ≤ b) (i j : Nat)
    (hij : i ≤ j) (hj : j + 1 < n) :
    linspaceAt b64.roundQ a b n 0 = a ∧ linspaceAt b64.roundQ a b n (n - 1) = b ∧
      a ≤ linspaceAt b64.roundQ a b n i ∧
      linspaceAt b64.roundQ a b n i ≤ linspaceAt b64.roundQ a b n j := by
  have mono : ∀ {x y : ℚ}, x ≤ y → b64.roundQ x ≤ b64.roundQ y :=
    fun h => roundQ_mono (by decide) h
  have hd : 0 ≤ b64.roundQ (b - a) := roundQ_nonneg (by linarith)
  have hn1 : (0:ℚ) < n - 1 := by
    have : (2:ℚ) ≤ n := by exact_mod_cast (by omega : 2 ≤ n)
    linarith
  have h0 : linspaceAt b64.roundQ a b n 0 = a := by
    unfold linspaceAt
    rw [if_neg (by omega)]
    simp [roundQ_zero, ha]
  have hle : ∀ i j : Nat, i ≤ j → j + 1 < n →
      linspaceAt b64.roundQ a b n i ≤ linspaceAt b64.roundQ a b n j := by
    intro i j hij hj
    unfold linspaceAt
    rw [if_neg (by omega), if_neg (by omega)]
    refine mono (add_le_add_left (mono ?_) a)
    refine div_le_div_of_nonneg_right (mono ?_) hn1.le
    exact mul_le_mul_of_nonneg_right (by exact_mod_cast hij) hd
  refine ⟨h0, ?_, ?_, hle i j hij hj⟩
  · unfold linspaceAt
    rw [if_pos (by omega)]
  · have := hle 0 i (by omega) (by omega)
    rwa [h0] at this

example : (linspace id 0 65535 10000)[1]? = some (65535 / 9999) := by
  rw [C54_linspace_exact _ _ _ _ (by norm_num) (by norm_num)]; norm_num

/-! ## interpolate -/

/-- The piecewise linear function through the points (x j, y j), constant
outside: `v` is its value at `p`. -/
structure Piecewise (n : Nat) (x y : Nat → ℚ) (p v : ℚ) : Prop where
  before : p < x 0 → v = y 0
  between : ∀ j, j + 1 < n → x j ≤ p → p < x (j + 1) →
    v = y j + (y (j + 1) - y j) * ((p - x j) / (x (j + 1) - x j))
  after : x (n - 1) ≤ p → v = y (n - 1)

theorem advance_spec (n : Nat) (x : Nat → ℚ) (p : ℚ) (i : Nat) (hx : x i ≤ p) (hi : i + 1 < n) :
    i ≤ advance n x p i ∧ advance n x p i + 1 < n ∧ x (advance n x p i) ≤ p ∧
      (advance n x p i + 2 = n ∨ p < x (advance n x p i + 1)) := by
  induction i using advance.induct n x p with
  | case1 i h ih =>
    rw [advance, if_pos h]
    have := ih h.2 (by omega)
    exact ⟨by omega, this.2⟩
  | case2 i h =>
    rw [advance, if_neg h]
    refine ⟨le_refl _, hi, hx, ?_⟩
    by_cases h2 : i + 2 = n
    · exact Or.inl h2
    · right
      by_contra hc
      exact h ⟨by omega, not_lt.1 hc⟩

theorem mono_le {n : Nat} {x : Nat → ℚ} (hm : ∀ i, i + 1 < n → x i ≤ x (i + 1)) {i j : Nat}
    (hij : i ≤ j) (hj : j < n) : x i ≤ x j := by
  induction j with
  | zero => rw [Nat.le_zero.1 hij]
  | succ j ih =>
    rcases Nat.le_succ_iff.1 hij with h | h
    · exact (ih h (by omega)).trans (hm j hj)
    · rw [h]

theorem piecewise_step {n : Nat} {x y : Nat → ℚ} (hm : ∀ i, i + 1 < n → x i ≤ x (i + 1))
    (p : ℚ) (xindex : Nat) (hi : xindex + 1 < n) (hinv : xindex = 0 ∨ x xindex ≤ p) :
    Piecewise n x y p (interpStep id n x y p xindex).1 ∧
      (interpStep id n x y p xindex).2 + 1 < n ∧
      ((interpStep id n x y p xindex).2 = 0 ∨ x (interpStep id n x y p xindex).2 ≤ p) := by
  unfold interpStep
  by_cases h : p < x xindex
  · have h0 : xindex = 0 := by
      rcases hinv with h0 | h0
      · exact h0
      · linarith
    subst h0
    rw [if_pos h]
    refine ⟨⟨fun _ => rfl, fun j hj hxj _ => ?_, fun ha => ?_⟩, hi, Or.inl rfl⟩
    · have := mono_le hm (Nat.zero_le j) (by omega); linarith
    · have := mono_le hm (Nat.zero_le (n - 1)) (by omega); linarith
  · rw [if_neg h]
    obtain ⟨a1, a2, a3, a4⟩ := advance_spec n x p xindex (not_lt.1 h) hi
    generalize advance n x p xindex = i at a1 a2 a3 a4
    have hb : ¬ p < x 0 := by
      have := mono_le hm (Nat.zero_le i) (by omega); linarith
    -- the interval of `p` is the one that was found
    have huniq : ∀ j, j + 1 < n → x j ≤ p → p < x (j + 1) → j = i := by
      intro j hj h1 h2
      rcases Nat.lt_trichotomy j i with hlt | he | hgt
      · have := mono_le hm (show j + 1 ≤ i by omega) (by omega); linarith
      · exact he
      · rcases a4 with a4 | a4
        · omega
        · have := mono_le hm (show i + 1 ≤ j by omega) (by omega); linarith
    simp only [id]
    by_cases hp : p > x (i + 1)
    · rw [if_pos hp]
      have hn : i + 2 = n := by
        rcases a4 with a4 | a4
        · exact a4
        · linarith
      refine ⟨⟨fun h => absurd h hb, fun j hj h1 h2 => ?_, fun _ => ?_⟩, a2, Or.inr a3⟩
      · rw [huniq j hj h1 h2] at h2; linarith
      · show y (i + 1) = _
        congr 1; omega
    · rw [if_neg hp]
      by_cases hl : x (i + 1) - x i = 0
      · rw [if_pos hl]
        refine ⟨⟨fun h => absurd h hb, fun j hj h1 h2 => ?_, fun ha => ?_⟩, a2, Or.inr a3⟩
        · have e := huniq j hj h1 h2
          subst e; linarith
        · have hn : i + 2 = n := by
            rcases a4 with a4 | a4
            · exact a4
            · linarith
          show y (i + 1) = _
          congr 1; omega
      · rw [if_neg hl]
        refine ⟨⟨fun h => absurd h hb, fun j hj h1 h2 => ?_, fun ha => ?_⟩, a2, Or.inr a3⟩
        · rw [huniq j hj h1 h2]; ring
        · have hn : i + 2 = n := by
            rcases a4 with a4 | a4
            · exact a4
            · have := mono_le hm (show i + 1 ≤ n - 1 by omega) (by omega); linarith
          have hpe : p = x (i + 1) := by
            have e : n - 1 = i + 1 := by omega
            rw [e] at ha
            exact le_antisymm (not_lt.1 hp) ha
          show _ = y (n - 1)
          rw [show n - 1 = i + 1 by omega, hpe, div_self hl]; ring

theorem piecewise_loop {n : Nat} {x y : Nat → ℚ} (hm : ∀ i, i + 1 < n → x i ≤ x (i + 1))
    (ps : List ℚ) (xindex : Nat) (hi : xindex + 1 < n) (hs : ps.Pairwise (· ≤ ·))
    (hinv : xindex = 0 ∨ ∀ p ∈ ps, x xindex ≤ p) :
    List.Forall₂ (Piecewise n x y) ps (interpLoop id n x y xindex ps) := by
  induction ps generalizing xindex with
  | nil => exact .nil
  | cons p ps ih =>
    have h1 := piecewise_step (y := y) hm p xindex hi
      (hinv.imp_right fun h => h p (by simp))
    have hs' := List.pairwise_cons.1 hs
    refine .cons h1.1 (ih _ h1.2.1 hs'.2 ?_)
    rcases h1.2.2 with h | h
    · exact Or.inl h
    · exact Or.inr fun q hq => h.trans (hs'.1 q hq)

/-- C54: for abscissas and sample points in increasing order (repetitions
allowed), `_interpolate` returns at each sample point the value of the
piecewise linear function, constant before the first and after the last
abscissa. -/
theorem C54_interpolate (points xs ys : List ℚ) (h1 : 1 < xs.length) (h2 : xs.length = ys.length)
    (hx : xs.Pairwise (· ≤ ·)) (hp : points.Pairwise (· ≤ ·)) :
    ∃ l, interpolate id points xs ys = some l ∧
      List.Forall₂ (Piecewise xs.length (fun i => xs.getD i 0) (fun i => ys.getD i 0)) points l := by
  refine ⟨_, if_pos ⟨h1, h2⟩, piecewise_loop (fun i hi => ?_) points 0 h1 hp (Or.inl rfl)⟩
  have := List.pairwise_iff_getElem.1 hx i (i + 1) (by omega) hi (by omega)
  simpa [List.getD_eq_getElem?_getD, List.getElem?_eq_getElem (show i < xs.length by omega),
    List.getElem?_eq_getElem hi] using this

/-- C54: the value of the piecewise linear function at a point is unique. -/
theorem C54_piecewise_unique {n : Nat} {x y : Nat → ℚ} (hn : 0 < n) {p v w : ℚ}
    (hv : Piecewise n x y p v) (hw : Piecewise n x y p w) : v = w := by
  by_cases h0 : p < x 0
  · rw [hv.before h0, hw.before h0]
  by_cases h1 : x (n - 1) ≤ p
  · rw [hv.after h1, hw.after h1]
  have key : ∀ k, k < n → ¬ x k ≤ p → ∃ j, j + 1 < n ∧ x j ≤ p ∧ p < x (j + 1) := by
    intro k
    induction k with
    | zero => intro _ h; exact absurd (not_lt.1 h0) h
    | succ k ih =>
      intro hk h
      by_cases hkp : x k ≤ p
      · exact ⟨k, hk, hkp, not_le.1 h⟩
      · exact ih (by omega) hkp
  obtain ⟨j, hj, ha, hb⟩ := key (n - 1) (by omega) h1
  rw [hv.between j hj ha hb, hw.between j hj ha hb]

/-- C54: an interpolated value lies between the smallest and largest
ordinate. -/
theorem C54_piecewise_bounds {n : Nat} {x y : Nat → ℚ} (hn : 0 < n) {p v lo hi : ℚ}
    (hv : Piecewise n x y p v) (hy : ∀ i < n, lo ≤ y i ∧ y i ≤ hi) : lo ≤ v ∧ v ≤ hi := by
  by_cases h0 : p < x 0
  · rw [hv.before h0]; exact hy 0 hn
  by_cases h1 : x (n - 1) ≤ p
  · rw [hv.after h1]; exact hy _ (by omega)
  have key : ∀ k, k < n → ¬ x k ≤ p → ∃ j, j + 1 < n ∧ x j ≤ p ∧ p < x (j + 1) := by
    intro k
    induction k with
    | zero => intro _ h; exact absurd (not_lt.1 h0) h
    | succ k ih =>
      intro hk h
      by_cases hkp : x k ≤ p
      · exact ⟨k, hk, hkp, not_le.1 h⟩
      · exact ih (by omega) hkp
  obtain ⟨j, hj, ha, hb⟩ := key (n - 1) (by omega) h1
  rw [hv.between j hj ha hb]
  have a := hy j (by omega)
  have b := hy (j + 1) hj
  have hl : 0 < x (j + 1) - x j := by linarith
  have r0 : 0 ≤ (p - x j) / (x (j + 1) - x j) := div_nonneg (by linarith) hl.le
  have r1 : (p - x j) / (x (j + 1) - x j) ≤ 1 := (div_le_one hl).2 (by linarith)
  generalize (p - x j) / (x (j + 1) - x j) = r at r0 r1
  constructor
  · have e : y j + (y (j + 1) - y j) * r = (1 - r) * y j + r * y (j + 1) := by ring
    rw [e]
    have h1 := mul_le_mul_of_nonneg_left a.1 (show 0 ≤ 1 - r by linarith)
    have h2 := mul_le_mul_of_nonneg_left b.1 r0
    nlinarith
  · have e : y j + (y (j + 1) - y j) * r = (1 - r) * y j + r * y (j + 1) := by ring
    rw [e]
    have h1 := mul_le_mul_of_nonneg_left a.2 (show 0 ≤ 1 - r by linarith)
    have h2 := mul_le_mul_of_nonneg_left b.2 r0
    nlinarith

/-- Encoder positions with a repetition; one sample before, some between. -/
example : interpolate id [0, 2, 3, 9] [1, 3, 3, 5] [10, 20, 40, 0] = some [10, 15, 40, 0] := by
  decide +kernel

/-- C54 does not hold for sample points that are not in order: the search
never goes back. -/
theorem C54_unordered_refuted :
    ¬ ∀ (points xs ys : List ℚ), 1 < xs.length → xs.length = ys.length → xs.Pairwise (· ≤ ·) →
      ∃ l, interpolate id points xs ys = some l ∧
        List.Forall₂ (Piecewise xs.length (fun i => xs.getD i 0) (fun i => ys.getD i 0)) points l := by
  intro h
  obtain ⟨l, h1, h2⟩ := h [5, 1] [0, 2, 4] [0, 8, 0] (by decide) (by decide) (by decide)
  have e : interpolate id [5, 1] [0, 2, 4] [0, 8, 0] = some [0, 8] := by decide +kernel
  rw [e] at h1
  cases h1
  cases h2 with
  | cons _ h2 =>
    cases h2 with
    | cons h2 _ =>
      have := h2.between 0 (by decide) (by decide) (by decide)
      revert this
      simp

/-! ## window average -/

theorem range_rotate (n c : Nat) :
    (List.range n).map (fun i => (i + c) % n) = (List.range n).rotate c := by
  apply List.ext_getElem (by simp)
  intro i h1 h2
  simp [List.getElem_rotate]

theorem sum_rotate (n c : Nat) (f : Nat → ℚ) :
    ((List.range n).map fun i => f ((i + c) % n)).sum = ((List.range n).map f).sum := by
  have : ((List.range n).map fun i => f ((i + c) % n)) = ((List.range n).rotate c).map f := by
    rw [← range_rotate, List.map_map]; rfl
  rw [this]
  exact ((List.rotate_perm _ _).map f).sum_eq

theorem mapM_some {α β : Type} (f : α → Option β) (g : α → β) (l : List α)
    (h : ∀ a ∈ l, f a = some (g a)) : l.mapM f = some (l.map g) := by
  induction l with
  | nil => rfl
  | cons a l ih =>
    rw [List.mapM_cons, h a (by simp), ih fun b hb => h b (by simp [hb])]
    rfl

theorem windowAt_eq (values : List ℚ) (window i : Nat) (hw : 2 ≤ window)
    (hw2 : window / 2 ≤ values.length) (hi : i < values.length) :
    windowAt values window i = some
      (((List.range (2 * (window / 2))).map fun j =>
        values.getD ((i + (j + (values.length - window / 2))) % values.length) 0).sum /
          (2 * (window / 2) : Nat)) := by
  generalize hh : window / 2 = h at hw2
  have hh1 : 1 ≤ h := by omega
  unfold windowAt
  simp only [hh]
  have hc : ((i : Int) + (h : Nat) - ((i : Int) - (h : Nat))).toNat = 2 * h := by omega
  rw [hc]
  have hm : (List.range (2 * h)).mapM (fun (j : Nat) =>
      pyIndex values (wrapIndex values.length ((i : Int) - (h : Nat) + j))) =
      some ((List.range (2 * h)).map fun j =>
        values.getD ((i + (j + (values.length - h))) % values.length) 0) := by
    refine mapM_some _ _ _ fun j hj => ?_
    have hj := List.mem_range.1 hj
    have key : wrapIndex values.length ((i : Int) - (h : Nat) + j) =
        (((i + (j + (values.length - h))) % values.length : Nat) : Int) := by
      unfold wrapIndex
      generalize values.length = n at *
      by_cases c1 : (i : Int) - (h : Nat) + j < 0
      · rw [if_pos c1]
        rw [Nat.mod_eq_of_lt (by omega)]
        omega
      · rw [if_neg c1]
        by_cases c2 : (i : Int) - (h : Nat) + j ≥ n
        · rw [if_pos c2]
          rw [Nat.mod_eq_sub_mod (by omega), Nat.mod_eq_sub_mod (by omega),
            Nat.mod_eq_of_lt (by omega)]
          omega
        · rw [if_neg c2, Nat.mod_eq_sub_mod (by omega), Nat.mod_eq_of_lt (by omega)]
          omega
    rw [key]
    have hlt : (i + (j + (values.length - h))) % values.length < values.length :=
      Nat.mod_lt _ (by omega)
    unfold pyIndex
    rw [if_pos (by omega), Int.toNat_natCast, List.getD_eq_getElem?_getD,
      List.getElem?_eq_getElem hlt]
    rfl
  rw [hm]
  simp only [List.length_map, List.length_range]
  rw [if_neg (by omega)]

/-- The circular moving average of the specification: the mean of the `2h`
values at distance -h..h-1. -/
def circularMean (values : List ℚ) (h i : Nat) : ℚ :=
  ((List.range (2 * h)).map fun j =>
    values.getD ((i + (j + (values.length - h))) % values.length) 0).sum / (2 * h : Nat)

/-- C55: with a window of at least 2 and at most twice the number of samples,
`_window_average` is the circular moving average. -/
theorem C55_window (values : List ℚ) (window : Nat) (hw : 2 ≤ window)
    (hw2 : window / 2 ≤ values.length) :
    windowAverage values window =
      some ((List.range values.length).map (circularMean values (window / 2))) :=
  mapM_some _ _ _ fun i hi => windowAt_eq values window i hw hw2 (List.mem_range.1 hi)

theorem sum_map_div (l : List Nat) (f : Nat → ℚ) (c : ℚ) :
    (l.map fun i => f i / c).sum = (l.map f).sum / c := by
  induction l with
  | nil => simp
  | cons a l ih => simp only [List.map_cons, List.sum_cons, ih]; ring

theorem sum_comm (l m : List Nat) (f : Nat → Nat → ℚ) :
    (l.map fun i => (m.map fun j => f i j).sum).sum =
      (m.map fun j => (l.map fun i => f i j).sum).sum := by
  induction l with
  | nil =>
    simp only [List.map_nil, List.sum_nil]
    induction m with
    | nil => rfl
    | cons a m ih => simp
  | cons a l ih =>
    simp only [List.map_cons, List.sum_cons, ih]
    rw [← List.sum_map_add]

theorem map_getD_range (values : List ℚ) :
    (List.range values.length).map (fun i => values.getD i 0) = values := by
  apply List.ext_getElem (by simp)
  intro i h1 h2
  simp [List.getElem?_eq_getElem h2]

/-- C55: the moving average has the same mean as the values. -/
theorem C55_mean (values : List ℚ) (window : Nat) (hw : 2 ≤ window)
    (hw2 : window / 2 ≤ values.length) (l : List ℚ) (h : windowAverage values window = some l) :
    l.length = values.length ∧ l.sum = values.sum := by
  rw [C55_window values window hw hw2] at h
  cases h
  refine ⟨by simp, ?_⟩
  have hh : (2 * (window / 2) : Nat) ≠ 0 := by omega
  unfold circularMean
  rw [sum_map_div, sum_comm]
  have hr : ∀ j, ((List.range values.length).map fun i =>
      values.getD ((i + (j + (values.length - window / 2))) % values.length) 0).sum =
      values.sum := by
    intro j
    rw [sum_rotate values.length (j + (values.length - window / 2)) fun k => values.getD k 0,
      map_getD_range]
  simp only [hr]
  rw [List.map_const', List.sum_replicate, List.length_range, nsmul_eq_mul,
    mul_div_cancel_left₀]
  exact_mod_cast hh

theorem sum_bounds (l : List Nat) (f : Nat → ℚ) (lo hi : ℚ) (h : ∀ i ∈ l, lo ≤ f i ∧ f i ≤ hi) :
    lo * l.length ≤ (l.map f).sum ∧ (l.map f).sum ≤ hi * l.length := by
  induction l with
  | nil => simp
  | cons a l ih =>
    have h1 := h a (by simp)
    have h2 := ih fun i hi => h i (by simp [hi])
    simp only [List.map_cons, List.sum_cons, List.length_cons]
    push_cast
    constructor <;> linarith

/-- C55: the moving average stays between the smallest and largest value. -/
theorem C55_bounds (values : List ℚ) (window : Nat) (hw : 2 ≤ window)
    (hw2 : window / 2 ≤ values.length) (l : List ℚ) (h : windowAverage values window = some l)
    (lo hi : ℚ) (hv : ∀ v ∈ values, lo ≤ v ∧ v ≤ hi) : ∀ r ∈ l, lo ≤ r ∧ r ≤ hi := by
  rw [C55_window values window hw hw2] at h
  cases h
  intro r hr
  obtain ⟨i, hi', rfl⟩ := List.mem_map.1 hr
  have hn : 0 < values.length := by omega
  have := sum_bounds (List.range (2 * (window / 2))) (fun j =>
    values.getD ((i + (j + (values.length - window / 2))) % values.length) 0) lo hi fun j _ => by
      have hlt := Nat.mod_lt (i + (j + (values.length - window / 2))) hn
      have : values.getD ((i + (j + (values.length - window / 2))) % values.length) 0 ∈ values := by
        rw [List.getD_eq_getElem?_getD, List.getElem?_eq_getElem hlt]
        exact List.getElem_mem hlt
      exact hv _ this
  rw [List.length_range] at this
  have hpos : (0:ℚ) < (2 * (window / 2) : Nat) := by
    exact_mod_cast (by omega : 0 < 2 * (window / 2))
  unfold circularMean
  exact ⟨(le_div_iff₀ hpos).2 this.1, (div_le_iff₀ hpos).2 this.2⟩

/-- C55: a window of 0 or 1 raises an exception (unless there are no values):
this happens in `calibrate` when there are more than half as many poles as
resampled points. -/
theorem C55_small_window (values : List ℚ) (window : Nat) (hw : window < 2) (hv : values ≠ []) :
    windowAverage values window = none := by
  have hh : window / 2 = 0 := by omega
  obtain ⟨v, vs, rfl⟩ := List.exists_cons_of_ne_nil hv
  unfold windowAverage
  rw [List.length_cons, List.range_succ_eq_map, List.mapM_cons]
  have : windowAt (v :: vs) window 0 = none := by
    unfold windowAt
    simp [hh]
  rw [this]; rfl

example : windowAverage [1, 2, 3, 6] 2 = some [7 / 2, 3 / 2, 5 / 2, 9 / 2] := by decide +kernel

end Verif.Calib
