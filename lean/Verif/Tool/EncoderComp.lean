import Verif.Tool.Cogging
import Verif.Fw.Source

/-!
# Compensation of encoders

Model of `utils/compensate_encoder.py`: how the deviations are computed from a histogram
of velocities ("inertial mode") or from two encoders ("reference mode"), and how they
become the table that the controller applies (`lerp`, `fw/motor_position.h` 1133-1151).

Exact arithmetic, except where `rnd` is named.  `numpy.interp` is not modelled: the
theorems about the table are about any sampled values.  Not modelled: options, plots,
motion, firmware without `compensation_scale`.

Property C99.
-/

namespace Verif.Tool.EncoderComp

open Verif.Float Verif.Fw Verif.Tool.Cogging

/-! ## Model -/

/-- `mean_value` (lines 83-84); `none` is a division by zero. -/
def meanValue (items : List (ℚ × ℚ)) : Option ℚ :=
  if items.length = 0 then none else some ((items.map Prod.snd).sum / items.length)

/-- `math.fmod(·, 1.0)` -/
def fmod1 (q : ℚ) : ℚ := q - truncQ q

/-- One pass of the loop of `integrate` (lines 92-101): `s.1` is the last entry. -/
def advance (s : ℚ × ℚ) (old cur : ℚ × ℚ) : ℚ × ℚ :=
  (s.1 + fmod1 (1 + cur.1 - old.1), s.2 + fmod1 (cur.1 - old.1 + 1) * (1 / 2) * (cur.2 + old.2))

/-- The loop of `integrate` over neighbours. -/
def integrateFrom : ℚ × ℚ → List ((ℚ × ℚ) × (ℚ × ℚ)) → List (ℚ × ℚ)
  | s, [] => [s]
  | s, (old, cur) :: l => s :: integrateFrom (advance s old cur) l

/-- `integrate` (lines 87-103); `none` is an `IndexError`. -/
def integrate (xy : List (ℚ × ℚ)) : Option (List (ℚ × ℚ)) :=
  match xy with
  | [] => none
  | a :: l => some (integrateFrom (a.1, 0) ((a :: l).zip (l ++ [a])))

/-- Lines 263-265: the velocities of the histogram with their places. -/
def placed (values : List ℚ) : List (ℚ × ℚ) :=
  (List.range values.length).map fun i : ℕ => (((i : ℚ) + 1 / 2) / values.length, values.getD i 0)

/-- Lines 263-275: the relative deviations of the velocities. -/
def unbiased (values : List ℚ) : Option (List (ℚ × ℚ)) :=
  match meanValue (placed values) with
  | none => none
  | some m => if m = 0 then none else some ((placed values).map fun p => (p.1, p.2 / m - 1))

/-- `run_inertial_compensation` (lines 263-301) from the histogram on; `none` is an
exception. -/
def inertial (values : List ℚ) : Option (List (ℚ × ℚ)) :=
  match unbiased values with
  | none => none
  | some u => match integrate u with
    | none => none
    | some l => match meanValue l with
      | none => none
      | some m => some (l.map fun p => (p.1, p.2 - m))

/-- `while value > lim: value -= 1.0` -/
def wrapDown (lim q : ℚ) : ℚ := if lim < q then wrapDown lim (q - 1) else q
termination_by ⌈q - lim⌉.toNat
decreasing_by
  have h : 0 < ⌈q - lim⌉ := Int.ceil_pos.mpr (by linarith)
  have : ⌈q - 1 - lim⌉ = ⌈q - lim⌉ - 1 := by
    rw [show q - 1 - lim = q - lim - 1 by ring, Int.ceil_sub_one]
  omega

/-- `while value < lim: value += 1.0` -/
def wrapUp (lim q : ℚ) : ℚ := if q < lim then wrapUp lim (q + 1) else q
termination_by ⌈lim - q⌉.toNat
decreasing_by
  have h : 0 < ⌈lim - q⌉ := Int.ceil_pos.mpr (by linarith)
  have : ⌈lim - (q + 1)⌉ = ⌈lim - q⌉ - 1 := by
    rw [show lim - (q + 1) = lim - q - 1 by ring, Int.ceil_sub_one]
  omega

/-- `wrap_half` (lines 123-128) -/
def wrapHalf (q : ℚ) : ℚ := wrapUp (-(1 / 2)) (wrapDown (1 / 2) q)

/-- `wrap_zero_one` (lines 131-136) -/
def wrapZeroOne (q : ℚ) : ℚ := wrapUp 0 (wrapDown 1 q)

/-- `offset` (line 189): readings of the reference and of the encoder. -/
def offset (l : List (ℚ × ℚ)) : ℚ := (l.map fun p => wrapZeroOne (p.1 - p.2)).sum / l.length

/-- `error_values` (line 191). -/
def errors (l : List (ℚ × ℚ)) : List ℚ := l.map fun p => -wrapHalf (p.1 - offset l - p.2)

/-- Lines 458-470: the table in turns; `old` is the stored table with its scale,
`sampled` the deviations at the places of the table. -/
def wanted (absolute : Bool) (factor oldScale : ℚ) (old : List ℤ) (sampled : List ℚ) : List ℚ :=
  List.zipWith (fun (t : ℤ) (x : ℚ) => if absolute then -x else (t : ℚ) * (oldScale / 127) + factor * -x) old sampled

/-- `max([abs(x) for x in table])` (line 473). -/
def newScale (t : List ℚ) : ℚ := maxOf (t.map fun x => |x|)

/-- Lines 473-477: scale and entries; `none` is a division by zero. -/
def stored (rnd : ℚ → ℚ) (t : List ℚ) : Option (ℚ × List ℤ) :=
  if newScale t = 0 then none
  else some (newScale t, t.map fun x => truncQ (rnd (rnd (127 * x) / newScale t)))

/-! ## Inertial mode -/

theorem integrateFrom_length (l : List ((ℚ × ℚ) × (ℚ × ℚ))) :
    ∀ s, (integrateFrom s l).length = l.length + 1 := by
  induction l with
  | nil => intro s; rfl
  | cons p l ih => intro s; rw [integrateFrom, List.length_cons, ih, List.length_cons]

theorem integrateFrom_head (l : List ((ℚ × ℚ) × (ℚ × ℚ))) (s : ℚ × ℚ) : (integrateFrom s l)[0]? = some s := by
  cases l <;> rfl

/-- Each entry comes from the one before by the trapezoidal rule. -/
theorem integrateFrom_step (l : List ((ℚ × ℚ) × (ℚ × ℚ))) : ∀ (s : ℚ × ℚ) (k : ℕ) (old cur : ℚ × ℚ),
    l[k]? = some (old, cur) → ∃ a, (integrateFrom s l)[k]? = some a ∧
      (integrateFrom s l)[k + 1]? = some (advance a old cur) := by
  induction l with
  | nil => intro s k old cur h; simp at h
  | cons p l ih =>
    intro s k old cur h
    obtain ⟨o, c⟩ := p
    cases k with
    | zero =>
      obtain ⟨rfl, rfl⟩ : o = old ∧ c = cur := by simpa using h
      exact ⟨s, rfl, integrateFrom_head l _⟩
    | succ k => exact ih (advance s o c) k old cur (by simpa using h)

theorem fmod1_unit {q : ℚ} (h0 : 0 ≤ q) (h1 : q < 1) : fmod1 q = q := by
  unfold fmod1 truncQ
  rw [if_pos h0]
  have : q.floor = 0 := by
    apply le_antisymm
    · have := Rat.floor_le q
      have : (q.floor : ℚ) < 1 := by linarith
      have : q.floor < 1 := by exact_mod_cast this
      omega
    · exact Rat.le_floor_iff.mpr (by simpa using h0)
  rw [this]
  simp

theorem fmod1_above {q : ℚ} (h0 : 1 ≤ q) (h1 : q < 2) : fmod1 q = q - 1 := by
  unfold fmod1 truncQ
  rw [if_pos (by linarith)]
  have : q.floor = 1 := by
    apply le_antisymm
    · have := Rat.floor_le q
      have : (q.floor : ℚ) < 2 := by linarith
      have : q.floor < 2 := by exact_mod_cast this
      omega
    · exact Rat.le_floor_iff.mpr (by simpa using h0)
  rw [this]
  simp

/-- Specification: the sum of the values. -/
def total (l : List (ℚ × ℚ)) : ℚ := (l.map Prod.snd).sum

/-- The entries after evenly spaced steps of width `w`. -/
theorem integrateFrom_even (w : ℚ) : ∀ (l : List ((ℚ × ℚ) × (ℚ × ℚ))) (s : ℚ × ℚ),
    (∀ p ∈ l, fmod1 (1 + p.2.1 - p.1.1) = w) →
    (integrateFrom s l)[l.length]? = some (s.1 + l.length * w,
      s.2 + w * (1 / 2) * (total (l.map Prod.snd) + total (l.map Prod.fst))) := by
  intro l
  induction l with
  | nil => intro s _; simp [integrateFrom, total]
  | cons p l ih =>
    intro s h
    obtain ⟨o, c⟩ := p
    have hw := h (o, c) (List.mem_cons_self ..)
    have e := ih (advance s o c) fun p hp => h p (List.mem_cons_of_mem _ hp)
    rw [integrateFrom, List.length_cons, List.getElem?_cons_succ, e]
    unfold advance total
    simp only at hw
    rw [show c.1 - o.1 + 1 = 1 + c.1 - o.1 by ring, hw]
    simp only [List.map_cons, List.sum_cons]
    push_cast
    congr 2 <;> ring

theorem placed_length (values : List ℚ) : (placed values).length = values.length := by
  unfold placed
  simp

theorem placed_total (values : List ℚ) : total (placed values) = values.sum := by
  unfold total placed
  rw [List.map_map]
  congr 1
  refine List.ext_getElem (by simp) fun i h1 h2 => ?_
  simp [List.getD_eq_getElem?_getD, h2]

theorem sum_map_affine (l : List (ℚ × ℚ)) (m : ℚ) :
    ((l.map fun p => (p.1, p.2 / m - 1)).map Prod.snd).sum = (l.map Prod.snd).sum / m - l.length := by
  induction l with
  | nil => simp
  | cons p l ih =>
    simp only [List.map_cons, List.sum_cons, List.length_cons] at ih ⊢
    rw [ih]
    push_cast
    ring

theorem sum_map_sub (l : List (ℚ × ℚ)) (m : ℚ) :
    ((l.map fun p => (p.1, p.2 - m)).map Prod.snd).sum = (l.map Prod.snd).sum - l.length * m := by
  induction l with
  | nil => simp
  | cons p l ih =>
    simp only [List.map_cons, List.sum_cons, List.length_cons] at ih ⊢
    rw [ih]
    push_cast
    ring

/-- The places of neighbours in the histogram, around the turn. -/
theorem neighbours (f : ℕ → ℚ) {n : ℕ} (hn : 2 ≤ n) :
    let u := (List.range n).map fun i : ℕ => (((i : ℚ) + 1 / 2) / n, f i)
    ∀ p ∈ u.zip (u.tail ++ u.take 1), fmod1 (1 + p.2.1 - p.1.1) = 1 / n := by
  intro u p hp
  have hnq : (2 : ℚ) ≤ n := by exact_mod_cast hn
  have hul : u.length = n := by simp [u]
  obtain ⟨i, hi, e⟩ := List.mem_iff_getElem.mp hp
  have hil : i < n := by
    rw [List.length_zip] at hi
    omega
  have hug : ∀ j (h : j < u.length), u[j] = (((j : ℚ) + 1 / 2) / n, f j) := fun j h => by simp [u]
  rw [List.getElem_zip] at e
  have h1 : p.1 = (((i : ℚ) + 1 / 2) / n, f i) := by rw [← e]; exact hug i (by omega)
  by_cases hlast : i + 1 < n
  · have h3 : p.2.1 = (((i : ℚ) + 1) + 1 / 2) / n := by
      rw [← e]
      simp only
      rw [List.getElem_append_left (by rw [List.length_tail]; omega), List.getElem_tail, hug]
      push_cast
      rfl
    have hw : 1 + p.2.1 - p.1.1 = 1 + 1 / n := by rw [h1, h3]; field_simp; ring
    rw [hw, fmod1_above (by have : (0 : ℚ) ≤ 1 / n := by positivity
                            linarith)]
    · ring
    · have : 1 / (n : ℚ) ≤ 1 / 2 := one_div_le_one_div_of_le (by norm_num) hnq
      linarith
  · have hi' : i = n - 1 := by omega
    have h3 : p.2.1 = (0 + 1 / 2) / (n : ℚ) := by
      rw [← e]
      simp only
      rw [List.getElem_append_right (by rw [List.length_tail]; omega), List.getElem_take, hug]
      simp [hul, hi']
    have hiq : (i : ℚ) = n - 1 := by rw [hi']; push_cast [Nat.cast_sub (by omega : 1 ≤ n)]; ring
    have hw : 1 + p.2.1 - p.1.1 = 1 / n := by rw [h1, h3, hiq]; field_simp; ring
    rw [hw, fmod1_unit (by positivity)]
    have : 1 / (n : ℚ) ≤ 1 / 2 := one_div_le_one_div_of_le (by norm_num) hnq
    linarith

/-- **C99** Inertial mode: for any velocities with a mean that is not zero, the deviations
of the position are at the middle of the bins, from bin to bin they change by the mean of
both relative deviations of the velocity times the width of a bin, after the turn they are
as at the beginning, and their mean is zero. -/
theorem C99_inertial {values : List ℚ} (hn : 2 ≤ values.length) (hm : values.sum ≠ 0) :
    ∃ l, inertial values = some l ∧ l.length = values.length + 1 ∧ (l.map Prod.snd).sum = 0 ∧
    (∃ c : ℚ, l[0]? = some (1 / 2 / (values.length : ℚ), c) ∧
      l[values.length]? = some (1 + 1 / 2 / (values.length : ℚ), c)) ∧
    ∀ k < values.length, ∃ a b, l[k]? = some a ∧ l[k + 1]? = some b ∧ b.1 - a.1 = 1 / values.length ∧
      let mean := values.sum / values.length
      b.2 - a.2 = 1 / values.length * (((values.getD k 0 / mean - 1) +
        (values.getD ((k + 1) % values.length) 0 / mean - 1)) / 2) := by
  obtain ⟨n, hnv⟩ : ∃ n, n = values.length := ⟨_, rfl⟩
  rw [← hnv] at hn ⊢
  have hnq : (2 : ℚ) ≤ n := by exact_mod_cast hn
  have hn0 : (n : ℚ) ≠ 0 := by linarith
  obtain ⟨M, hM⟩ : ∃ M, M = values.sum / n := ⟨_, rfl⟩
  have hM0 : M ≠ 0 := by rw [hM]; exact div_ne_zero hm hn0
  have hmean : meanValue (placed values) = some M := by
    unfold meanValue
    rw [placed_length, ← hnv, if_neg (by omega)]
    have := placed_total values
    unfold total at this
    rw [this, hM]
  obtain ⟨u, hu⟩ : ∃ u : List (ℚ × ℚ), u = (List.range n).map fun i : ℕ =>
      (((i : ℚ) + 1 / 2) / n, values.getD i 0 / M - 1) := ⟨_, rfl⟩
  have hun : unbiased values = some u := by
    unfold unbiased
    rw [hmean]
    dsimp only
    rw [if_neg hM0, hu]
    unfold placed
    rw [List.map_map, ← hnv]
    rfl
  have hul : u.length = n := by rw [hu]; simp
  have husum : (u.map Prod.snd).sum = 0 := by
    have e : u = (placed values).map fun p => (p.1, p.2 / M - 1) := by
      rw [hu]
      unfold placed
      rw [List.map_map, ← hnv]
      rfl
    have ht := placed_total values
    unfold total at ht
    rw [e, sum_map_affine, ht, placed_length, ← hnv, hM]
    field_simp
    ring
  have hug : ∀ j, j < n → u[j]? = some (((j : ℚ) + 1 / 2) / n, values.getD j 0 / M - 1) := by
    intro j hj
    rw [hu, List.getElem?_map, List.getElem?_range hj]
    rfl
  obtain ⟨a, t, hat⟩ : ∃ a t, u = a :: t := by
    cases hc : u with
    | nil => rw [hc] at hul; simp at hul; omega
    | cons a t => exact ⟨a, t, rfl⟩
  have ha : a = (1 / 2 / (n : ℚ), values.getD 0 0 / M - 1) := by
    have := hug 0 (by omega)
    rw [hat] at this
    simpa using this
  obtain ⟨ps, hps⟩ : ∃ ps, ps = u.zip (u.tail ++ u.take 1) := ⟨_, rfl⟩
  have hpl : ps.length = n := by
    rw [hps, List.length_zip, List.length_append, List.length_tail, List.length_take]
    omega
  have hint : integrate u = some (integrateFrom (a.1, 0) ps) := by
    rw [hps, hat]
    rfl
  have heven : ∀ p ∈ ps, fmod1 (1 + p.2.1 - p.1.1) = 1 / n := by
    rw [hps, hu]
    exact neighbours (fun i => values.getD i 0 / M - 1) hn
  have hfst : ps.map Prod.fst = u := by
    rw [hps, List.map_fst_zip]
    rw [List.length_append, List.length_tail, List.length_take]
    omega
  have hsnd : ps.map Prod.snd = u.tail ++ u.take 1 := by
    rw [hps, List.map_snd_zip]
    rw [List.length_append, List.length_tail, List.length_take]
    omega
  obtain ⟨l0, hl0⟩ : ∃ l0, l0 = integrateFrom (a.1, 0) ps := ⟨_, rfl⟩
  have hl0l : l0.length = n + 1 := by rw [hl0, integrateFrom_length, hpl]
  have hend := integrateFrom_even (1 / n) ps (a.1, 0) heven
  have htot : total (ps.map Prod.snd) = 0 ∧ total (ps.map Prod.fst) = 0 := by
    constructor
    · unfold total
      rw [hsnd, hat, List.map_append, List.sum_append]
      rw [hat, List.map_cons, List.sum_cons] at husum
      simp only [List.tail_cons, List.take_succ_cons, List.take_zero, List.map_cons, List.map_nil, List.sum_cons,
        List.sum_nil]
      linarith
    · unfold total
      rw [hfst]
      exact husum
  rw [htot.1, htot.2, hpl, ← hl0] at hend
  obtain ⟨c, hc⟩ : ∃ c, c = (l0.map Prod.snd).sum / (n + 1 : ℕ) := ⟨_, rfl⟩
  have hmean0 : meanValue l0 = some c := by
    unfold meanValue
    rw [hl0l, if_neg (by omega), hc]
  refine ⟨l0.map fun p => (p.1, p.2 - c), ?_, by rw [List.length_map, hl0l], ?_, ⟨-c, ?_, ?_⟩, ?_⟩
  · unfold inertial
    rw [hun]
    dsimp only
    rw [hint, ← hl0]
    dsimp only
    rw [hmean0]
  · rw [sum_map_sub, hc, hl0l]
    have : ((n + 1 : ℕ) : ℚ) ≠ 0 := by positivity
    field_simp
    ring
  · rw [List.getElem?_map, hl0, integrateFrom_head, ha]
    simp
  · rw [List.getElem?_map, hend, ha]
    simp only [Option.map_some]
    congr 2
    · field_simp
      ring
    · ring
  · intro k hk
    obtain ⟨q, hq⟩ : ∃ q, ps[k]? = some q := ⟨_, List.getElem?_eq_getElem (by omega)⟩
    have hq1 : u[k]? = some q.1 := by
      have := congrArg (fun l => l[k]?) hfst
      simp only [List.getElem?_map, hq] at this
      exact this.symm
    have hq2 : u[(k + 1) % n]? = some q.2 := by
      have := congrArg (fun l => l[k]?) hsnd
      simp only [List.getElem?_map, hq] at this
      rw [Option.map_some] at this
      by_cases hlast : k + 1 < n
      · rw [Nat.mod_eq_of_lt hlast, this, List.getElem?_append_left (by rw [List.length_tail]; omega),
          List.getElem?_tail]
      · have hk1 : k + 1 = n := by omega
        rw [hk1, Nat.mod_self, this, List.getElem?_append_right (by rw [List.length_tail]; omega), List.length_tail,
          hul, show k - (n - 1) = 0 by omega, List.getElem?_take_of_lt (by norm_num)]
    obtain ⟨b, hb1, hb2⟩ := integrateFrom_step ps (a.1, 0) k q.1 q.2 hq
    rw [← hl0] at hb1 hb2
    refine ⟨(b.1, b.2 - c), ((advance b q.1 q.2).1, (advance b q.1 q.2).2 - c), ?_, ?_, ?_, ?_⟩
    · rw [List.getElem?_map, hb1]; rfl
    · rw [List.getElem?_map, hb2]; rfl
    · have := heven q (List.mem_of_getElem? hq)
      unfold advance
      simp only [this]
      ring
    · have hw := heven q (List.mem_of_getElem? hq)
      rw [hug k hk] at hq1
      rw [hug _ (Nat.mod_lt _ (by omega))] at hq2
      have e1 : q.1.2 = values.getD k 0 / M - 1 := by rw [← Option.some.inj hq1]
      have e2 : q.2.2 = values.getD ((k + 1) % n) 0 / M - 1 := by rw [← Option.some.inj hq2]
      unfold advance
      simp only
      rw [show q.2.1 - q.1.1 + 1 = 1 + q.2.1 - q.1.1 by ring, hw, e1, e2, hM]
      ring

/-! ## Reference mode -/

theorem wrapDown_spec (lim q : ℚ) : ∃ n : ℕ, wrapDown lim q = q - n ∧ wrapDown lim q ≤ lim ∧
    (lim - 1 < wrapDown lim q ∨ n = 0) := by
  induction q using wrapDown.induct (lim := lim) with
  | case1 q h ih =>
    obtain ⟨n, h1, h2, h3⟩ := ih
    rw [wrapDown, if_pos h]
    refine ⟨n + 1, by rw [h1]; push_cast; ring, h2, Or.inl ?_⟩
    rcases h3 with h3 | h3
    · exact h3
    · rw [h1, h3]
      push_cast
      linarith
  | case2 q h =>
    rw [wrapDown, if_neg h]
    exact ⟨0, by simp, not_lt.mp h, Or.inr rfl⟩

theorem wrapUp_spec (lim q : ℚ) : ∃ n : ℕ, wrapUp lim q = q + n ∧ lim ≤ wrapUp lim q ∧
    (wrapUp lim q < lim + 1 ∨ n = 0) := by
  induction q using wrapUp.induct (lim := lim) with
  | case1 q h ih =>
    obtain ⟨n, h1, h2, h3⟩ := ih
    rw [wrapUp, if_pos h]
    refine ⟨n + 1, by rw [h1]; push_cast; ring, h2, Or.inl ?_⟩
    rcases h3 with h3 | h3
    · exact h3
    · rw [h1, h3]
      push_cast
      linarith
  | case2 q h =>
    rw [wrapUp, if_neg h]
    exact ⟨0, by simp, not_lt.mp h, Or.inr rfl⟩

theorem wrapHalf_spec (q : ℚ) : |wrapHalf q| ≤ 1 / 2 ∧ ∃ n : ℤ, wrapHalf q = q + n := by
  unfold wrapHalf
  obtain ⟨a, a1, a2, a3⟩ := wrapDown_spec (1 / 2) q
  obtain ⟨b, b1, b2, b3⟩ := wrapUp_spec (-(1 / 2)) (wrapDown (1 / 2) q)
  refine ⟨?_, (b : ℤ) - a, by rw [b1, a1]; push_cast; ring⟩
  rw [abs_le]
  refine ⟨b2, ?_⟩
  rcases b3 with h | h
  · linarith
  · rw [b1, h]
    simpa using a2

theorem wrapZeroOne_spec (q : ℚ) : 0 ≤ wrapZeroOne q ∧ wrapZeroOne q ≤ 1 ∧ ∃ n : ℤ, wrapZeroOne q = q + n := by
  unfold wrapZeroOne
  obtain ⟨a, a1, a2, a3⟩ := wrapDown_spec 1 q
  obtain ⟨b, b1, b2, b3⟩ := wrapUp_spec 0 (wrapDown 1 q)
  refine ⟨b2, ?_, (b : ℤ) - a, by rw [b1, a1]; push_cast; ring⟩
  rcases b3 with h | h
  · linarith
  · rw [b1, h]
    simpa using a2

theorem wrapHalf_eq {q e : ℚ} {n : ℤ} (h : q = e + n) (he : |e| < 1 / 2) : wrapHalf q = e := by
  obtain ⟨h1, m, h2⟩ := wrapHalf_spec q
  have : wrapHalf q - e = (m + n : ℤ) := by rw [h2, h]; push_cast; ring
  have hlt : |((m + n : ℤ) : ℚ)| < 1 := by
    rw [← this]
    rw [abs_le] at h1
    rw [abs_lt] at he ⊢
    constructor <;> linarith
  have hz : m + n = 0 := by
    rw [abs_lt] at hlt
    have l1 : (-1 : ℤ) < m + n := by exact_mod_cast hlt.1
    have l2 : m + n < (1 : ℤ) := by exact_mod_cast hlt.2
    omega
  rw [hz] at this
  push_cast at this
  linarith

/-- **C99** Reference mode: subtracting the deviation from each reading of the encoder gives
the reading of the reference but for one constant, up to whole turns. -/
theorem C99_reference (l : List (ℚ × ℚ)) (k : ℕ) (p : ℚ × ℚ) (hk : l[k]? = some p) :
    ∃ e, (errors l)[k]? = some e ∧ |e| ≤ 1 / 2 ∧ ∃ n : ℤ, p.2 - e = p.1 - offset l + n := by
  obtain ⟨h1, n, h2⟩ := wrapHalf_spec (p.1 - offset l - p.2)
  refine ⟨-wrapHalf (p.1 - offset l - p.2), ?_, by rw [abs_neg]; exact h1, n, by rw [h2]; ring⟩
  unfold errors
  rw [List.getElem?_map, hk]
  rfl

theorem mean_near : ∀ (l : List ℚ) (x r : ℚ), (∀ y ∈ l, |y - x| < r) → 0 < l.length →
    |l.sum - l.length * x| < l.length * r := by
  intro l
  induction l with
  | nil => intro x r _ h; simp at h
  | cons y l ih =>
    intro x r h _
    have hy := h y (List.mem_cons_self ..)
    rw [List.sum_cons, List.length_cons]
    push_cast
    rw [abs_lt] at hy ⊢
    cases l with
    | nil => simp only [List.sum_nil, List.length_nil, Nat.cast_zero]; constructor <;> linarith
    | cons z l =>
      have := ih x r (fun a ha => h a (List.mem_cons_of_mem _ ha)) (by simp)
      rw [abs_lt] at this
      constructor <;> linarith

/-- **C99** Reference mode, when the differences of the readings, taken from 0 to 1, are less
than half a turn apart from each other: the deviation is how much the difference is below
the mean difference. -/
theorem C99_reference_partial (l : List (ℚ × ℚ))
    (h : ∀ p ∈ l, ∀ q ∈ l, |wrapZeroOne (p.1 - p.2) - wrapZeroOne (q.1 - q.2)| < 1 / 2)
    (k : ℕ) (p : ℚ × ℚ) (hk : l[k]? = some p) :
    (errors l)[k]? = some (offset l - wrapZeroOne (p.1 - p.2)) := by
  have hp := List.mem_of_getElem? hk
  have hpos : 0 < l.length := List.length_pos_of_mem hp
  have hposq : (0 : ℚ) < l.length := by exact_mod_cast hpos
  have hnear : |wrapZeroOne (p.1 - p.2) - offset l| < 1 / 2 := by
    have := mean_near (l.map fun p => wrapZeroOne (p.1 - p.2)) (wrapZeroOne (p.1 - p.2)) (1 / 2)
      (fun y hy => by
        obtain ⟨q, hq, rfl⟩ := List.mem_map.mp hy
        exact h q hq p hp) (by simpa using hpos)
    rw [List.length_map] at this
    unfold offset
    rw [abs_sub_comm]
    rw [show (l.map fun p => wrapZeroOne (p.1 - p.2)).sum / l.length - wrapZeroOne (p.1 - p.2) =
      ((l.map fun p => wrapZeroOne (p.1 - p.2)).sum - l.length * wrapZeroOne (p.1 - p.2)) / l.length by field_simp,
      abs_div, abs_of_pos hposq, div_lt_iff₀ hposq]
    linarith
  obtain ⟨-, -, n, hn⟩ := wrapZeroOne_spec (p.1 - p.2)
  have e := wrapHalf_eq (q := p.1 - offset l - p.2) (e := wrapZeroOne (p.1 - p.2) - offset l) (n := -n)
    (by rw [hn]; push_cast; ring) hnear
  unfold errors
  rw [List.getElem?_map, hk]
  simp only [Option.map_some]
  rw [e]
  congr 1
  ring

/-- **C99 refuted** Two encoders that agree to one hundredth of a turn: the mean of
differences between 0 and 1 is half a turn, and deviations of 49 hundredths in both
directions are found and stored. -/
theorem C99_reference_refuted :
    offset [(1 / 4, 24 / 100), (1 / 2, 51 / 100)] = 1 / 2 ∧
    errors [(1 / 4, 24 / 100), (1 / 2, 51 / 100)] = [49 / 100, -(49 / 100)] := by
  have h1 : wrapZeroOne (1 / 4 - 24 / 100) = 1 / 100 := by
    unfold wrapZeroOne
    rw [wrapDown, if_neg (by norm_num), wrapUp, if_neg (by norm_num)]
    norm_num
  have h2 : wrapZeroOne (1 / 2 - 51 / 100) = 99 / 100 := by
    unfold wrapZeroOne
    rw [wrapDown, if_neg (by norm_num), wrapUp, if_pos (by norm_num), wrapUp, if_neg (by norm_num)]
    norm_num
  have ho : offset [(1 / 4, 24 / 100), (1 / 2, 51 / 100)] = 1 / 2 := by
    unfold offset
    simp only [List.map_cons, List.map_nil, List.sum_cons, List.sum_nil, List.length_cons, List.length_nil, h1, h2]
    norm_num
  refine ⟨ho, ?_⟩
  unfold errors
  rw [ho]
  simp only [List.map_cons, List.map_nil]
  rw [wrapHalf_eq (q := 1 / 4 - 1 / 2 - 24 / 100) (e := -(49 / 100)) (n := 0) (by norm_num)
      (by rw [abs_lt]; constructor <;> norm_num),
    wrapHalf_eq (q := 1 / 2 - 1 / 2 - 51 / 100) (e := 49 / 100) (n := -1) (by norm_num)
      (by rw [abs_lt]; constructor <;> norm_num)]
  norm_num

/-! ## The table -/

theorem newScale_largest {t : List ℚ} {m : ℚ} (hm : Spec.Largest t m) : newScale t = m := by
  obtain ⟨y, hy, e⟩ := hm.2
  unfold newScale
  cases t with
  | nil => simp at hy
  | cons a l =>
    rw [List.map_cons]
    unfold maxOf
    dsimp only
    obtain ⟨h1, h2, h3⟩ := foldl_max (l.map fun x => |x|) |a|
    apply le_antisymm
    · rcases h3 with h | h
      · rw [h]; exact hm.1 a (List.mem_cons_self ..)
      · obtain ⟨x, hx, e'⟩ := List.mem_map.mp h
        rw [← e']
        exact hm.1 x (List.mem_cons_of_mem _ hx)
    · rw [← e]
      rcases List.mem_cons.mp hy with rfl | hy
      · exact h1
      · exact h2 _ (List.mem_map.mpr ⟨y, hy, rfl⟩)

/-- **C99** In the arithmetic of Python each entry fits into the 8 bits of the table. -/
theorem C99_fits {t : List ℚ} {m : ℚ} (hm : Spec.Largest t m) (h0 : m ≠ 0) {s : ℚ} {ds : List ℤ}
    (hlow : ∀ x ∈ t, x = 0 ∨ pow2 (-900) ≤ |x|)
    (h : stored b64.roundQ t = some (s, ds)) :
    s = m ∧ ds.length = t.length ∧ ∀ d ∈ ds, -127 ≤ d ∧ d ≤ 127 := by
  unfold stored at h
  rw [newScale_largest hm, if_neg h0] at h
  obtain ⟨h1, rfl⟩ := Prod.mk.inj (Option.some.inj h)
  refine ⟨h1.symm, by simp, ?_⟩
  have hm0 : 0 < m := by
    obtain ⟨x, -, hx⟩ := hm.2
    have := abs_nonneg x
    exact lt_of_le_of_ne (by linarith) (Ne.symm h0)
  have hp : pow2 (-1022) ≤ pow2 (-900) := by decide +kernel
  have hu : pow2 (-53) = 1 / 9007199254740992 := by decide +kernel
  intro d hd
  obtain ⟨x, hx, rfl⟩ := List.mem_map.mp hd
  have hx' := hm.1 x hx
  have hr1 : |b64.roundQ (127 * x)| ≤ (127 + 1 / 1000) * m := by
    rcases hlow x hx with rfl | hl
    · rw [mul_zero, show b64.roundQ 0 = 0 by decide +kernel, abs_zero]
      positivity
    · have hx127 : |127 * x| = 127 * |x| := by rw [abs_mul]; norm_num
      have e := roundQ_rel_err (f := b64) (x := 127 * x) (by
        rw [hx127]
        show pow2 (-1022) ≤ _
        have := abs_nonneg x
        linarith)
      rw [hx127, show (-(b64.prec : ℤ)) = -53 from rfl, hu] at e
      have := abs_sub_abs_le_abs_sub (b64.roundQ (127 * x)) (127 * x)
      rw [hx127] at this
      linarith
  have hq : |b64.roundQ (127 * x) / m| ≤ 127 + 1 / 1000 := by
    rw [abs_div, abs_of_pos hm0, div_le_iff₀ hm0]
    exact hr1
  have hr : |b64.roundQ (b64.roundQ (127 * x) / m)| < 128 := by
    have hmono : ∀ {a b : ℚ}, a ≤ b → b64.roundQ a ≤ b64.roundQ b := fun h => roundQ_mono (by decide) h
    rw [abs_le] at hq
    have u1 := hmono hq.2
    have u2 := hmono hq.1
    have c1 : b64.roundQ (127 + 1 / 1000) < 128 := by decide +kernel
    have c2 : -128 < b64.roundQ (-(127 + 1 / 1000)) := by decide +kernel
    rw [abs_lt]
    constructor <;> linarith
  have ht := (truncQ_near (b64.roundQ (b64.roundQ (127 * x) / m))).2
  have hlt := lt_of_le_of_lt ht hr
  rw [abs_lt] at hlt
  have l1 : (-128 : ℤ) < truncQ (b64.roundQ (b64.roundQ (127 * x) / m)) := by exact_mod_cast hlt.1
  have l2 : truncQ (b64.roundQ (b64.roundQ (127 * x) / m)) < 128 := by exact_mod_cast hlt.2
  omega

/-- Specification: periodic linear interpolation between values at `i / n`. -/
def Spec.between (t : List ℚ) (x : ℚ) : ℚ :=
  let n := t.length
  let l : ℕ := ⌊n * x⌋₊
  let f : ℚ := n * x - l
  t.getD (l % n) 0 * (1 - f) + t.getD ((l + 1) % n) 0 * f

/-- `lerp` of the controller in exact arithmetic. -/
theorem lerp_exact (ds : List ℤ) (hn : 0 < ds.length) (hbig : ds.length ≤ 65536) (s : ℚ) {x : ℚ} (h0 : 0 ≤ x)
    (h1 : x < 1) : lerp .exact (fun i => Ar.exact.lit (ds.getD i 0 : ℤ)) ds.length (.fin s) (.fin x) =
      .fin (Spec.between (ds.map fun d : ℤ => (d : ℚ) * s) x) := by
  obtain ⟨n, hnd⟩ : ∃ n, n = ds.length := ⟨_, rfl⟩
  have hlq : (0 : ℚ) < n := by rw [hnd]; exact_mod_cast hn
  have hy0 : 0 ≤ (n : ℚ) * x := by positivity
  have hyn : (n : ℚ) * x < n := by nlinarith
  have hfl : (⌊(n : ℚ) * x⌋₊ : ℕ) < n := by rw [Nat.floor_lt hy0]; exact hyn
  obtain ⟨l, hl⟩ : ∃ l, l = ⌊(n : ℚ) * x⌋₊ := ⟨_, rfl⟩
  have hleft : (min ((n : ℤ) - 1) (toI32 (Ar.exact.mul (.fin x) (Ar.exact.lit n)))).toNat = l := by
    have e : Ar.exact.mul (.fin x) (Ar.exact.lit n) = .fin (n * x) := by simp [Ar.lit, Ar.mul, mul_comm]
    rw [e]
    have ht : truncQ (n * x) = (⌊(n : ℚ) * x⌋₊ : ℤ) := by
      unfold truncQ
      rw [if_pos hy0]
      exact (Int.natCast_floor_eq_floor hy0).symm
    simp only [toI32, ht]
    omega
  have hg : ∀ k, k < n → (ds.map fun d : ℤ => (d : ℚ) * s).getD k 0 = ((ds.getD k 0 : ℤ) : ℚ) * s := by
    intro k hk
    have hk' : k < ds.length := by omega
    simp [List.getD_eq_getElem?_getD, hk']
  unfold lerp Spec.between
  rw [List.length_map, ← hnd]
  dsimp only
  rw [hleft, ← hl, Nat.mod_eq_of_lt (show l < n by omega), hg l (by omega), hg _ (Nat.mod_lt _ (by omega))]
  simp [Ar.lit, Ar.mul, Ar.add, Ar.sub, Ar.div, Fl.neg, hlq.ne']
  field_simp
  ring

/-- **C99** In exact arithmetic, what the controller adds at any angle differs from the wanted
table, with lines between its entries, by less than 1/127 of its largest entry. -/
theorem C99_applied {t : List ℚ} {m : ℚ} (hm : Spec.Largest t m) (h0 : m ≠ 0) (hbig : t.length ≤ 65536) :
    ∃ ds, stored id t = some (m, ds) ∧ ds.length = t.length ∧ ∀ x, 0 ≤ x → x < 1 →
      ∃ c, lerp .exact (fun i => Ar.exact.lit (ds.getD i 0 : ℤ)) ds.length (.fin (m / 127)) (.fin x) = .fin c ∧
        |c - Spec.between t x| < m / 127 := by
  have hn : 0 < t.length := by
    obtain ⟨x, hx, -⟩ := hm.2
    exact List.length_pos_of_mem hx
  have hm0 : 0 < m := by
    obtain ⟨x, -, hx⟩ := hm.2
    have := abs_nonneg x
    exact lt_of_le_of_ne (by linarith) (Ne.symm h0)
  have hs0 : 0 < m / 127 := by positivity
  refine ⟨t.map fun x => truncQ (127 * x / m), ?_, by simp, ?_⟩
  · unfold stored
    rw [newScale_largest hm, if_neg h0]
    rfl
  · intro x hx0 hx1
    refine ⟨_, lerp_exact _ (by simpa using hn) (by simpa using hbig) _ hx0 hx1, ?_⟩
    unfold Spec.between
    simp only [List.length_map, List.map_map]
    have hget : ∀ k, k < t.length →
        |(t.map ((fun d : ℤ => (d : ℚ) * (m / 127)) ∘ fun x => truncQ (127 * x / m))).getD k 0 - t.getD k 0| <
          m / 127 := by
      intro k hk
      simp only [List.getD_eq_getElem?_getD, List.getElem?_map, List.getElem?_eq_getElem hk, Option.map_some,
        Option.getD_some, Function.comp]
      have h := (truncQ_near (127 * t[k] / m)).1
      have e : (truncQ (127 * t[k] / m) : ℚ) * (m / 127) - t[k] =
          m / 127 * ((truncQ (127 * t[k] / m) : ℚ) - 127 * t[k] / m) := by
        field_simp
      rw [e, abs_mul, abs_of_pos hs0]
      nlinarith
    obtain ⟨n, hnd⟩ : ∃ n, n = t.length := ⟨_, rfl⟩
    rw [← hnd] at hget hn ⊢
    have f0 : 0 ≤ (n : ℚ) * x - (⌊(n : ℚ) * x⌋₊ : ℚ) := sub_nonneg.mpr (Nat.floor_le (by positivity))
    have f1 : (n : ℚ) * x - (⌊(n : ℚ) * x⌋₊ : ℚ) < 1 := by
      have := Nat.lt_floor_add_one ((n : ℚ) * x)
      linarith
    have g1 := hget (⌊(n : ℚ) * x⌋₊ % n) (Nat.mod_lt _ hn)
    have g2 := hget ((⌊(n : ℚ) * x⌋₊ + 1) % n) (Nat.mod_lt _ hn)
    generalize (n : ℚ) * x - (⌊(n : ℚ) * x⌋₊ : ℚ) = f at f0 f1 ⊢
    generalize (t.map ((fun d : ℤ => (d : ℚ) * (m / 127)) ∘ fun x => truncQ (127 * x / m))).getD
      (⌊(n : ℚ) * x⌋₊ % n) 0 = a at g1 ⊢
    generalize (t.map ((fun d : ℤ => (d : ℚ) * (m / 127)) ∘ fun x => truncQ (127 * x / m))).getD
      ((⌊(n : ℚ) * x⌋₊ + 1) % n) 0 = b at g2 ⊢
    generalize t.getD (⌊(n : ℚ) * x⌋₊ % n) 0 = a' at g1 ⊢
    generalize t.getD ((⌊(n : ℚ) * x⌋₊ + 1) % n) 0 = b' at g2 ⊢
    rw [abs_lt] at g1 g2 ⊢
    constructor <;> nlinarith

/-- **C99** The wanted table: with `--absolute` the negative deviation; else what the
controller applied so far at this place, in exact arithmetic, less the given fraction of
the deviation. -/
theorem C99_update (factor oldScale : ℚ) (old : List ℤ) (sampled : List ℚ) (hl : old.length = sampled.length)
    (hbig : old.length ≤ 65536) (i : ℕ) (x : ℚ) (hi : sampled[i]? = some x) :
    (wanted true factor oldScale old sampled)[i]? = some (-x) ∧
    ∃ c, lerp .exact (fun i => Ar.exact.lit (old.getD i 0 : ℤ)) old.length (.fin (oldScale / 127))
        (.fin ((i : ℚ) / old.length)) = .fin c ∧
      (wanted false factor oldScale old sampled)[i]? = some (c - factor * x) := by
  have hi' : i < sampled.length := by
    by_contra h
    rw [List.getElem?_eq_none (by omega)] at hi
    simp at hi
  have hio : i < old.length := by omega
  have hq : (0 : ℚ) < old.length := by exact_mod_cast (by omega : 0 < old.length)
  have hold : old[i]? = some (old.getD i 0) := by
    simp [List.getD_eq_getElem?_getD, hio]
  refine ⟨?_, _, lerp_exact old (by omega) hbig _ (by positivity) ?_, ?_⟩
  · unfold wanted
    rw [List.getElem?_zipWith, hold, hi]
    rfl
  · rw [div_lt_one hq]
    exact_mod_cast hio
  · unfold wanted Spec.between
    rw [List.getElem?_zipWith, hold, hi, List.length_map]
    dsimp only
    rw [mul_div_cancel₀ _ hq.ne', Nat.floor_natCast]
    simp only [sub_self, sub_zero, mul_zero, add_zero, Nat.mod_eq_of_lt hio]
    simp [List.getD_eq_getElem?_getD, hio]
    ring

/-- **C99 refuted** An encoder without deviation: division by zero. -/
theorem C99_zero_refuted (rnd : ℚ → ℚ) (n : ℕ) (old : List ℤ) :
    stored rnd (wanted true 1 0 old (List.replicate n 0)) = none := by
  have hz : ∀ x ∈ (wanted true 1 0 old (List.replicate n 0)).map fun x => |x|, x = 0 := by
    intro x hx
    obtain ⟨y, hy, rfl⟩ := List.mem_map.mp hx
    unfold wanted at hy
    obtain ⟨k, hk, e⟩ := List.mem_iff_getElem.mp hy
    rw [List.getElem_zipWith] at e
    simp at e
    rw [← e]
    simp
  have : newScale (wanted true 1 0 old (List.replicate n 0)) = 0 := by
    unfold newScale maxOf
    split
    · rfl
    · rename_i a l hl
      rw [hl] at hz
      obtain ⟨-, -, h | h⟩ := foldl_max l a
      · rw [h]; exact hz a (List.mem_cons_self ..)
      · exact hz _ (List.mem_cons_of_mem _ h)
  unfold stored
  rw [if_pos this]

/-! ## Examples -/

example : ∃ values : List ℚ, 2 ≤ values.length ∧ values.sum ≠ 0 := ⟨[1, 3, 2], by norm_num, by norm_num⟩

example : inertial [1, 3] = some [(1 / 4, 0), (3 / 4, 0), (5 / 4, 0)] := by decide +kernel

/-- The hypotheses of `C99_reference_partial` with differences around a quarter. -/
example : ∀ p ∈ [((1 / 2 : ℚ), (1 / 4 : ℚ)), (3 / 4, 1 / 2)], ∀ q ∈ [((1 / 2 : ℚ), (1 / 4 : ℚ)), (3 / 4, 1 / 2)],
    |wrapZeroOne (p.1 - p.2) - wrapZeroOne (q.1 - q.2)| < 1 / 2 := by
  have h1 : wrapZeroOne (1 / 2 - 1 / 4) = 1 / 4 := by
    unfold wrapZeroOne
    rw [wrapDown, if_neg (by norm_num), wrapUp, if_neg (by norm_num)]
    norm_num
  have h2 : wrapZeroOne (3 / 4 - 1 / 2) = 1 / 4 := by
    unfold wrapZeroOne
    rw [wrapDown, if_neg (by norm_num), wrapUp, if_neg (by norm_num)]
    norm_num
  intro p hp q hq
  simp only [List.mem_cons, List.not_mem_nil, or_false] at hp hq
  rcases hp with rfl | rfl <;> rcases hq with rfl | rfl <;> simp only [h1, h2] <;> norm_num

example : Spec.Largest [(1 / 100 : ℚ), -(1 / 50)] (1 / 50) ∧
    stored b64.roundQ [(1 / 100 : ℚ), -(1 / 50)] = some (1 / 50, [63, -127]) := by
  refine ⟨⟨?_, -(1 / 50), by simp, by norm_num⟩, ?_⟩
  · intro x hx
    simp only [List.mem_cons, List.not_mem_nil, or_false] at hx
    rcases hx with rfl | rfl <;> norm_num
  · unfold stored
    rw [newScale_largest (m := 1 / 50) ⟨by
      intro x hx
      simp only [List.mem_cons, List.not_mem_nil, or_false] at hx
      rcases hx with rfl | rfl <;> norm_num, -(1 / 50), by simp, by norm_num⟩, if_neg (by norm_num)]
    decide +kernel

end Verif.Tool.EncoderComp
