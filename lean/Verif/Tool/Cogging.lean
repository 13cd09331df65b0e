import Verif.Fw.Histogram
import Verif.Fw.PositionExact

/-!
# Compensation of cogging

Model of `utils/compensate_cogging.py`: the averages of two histograms
(`utils/histogram.py`) become the table `motor.cogging_dq_comp`, which the controller
interpolates (`sample`, `fw/bldc_servo.cc` 2119-2133, modelled for C84).

The averages are computed in exact arithmetic (the rounding of `sum` depends on the
version of Python); `rnd` is the rounding of scale and quotients.  Not modelled: plots,
the file, the motion.

Property C98.
-/

namespace Verif.Tool.Cogging

open Verif.Float Verif.Fw

/-! ## Model -/

/-- The exceptions. -/
inductive Err
  | assertion | zeroDivision | exit
deriving DecidableEq

/-- `start` and, for `i + 1`, `end` (lines 137-138). -/
def start (n i : ℕ) : ℕ := i * n / 1024

/-- The slice of a window (lines 142-143). -/
def window (l : List ℚ) (n i : ℕ) : List ℚ := (l.drop (start n i)).take (start n (i + 1) - start n i)

/-- Lines 136-146: one average. -/
def averageAt (forward reverse : List ℚ) (i : ℕ) : Except Err ℚ :=
  let f := window forward reverse.length i
  let r := window reverse reverse.length i
  if f.length + r.length = 0 then .error .zeroDivision
  else .ok ((f.sum + r.sum) / (f.length + r.length : ℕ))

/-- `mapM` of the averages. -/
def averagesFrom (forward reverse : List ℚ) : List ℕ → Except Err (List ℚ)
  | [] => .ok []
  | i :: l => match averageAt forward reverse i with
    | .error e => .error e
    | .ok a => match averagesFrom forward reverse l with
      | .error e => .error e
      | .ok as => .ok (a :: as)

/-- Lines 130-146: the averages. -/
def averages (forward reverse : List ℚ) : Except Err (List ℚ) :=
  if forward.length = reverse.length then averagesFrom forward reverse (List.range 1024)
  else .error .assertion

/-- Python's `max` of a list that is not empty. -/
def maxOf : List ℚ → ℚ
  | [] => 0
  | a :: l => l.foldl max a

/-- Python's `min` of a list that is not empty. -/
def minOf : List ℚ → ℚ
  | [] => 0
  | a :: l => l.foldl min a

/-- `scale` (line 154). -/
def scale (rnd : ℚ → ℚ) (average : List ℚ) : ℚ := rnd (max |maxOf average| |minOf average| / 127)

/-- The table that is stored (lines 154-159): `motor.cogging_dq_scale` and
`motor.cogging_dq_comp`. -/
def table (rnd : ℚ → ℚ) (average : List ℚ) : Except Err (ℚ × List ℤ) :=
  let s := scale rnd average
  if s = 0 then .error .zeroDivision
  else .ok (s, average.map fun x => truncQ (rnd (x / s)))

/-- The limits of the position, in the configuration in use and in that of the flash
memory. -/
structure Device where
  limits : Fl × Fl
  saved : Fl × Fl
deriving DecidableEq

/-- `read_data` (lines 31-80): the limits on the way; `none` of the result is
`sys.exit`. -/
def readData (d : Device) (reverse forward : List Fl) : Option (List Fl × List Fl) × Device :=
  let free := { d with limits := (.nan, .nan) }
  if reverse.any fun x => !x.isFinite then (none, free)
  else if forward.any fun x => !x.isFinite then (none, free)
  else (some (reverse, forward), d)

/-- `conf write` (line 161). -/
def confWrite (d : Device) : Device := { d with saved := d.limits }

/-- The limits after a call with `--store`, if the table can be computed. -/
def run (d : Device) (reverse forward : List Fl) : Device :=
  match readData d reverse forward with
  | (none, d') => d'
  | (some _, d') => confWrite d'

/-! ## The windows -/

theorem start_le {n i k : ℕ} : start n i ≤ k ↔ i * n < (k + 1) * 1024 := by
  unfold start
  rw [← Nat.lt_succ_iff, Nat.div_lt_iff_lt_mul (by norm_num)]

theorem lt_start {n i k : ℕ} : k < start n i ↔ (k + 1) * 1024 ≤ i * n := by
  unfold start
  rw [← Nat.succ_le_iff, Nat.le_div_iff_mul_le (by norm_num)]

theorem start_mono (n i : ℕ) : start n i ≤ start n (i + 1) :=
  Nat.div_le_div_right (by nlinarith)

theorem start_end (n : ℕ) : start n 1024 = n := by
  unfold start
  omega

/-- **C98** Each bin of the histograms is in exactly one of the 1024 windows. -/
theorem C98_windows {n k : ℕ} (hk : k < n) :
    ∃ i < 1024, (start n i ≤ k ∧ k < start n (i + 1)) ∧
      ∀ j, start n j ≤ k ∧ k < start n (j + 1) → j = i := by
  have hn : 0 < n := by omega
  obtain ⟨i, h1, h2⟩ : ∃ i, i * n < (k + 1) * 1024 ∧ (k + 1) * 1024 ≤ (i + 1) * n := by
    refine ⟨((k + 1) * 1024 - 1) / n, ?_, ?_⟩
    · have := Nat.div_mul_le_self ((k + 1) * 1024 - 1) n
      omega
    · have h := Nat.div_add_mod ((k + 1) * 1024 - 1) n
      have h' := Nat.mod_lt ((k + 1) * 1024 - 1) hn
      nlinarith [h, h', Nat.sub_add_cancel (show 1 ≤ (k + 1) * 1024 by omega)]
  refine ⟨i, ?_, ⟨start_le.mpr h1, lt_start.mpr h2⟩, ?_⟩
  · by_contra hi
    have : 1024 * n ≤ i * n := Nat.mul_le_mul_right n (by omega)
    nlinarith
  · rintro j ⟨j1, j2⟩
    rw [start_le] at j1
    rw [lt_start] at j2
    rcases Nat.lt_trichotomy j i with h | h | h
    · have : (j + 1) * n ≤ i * n := Nat.mul_le_mul_right n (by omega)
      omega
    · exact h
    · have : (i + 1) * n ≤ j * n := Nat.mul_le_mul_right n (by omega)
      omega

theorem window_length {l : List ℚ} {n i : ℕ} (hl : l.length = n) (hi : i < 1024) :
    (window l n i).length = start n (i + 1) - start n i := by
  have h : start n (i + 1) ≤ n := by
    unfold start
    exact Nat.div_le_of_le_mul (Nat.mul_le_mul_right n (by omega))
  have := start_mono n i
  unfold window
  rw [List.length_take, List.length_drop]
  omega

theorem window_pos {n i : ℕ} (hn : 1024 ≤ n) : start n i < start n (i + 1) := by
  unfold start
  have : (i + 1) * n = i * n + n := by ring
  rw [this]
  omega

theorem averagesFrom_ok (forward reverse : List ℚ) : ∀ (l : List ℕ) (as : List ℚ), averagesFrom forward reverse l = .ok as →
    as.length = l.length ∧ ∀ k i : ℕ, l[k]? = some i → ∃ a, as[k]? = some a ∧ averageAt forward reverse i = .ok a := by
  intro l
  induction l with
  | nil => intro as h; obtain rfl := Except.ok.inj h; simp
  | cons j l ih =>
    intro as h
    unfold averagesFrom at h
    cases ha : averageAt forward reverse j with
    | error e => rw [ha] at h; simp at h
    | ok a =>
      rw [ha] at h
      dsimp only at h
      cases hs : averagesFrom forward reverse l with
      | error e => rw [hs] at h; simp at h
      | ok s =>
        rw [hs] at h
        obtain rfl := Except.ok.inj h
        obtain ⟨h1, h2⟩ := ih s hs
        refine ⟨by simp [h1], fun k i hk => ?_⟩
        cases k with
        | zero =>
          obtain rfl : j = i := by simpa using hk
          exact ⟨a, rfl, ha⟩
        | succ k => exact h2 k i (by simpa using hk)

theorem averagesFrom_isOk {forward reverse : List ℚ} : ∀ l : List ℕ,
    (∀ i ∈ l, ∃ a, averageAt forward reverse i = .ok a) → ∃ as, averagesFrom forward reverse l = .ok as := by
  intro l
  induction l with
  | nil => intro _; exact ⟨[], rfl⟩
  | cons j l ih =>
    intro h
    obtain ⟨a, ha⟩ := h j (List.mem_cons_self ..)
    obtain ⟨as, hs⟩ := ih fun i hi => h i (List.mem_cons_of_mem _ hi)
    exact ⟨a :: as, by simp only [averagesFrom, ha, hs]⟩

/-- **C98** With two histograms of the same length, of at least 1024 bins, there are 1024
averages, and each is the mean of the bins of its window, of both directions. -/
theorem C98_average_partial {forward reverse : List ℚ} (hf : forward.length = reverse.length)
    (hn : 1024 ≤ reverse.length) : ∃ as, averages forward reverse = .ok as ∧ as.length = 1024 ∧
    ∀ i < 1024, ∃ m > 0, m = start reverse.length (i + 1) - start reverse.length i ∧
      as[i]? = some ((((List.range m).map fun k => forward.getD (start reverse.length i + k) 0).sum +
        ((List.range m).map fun k => reverse.getD (start reverse.length i + k) 0).sum) / (2 * m)) := by
  have hat : ∀ i < 1024, averageAt forward reverse i = .ok (((window forward reverse.length i).sum +
      (window reverse reverse.length i).sum) /
      (2 * ((start reverse.length (i + 1) - start reverse.length i : ℕ) : ℚ))) := by
    intro i hi
    unfold averageAt
    have hp := window_pos (i := i) hn
    simp only [window_length hf hi, window_length rfl hi]
    rw [if_neg (by omega)]
    congr 2
    rw [← two_mul]
    push_cast
    ring
  have hw : ∀ (l : List ℚ) (i : ℕ), l.length = reverse.length → i < 1024 → window l reverse.length i =
      (List.range (start reverse.length (i + 1) - start reverse.length i)).map fun k =>
        l.getD (start reverse.length i + k) 0 := by
    intro l i hl hi
    have hlen := window_length hl hi
    refine List.ext_getElem (by rw [hlen]; simp) fun k h1 h2 => ?_
    rw [hlen] at h1
    have hle : start reverse.length (i + 1) ≤ reverse.length := by
      unfold start
      exact Nat.div_le_of_le_mul (Nat.mul_le_mul_right _ (by omega))
    have : start reverse.length i + k < l.length := by omega
    simp [window, List.getD_eq_getElem?_getD, this]
  obtain ⟨as, has⟩ := averagesFrom_isOk (forward := forward) (reverse := reverse) (List.range 1024)
    fun i hi => ⟨_, hat i (List.mem_range.mp hi)⟩
  obtain ⟨hl, hget⟩ := averagesFrom_ok _ _ _ _ has
  refine ⟨as, by unfold averages; rw [if_pos hf, has], by rw [hl, List.length_range], fun i hi => ?_⟩
  refine ⟨_, Nat.sub_pos_of_lt (window_pos (i := i) hn), rfl, ?_⟩
  obtain ⟨a, h1, h2⟩ := hget i i (List.getElem?_range hi)
  rw [h1, ← hw forward i hf hi, ← hw reverse i rfl hi]
  rw [hat i hi] at h2
  exact congrArg some (Except.ok.inj h2).symm

/-! ## The table -/

theorem foldl_max (l : List ℚ) : ∀ a, a ≤ l.foldl max a ∧ (∀ x ∈ l, x ≤ l.foldl max a) ∧
    (l.foldl max a = a ∨ l.foldl max a ∈ l) := by
  induction l with
  | nil => intro a; simp
  | cons b l ih =>
    intro a
    obtain ⟨h1, h2, h3⟩ := ih (max a b)
    rw [List.foldl_cons]
    refine ⟨(le_max_left _ _).trans h1, ?_, ?_⟩
    · intro x hx
      rcases List.mem_cons.mp hx with rfl | hx
      · exact (le_max_right _ _).trans h1
      · exact h2 x hx
    · rcases h3 with h3 | h3
      · rcases max_choice a b with h | h
        · exact Or.inl (h3.trans h)
        · exact Or.inr (by rw [h3, h]; exact List.mem_cons_self ..)
      · exact Or.inr (List.mem_cons_of_mem _ h3)

theorem foldl_min (l : List ℚ) : ∀ a, l.foldl min a ≤ a ∧ (∀ x ∈ l, l.foldl min a ≤ x) ∧
    (l.foldl min a = a ∨ l.foldl min a ∈ l) := by
  induction l with
  | nil => intro a; simp
  | cons b l ih =>
    intro a
    obtain ⟨h1, h2, h3⟩ := ih (min a b)
    rw [List.foldl_cons]
    refine ⟨h1.trans (min_le_left _ _), ?_, ?_⟩
    · intro x hx
      rcases List.mem_cons.mp hx with rfl | hx
      · exact h1.trans (min_le_right _ _)
      · exact h2 x hx
    · rcases h3 with h3 | h3
      · rcases min_choice a b with h | h
        · exact Or.inl (h3.trans h)
        · exact Or.inr (by rw [h3, h]; exact List.mem_cons_self ..)
      · exact Or.inr (List.mem_cons_of_mem _ h3)

/-- Specification: `m` is the largest magnitude. -/
def Spec.Largest (l : List ℚ) (m : ℚ) : Prop := (∀ x ∈ l, |x| ≤ m) ∧ ∃ x ∈ l, |x| = m

theorem largest {l : List ℚ} (h : l ≠ []) : Spec.Largest l (max |maxOf l| |minOf l|) := by
  obtain ⟨a, l, rfl⟩ := List.exists_cons_of_ne_nil h
  obtain ⟨a1, a2, a3⟩ := foldl_max l a
  obtain ⟨b1, b2, b3⟩ := foldl_min l a
  have hmem : ∀ x, x = a ∨ x ∈ l → x ∈ a :: l := fun x hx => List.mem_cons.mpr hx
  constructor
  · intro x hx
    have hlo : minOf (a :: l) ≤ x := by
      rcases List.mem_cons.mp hx with rfl | hx
      · exact b1
      · exact b2 x hx
    have hhi : x ≤ maxOf (a :: l) := by
      rcases List.mem_cons.mp hx with rfl | hx
      · exact a1
      · exact a2 x hx
    rw [abs_le]
    have := neg_abs_le (minOf (a :: l))
    have := le_abs_self (maxOf (a :: l))
    have := le_max_left |maxOf (a :: l)| |minOf (a :: l)|
    have := le_max_right |maxOf (a :: l)| |minOf (a :: l)|
    constructor <;> linarith
  · rcases max_choice |maxOf (a :: l)| |minOf (a :: l)| with h | h
    · exact ⟨_, hmem _ a3, h.symm⟩
    · exact ⟨_, hmem _ b3, h.symm⟩

theorem max_eq {average : List ℚ} {m : ℚ} (hm : Spec.Largest average m) :
    max |maxOf average| |minOf average| = m := by
  obtain ⟨y, hy, h3⟩ := hm.2
  obtain ⟨h1, x, hx, h2⟩ := largest (List.ne_nil_of_mem hy)
  apply le_antisymm
  · rw [← h2]; exact hm.1 x hx
  · rw [← h3]; exact h1 y hy

theorem table_id {average : List ℚ} {m : ℚ} (hm : Spec.Largest average m) (h0 : m ≠ 0) :
    table id average = .ok (m / 127, average.map fun x => truncQ (x / (m / 127))) := by
  unfold table scale
  rw [max_eq hm]
  have : m / 127 ≠ 0 := div_ne_zero h0 (by norm_num)
  simp only [id, this, if_false]

theorem truncQ_near (q : ℚ) : |(truncQ q : ℚ) - q| < 1 ∧ |(truncQ q : ℚ)| ≤ |q| := by
  unfold truncQ
  split
  · rename_i h
    have h1 := Rat.floor_le q
    have h2 := Rat.lt_floor_add_one q
    have h3 : 0 ≤ q.floor := Rat.le_floor_iff.mpr (by simpa using h)
    have h4 : (0 : ℚ) ≤ q.floor := by exact_mod_cast h3
    push_cast at h2
    rw [abs_of_nonneg h4, abs_of_nonneg h]
    exact ⟨by rw [abs_lt]; constructor <;> linarith, h1⟩
  · rename_i h
    have h1 := Rat.floor_le (-q)
    have h2 := Rat.lt_floor_add_one (-q)
    have h3 : 0 ≤ (-q).floor := Rat.le_floor_iff.mpr (by push_cast; linarith)
    have h4 : (0 : ℚ) ≤ (-q).floor := by exact_mod_cast h3
    push_cast at h2 ⊢
    rw [abs_neg, abs_of_nonneg h4, abs_of_neg (by linarith : q < 0)]
    exact ⟨by rw [abs_lt]; constructor <;> linarith, h1⟩

/-- **C98** In the arithmetic of Python each entry fits into the 8 bits of the table, as
long as the averages are not below 2^-900 altogether. -/
theorem C98_fits {average : List ℚ} {m : ℚ} (hm : Spec.Largest average m) (hlow : pow2 (-900) ≤ m)
    {s : ℚ} {ds : List ℤ} (h : table b64.roundQ average = .ok (s, ds)) :
    ds.length = average.length ∧ ∀ d ∈ ds, -127 ≤ d ∧ d ≤ 127 := by
  have hne : average ≠ [] := by
    obtain ⟨x, hx, -⟩ := hm.2
    exact List.ne_nil_of_mem hx
  have hmax := max_eq hm
  unfold table at h
  simp only at h
  split at h
  · simp at h
  · obtain ⟨h1, rfl⟩ := Prod.mk.inj (Except.ok.inj h)
    refine ⟨by simp, ?_⟩
    rw [h1]
    have hs : s = b64.roundQ (m / 127) := by rw [← h1, scale, hmax]
    have hm0 : 0 < m := (pow2_pos _).trans_le hlow
    have hp : pow2 (-900) = 128 * pow2 (-907) := by decide +kernel
    have hp' : pow2 (-1022) ≤ pow2 (-907) := by decide +kernel
    have hp907 := pow2_pos (-907)
    have hu : pow2 (-53) = 1 / 9007199254740992 := by decide +kernel
    have e1 := roundQ_rel_err (f := b64) (x := m / 127) (by
      rw [abs_of_pos (by positivity)]
      show pow2 (-1022) ≤ _
      rw [le_div_iff₀ (by norm_num)]
      linarith)
    rw [← hs, abs_of_pos (show 0 < m / 127 by positivity), show (-(b64.prec : ℤ)) = -53 from rfl, hu, abs_le] at e1
    have hs0 : 0 < s := by linarith
    intro d hd
    obtain ⟨x, hx, rfl⟩ := List.mem_map.mp hd
    have hx' := hm.1 x hx
    have hq : |x / s| ≤ 127 + 1 / 1000 := by
      rw [abs_div, abs_of_pos hs0, div_le_iff₀ hs0]
      linarith
    have hr : |b64.roundQ (x / s)| < 128 := by
      have hmono : ∀ {a b : ℚ}, a ≤ b → b64.roundQ a ≤ b64.roundQ b := fun h => roundQ_mono (by decide) h
      rw [abs_le] at hq
      have u1 := hmono hq.2
      have u2 := hmono hq.1
      have c1 : b64.roundQ (127 + 1 / 1000) < 128 := by decide +kernel
      have c2 : -128 < b64.roundQ (-(127 + 1 / 1000)) := by decide +kernel
      rw [abs_lt]
      constructor <;> linarith
    have ht := (truncQ_near (b64.roundQ (x / s))).2
    have hlt : |(truncQ (b64.roundQ (x / s)) : ℚ)| < 128 := lt_of_le_of_lt ht hr
    rw [abs_lt] at hlt
    have l1 : (-128 : ℤ) < truncQ (b64.roundQ (x / s)) := by exact_mod_cast hlt.1
    have l2 : truncQ (b64.roundQ (x / s)) < 128 := by exact_mod_cast hlt.2
    omega

/-- Specification: the averages, each at its place in the table, with lines between. -/
def Spec.line (average : List ℚ) (x : ℚ) : ℚ :=
  let n := average.length
  let l : ℕ := ⌊n * x⌋₊
  let f : ℚ := n * x - l
  (1 - f) * average.getD (l % n) 0 + f * average.getD ((l + 1) % n) 0

/-- **C98** In exact arithmetic the largest average uses the full range of the table, and
the current that the controller adds at any angle is closer than one step, 1/127 of the
largest average, to the averages with lines between. -/
theorem C98_applied {average : List ℚ} {m : ℚ} (hm : Spec.Largest average m) (h0 : m ≠ 0)
    (hlen : average.length = 1024) :
    ∃ ds, table id average = .ok (m / 127, ds) ∧ (127 ∈ ds ∨ -127 ∈ ds) ∧
    ∀ x, 0 ≤ x → x < 1 → ∃ c, Modes.sample .exact ds (.fin (m / 127)) (.fin x) = some (.fin c) ∧
      |c - Spec.line average x| < m / 127 := by
  have hne : average ≠ [] := by
    obtain ⟨x, hx, -⟩ := hm.2
    exact List.ne_nil_of_mem hx
  have hm0 : 0 < m := by
    obtain ⟨x, -, hx⟩ := hm.2
    have := abs_nonneg x
    exact lt_of_le_of_ne (by linarith) (Ne.symm h0)
  have hs0 : 0 < m / 127 := by positivity
  refine ⟨average.map fun x => truncQ (x / (m / 127)), table_id hm h0, ?_, ?_⟩
  · obtain ⟨x, hx, e⟩ := hm.2
    rcases abs_choice x with h | h
    · left
      refine List.mem_map.mpr ⟨x, hx, ?_⟩
      rw [show x = m by rw [← e, h], show m / (m / 127) = 127 by field_simp]
      decide +kernel
    · right
      refine List.mem_map.mpr ⟨x, hx, ?_⟩
      rw [show x = -m by rw [← e, h]; ring, show -m / (m / 127) = -127 by field_simp]
      decide +kernel
  · intro x hx0 hx1
    refine ⟨_, Modes.C84_cogging_exact (by simpa using hne) (by simp [hlen]) (m / 127) hx0 hx1, ?_⟩
    unfold Modes.Spec.interpolate Spec.line
    simp only [List.length_map, hlen]
    have hget : ∀ k, k < 1024 → |m / 127 * (((average.map fun x => truncQ (x / (m / 127))).getD k 0 : ℤ) : ℚ) -
        average.getD k 0| < m / 127 := by
      intro k hk
      have hk' : k < average.length := by omega
      simp only [List.getD_eq_getElem?_getD, List.getElem?_map, List.getElem?_eq_getElem hk', Option.map_some,
        Option.getD_some]
      have h := (truncQ_near (average[k] / (m / 127))).1
      have e : m / 127 * (truncQ (average[k] / (m / 127)) : ℚ) - average[k] =
          m / 127 * ((truncQ (average[k] / (m / 127)) : ℚ) - average[k] / (m / 127)) := by
        field_simp
      rw [e, abs_mul, abs_of_pos hs0]
      nlinarith
    have f0 : 0 ≤ ((1024 : ℕ) : ℚ) * x - (⌊((1024 : ℕ) : ℚ) * x⌋₊ : ℚ) :=
      sub_nonneg.mpr (Nat.floor_le (by positivity))
    have f1 : ((1024 : ℕ) : ℚ) * x - (⌊((1024 : ℕ) : ℚ) * x⌋₊ : ℚ) < 1 := by
      have := Nat.lt_floor_add_one (((1024 : ℕ) : ℚ) * x)
      linarith
    have g1 := hget (⌊((1024 : ℕ) : ℚ) * x⌋₊ % 1024) (Nat.mod_lt _ (by norm_num))
    have g2 := hget ((⌊((1024 : ℕ) : ℚ) * x⌋₊ + 1) % 1024) (Nat.mod_lt _ (by norm_num))
    generalize ((1024 : ℕ) : ℚ) * x - (⌊((1024 : ℕ) : ℚ) * x⌋₊ : ℚ) = f at f0 f1 ⊢
    generalize (((average.map fun x => truncQ (x / (m / 127))).getD (⌊((1024 : ℕ) : ℚ) * x⌋₊ % 1024) 0 : ℤ) : ℚ) =
      a at g1 ⊢
    generalize (((average.map fun x => truncQ (x / (m / 127))).getD ((⌊((1024 : ℕ) : ℚ) * x⌋₊ + 1) % 1024) 0 : ℤ) :
      ℚ) = b at g2 ⊢
    generalize average.getD (⌊((1024 : ℕ) : ℚ) * x⌋₊ % 1024) 0 = a' at g1 ⊢
    generalize average.getD ((⌊((1024 : ℕ) : ℚ) * x⌋₊ + 1) % 1024) 0 = b' at g2 ⊢
    rw [abs_lt] at g1 g2 ⊢
    constructor <;> nlinarith

/-! ## Where it fails -/

theorem alternating (n : ℕ) (hn : 0 < n) :
    Spec.Largest ((List.range n).map fun k => if k % 2 = 0 then (1 : ℚ) else -1) 1 := by
  constructor
  · intro x hx
    obtain ⟨k, -, rfl⟩ := List.mem_map.mp hx
    split <;> norm_num
  · exact ⟨1, List.mem_map.mpr ⟨0, List.mem_range.mpr hn, rfl⟩, by norm_num⟩

/-- **C98 refuted** The mean of a window belongs to the middle of the window, but the
controller applies it at its beginning: for currents that alternate between 1 A and -1 A
from bin to bin, nothing is applied in the middle of the first bin, where 1 A was
measured, and 1 A at its border. -/
theorem C98_place_refuted :
    let l := (List.range 1024).map fun k => if k % 2 = 0 then (1 : ℚ) else -1
    ∃ as ds, averages l l = .ok as ∧ as = l ∧ table id as = .ok (1 / 127, ds) ∧
      Modes.sample .exact ds (.fin (1 / 127)) (.fin (1 / 2048)) = some (.fin 0) ∧
      Modes.sample .exact ds (.fin (1 / 127)) (.fin 0) = some (.fin 1) := by
  refine ⟨_, (List.range 1024).map fun k => if k % 2 = 0 then (127 : ℤ) else -127, ?_, rfl, ?_, ?_, ?_⟩
  · have hl : ((List.range 1024).map fun k => if k % 2 = 0 then (1 : ℚ) else -1).length = 1024 := by
      rw [List.length_map, List.length_range]
    obtain ⟨as, h1, h2, h3⟩ := C98_average_partial
      (forward := (List.range 1024).map fun k => if k % 2 = 0 then (1 : ℚ) else -1)
      (reverse := (List.range 1024).map fun k => if k % 2 = 0 then (1 : ℚ) else -1) rfl hl.ge
    rw [h1]
    refine congrArg Except.ok (List.ext_getElem? fun i => ?_)
    by_cases hi : i < 1024
    · obtain ⟨m, -, hm, e⟩ := h3 i hi
      rw [hl] at hm e
      have hs : ∀ i, start 1024 i = i := fun i => by unfold start; omega
      rw [hs, hs, Nat.add_sub_cancel_left] at hm
      subst hm
      rw [e, hs, List.range_one, List.map_cons, List.map_nil, List.sum_cons, List.sum_nil, Nat.add_zero,
        List.getD_eq_getElem?_getD, List.getElem?_map, List.getElem?_range hi]
      have ha : ∀ a : ℚ, (a + 0 + (a + 0)) / (2 * ((1 : ℕ) : ℚ)) = a := fun a => by push_cast; ring
      rw [Option.map_some, Option.getD_some, ha]
    · rw [List.getElem?_eq_none (by omega), List.getElem?_eq_none (by rw [hl]; omega)]
  · rw [table_id (alternating 1024 (by norm_num)) one_ne_zero, List.map_map]
    have h : ∀ k ∈ List.range 1024, ((fun x : ℚ => truncQ (x / (1 / 127))) ∘ fun k : ℕ =>
        if k % 2 = 0 then (1 : ℚ) else -1) k = if k % 2 = 0 then (127 : ℤ) else -127 := by
      intro k _
      simp only [Function.comp]
      split <;> decide +kernel
    rw [List.map_congr_left h]
  · decide +kernel
  · decide +kernel

/-- **C98 refuted** With fewer than 8 splits (`--split-count`) the histograms have fewer
than 1024 bins, and the program always ends with an exception. -/
theorem C98_short_refuted {forward reverse : List ℚ} (hf : forward.length = reverse.length)
    (hn : reverse.length < 1024) : averages forward reverse = .error .zeroDivision := by
  unfold averages
  rw [if_pos hf]
  rw [List.range_succ_eq_map, averagesFrom]
  have h : averageAt forward reverse 0 = .error .zeroDivision := by
    unfold averageAt
    have : start reverse.length (0 + 1) = 0 := by unfold start; omega
    simp only [window_length hf (show 0 < 1024 by norm_num), window_length rfl (show 0 < 1024 by norm_num), this,
      Nat.zero_sub, if_true]
  rw [h]

/-- **C98 refuted** A motor without cogging: division by zero. -/
theorem C98_zero_refuted (rnd : ℚ → ℚ) (h : rnd 0 = 0) (n : ℕ) :
    table rnd (List.replicate n 0) = .error .zeroDivision := by
  have h1 : ∀ n (f : ℚ → ℚ → ℚ), f 0 0 = 0 → (List.replicate n (0 : ℚ)).foldl f 0 = 0 := by
    intro n f hf
    induction n with
    | zero => rfl
    | succ n ih => rw [List.replicate_succ, List.foldl_cons, hf, ih]
  have h2 : maxOf (List.replicate n 0) = 0 ∧ minOf (List.replicate n 0) = 0 := by
    cases n with
    | zero => exact ⟨rfl, rfl⟩
    | succ n => exact ⟨h1 n max (max_self 0), h1 n min (min_self 0)⟩
  unfold table scale
  rw [h2.1, h2.2]
  simp [h]

/-- **C98** If all means are finite, the limits of the position are as before. -/
theorem C98_limits_partial (d : Device) (reverse forward : List Fl)
    (h : ∀ x ∈ reverse ++ forward, x.isFinite = true) :
    (readData d reverse forward).2 = d ∧ (run d reverse forward).limits = d.limits ∧
      (run d reverse forward).saved = d.limits := by
  have h1 : (reverse.any fun x => !x.isFinite) = false := by
    rw [List.any_eq_false]
    intro x hx
    simp [h x (List.mem_append_left _ hx)]
  have h2 : (forward.any fun x => !x.isFinite) = false := by
    rw [List.any_eq_false]
    intro x hx
    simp [h x (List.mem_append_right _ hx)]
  have e : readData d reverse forward = (some (reverse, forward), d) := by
    unfold readData
    simp [h1, h2]
  unfold run
  rw [e]
  exact ⟨rfl, rfl, rfl⟩

/-- **C98 refuted** If a bin remained empty, the controller stays without limits of the
position; the next call that succeeds saves that. -/
theorem C98_limits_refuted (d : Device) {reverse forward reverse' forward' : List Fl}
    (h : Fl.nan ∈ reverse ++ forward) (h' : ∀ x ∈ reverse' ++ forward', x.isFinite = true) :
    (run d reverse forward).limits = (.nan, .nan) ∧
    (run (run d reverse forward) reverse' forward').saved = (.nan, .nan) := by
  have e : (run d reverse forward).limits = (.nan, .nan) := by
    unfold run readData
    by_cases h1 : (reverse.any fun x => !x.isFinite) = true
    · simp [h1]
    · have h2 : (forward.any fun x => !x.isFinite) = true := by
        rw [List.any_eq_true] at h1 ⊢
        rcases List.mem_append.mp h with h | h
        · exact absurd ⟨_, h, rfl⟩ h1
        · exact ⟨_, h, rfl⟩
      simp [h1, h2]
  exact ⟨e, (C98_limits_partial _ reverse' forward' h').2.2.trans e⟩

/-- **C98 refuted** The currents are gathered over the compensated value of encoder 0,
whatever the source of commutation; the controller applies the table at the filtered
value of the source of commutation (`fw/bldc_servo.cc` 2111-2117). -/
theorem C98_encoder_refuted (s : Hist.State) :
    let h := Hist.hstart Hist.noNumber s [['y', 'q']]
    h.1 = true ∧ h.2.x.kind = .compensated ∧ h.2.x.channel = 0 ∧ h.2.x.derivative = false ∧
      h.2.y.kind = .currentQ ∧ h.2.y.derivative = false := ⟨rfl, rfl, rfl, rfl, rfl, rfl⟩

/-! ## Examples -/

example := alternating 1024 (by norm_num)

example : table b64.roundQ [3 / 2, -3, 1] = .ok (b64.roundQ (3 / 127), [63, -127, 42]) := by decide +kernel

example : start 2048 5 = 10 ∧ start 2048 6 = 12 := by decide

example : ∃ forward reverse : List ℚ, forward.length = reverse.length ∧ 1024 ≤ reverse.length :=
  ⟨List.replicate 1024 1, List.replicate 1024 1, rfl, List.length_replicate.ge⟩

example : ∃ d : Device, run d [.fin 1, .nan] [.fin 1] ≠ d := ⟨⟨(.fin 0, .fin 1), (.fin 0, .fin 1)⟩, by decide⟩

end Verif.Tool.Cogging
