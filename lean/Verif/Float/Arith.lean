import Verif.Float.Ieee

/-!
# Floating point arithmetic of the firmware

The controller computes in C `float`.  The operations below act on `Fl` (NaN,
the two infinities, and finite values), rounding every exact result with an
arithmetic `A : Ar`.  Two arithmetics are used: `single` (IEEE binary32, what
the STM32G4 does) and `exact` (no rounding, no overflow: the control law as
written on paper).

Simplifications: one NaN, no signed zero (a division by zero has the sign of
the dividend, as if the zero were positive), no flush to zero.
-/

namespace Verif.Float

/-- An arithmetic: how an exact result is rounded, and when it overflows. -/
structure Ar where
  rq : ℚ → ℚ
  over : ℚ → Bool

namespace Ar

/-- Exact rational arithmetic. -/
def exact : Ar := ⟨id, fun _ => false⟩

/-- IEEE binary32. -/
def single : Ar := ⟨b32.roundQ, fun y => decide (pow2 b32.emax ≤ |y|)⟩

/-- Round an exact result. -/
def rnd (A : Ar) (x : ℚ) : Fl :=
  if A.over (A.rq x) then .inf (decide (x < 0)) else .fin (A.rq x)

theorem single_rnd (x : ℚ) : single.rnd x = b32.round x := by
  unfold rnd single Fmt.round
  by_cases h : |b32.roundQ x| < pow2 b32.emax
  · simp [h]
  · simp [h, not_lt.mp h]

@[simp] theorem exact_rnd (x : ℚ) : exact.rnd x = .fin x := by simp [rnd, exact]

/-- The laws that the proofs use. -/
structure Law (A : Ar) : Prop where
  mono : ∀ {x y : ℚ}, x ≤ y → A.rq x ≤ A.rq y
  odd : ∀ x : ℚ, A.rq (-x) = -A.rq x
  idem : ∀ x : ℚ, A.rq (A.rq x) = A.rq x
  over_mono : ∀ {x y : ℚ}, |x| ≤ |y| → A.over x = true → A.over y = true
  over_zero : A.over 0 = false

theorem exact_law : Law exact :=
  ⟨fun h => h, fun _ => rfl, fun _ => rfl, fun _ h => by simp [exact] at h, rfl⟩

theorem single_law : Law single where
  mono := fun h => roundQ_mono (by decide) h
  odd := fun x => roundQ_neg _ x
  idem := fun x => roundQ_idem (by decide) x
  over_mono := by
    intro x y h hx
    simp only [single, decide_eq_true_eq] at hx ⊢
    exact hx.trans h
  over_zero := by decide +kernel

/-- A rational that the arithmetic represents exactly. -/
def Rep (A : Ar) (x : ℚ) : Prop := A.rq x = x ∧ A.over x = false

end Ar

namespace Fl

/-- The order of `≤` on floats (IEEE: false when an operand is NaN). -/
def ble : Fl → Fl → Bool
  | .nan, _ => false
  | _, .nan => false
  | .inf true, _ => true
  | _, .inf false => true
  | .fin a, .fin b => decide (a ≤ b)
  | .inf false, .fin _ => false
  | .inf false, .inf true => false
  | .fin _, .inf true => false

/-- `<` on floats. -/
def blt (x y : Fl) : Bool := ble x y && !ble y x

/-- `==` on floats. -/
def beq (x y : Fl) : Bool := ble x y && ble y x

/-- `std::isnan`. -/
def isNan : Fl → Bool
  | .nan => true
  | _ => false

/-- `std::isfinite`. -/
def isFinite : Fl → Bool
  | .fin _ => true
  | _ => false

/-- Unary minus. -/
def neg : Fl → Fl
  | .nan => .nan
  | .inf s => .inf (!s)
  | .fin q => .fin (-q)

/-- `std::abs`. -/
def abs : Fl → Fl
  | .nan => .nan
  | .inf _ => .inf false
  | .fin q => .fin |q|

/-- `std::min(a, b)`: `b < a ? b : a`. -/
def min (a b : Fl) : Fl := if blt b a then b else a

/-- `std::max(a, b)`: `a < b ? b : a`. -/
def max (a b : Fl) : Fl := if blt a b then b else a

/-- mjlib `Limit(a, min, max)`: `if (a < min) return min; if (a > max) return
max; return a`. -/
def limit (a lo hi : Fl) : Fl :=
  if blt a lo then lo else if blt hi a then hi else a

/-- Order as a proposition. -/
def Le (x y : Fl) : Prop := ble x y = true

@[simp] theorem ble_fin (a b : ℚ) : ble (.fin a) (.fin b) = decide (a ≤ b) := rfl
@[simp] theorem ble_nan_left (x : Fl) : ble .nan x = false := by cases x <;> rfl
@[simp] theorem ble_nan_right (x : Fl) : ble x .nan = false := by
  rcases x with _ | ⟨_ | _⟩ | _ <;> rfl
@[simp] theorem blt_fin (a b : ℚ) : blt (.fin a) (.fin b) = decide (a < b) := by
  unfold blt
  by_cases h : a < b
  · simp [h, h.le]
  · simp [h, not_lt.mp h]
@[simp] theorem beq_fin (a b : ℚ) : beq (.fin a) (.fin b) = decide (a = b) := by
  unfold beq
  by_cases h : a = b
  · simp [h]
  · have : ¬(a ≤ b ∧ b ≤ a) := fun ⟨x, y⟩ => h (le_antisymm x y)
    simp only [ble_fin, h, decide_false, Bool.and_eq_false_iff, decide_eq_false_iff_not]
    by_cases h1 : a ≤ b
    · exact Or.inr fun h2 => this ⟨h1, h2⟩
    · exact Or.inl h1
@[simp] theorem blt_nan_left (x : Fl) : blt .nan x = false := by simp [blt]
@[simp] theorem blt_nan_right (x : Fl) : blt x .nan = false := by simp [blt]

theorem Le.refl {x : Fl} (h : x ≠ .nan) : Le x x := by
  rcases x with _ | ⟨_ | _⟩ | a
  · exact absurd rfl h
  · rfl
  · rfl
  · simp [Le]

theorem Le.trans {x y z : Fl} (h : Le x y) (k : Le y z) : Le x z := by
  unfold Le at *
  rcases x with _ | ⟨_ | _⟩ | a <;> rcases y with _ | ⟨_ | _⟩ | b <;>
    rcases z with _ | ⟨_ | _⟩ | c <;> simp_all [ble]
  exact le_trans h k

theorem Le.total {x y : Fl} (hx : x ≠ .nan) (hy : y ≠ .nan) : Le x y ∨ Le y x := by
  unfold Le
  rcases x with _ | ⟨_ | _⟩ | a <;> rcases y with _ | ⟨_ | _⟩ | b <;> simp_all [ble]
  exact le_total a b

theorem Le.antisymm {x y : Fl} (h : Le x y) (k : Le y x) : x = y := by
  unfold Le at *
  rcases x with _ | ⟨_ | _⟩ | a <;> rcases y with _ | ⟨_ | _⟩ | b <;> simp_all [ble]
  exact le_antisymm h k

theorem Le.not_nan {x y : Fl} (h : Le x y) : x ≠ .nan ∧ y ≠ .nan := by
  constructor <;> rintro rfl <;> simp [Le] at h

@[simp] theorem Le_fin (a b : ℚ) : Le (.fin a) (.fin b) ↔ a ≤ b := by simp [Le]

theorem not_blt {x y : Fl} (hx : x ≠ .nan) (hy : y ≠ .nan) : blt x y = false ↔ Le y x := by
  unfold blt
  have := Le.total hx hy
  unfold Le at *
  cases h1 : ble x y <;> cases h2 : ble y x <;> simp_all

theorem Le_of_blt {x y : Fl} (h : blt x y = true) : Le x y := by
  unfold blt at h
  unfold Le
  cases h1 : ble x y <;> simp_all

theorem neg_Le {x y : Fl} (h : Le x y) : Le y.neg x.neg := by
  unfold Le at *
  rcases x with _ | ⟨_ | _⟩ | a <;> rcases y with _ | ⟨_ | _⟩ | b <;> simp_all [ble, neg]

@[simp] theorem neg_neg (x : Fl) : x.neg.neg = x := by cases x <;> simp [neg]

theorem neg_ne_nan {x : Fl} (h : x ≠ .nan) : x.neg ≠ .nan := by
  cases x <;> simp_all [neg]

/-- `|x| ≤ |y|`, written as the two bounds. -/
theorem abs_Le_iff {x y : Fl} : Le x.abs y.abs ↔ Le y.abs.neg x ∧ Le x y.abs := by
  unfold Le
  rcases x with _ | ⟨_ | _⟩ | a <;> rcases y with _ | ⟨_ | _⟩ | b <;>
    simp [ble, neg, abs, abs_le]

/-- A limited value lies between the bounds, unless it is NaN. -/
theorem limit_mem {a lo hi : Fl} (h : Le lo hi) (ha : a ≠ .nan) :
    Le lo (limit a lo hi) ∧ Le (limit a lo hi) hi := by
  obtain ⟨hl, hh⟩ := h.not_nan
  unfold limit
  split
  · exact ⟨Le.refl hl, h⟩
  · rename_i h1
    rw [Bool.not_eq_true, not_blt ha hl] at h1
    split
    · exact ⟨h, Le.refl hh⟩
    · rename_i h2
      rw [Bool.not_eq_true, not_blt hh ha] at h2
      exact ⟨h1, h2⟩

/-- Limiting never leaves an interval that contains the value and meets the
limits. -/
theorem limit_between {a lo hi u v : Fl} (h1 : Le u a) (h2 : Le a v) (h3 : Le u hi) (h4 : Le lo v) :
    Le u (limit a lo hi) ∧ Le (limit a lo hi) v := by
  unfold limit
  split
  · rename_i h; exact ⟨h1.trans (Le_of_blt h), h4⟩
  · split
    · rename_i h; exact ⟨h3, (Le_of_blt h).trans h2⟩
    · exact ⟨h1, h2⟩

theorem limit_fin (a lo hi : ℚ) :
    limit (.fin a) (.fin lo) (.fin hi) = .fin (if a < lo then lo else if hi < a then hi else a) := by
  unfold limit
  simp only [blt_fin, decide_eq_true_eq]
  split
  · rfl
  · split <;> rfl

@[simp] theorem limit_nan (lo hi : Fl) : limit .nan lo hi = .nan := by simp [limit]

end Fl

namespace Ar

variable (A : Ar)

/-- `a + b`. -/
def add : Fl → Fl → Fl
  | .nan, _ => .nan
  | _, .nan => .nan
  | .inf s, .inf t => if s = t then .inf s else .nan
  | .inf s, .fin _ => .inf s
  | .fin _, .inf t => .inf t
  | .fin a, .fin b => A.rnd (a + b)

/-- `a - b`. -/
def sub (x y : Fl) : Fl := A.add x y.neg

/-- Sign of a product with an infinity. -/
def infMul (s : Bool) (q : ℚ) : Fl := if q = 0 then .nan else .inf (xor s (decide (q < 0)))

/-- `a * b`. -/
def mul : Fl → Fl → Fl
  | .nan, _ => .nan
  | _, .nan => .nan
  | .inf s, .inf t => .inf (xor s t)
  | .inf s, .fin q => infMul s q
  | .fin q, .inf s => infMul s q
  | .fin a, .fin b => A.rnd (a * b)

/-- `a / b`. -/
def div : Fl → Fl → Fl
  | .nan, _ => .nan
  | _, .nan => .nan
  | .inf _, .inf _ => .nan
  | .inf s, .fin q => .inf (xor s (decide (q < 0)))
  | .fin _, .inf _ => .fin 0
  | .fin a, .fin b =>
    if b = 0 then (if a = 0 then .nan else .inf (decide (a < 0))) else A.rnd (a / b)

/-- A float constant or an integer converted to `float`. -/
def lit (q : ℚ) : Fl := A.rnd q

variable {A}

theorem rnd_ne_nan (x : ℚ) : A.rnd x ≠ .nan := by unfold rnd; split <;> simp

theorem Law.zero (hA : Law A) : A.rq 0 = 0 := by
  have := hA.odd 0
  simp only [neg_zero] at this
  linarith

theorem Law.nonneg (hA : Law A) {x : ℚ} (h : 0 ≤ x) : 0 ≤ A.rq x := by
  have := hA.mono h
  rwa [hA.zero] at this

theorem Law.nonpos (hA : Law A) {x : ℚ} (h : x ≤ 0) : A.rq x ≤ 0 := by
  have := hA.mono h
  rwa [hA.zero] at this

/-- Rounding is monotone, also where it overflows. -/
theorem Law.rnd_mono (hA : Law A) {x y : ℚ} (h : x ≤ y) : (A.rnd x).Le (A.rnd y) := by
  have hm := hA.mono h
  unfold rnd
  split
  · rename_i hx
    by_cases x0 : x < 0
    · simp only [x0, decide_true]
      split <;> rfl
    · simp only [x0, decide_false]
      have h0 : 0 ≤ x := not_lt.mp x0
      have h1 := hA.nonneg h0
      have : A.over (A.rq y) = true :=
        hA.over_mono (by rw [abs_of_nonneg h1, abs_of_nonneg (h1.trans hm)]; exact hm) hx
      rw [if_pos this]
      have : ¬ y < 0 := not_lt.mpr (h0.trans h)
      simp [this, Fl.Le, Fl.ble]
  · rename_i hx
    split
    · rename_i hy
      by_cases y0 : y < 0
      · have h1 := hA.nonpos y0.le
        have : A.over (A.rq x) = true :=
          hA.over_mono (by rw [abs_of_nonpos h1, abs_of_nonpos (hm.trans h1)]; linarith) hy
        exact absurd this hx
      · simp [y0, Fl.Le, Fl.ble]
    · simpa using hm

theorem Rep.rnd {x : ℚ} (h : A.Rep x) : A.rnd x = .fin x := by
  simp [Ar.rnd, h.1, h.2]

theorem Law.rep_zero (hA : Law A) : A.Rep 0 := ⟨hA.zero, hA.over_zero⟩

theorem Law.over_neg (hA : Law A) (x : ℚ) : A.over (-x) = A.over x := by
  cases h : A.over x
  · cases h' : A.over (-x)
    · rfl
    · have := hA.over_mono (x := -x) (y := x) (by simp) h'
      rw [h] at this; exact absurd this (by simp)
  · exact hA.over_mono (x := x) (y := -x) (by simp) h

theorem Law.rep_neg (hA : Law A) {x : ℚ} (h : A.Rep x) : A.Rep (-x) :=
  ⟨by rw [hA.odd, h.1], by rw [hA.over_neg]; exact h.2⟩

theorem Law.rep_abs (hA : Law A) {x : ℚ} (h : A.Rep x) : A.Rep |x| := by
  rcases abs_choice x with e | e <;> rw [e]
  · exact h
  · exact hA.rep_neg h

/-- A finite result is representable. -/
theorem Law.rep_of_rnd (hA : Law A) {x y : ℚ} (h : A.rnd x = .fin y) : A.Rep y := by
  unfold Ar.rnd at h
  split at h
  · exact absurd h (by simp)
  · rename_i ho
    injection h with h
    subst h
    exact ⟨hA.idem x, by simpa using ho⟩

theorem Law.rnd_neg (hA : Law A) (x : ℚ) (hx : x ≠ 0) : A.rnd (-x) = (A.rnd x).neg := by
  unfold Ar.rnd
  rw [hA.odd, hA.over_neg]
  split
  · simp only [Fl.neg, Fl.inf.injEq]
    rcases lt_or_gt_of_ne hx with h | h
    · simp [h, not_lt.mpr h.le]
    · simp [h, not_lt.mpr h.le]
  · rfl

theorem Law.le_rnd (hA : Law A) {r x : ℚ} (hr : A.Rep r) (h : r ≤ x) : (Fl.fin r).Le (A.rnd x) := by
  rw [← hr.rnd]; exact hA.rnd_mono h

theorem Law.rnd_le (hA : Law A) {r x : ℚ} (hr : A.Rep r) (h : x ≤ r) : (A.rnd x).Le (Fl.fin r) := by
  rw [← hr.rnd]; exact hA.rnd_mono h

/-- A value that a variable of the arithmetic can hold. -/
def RepF (A : Ar) : Fl → Prop
  | .fin q => A.Rep q
  | _ => True

theorem Law.repF_rnd (hA : Law A) (x : ℚ) : A.RepF (A.rnd x) := by
  unfold RepF
  split
  · rename_i q h; exact hA.rep_of_rnd h
  · trivial

theorem Law.repF_add (hA : Law A) (x y : Fl) : A.RepF (A.add x y) := by
  unfold add
  split <;> try trivial
  · split <;> trivial
  · exact hA.repF_rnd _

theorem Law.repF_sub (hA : Law A) (x y : Fl) : A.RepF (A.sub x y) := hA.repF_add _ _

theorem repF_infMul (s : Bool) (q : ℚ) : A.RepF (infMul s q) := by
  unfold infMul; split <;> trivial

theorem Law.repF_mul (hA : Law A) (x y : Fl) : A.RepF (A.mul x y) := by
  unfold mul
  split <;> first | trivial | exact repF_infMul _ _ | exact hA.repF_rnd _

theorem Law.repF_div (hA : Law A) (x y : Fl) : A.RepF (A.div x y) := by
  unfold div
  split <;> try trivial
  · exact hA.rep_zero
  · split
    · split <;> trivial
    · exact hA.repF_rnd _

theorem Law.repF_neg (hA : Law A) {x : Fl} (h : A.RepF x) : A.RepF x.neg := by
  cases x
  · trivial
  · trivial
  · exact hA.rep_neg h

theorem Law.repF_abs (hA : Law A) {x : Fl} (h : A.RepF x) : A.RepF x.abs := by
  cases x
  · trivial
  · trivial
  · exact hA.rep_abs h

theorem repF_limit {x lo hi : Fl} (h : A.RepF x) (h1 : A.RepF lo) (h2 : A.RepF hi) :
    A.RepF (Fl.limit x lo hi) := by
  unfold Fl.limit; split
  · exact h1
  · split
    · exact h2
    · exact h

theorem add_fin (a b : ℚ) : A.add (.fin a) (.fin b) = A.rnd (a + b) := rfl

theorem negInf_Le {x : Fl} (h : x ≠ .nan) : (Fl.inf true).Le x := by
  rcases x with _ | ⟨_ | _⟩ | a
  · exact absurd rfl h
  all_goals rfl

theorem Le_posInf {x : Fl} (h : x ≠ .nan) : x.Le (Fl.inf false) := by
  rcases x with _ | ⟨_ | _⟩ | a
  · exact absurd rfl h
  all_goals rfl

/-- Addition is monotone in its second operand where no NaN appears. -/
theorem Law.add_mono (hA : Law A) {x y z : Fl} (h : y.Le z) (h1 : A.add x y ≠ .nan)
    (h2 : A.add x z ≠ .nan) : (A.add x y).Le (A.add x z) := by
  rcases x with _ | s | a
  · exact absurd (by cases y <;> rfl) h1
  · have e1 : A.add (.inf s) y = .inf s := by
      rcases y with _ | t | b
      · exact absurd rfl h1
      · by_cases e : s = t
        · simp [add, e]
        · exact absurd (by simp [add, e]) h1
      · rfl
    have e2 : A.add (.inf s) z = .inf s := by
      rcases z with _ | t | b
      · exact absurd rfl h2
      · by_cases e : s = t
        · simp [add, e]
        · exact absurd (by simp [add, e]) h2
      · rfl
    rw [e1, e2]; exact Fl.Le.refl (by simp)
  · rcases y with _ | ⟨_ | _⟩ | b
    · exact absurd rfl h1
    · have : z = .inf false := (h.antisymm (Le_posInf h.not_nan.2)).symm
      subst this; exact Fl.Le.refl (by simp [add])
    · exact negInf_Le h2
    · rcases z with _ | ⟨_ | _⟩ | c
      · exact absurd rfl h2
      · exact Le_posInf h1
      · exact absurd h (by simp [Fl.Le, Fl.ble])
      · exact hA.rnd_mono (by rw [Fl.Le_fin] at h; linarith)

end Ar

end Verif.Float
