import Verif.Session.Resist
import Mathlib.Algebra.BigOperators.Group.List.Basic
import Mathlib.Tactic.Positivity
import Mathlib.Tactic.LinearCombination

/-!
# The fit of a line, and Kv

Specification: the sum of the squared deviations of points from a line; `Spins s t`:
in the trace, every telemetry that was received while a voltage is applied shows
a speed proportional to the voltage.
-/

namespace Verif.Session

open Arith

/-- Sum of the squared deviations from the line `y = a + b · x`. -/
def sqErr (l : List (ℚ × ℚ)) (a b : ℚ) : ℚ := (l.map fun p => (p.2 - (a + b * p.1)) ^ 2).sum

theorem sum_some_aux (l : List ℚ) (a : ℚ) :
    (l.map some).foldl (Q.both none fun x y => some (x + y)) (some a) = some (a + l.sum) := by
  induction l generalizing a with
  | nil =>
    rw [List.sum_nil, add_zero]
    rfl
  | cons y l ih =>
    rw [List.map_cons, List.foldl_cons, List.sum_cons, ← add_assoc]
    exact ih (a + y)

theorem sum_some (l : List ℚ) : (sum (l.map some) : Q) = some l.sum := by
  have := sum_some_aux l 0
  rwa [zero_add] at this

theorem sqErr_moments (l : List (ℚ × ℚ)) (a b : ℚ) :
    sqErr l a b = (l.map fun p => p.2 ^ 2).sum - 2 * a * (l.map Prod.snd).sum
      - 2 * b * (l.map fun p => p.1 * p.2).sum + l.length * a ^ 2
      + 2 * a * b * (l.map Prod.fst).sum + b ^ 2 * (l.map fun p => p.1 ^ 2).sum := by
  unfold sqErr
  induction l with
  | nil => simp
  | cons p l ih =>
    simp only [List.map_cons, List.sum_cons, List.length_cons, Nat.cast_succ, ih]
    ring

theorem cross_moments (l : List (ℚ × ℚ)) (m n : ℚ) :
    (l.map fun p => (p.1 - m) * (p.2 - n)).sum = (l.map fun p => p.1 * p.2).sum
      - m * (l.map Prod.snd).sum - n * (l.map Prod.fst).sum + l.length * (m * n) := by
  induction l with
  | nil => simp
  | cons p l ih =>
    simp only [List.map_cons, List.sum_cons, List.length_cons, Nat.cast_succ, ih]
    ring

theorem square_moments (l : List (ℚ × ℚ)) (m : ℚ) :
    (l.map fun p => (p.1 - m) * (p.1 - m)).sum = (l.map fun p => p.1 ^ 2).sum
      - 2 * m * (l.map Prod.fst).sum + l.length * m ^ 2 := by
  induction l with
  | nil => simp
  | cons p l ih =>
    simp only [List.map_cons, List.sum_cons, List.length_cons, Nat.cast_succ, ih]
    ring

theorem squares_nonneg (l : List (ℚ × ℚ)) (m : ℚ) :
    0 ≤ (l.map fun p => (p.1 - m) * (p.1 - m)).sum := by
  induction l with
  | nil => exact le_rfl
  | cons p l ih =>
    rw [List.map_cons, List.sum_cons]
    exact add_nonneg (mul_self_nonneg _) ih

theorem squares_zero (l : List (ℚ × ℚ)) (m : ℚ)
    (h : (l.map fun p => (p.1 - m) * (p.1 - m)).sum = 0) : ∀ p ∈ l, p.1 = m := by
  induction l with
  | nil => exact fun p hp => absurd hp List.not_mem_nil
  | cons p l ih =>
    rw [List.map_cons, List.sum_cons] at h
    have h1 := mul_self_nonneg (p.1 - m)
    have h2 := squares_nonneg l m
    intro q hq
    rcases List.mem_cons.1 hq with rfl | hq
    · have : (q.1 - m) * (q.1 - m) = 0 := by linarith
      rcases mul_eq_zero.1 this with h | h <;> linarith
    · exact ih (by linarith) q hq

/-- What `linear_regression` computes, for numbers. -/
theorem regression_eq (l : List (ℚ × ℚ)) (hl : l ≠ []) :
    linearRegression ((l.map Prod.fst).map some : List Q) ((l.map Prod.snd).map some) =
    (let n : ℚ := l.length
     let mx := (l.map Prod.fst).sum / n
     let my := (l.map Prod.snd).sum / n
     let d := (l.map fun p => (p.1 - mx) * (p.1 - mx)).sum
     let b := (l.map fun p => (p.1 - mx) * (p.2 - my)).sum / d
     if d = 0 then none else some (some (my - b * mx), some b)) := by
  have h0 : (l.length : ℚ) ≠ 0 := by
    rw [Nat.cast_ne_zero]
    exact fun h => hl (List.length_eq_zero_iff.1 h)
  unfold linearRegression
  rw [sum_some, sum_some, List.length_map, List.length_map, List.length_map, List.length_map]
  rw [lit_eq, div_some _ _ h0, div_some _ _ h0]
  dsimp only [Option.bind_eq_bind, Option.bind_some]
  have e1 : ∀ mx my : ℚ, (((l.map Prod.fst).map some).zip ((l.map Prod.snd).map some)).map
      (fun p : Q × Q => mul (sub p.1 (some mx)) (sub p.2 (some my))) =
      (l.map fun p => (p.1 - mx) * (p.2 - my)).map some := by
    intro mx my
    clear h0 hl
    induction l with
    | nil => rfl
    | cons p l ih =>
      simp only [List.map_cons, List.zip_cons_cons]
      rw [ih]
      rfl
  have e2 : ∀ mx : ℚ, ((l.map Prod.fst).map some).map
      (fun x : Q => mul (sub x (some mx)) (sub x (some mx))) =
      (l.map fun p => (p.1 - mx) * (p.1 - mx)).map some := by
    intro mx
    rw [List.map_map, List.map_map, List.map_map]
    rfl
  rw [e1, e2, sum_some, sum_some]
  split
  · rename_i hd
    rw [hd]
    rfl
  · rename_i hd
    rw [div_some _ _ hd]
    rfl

/-- **C76.** `linear_regression` is defined when two of the x values differ. -/
theorem C76_defined (l : List (ℚ × ℚ)) :
    (linearRegression ((l.map Prod.fst).map some : List Q) ((l.map Prod.snd).map some)).isSome =
      true ↔ ∃ p ∈ l, ∃ q ∈ l, p.1 ≠ q.1 := by
  rcases l with - | ⟨p0, l0⟩
  · constructor
    · intro h
      exact absurd h (by decide +kernel)
    · rintro ⟨p, hp, -⟩
      exact absurd hp List.not_mem_nil
  generalize hl : p0 :: l0 = l
  have hne : l ≠ [] := by rw [← hl]; exact List.cons_ne_nil _ _
  rw [regression_eq l hne]
  dsimp only
  constructor
  · intro h
    by_contra hc
    push Not at hc
    have hd : (l.map fun p => (p.1 - (l.map Prod.fst).sum / (l.length : ℚ)) *
        (p.1 - (l.map Prod.fst).sum / (l.length : ℚ))).sum = 0 := by
      have hall : ∀ p ∈ l, p.1 = p0.1 := fun p hp => hc p hp p0 (by rw [← hl]; simp)
      have hs : (l.map Prod.fst).sum = l.length * p0.1 := by
        clear hc h hl hne
        induction l with
        | nil => simp
        | cons q l ih =>
          rw [List.map_cons, List.sum_cons, ih fun p hp => hall p (by simp [hp]),
            hall q (by simp), List.length_cons, Nat.cast_succ]
          ring
      have h0 : (l.length : ℚ) ≠ 0 := by
        rw [Nat.cast_ne_zero]
        exact fun h => hne (List.length_eq_zero_iff.1 h)
      rw [hs, mul_div_cancel_left₀ _ h0]
      apply List.sum_eq_zero
      intro x hx
      obtain ⟨p, hp, rfl⟩ := List.mem_map.1 hx
      rw [hall p hp, sub_self, mul_zero]
    rw [if_pos hd] at h
    cases h
  · rintro ⟨p, hp, q, hq, hpq⟩
    rw [if_neg]
    · rfl
    · intro hd
      have := squares_zero l _ hd
      exact hpq ((this p hp).trans (this q hq).symm)

/-- **C76.** `linear_regression` returns the line with the least sum of squared
deviations. -/
theorem C76_least_squares (l : List (ℚ × ℚ)) (a b : Q)
    (h : linearRegression ((l.map Prod.fst).map some : List Q) ((l.map Prod.snd).map some) =
      some (a, b)) :
    ∃ a' b', a = some a' ∧ b = some b' ∧ ∀ α β, sqErr l a' b' ≤ sqErr l α β := by
  rcases eq_or_ne l [] with rfl | hl
  · rw [show linearRegression ((([] : List (ℚ × ℚ)).map Prod.fst).map some : List Q)
      ((([] : List (ℚ × ℚ)).map Prod.snd).map some) = none by decide +kernel] at h
    cases h
  have h0 : (l.length : ℚ) ≠ 0 := by
    rw [Nat.cast_ne_zero]
    exact fun h => hl (List.length_eq_zero_iff.1 h)
  rw [regression_eq l hl] at h
  dsimp only at h
  split at h
  · cases h
  · rename_i hd
    cases h
    refine ⟨_, _, rfl, rfl, fun α β => ?_⟩
    have hnn := squares_nonneg l ((l.map Prod.fst).sum / (l.length : ℚ))
    rw [square_moments] at hd hnn
    rw [cross_moments, square_moments, sqErr_moments, sqErr_moments]
    generalize (l.map Prod.fst).sum = Sx at *
    generalize (l.map Prod.snd).sum = Sy at *
    generalize (l.map fun p => p.1 * p.2).sum = Sxy at *
    generalize (l.map fun p => p.1 ^ 2).sum = Sxx at *
    generalize (l.map fun p => p.2 ^ 2).sum = Syy at *
    have hn : (0 : ℚ) < l.length := lt_of_le_of_ne (Nat.cast_nonneg _) h0.symm
    generalize (l.length : ℚ) = n at *
    obtain ⟨mx, rfl⟩ : ∃ mx, Sx = mx * n := ⟨Sx / n, by field_simp⟩
    obtain ⟨my, rfl⟩ : ∃ my, Sy = my * n := ⟨Sy / n, by field_simp⟩
    rw [mul_div_cancel_right₀ _ h0] at hd hnn ⊢
    rw [mul_div_cancel_right₀ _ h0]
    obtain ⟨D, hD⟩ : ∃ D, D = Sxx - 2 * mx * (mx * n) + n * mx ^ 2 := ⟨_, rfl⟩
    rw [← hD] at hd hnn ⊢
    obtain ⟨b, hb⟩ : ∃ b, b = (Sxy - mx * (my * n) - my * (mx * n) + n * (mx * my)) / D := ⟨_, rfl⟩
    rw [← hb]
    have hb' : b * D = Sxy - mx * (my * n) - my * (mx * n) + n * (mx * my) := by
      rw [hb, div_mul_cancel₀ _ hd]
    have hsq : 0 ≤ n * (α + β * mx - my) ^ 2 + (β - b) ^ 2 * D :=
      add_nonneg (mul_nonneg hn.le (sq_nonneg _)) (mul_nonneg (sq_nonneg _) hnn)
    have e : Syy - 2 * α * (my * n) - 2 * β * Sxy + n * α ^ 2 + 2 * α * β * (mx * n) + β ^ 2 * Sxx -
        (Syy - 2 * (my - b * mx) * (my * n) - 2 * b * Sxy + n * (my - b * mx) ^ 2 +
          2 * (my - b * mx) * b * (mx * n) + b ^ 2 * Sxx) =
        n * (α + β * mx - my) ^ 2 + (β - b) ^ 2 * D := by
      have : Sxx = D + n * mx ^ 2 := by rw [hD]; ring
      rw [this]
      linear_combination (2 * β - 2 * b) * hb'
    linarith

/-- Three points that are not on a line. -/
example : linearRegression ([0, 1, 2].map some : List Q) ([0, 1, 1].map some) =
    some (some (1 / 6), some (1 / 2)) := by decide +kernel

/-! ## Kv -/

/-- The last voltage that was applied along the q axis, whether it is still
applied, and whether all speeds so far are `s` times the voltage that was applied
when they were read. -/
def spin (s : ℚ) (z : Q × Bool × Prop) : Ev Q → Q × Bool × Prop
  | .sent (.vdq _ v) _ => (v, true, z.2.2)
  | .sent c _ => (z.1, z.2.1 && !c.drives && !(match c with
      | .stop => true
      | _ => false), z.2.2)
  | .stats x => (z.1, z.2.1, z.2.2 ∧ (z.2.1 = true → ∀ v, z.1 = some v → x.velocity = some (s * v)))
  | _ => z

/-- The motor turns with `s` revolutions per second and volt. -/
def Spins (s : ℚ) (t : List (Ev Q)) : Prop := (t.foldl (spin s) (none, false, True)).2.2

/-- The last voltage that was applied along the q axis. -/
def lastVolt (t : List (Ev Q)) : Q := (t.foldl (spin 0) (none, false, True)).1

theorem spin_mono (s : ℚ) (z : Q × Bool × Prop) (ev : Ev Q) (h : (spin s z ev).2.2) : z.2.2 := by
  unfold spin at h
  split at h
  · exact h
  · exact h
  · exact h.1
  · exact h

theorem spin_fold_mono (s : ℚ) (t : List (Ev Q)) (z : Q × Bool × Prop)
    (h : (t.foldl (spin s) z).2.2) : z.2.2 := by
  induction t generalizing z with
  | nil => exact h
  | cons ev t ih => exact spin_mono s z ev (ih _ h)

/-- The speed `s` does not matter for the voltage. -/
theorem lastVolt_eq (s : ℚ) (t : List (Ev Q)) (z : Q × Bool × Prop) (z' : Q × Bool × Prop)
    (h : z.1 = z'.1) : (t.foldl (spin s) z).1 = (t.foldl (spin 0) z').1 := by
  induction t generalizing z z' with
  | nil => exact h
  | cons ev t ih =>
    refine ih _ _ ?_
    unfold spin
    split <;> first | exact h | rfl

/-- A fact that depends only on the good behaviour so far remains. -/
theorem Holds.frameSpin {α : Type} {s : ℚ} {A : Prop} {p : P Q α}
    {post : α → Q × Bool × Prop → Prop} {pre : Q × Bool × Prop → Prop}
    (h : Holds (spin s) pre p (OkSat post)) :
    Holds (spin s) (fun z => pre z ∧ (z.2.2 → A)) p
      (OkSat fun a z => post a z ∧ (z.2.2 → A)) := by
  rintro z ⟨h1, h2⟩ t r hr
  have := h z h1 t r hr
  cases r with
  | raised => exact trivial
  | ok a => exact ⟨this, fun hg => h2 (spin_fold_mono s t z hg)⟩

/-- Any part of the program, of which nothing is said. -/
theorem Holds.anySat {F α S : Type} {step : S → Ev F → S} {p : P F α} {pre : S → Prop} :
    Holds step pre p (OkSat fun _ _ => True) := by
  intro z _ t r _
  cases r <;> exact trivial

/-- A list of results: each satisfies `A` as long as `good` holds at the end, and
`L` holds for the last element. -/
theorem Holds.collectLast {F α S : Type} {step : S → Ev F → S} {σ : Type} {good : S → Prop}
    {A : σ → α → Prop} {L : σ → S → Prop} {f : σ → P F α}
    (mono : ∀ s ev, good (step s ev) → good s)
    (h : ∀ x, Holds step (fun _ => True) (f x) (OkSat fun y s => L x s ∧ (good s → A x y)))
    (xs : List σ) (hne : xs ≠ []) :
    Holds step (fun _ => True) (M.collect xs f)
      (OkSat fun l s => (∀ x, xs.getLast? = some x → L x s) ∧ (good s → List.Forall₂ A xs l)) := by
  have monoFold : ∀ (t : List (Ev F)) s, good (t.foldl step s) → good s := by
    intro t
    induction t with
    | nil => exact fun _ h => h
    | cons ev t ih => exact fun s h => mono _ _ (ih _ h)
  induction xs with
  | nil => exact absurd rfl hne
  | cons x xs ih =>
    refine Holds.sat (h x) fun y => ?_
    refine Holds.sat (mid := fun l s => (∀ x', (x :: xs).getLast? = some x' → L x' s) ∧
      (good s → A x y ∧ List.Forall₂ A xs l)) ?_ fun l => ?_
    · rcases xs with - | ⟨x2, xs⟩
      · refine Holds.pureSat fun s h => ⟨fun x' hx' => ?_, fun hg => ⟨h.2 hg, List.Forall₂.nil⟩⟩
        cases hx'
        exact h.1
      · rintro s ⟨hs, hg⟩ t r hr
        have := ih (List.cons_ne_nil _ _) s trivial t r hr
        cases r with
        | raised => exact trivial
        | ok l =>
          refine ⟨fun x' hx' => this.1 x' ?_, fun h => ⟨hg (monoFold _ _ h), this.2 h⟩⟩
          rw [List.getLast?_cons_cons] at hx'
          exact hx'
    · exact Holds.pureSat fun s h => ⟨h.1, fun hg => List.Forall₂.cons (h.2 hg).1 (h.2 hg).2⟩

theorem mem_window {x : Q} {n : ℕ} {l : List Q} (h : x ∈ window n l) : x ∈ l := by
  unfold window at h
  split at h
  · exact List.mem_of_mem_drop h
  · exact h

theorem window_ne (n : ℕ) (l : List Q) (x : Q) (hn : 0 < n) : window n (l ++ [x]) ≠ [] := by
  unfold window
  split
  · rename_i h
    intro h'
    have := congrArg List.length h'
    rw [List.length_drop, List.length_nil] at this
    omega
  · simp

theorem recent_const (c : ℚ) (l : List Q) (hl : l ≠ []) (h : ∀ y ∈ l, y = some c) (r : Q)
    (hr : average (l.drop (l.length - 5)) = some r) : r = some c := by
  unfold average at hr
  rw [mean_const c _ (fun y hy => h y (List.mem_of_mem_drop hy))] at hr
  · exact (Option.some.inj hr).symm
  · intro h'
    have := congrArg List.length h'
    rw [List.length_drop, List.length_nil] at this
    have : l.length ≠ 0 := fun h => hl (List.length_eq_zero_iff.1 h)
    omega

theorem powerSafety_keep {S : Type} {step : S → Ev Q → S} (a : Args Q) (p : List Q) (r : Q)
    (inv : S → Prop) : Holds step inv (powerSafety a p r) (OkSat fun _ => inv) := by
  unfold powerSafety
  split
  · refine Holds.sat (mid := fun _ => inv) (Holds.orRaiseSat fun _ _ _ h => h) fun x => ?_
    split
    · exact Holds.sat (mid := fun _ _ => True) Holds.anySat fun _ => Holds.raiseSat
    · exact Holds.pureSat fun _ h => h
  · exact Holds.pureSat fun _ h => h

theorem settled_keep {S : Type} {step : S → Ev Q → S} (l : List Q) (r : Q)
    (inv : S → Prop) : Holds step inv (settled l r) (OkSat fun _ => inv) := by
  unfold settled
  split
  · exact Holds.pureSat fun _ h => h
  · split
    · refine Holds.sat (mid := fun _ => inv) (Holds.orRaiseSat fun _ _ _ h => h) fun x => ?_
      refine Holds.sat (mid := fun _ => inv) (Holds.orRaiseSat fun _ _ _ h => h) fun x => ?_
      exact Holds.pureSat fun _ h => h
    · exact Holds.pureSat fun _ h => h

/-- `find_speed` returns the speed for the voltage that was sent. -/
theorem findSpeed_spin (s v : ℚ) (a : Args Q) :
    Holds (spin s) (fun _ => True) (findSpeed a (some v))
      (OkSat fun y z => z.1 = some (r3 v) ∧ (z.2.2 → y = some (s * r3 v))) := by
  unfold findSpeed
  refine Holds.sat (mid := fun _ _ => True) (Holds.checkSat fun _ _ _ => trivial) fun _ => ?_
  refine Holds.sat (mid := fun _ (z : Q × Bool × Prop) => z.1 = some (r3 v) ∧ z.2.1 = true)
    (Holds.commandSat fun z _ => ⟨rfl, rfl⟩) fun _ => ?_
  refine Holds.sat (mid := fun _ (z : Q × Bool × Prop) => z.1 = some (r3 v) ∧ z.2.1 = true)
    (Holds.clockSat fun _ _ h => h) fun start => ?_
  refine (Holds.loopSat (inv := fun st (z : Q × Bool × Prop) => (z.1 = some (r3 v) ∧ z.2.1 = true) ∧
    (z.2.2 → ∀ y ∈ st.2, y = some (s * r3 v))) (fun st => ?_) ([], [])).weaken
    (fun _ h => ⟨h, fun _ y hy => absurd hy List.not_mem_nil⟩) fun _ _ h => h
  unfold speedRound
  refine Holds.sat (mid := fun x (z : Q × Bool × Prop) => (z.1 = some (r3 v) ∧ z.2.1 = true) ∧
    (z.2.2 → ∀ y ∈ window 15 (st.2 ++ [x.velocity]), y = some (s * r3 v)))
    (Holds.statsSat fun x z hz => ⟨hz.1, fun hg y hy => ?_⟩) fun x => ?_
  · rcases List.mem_append.1 (mem_window hy) with hy | hy
    · exact hz.2 hg.1 y hy
    · rw [List.mem_singleton.1 hy]
      exact hg.2 hz.1.2 _ hz.1.1
  dsimp only
  have hne := window_ne 15 st.2 x.velocity (by decide)
  generalize window 15 (st.2 ++ [x.velocity]) = vel at *
  refine Holds.sat (mid := fun r (z : Q × Bool × Prop) => (z.1 = some (r3 v) ∧ z.2.1 = true) ∧
    (z.2.2 → (∀ y ∈ vel, y = some (s * r3 v)) ∧ r = some (s * r3 v)))
    (Holds.orRaiseSat fun r hr z hz => ⟨hz.1, fun hg => ⟨hz.2 hg, ?_⟩⟩) fun r => ?_
  · exact recent_const _ vel hne (hz.2 hg) r hr
  refine Holds.sat (mid := fun _ (z : Q × Bool × Prop) => (z.1 = some (r3 v) ∧ z.2.1 = true) ∧
    (z.2.2 → (∀ y ∈ vel, y = some (s * r3 v)) ∧ r = some (s * r3 v)))
    (Holds.clockSat fun _ _ h => h) fun now => ?_
  split
  · exact Holds.pureSat fun z h => ⟨h.1.1, fun hg => (h.2 hg).2⟩
  · refine Holds.sat (powerSafety_keep _ _ _ _) fun _ => ?_
    refine Holds.sat (settled_keep _ _ _) fun d => ?_
    split
    · exact Holds.pureSat fun z h => ⟨h.1.1, fun hg => (h.2 hg).2⟩
    · exact Holds.pureSat fun z h => ⟨h.1, fun hg => (h.2 hg).1⟩

theorem findSpeed_spin' (s : ℚ) (x : Q) (a : Args Q) :
    Holds (spin s) (fun _ => True) (findSpeed a x)
      (OkSat fun y z => (∀ v, x = some v → z.1 = some (r3 v)) ∧
        (z.2.2 → ∀ v, x = some v → y = some (s * r3 v))) := by
  rcases x with - | v
  · unfold findSpeed
    refine Holds.sat (mid := fun _ _ => False) (Holds.checkSat fun h => ?_) fun _ z h => h.elim
    exact absurd h (by decide +kernel)
  · refine (findSpeed_spin s v a).weaken (fun _ h => h) fun r z h => ?_
    cases r with
    | raised => exact trivial
    | ok y =>
      refine ⟨fun w hw => ?_, fun hg w hw => ?_⟩
      · cases hw
        exact h.1
      · cases hw
        exact h.2 hg

/-- The voltage for the Kv measurement is at least 20 mV. -/
theorem findKvCalVoltage_least {S : Type} {step : S → Ev Q → S} (a : Args Q) (V : ℚ) (σ : Q)
    (hV : 1 / 10 ≤ V) (ha : ∀ w, a.calLlKvVoltage = some w → ∃ v, 1 / 50 ≤ v ∧ w = some v) :
    Holds step (fun _ => True) (findKvCalVoltage a (some V) σ)
      (OkSat fun w _ => ∃ v, 1 / 50 ≤ v ∧ w = some v) := by
  unfold findKvCalVoltage
  split
  · exact Holds.orRaiseSat fun w hw _ _ => ha w hw
  · refine (Holds.loopSat (inv := fun st _ => ∃ v, 1 / 100 ≤ v ∧ st.1 = some v ∧
      (st.2 = none ∨ ∃ f, 1 / 100 ≤ f ∧ st.2 = some (some f))) (fun st => ?_) (lit (1/100), none)).weaken
      (fun _ _ => ⟨1 / 100, le_rfl, rfl, Or.inl rfl⟩) fun _ _ h => h
    obtain ⟨x, first⟩ := st
    unfold kvRound
    dsimp only
    intro z hz
    obtain ⟨v, hv, rfl, hf⟩ := hz
    have hf' : ∀ sp, (firstNonzero a first (some v) sp = none ∨
        ∃ f, 1 / 100 ≤ f ∧ firstNonzero a first (some v) sp = some (some f)) := by
      intro sp
      unfold firstNonzero
      split
      · exact Or.inr ⟨v, hv, rfl⟩
      · exact hf
    revert z
    suffices h : Holds step (fun _ => True) _ _ from fun z => h z trivial
    split
    · rename_i h
      rw [lit_eq, mul_some, lt_some, decide_eq_true_eq] at h
      exact Holds.pureSat fun _ _ => ⟨v, by linarith, rfl⟩
    · refine Holds.sat (mid := fun _ _ => True) Holds.anySat fun sp => ?_
      refine Holds.sat (mid := fun _ _ => True) Holds.anySat fun sp => ?_
      split
      · rename_i h
        refine Holds.pureSat fun _ _ => ⟨v, ?_, rfl⟩
        unfold fastEnough at h
        rcases hf' sp with h' | ⟨f, hf1, h'⟩
        · rw [h'] at h
          cases h
        · rw [h', Bool.and_eq_true, lit_eq, mul_some, lt_some, decide_eq_true_eq] at h
          linarith [h.1]
      · exact Holds.pureSat fun _ _ => ⟨v * (11 / 10), by linarith, rfl, hf' sp⟩

theorem abs_some {x : ℚ} (h : 0 ≤ x) : (abs (some x) : Q) = some x := by
  show some (if x < 0 then -x else x) = some x
  rw [if_neg (not_lt.2 h)]

/-- The fit of the three fastest of the five measurements. -/
theorem kv_slope (s v y1 y2 y3 : ℚ) (hv : 0 < v) :
    linearRegression [some (1 / 2 * v), some (3 / 4 * v), some (1 * v)]
      [some (s * y1), some (s * y2), some (s * y3)] =
    some (some ((s * y1 + s * y2 + s * y3) / 3 - 2 * s * (y3 - y1) / v * (3 / 4 * v)),
      (some (2 * s * (y3 - y1) / v) : Q)) := by
  have h := regression_eq [(1 / 2 * v, s * y1), (3 / 4 * v, s * y2), (1 * v, s * y3)]
    (List.cons_ne_nil _ _)
  simp only [List.map_cons, List.map_nil, List.sum_cons, List.sum_nil, List.length_cons,
    List.length_nil] at h
  rw [h]
  have e1 : (1 / 2 * v + (3 / 4 * v + (1 * v + 0))) / ((0 + 1 + 1 + 1 : ℕ) : ℚ) = 3 / 4 * v := by
    push_cast
    ring
  rw [e1]
  have e2 : (1 / 2 * v - 3 / 4 * v) * (1 / 2 * v - 3 / 4 * v) +
      ((3 / 4 * v - 3 / 4 * v) * (3 / 4 * v - 3 / 4 * v) +
        ((1 * v - 3 / 4 * v) * (1 * v - 3 / 4 * v) + 0)) = v ^ 2 / 8 := by ring
  rw [e2, if_neg (by positivity)]
  have e3 : (s * y1 + (s * y2 + (s * y3 + 0))) / ((0 + 1 + 1 + 1 : ℕ) : ℚ) =
      (s * y1 + s * y2 + s * y3) / 3 := by
    push_cast
    ring
  rw [e3]
  generalize (s * y1 + s * y2 + s * y3) / 3 = m
  have e4 : ((1 / 2 * v - 3 / 4 * v) * (s * y1 - m) + ((3 / 4 * v - 3 / 4 * v) * (s * y2 - m) +
      ((1 * v - 3 / 4 * v) * (s * y3 - m) + 0))) / (v ^ 2 / 8) = 2 * s * (y3 - y1) / v := by
    field_simp
    ring
  rw [e4]

/-- From the speeds to Kv. -/
theorem kvOfSpeeds_ideal {S : Type} {step : S → Ev Q → S} {pre : S → Prop} (fw : Firmware)
    (s σ v : ℚ) (g : Q) (hs : 0 < s) (hσ : 0 < σ) (hv : 1 / 50 ≤ v) (hfw : 0x106 < fw.version) :
    Holds step pre (kvOfSpeeds fw (some σ) g
      [(some (0 * v), some (s * r3 (0 * v))), (some (1 / 4 * v), some (s * r3 (1 / 4 * v))),
       (some (1 / 2 * v), some (s * r3 (1 / 2 * v))), (some (3 / 4 * v), some (s * r3 (3 / 4 * v))),
       (some (1 * v), some (s * r3 (1 * v)))])
      (OkSat fun k _ => ∃ κ, k = some κ ∧
        |κ - 171 / 5 * s / σ| ≤ 171 / 5 * s / σ / (500 * v)) := by
  have h0 : r3 (0 * v) = 0 := by rw [zero_mul]; decide +kernel
  have l1 := le_r3 (1 / 4 * v)
  have l2 := le_r3 (1 / 2 * v)
  have l3 := le_r3 (3 / 4 * v)
  have l4 := le_r3 (1 * v)
  have u1 := r3_le (1 / 4 * v)
  have u2 := r3_le (1 / 2 * v)
  have u3 := r3_le (3 / 4 * v)
  have u4 := r3_le (1 * v)
  rw [h0]
  generalize r3 (1 / 4 * v) = w1 at *
  generalize r3 (1 / 2 * v) = w2 at *
  generalize r3 (3 / 4 * v) = w3 at *
  generalize r3 (1 * v) = w4 at *
  unfold kvOfSpeeds
  refine Holds.sat (mid := fun x _ => x = (some (1 * v), some (s * w4)))
    (Holds.orRaiseSat fun x hx _ _ => (Option.some.inj hx).symm) fun x => ?_
  intro z hx
  subst hx
  revert z
  suffices h : Holds step (fun _ => True) _ _ from fun z => h z trivial
  have q4 : 0 ≤ 45 / 100 * (s * w4) := mul_nonneg (by norm_num) (mul_nonneg hs.le (by linarith))
  have hth : (abs (mul (lit (45/100)) (some (s * w4))) : Q) = some (45 / 100 * (s * w4)) := by
    rw [lit_eq, mul_some, abs_some q4]
  dsimp only
  rw [hth]
  obtain ⟨f, hf⟩ : ∃ f : Q × Q → Bool, f = fun p => lt (some (45 / 100 * (s * w4)) : Q) (abs p.2) :=
    ⟨_, rfl⟩
  rw [← hf]
  have hp : ∀ x w : ℚ, 0 ≤ w → 45 / 100 * w4 < w →
      f (some x, some (s * w)) = true := by
    intro x w hw hlt
    rw [hf]
    show lt (some (45 / 100 * (s * w4)) : Q) (abs (some (s * w))) = true
    rw [abs_some (mul_nonneg hs.le hw), lt_some, decide_eq_true_eq]
    calc 45 / 100 * (s * w4) = s * (45 / 100 * w4) := by ring
      _ < s * w := mul_lt_mul_of_pos_left hlt hs
  have hn : ∀ x w : ℚ, 0 ≤ w → w ≤ 45 / 100 * w4 →
      ¬ f (some x, some (s * w)) = true := by
    intro x w hw hle
    rw [hf]
    show ¬ lt (some (45 / 100 * (s * w4)) : Q) (abs (some (s * w))) = true
    rw [abs_some (mul_nonneg hs.le hw), lt_some, decide_eq_true_eq, not_lt]
    calc s * w ≤ s * (45 / 100 * w4) := mul_le_mul_of_nonneg_left hle hs.le
      _ = 45 / 100 * (s * w4) := by ring
  rw [List.filter_cons_of_neg (hn _ _ le_rfl (by linarith)),
    List.filter_cons_of_neg (hn _ _ (by linarith) (by linarith)),
    List.filter_cons_of_pos (hp _ _ (by linarith) (by linarith)),
    List.filter_cons_of_pos (hp _ _ (by linarith) (by linarith)),
    List.filter_cons_of_pos (hp _ _ (by linarith) (by linarith)), List.filter_nil]
  simp only [List.map_cons, List.map_nil]
  rw [kv_slope s v w2 w3 w4 (by linarith)]
  have hb : 0 < 2 * s * (w4 - w2) / v :=
    div_pos (mul_pos (by linarith) (by linarith)) (by linarith)
  refine Holds.sat (mid := fun x _ => x.2 = some (2 * s * (w4 - w2) / v))
    (Holds.orRaiseSat fun x hx _ _ => by rw [← Option.some.inj hx]) fun fit => ?_
  refine Holds.sat (mid := fun x _ => x = some (1 / (2 * s * (w4 - w2) / v)))
    (Holds.orRaiseSat fun x hx _ hf => ?_) fun geared => ?_
  · rw [hf, lit_eq, div_some _ _ hb.ne'] at hx
    exact (Option.some.inj hx).symm
  intro z hx
  subst hx
  revert z
  suffices h : Holds step (fun _ => True) _ _ from fun z => h z trivial
  have hver : ¬ fw.version ≤ 0x106 := by omega
  rw [mul_some, if_neg hver]
  have hvp : 0 < 1 / (2 * s * (w4 - w2) / v) * σ := mul_pos (one_div_pos.2 hb) hσ
  rw [lit_eq, lt_some, if_neg (by rw [decide_eq_true_eq, not_lt]; exact hvp.le)]
  rw [lit_eq, lit_eq, lit_eq, mul_some, mul_some, div_some _ _ hvp.ne']
  refine Holds.orRaiseSat fun x hx _ _ => ⟨_, (Option.some.inj hx).symm, ?_⟩
  have hv0 : (0 : ℚ) < v := by linarith
  have e : 114 / 100 * (1 / 2) * 60 / (1 / (2 * s * (w4 - w2) / v) * σ) - 171 / 5 * s / σ =
      171 / 5 * s / σ * ((2 * (w4 - w2) - v) / v) := by
    have : w4 - w2 ≠ 0 := by linarith
    field_simp
    ring
  rw [e, abs_mul, abs_of_pos (by positivity : 0 < 171 / 5 * s / σ), div_eq_mul_one_div _ (500 * v)]
  refine mul_le_mul_of_nonneg_left ?_ (by positivity)
  rw [abs_div, abs_of_pos hv0, div_le_div_iff₀ hv0 (by linarith)]
  have hb2 : |2 * (w4 - w2) - v| ≤ 1 / 500 := by
    rw [abs_le]
    constructor <;> linarith
  calc |2 * (w4 - w2) - v| * (500 * v) ≤ 1 / 500 * (500 * v) :=
        mul_le_mul_of_nonneg_right hb2 (by linarith)
    _ = 1 * v := by ring

theorem keep_volt {α : Type} {s : ℚ} {p : P Q α} {w : Q}
    (h : Only (fun ev => match ev with
      | .sent (.vdq ..) _ => False
      | _ => True) p) :
    Holds (spin s) (fun z => z.1 = w) p (OkSat fun _ z => z.1 = w) := by
  have := h.holds (step := spin s) (inv := fun z => z.1 = w) fun ev z hev hz => by
    unfold spin
    split
    · exact hev.elim
    · exact hz
    · exact hz
    · exact hz
  exact this.weaken (fun _ h => h) fun r _ h => by cases r <;> first | exact h | exact trivial

theorem measureKv_ideal (s σ V : ℚ) (hs : 0 < s) (hσ : 0 < σ) (hV : 1 / 10 ≤ V) (a : Args Q)
    (fw : Firmware) (hfw : 0x106 < fw.version)
    (ha : ∀ w, a.calLlKvVoltage = some w → ∃ v, 1 / 50 ≤ v ∧ w = some v) (e g : Q) :
    Holds (spin s) (fun _ => True) (measureKv a fw e (some V) (some σ) g)
      (OkSat fun k z => z.2.2 → ∃ κ v, k = some κ ∧ z.1 = some (r3 v) ∧ 1 / 50 ≤ v ∧
        |κ - 171 / 5 * s / σ| ≤ 171 / 5 * s / σ / (500 * v)) := by
  unfold measureKv
  refine Holds.sat (mid := fun _ _ => True) Holds.anySat fun _ => ?_
  refine Holds.sat (mid := fun _ _ => True) Holds.anySat fun lo => ?_
  refine Holds.sat (mid := fun _ _ => True) Holds.anySat fun hi => ?_
  refine Holds.sat (mid := fun _ _ => True) Holds.anySat fun _ => ?_
  refine Holds.sat (mid := fun _ _ => True) Holds.anySat fun _ => ?_
  refine Holds.sat (mid := fun _ _ => True) Holds.anySat fun _ => ?_
  refine Holds.sat (findKvCalVoltage_least a V _ hV ha) fun w => ?_
  intro z hw
  obtain ⟨v, hv, rfl⟩ := hw
  revert z
  suffices h : Holds (spin s) (fun _ => True) _ _ from fun z => h z trivial
  refine Holds.sat (mid := fun _ _ => True) Holds.anySat fun _ => ?_
  dsimp only [List.map_cons, List.map_nil]
  refine Holds.sat (Holds.collectLast (good := fun z : Q × Bool × Prop => z.2.2)
    (A := fun x y => ∀ v, x = some v → y = some (s * r3 v))
    (L := fun x (z : Q × Bool × Prop) => ∀ v, x = some v → z.1 = some (r3 v))
    (spin_mono s) (fun x => findSpeed_spin' s x a) _ (List.cons_ne_nil _ _)) fun speeds => ?_
  have hkeep : ∀ {α : Type} {p : P Q α} {A : Prop}, Only (fun ev => match ev with
      | .sent (.vdq ..) _ => False
      | _ => True) p → Holds (spin s) (fun z => z.1 = some (r3 v) ∧ (z.2.2 → A)) p
        (OkSat fun _ z => z.1 = some (r3 v) ∧ (z.2.2 → A)) := fun h => (keep_volt h).frameSpin
  refine Holds.sat (mid := fun _ (z : Q × Bool × Prop) => z.1 = some (r3 v) ∧ (z.2.2 →
    List.Forall₂ (fun x y => ∀ v, x = some v → y = some (s * r3 v))
      [mul (lit 0) (some v), mul (lit (1/4)) (some v), mul (lit (1/2)) (some v),
        mul (lit (3/4)) (some v), (mul (lit 1) (some v) : Q)] speeds)) ?_ fun _ => ?_
  · refine (hkeep ?_).weaken (fun z h => ⟨h.1 (some (1 * v)) rfl _ (by rw [one_mul]), h.2⟩)
      fun _ _ h => h
    unfold stopAndIdle
    have := readServoStats_only (F := Q) (q := fun ev => match ev with
      | .sent (.vdq ..) _ => False
      | _ => True) trivial fun _ => trivial
    only_tac
  refine Holds.sat (hkeep (by only_tac)) fun _ => ?_
  refine Holds.sat (hkeep (by only_tac)) fun _ => ?_
  by_cases hall : List.Forall₂ (fun x y => ∀ v, x = some v → y = some (s * r3 v))
      [mul (lit 0) (some v), mul (lit (1/4)) (some v), mul (lit (1/2)) (some v),
        mul (lit (3/4)) (some v), (mul (lit 1) (some v) : Q)] speeds
  · rcases hall with - | ⟨h0, - | ⟨h1, - | ⟨h2, - | ⟨h3, - | ⟨h4, - | -⟩⟩⟩⟩⟩
    have e0 := h0 _ rfl
    have e1 := h1 _ rfl
    have e2 := h2 _ rfl
    have e3 := h3 _ rfl
    have e4 := h4 _ rfl
    subst e0 e1 e2 e3 e4
    have hk := kvOfSpeeds_ideal (step := spin s) (pre := fun _ => True) fw s σ v g hs hσ hv hfw
    have hvolt : Only (fun ev => match ev with
      | .sent (.vdq ..) _ => False
      | _ => True) (kvOfSpeeds fw (some σ) g
      [(some (0 * v), some (s * r3 (0 * v))), (some (1 / 4 * v), some (s * r3 (1 / 4 * v))),
       (some (1 / 2 * v), some (s * r3 (1 / 2 * v))), (some (3 / 4 * v), some (s * r3 (3 / 4 * v))),
       (some (1 * v), some (s * r3 (1 * v)))]) := by
      unfold kvOfSpeeds
      only_tac
      all_goals
        dsimp only
        only_tac
    intro z hz t r hr
    have hr' := hr
    have r1 := hk z trivial t r hr
    have r2 := keep_volt hvolt (s := s) (w := some (r3 v)) z hz.1 t r hr'
    cases r with
    | raised => exact trivial
    | ok k =>
      obtain ⟨κ, hκ, hb⟩ := r1
      exact fun _ => ⟨κ, v, hκ, r2, hv, hb⟩
  · intro z hz t r hr
    cases r with
    | raised => exact trivial
    | ok k => exact fun hg => absurd (hz.2 (spin_fold_mono s t z hg)) hall

/-- **C76.** If the motor turns with `s` revolutions per second and volt, then the
stored Kv is 34.2 · s / σ (with σ the ratio from rotor to output), with a
relative error of at most 1 / (500 · V), where V is the highest voltage that was
applied. -/
theorem C76_kv (s σ V : ℚ) (hs : 0 < s) (hσ : 0 < σ) (hV : 1 / 10 ≤ V) (a : Args Q)
    (fw : Firmware) (hfw : 0x10a ≤ fw.version) (hforce : a.calForceKv = none)
    (ha : ∀ w, a.calLlKvVoltage = some w → ∃ v, 1 / 50 ≤ v ∧ w = some v) (e g k : Q)
    (t : List (Ev Q)) (h : calibrateKvRating a fw e (some V) (some σ) g t (.ok k))
    (hspin : Spins s t) :
    ∃ κ v, k = some κ ∧ lastSet "motor.Kv" t = some k ∧ lastVolt t = some (r3 v) ∧ 1 / 50 ≤ v ∧
      |κ - 171 / 5 * s / σ| ≤ 171 / 5 * s / σ / (500 * v) := by
  unfold calibrateKvRating at h
  rw [hforce] at h
  cases h with | ok h1 h =>
  cases h with | ok h2 h =>
  cases h with | ok h3 h =>
  rename_i t1 k1 t2 k2 t3 u3 w3
  unfold storeKv at h2
  rw [if_pos hfw] at h2
  cases h2 with | ok h4 h2 =>
  obtain ⟨rfl, hk⟩ := h2
  cases hk
  obtain ⟨rfl, hk⟩ := h
  cases hk
  have ht3 : t3 = [] := by
    unfold check at h3
    split at h3
    · exact h3.1
    · cases h3.2
  subst ht3
  rcases h4 with ⟨rfl, -⟩ | ⟨e, -, h4⟩
  · have hm := measureKv_ideal s σ V hs hσ hV a fw (by omega) ha e g (none, false, True) trivial
      t1 _ h1
    have hs1 : (t1.foldl (spin s) (none, false, True)).2.2 := by
      unfold Spins at hspin
      rw [List.foldl_append] at hspin
      exact spin_fold_mono s _ _ hspin
    obtain ⟨κ, v, hκ, hv, h50, hb⟩ := hm hs1
    refine ⟨κ, v, hκ, ?_, ?_, h50, hb⟩
    · unfold lastSet
      rw [List.foldl_append]
      exact setStep_same "motor.Kv" k true _
    · rw [← hv, lastVolt_eq s t1 (none, false, True) (none, false, True) rfl]
      unfold lastVolt
      rw [List.foldl_append]
      rfl
  · cases h4

/-! ## An execution with an ideal motor -/

/-- No voltage along the q axis is applied. -/
def NoVdq : Ev Q → Prop
  | .sent (.vdq ..) _ => False
  | _ => True

theorem spin_off (s : ℚ) (w : Q) (ev : Ev Q) (h : NoVdq ev) :
    spin s (w, false, True) ev = (w, false, True) := by
  unfold spin
  split
  · exact h.elim
  · exact Prod.ext rfl (Prod.ext rfl rfl)
  · exact Prod.ext rfl (Prod.ext rfl (eq_true ⟨trivial, fun h => absurd h Bool.false_ne_true⟩))
  · rfl

theorem can_off {α : Type} {s : ℚ} {w : Q} {p : P Q α} {a : α} (h1 : Runs p (.ok a))
    (h2 : Only NoVdq p) :
    Can (spin s) (w, false, True) p (fun r z => r = .ok a ∧ z = (w, false, True)) := by
  obtain ⟨t, h1⟩ := h1
  refine ⟨t, _, h1, rfl, ?_⟩
  have ht := h2.elim h1
  clear h1
  induction t with
  | nil => rfl
  | cons ev t ih =>
    rw [List.foldl_cons, spin_off s w ev (ht ev (by simp))]
    exact ih fun x hx => ht x (by simp [hx])

theorem can_silent {α S : Type} {step : S → Ev Q → S} {z : S} {p : P Q α} {a : α}
    (h1 : Runs p (.ok a)) (h2 : Only (fun _ => False) p) :
    Can step z p (fun r y => r = .ok a ∧ y = z) := by
  obtain ⟨t, ht⟩ := h1
  refine ⟨t, _, ht, rfl, ?_⟩
  cases t with
  | nil => rfl
  | cons ev t => exact (h2.elim ht ev (by simp)).elim

/-- The speed is reported once, and then two seconds are over. -/
theorem can_ideal (a : Args Q) (v w : ℚ) (b : Bool) (x : Q) (hw : w = r3 v)
    (h : (lt (some v : Q) (lit 20) && le (lit 0) (some v : Q)) = true) :
    Can (spin 1) (x, b, True) (findSpeed a (some v))
      (fun r z => r = .ok (some w) ∧ z = (some w, true, True)) := by
  unfold findSpeed
  refine Can.bind () (x, b, True) (can_silent (Runs.check h) check_only) ?_
  refine Can.bind () (some w, true, True) ⟨_, _, Or.inl ⟨rfl, rfl⟩, rfl, by rw [hw]; rfl⟩ ?_
  refine Can.bind (some 0) (some w, true, True) ⟨[], _, ⟨rfl, some 0, rfl⟩, rfl, rfl⟩ ?_
  refine Can.leave (some w) ?_
  refine Can.bind (runStats 0 w 0) (some w, true, True) ?_ ?_
  · refine Can.bind (runStats 0 w 0) (some w, true, True)
      ⟨_, _, Or.inl ⟨runStats 0 w 0, rfl, rfl⟩, rfl, ?_⟩ ?_
    · refine Prod.ext rfl (Prod.ext rfl (eq_true ⟨trivial, fun _ u hu => ?_⟩))
      rw [← Option.some.inj hu, one_mul]
      rfl
    · rw [if_neg (by simp only [runStats]; decide)]
      exact Can.pure ⟨rfl, rfl⟩
  refine Can.bind (some w) (some w, true, True) (can_silent (Runs.orRaise ?_) Only.orRaise) ?_
  · show (if (some ((1 : Nat) : ℚ) : Q) = some 0 then none
      else some (some ((0 + w) / ((1 : Nat) : ℚ)))) = _
    rw [if_neg (by decide +kernel), zero_add, Nat.cast_one, div_one]
  refine Can.bind (some 3) (some w, true, True) ⟨[], _, ⟨rfl, some 3, rfl⟩, rfl, rfl⟩ ?_
  rw [if_pos (by decide +kernel)]
  exact Can.pure ⟨rfl, rfl, rfl⟩

theorem can_stopIdle (s : ℚ) (w : Q) (b : Bool) :
    Can (spin s) (w, b, True) (stopAndIdle : P Q Unit)
      (fun r z => r = .ok () ∧ z = (w, false, True)) := by
  unfold stopAndIdle
  refine Can.bind () (w, false, True) ⟨_, _, Or.inl ⟨rfl, rfl⟩, rfl, ?_⟩ ?_
  · exact Prod.ext rfl (Prod.ext (by cases b <;> rfl) rfl)
  refine can_off run_idleLoop ?_
  refine Only.loop (fun n => ?_) _
  exact Only.bind (readServoStats_only trivial fun _ => trivial) fun _ => Only.pure

/-- With `--cal-ll-kv-voltage 2`, one revolution per second and volt, and a
gearbox of 1 / 2. -/
theorem can_kv :
    Can (spin 1) (none, false, True)
      (calibrateKvRating (runArgs 2) runFw (some (1 / 500)) (some 24) (some (1 / 2)) (some 1))
      (fun r z => r = .ok (some (342 / 5)) ∧ z = (some 2, false, True)) := by
  unfold calibrateKvRating
  refine Can.bind (some (342 / 5)) (some 2, false, True) ?_ ?_
  · show Can (spin 1) (none, false, True)
      (measureKv (runArgs 2) runFw (some (1 / 500)) (some 24) (some (1 / 2)) (some 1)) _
    unfold measureKv
    refine Can.bind _ _ (can_off (run_theta _ _) ?_) ?_
    · unfold ensureValidTheta findIndex readConfig when check
      only_tac
    refine Can.bind _ _ (can_off (Runs.readConfig (some (-1))) (by unfold readConfig; only_tac)) ?_
    refine Can.bind _ _ (can_off (Runs.readConfig (some 1)) (by unfold readConfig; only_tac)) ?_
    refine Can.bind _ _ (can_off (Runs.command _) (by only_tac)) ?_
    refine Can.bind _ _ (can_off (Runs.command _) (by only_tac)) ?_
    refine Can.bind _ _ (can_off (Runs.command _) (by only_tac)) ?_
    refine Can.bind (some 2) _ (can_off (w := none) ?_ ?_) ?_
    · unfold findKvCalVoltage
      rw [if_pos (by eval_tac)]
      exact Runs.orRaise rfl
    · unfold findKvCalVoltage
      rw [if_pos (by eval_tac)]
      only_tac
    refine Can.bind () _ (can_stopIdle 1 none false) ?_
    dsimp only [List.map_cons, List.map_nil]
    refine Can.bind [some 0, some (1 / 2), some 1, some (3 / 2), some 2] (some 2, true, True) ?_ ?_
    · unfold M.collect
      refine Can.bind _ _ (can_ideal _ (0 * 2) 0 false _ (by decide +kernel) (by decide +kernel)) ?_
      refine Can.bind [some (1 / 2), some 1, some (3 / 2), some 2] (some 2, true, True) ?_
        (Can.pure ⟨rfl, rfl⟩)
      unfold M.collect
      refine Can.bind _ _ (can_ideal _ (1 / 4 * 2) (1 / 2) true _ (by decide +kernel)
        (by decide +kernel)) ?_
      refine Can.bind [some 1, some (3 / 2), some 2] (some 2, true, True) ?_
        (Can.pure ⟨rfl, rfl⟩)
      unfold M.collect
      refine Can.bind _ _ (can_ideal _ (1 / 2 * 2) 1 true _ (by decide +kernel)
        (by decide +kernel)) ?_
      refine Can.bind [some (3 / 2), some 2] (some 2, true, True) ?_ (Can.pure ⟨rfl, rfl⟩)
      unfold M.collect
      refine Can.bind _ _ (can_ideal _ (3 / 4 * 2) (3 / 2) true _ (by decide +kernel)
        (by decide +kernel)) ?_
      refine Can.bind [some 2] (some 2, true, True) ?_ (Can.pure ⟨rfl, rfl⟩)
      unfold M.collect
      refine Can.bind _ _ (can_ideal _ (1 * 2) 2 true _ (by decide +kernel)
        (by decide +kernel)) ?_
      refine Can.bind [] (some 2, true, True) (Can.pure ⟨rfl, rfl⟩) (Can.pure ⟨rfl, rfl⟩)
    refine Can.bind () _ (can_stopIdle 1 (some 2) true) ?_
    refine Can.bind _ _ (can_off (Runs.command _) (by only_tac)) ?_
    refine Can.bind _ _ (can_off (Runs.command _) (by only_tac)) ?_
    refine can_off ?_ ?_
    · unfold kvOfSpeeds
      refine Runs.bind (a := (some (1 * 2), some 2)) (Runs.orRaise (by decide +kernel)) ?_
      dsimp only
      refine Runs.bind (a := (some 0, some 1)) (Runs.orRaise (by decide +kernel)) ?_
      refine Runs.bind (a := some 1) (Runs.orRaise (by decide +kernel)) ?_
      rw [if_neg (by decide +kernel)]
      exact Runs.orRaise (by decide +kernel)
    · unfold kvOfSpeeds
      only_tac
      all_goals
        dsimp only
        only_tac
  refine can_off ?_ ?_
  · refine Runs.bind (a := some (342 / 5)) ?_ ?_
    · unfold storeKv
      rw [if_pos (by decide +kernel)]
      exact Runs.bind (Runs.command _) Runs.pure
    · exact Runs.bind (Runs.check (by decide +kernel)) Runs.pure
  · unfold storeKv check
    only_tac

/-- An execution that meets the hypotheses of `C76_kv`: 34.2 · 1 / (1 / 2) is
stored. -/
example : ∃ t, calibrateKvRating (runArgs 2) runFw (some (1 / 500)) (some 24) (some (1 / 2))
    (some 1) t (.ok (some (342 / 5))) ∧ Spins 1 t := by
  obtain ⟨t, r, h1, h2, h3⟩ := can_kv
  subst h2
  exact ⟨t, h1, by unfold Spins; rw [h3]; trivial⟩

/-! ## The voltages of the measurement of Kv -/

unseal Only in
theorem Only.loopInv {F α σ : Type} {q : Ev F → Prop} {body : σ → P F (σ ⊕ α)} (I : σ → Prop) (J : α → Prop)
    (h : ∀ s, I s → Only q (body s)) (h1 : ∀ s t s', I s → body s t (.ok (.inl s')) → I s')
    (h2 : ∀ s t x, I s → body s t (.ok (.inr x)) → J x) (s : σ) (hs : I s) :
    Only q (M.Loop body s) ∧ ∀ t x, M.Loop body s t (.ok x) → J x := by
  have key : ∀ t r, M.Loop body s t r → (∀ ev ∈ t, q ev) ∧ ∀ x, r = .ok x → J x := by
    intro t r hr
    induction hr with
    | again hb _ ih =>
      obtain ⟨i1, i2⟩ := ih (h1 _ _ _ hs hb)
      refine ⟨fun ev hev => ?_, i2⟩
      rcases List.mem_append.1 hev with h' | h'
      · exact h _ hs _ _ hb _ h'
      · exact i1 _ h'
    | leave hb => exact ⟨h _ hs _ _ hb, fun x hx => by cases hx; exact h2 _ _ _ hs hb⟩
    | raised hb => exact ⟨h _ hs _ _ hb, fun x hx => by cases hx⟩
  exact ⟨fun t r hr => (key t r hr).1, fun t x hr => (key t _ hr).2 x rfl⟩

unseal Only in
theorem Only.bindIf {F α β : Type} {q : Ev F → Prop} {p : P F α} {f : α → P F β} {A : α → Prop}
    (h1 : Only q p) (hA : ∀ t a, p t (.ok a) → A a) (h2 : ∀ a, A a → Only q (f a)) :
    Only q (p >>= f) := by
  intro t r h
  cases h with
  | ok hp hf =>
    intro ev hev
    rcases List.mem_append.1 hev with h | h
    · exact h1 _ _ hp _ h
    · exact h2 _ (hA _ _ hp) _ _ hf _ h
  | raised hp => exact h1 _ _ hp

/-- A voltage along the q axis is at most `b`. -/
def VdqMax (b : ℚ) : Ev Q → Prop
  | .sent (.vdq _ v) _ => ∃ w, v = some w ∧ w ≤ b
  | _ => True

unseal Only in
theorem Only.vdqMax {α : Type} {p : P Q α} (b : ℚ) (h : Only NoVdq p) : Only (VdqMax b) p :=
  fun t r hr ev hev => by
    have := h t r hr ev hev
    unfold NoVdq at this
    unfold VdqMax
    split
    · exact this.elim
    · exact trivial

theorem findSpeed_max (a : Args Q) (v b : ℚ) (hv : v + 1 / 2000 ≤ b) :
    Only (VdqMax b) (findSpeed a (some v)) := by
  unfold findSpeed
  refine Only.bind (Only.vdqMax b check_only) fun _ => Only.bind (Only.command fun _ => ?_) fun _ =>
    Only.vdqMax b ?_
  · exact ⟨r3 v, rfl, by have := r3_le v; linarith⟩
  · unfold speedRound powerSafety settled
    meas_tac

/-- **C76.** Without `--cal-ll-kv-voltage`, every voltage that is applied while Kv is measured is at most
0.22 of the supply voltage `V` (plus the rounding to three decimals): whatever the controller answers, also
when the measurement fails. -/
theorem C76_voltages (a : Args Q) (fw : Firmware) (V : ℚ) (hV : 1 / 10 ≤ V) (e σ g : Q)
    (ha : truthy a.calLlKvVoltage = false) (t : List (Ev Q)) (r : Res Exn Q)
    (h : calibrateKvRating a fw e (some V) σ g t r) (p v : Q) (b : Bool)
    (hm : .sent (.vdq p v) b ∈ t) : ∃ w, v = some w ∧ w ≤ 22 / 100 * V + 1 / 2000 := by
  suffices hO : Only (VdqMax (22 / 100 * V + 1 / 2000)) (calibrateKvRating a fw e (some V) σ g) from
    hO.elim h _ hm
  have hround := Only.loopInv (q := VdqMax (22 / 100 * V + 1 / 2000))
    (body := kvRound a (some V) σ) (fun st => ∃ v, st.1 = some v ∧ 0 ≤ v ∧ v ≤ 22 / 100 * V)
    (fun x => ∃ v, x = some v ∧ 0 ≤ v ∧ v ≤ 22 / 100 * V)
    (fun st hst => by
      obtain ⟨v, e, h0, h1⟩ := hst
      unfold kvRound
      dsimp only
      rw [e]
      split
      · exact Only.pure
      · refine Only.bind (findSpeed_max a v _ (by linarith)) fun _ => Only.bind Only.orRaise fun _ => ?_
        split <;> exact Only.pure)
    (fun st t s' hst hb => by
      obtain ⟨v, e, h0, h1⟩ := hst
      unfold kvRound at hb
      rw [e] at hb
      split at hb
      · exact absurd hb.2 (by simp)
      · rename_i hle
        cases hb with | ok _ hb =>
        cases hb with | ok _ hb =>
        split at hb
        · exact absurd hb.2 (by simp)
        · have := hb.2
          cases this
          rw [lit_eq, mul_some, lt_some, decide_eq_true_eq, not_lt] at hle
          refine ⟨v * (11 / 10), by rw [lit_eq]; exact mul_some _ _, by positivity, by linarith⟩)
    (fun st t s' hst hb => by
      obtain ⟨v, e, h0, h1⟩ := hst
      unfold kvRound at hb
      rw [e] at hb
      split at hb
      · have := hb.2
        cases this
        exact ⟨v, rfl, h0, h1⟩
      · cases hb with | ok _ hb =>
        cases hb with | ok _ hb =>
        split at hb
        · have := hb.2
          cases this
          exact ⟨v, rfl, h0, h1⟩
        · exact absurd hb.2 (by simp))
    (lit (1/100), none) ⟨1 / 100, rfl, by norm_num, by linarith⟩
  unfold calibrateKvRating
  refine Only.bind ?_ fun _ => Only.bind ?_ fun _ => Only.bind ?_ fun _ => Only.pure
  · split
    · exact Only.pure
    · unfold measureKv
      refine Only.bind (Only.vdqMax _ ?_) fun _ => ?_
      · unfold ensureValidTheta findIndex
        meas_tac
      refine Only.bind (Only.vdqMax _ ?_) fun _ => ?_
      · meas_tac
      refine Only.bind (Only.vdqMax _ ?_) fun _ => ?_
      · meas_tac
      refine Only.bind (Only.vdqMax _ ?_) fun _ => ?_
      · meas_tac
      refine Only.bind (Only.vdqMax _ ?_) fun _ => ?_
      · meas_tac
      refine Only.bind (Only.vdqMax _ ?_) fun _ => ?_
      · meas_tac
      unfold findKvCalVoltage
      rw [ha]
      refine Only.bindIf hround.1 hround.2 fun x hx => ?_
      obtain ⟨v, rfl, h0, h1⟩ := hx
      refine Only.bind (Only.vdqMax _ ?_) fun _ => ?_
      · unfold stopAndIdle
        meas_tac
      refine Only.bind ?_ fun _ => Only.vdqMax _ ?_
      · simp only [List.map_cons, List.map_nil]
        rw [lit_eq, lit_eq, lit_eq, lit_eq, lit_eq, mul_some, mul_some, mul_some, mul_some, mul_some]
        refine Only.bind (findSpeed_max a _ _ (by linarith)) fun _ => Only.bind ?_ fun _ => Only.pure
        refine Only.bind (findSpeed_max a _ _ (by linarith)) fun _ => Only.bind ?_ fun _ => Only.pure
        refine Only.bind (findSpeed_max a _ _ (by linarith)) fun _ => Only.bind ?_ fun _ => Only.pure
        refine Only.bind (findSpeed_max a _ _ (by linarith)) fun _ => Only.bind ?_ fun _ => Only.pure
        refine Only.bind (findSpeed_max a _ _ (by linarith)) fun _ => Only.bind ?_ fun _ => Only.pure
        exact Only.pure
      · unfold stopAndIdle kvOfSpeeds
        meas_tac
  · unfold storeKv
    refine Only.vdqMax _ ?_
    meas_tac
  · exact check_only

end Verif.Session
