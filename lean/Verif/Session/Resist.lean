import Verif.Session.Sweep
import Mathlib.Algebra.Order.Field.Rat
import Mathlib.Algebra.Order.Field.Basic
import Mathlib.Data.Rat.Floor
import Mathlib.Tactic.Linarith
import Mathlib.Tactic.FieldSimp
import Mathlib.Tactic.Ring

/-!
# The measurement of the winding resistance

`calibrate_winding_resistance2` in exact arithmetic.

Specification: `Ohmic R t`: in the trace, every telemetry that was received while
a voltage is applied shows the current of a resistor `R`.
-/

namespace Verif.Session

open Arith

/-- The applied voltage (if any), and whether all currents so far are those of a
resistor `R`. -/
def ohm (R : ℚ) (z : Option ℚ × Prop) : Ev Q → Option ℚ × Prop
  | .sent (.pwm _ v _) _ => (v, z.2)
  | .sent .stop _ => (none, z.2)
  | .stats s => (z.1, z.2 ∧ ∀ v, z.1 = some v → hypot s.d_A s.q_A = (some (v / R) : Q))
  | _ => z

/-- The motor behaves like a resistor `R`. -/
def Ohmic (R : ℚ) (t : List (Ev Q)) : Prop := (t.foldl (ohm R) (none, True)).2

/-- What a postcondition says about the result, if the program ended well. -/
def OkSat {α S : Type} (q : α → S → Prop) : Res Exn α → S → Prop
  | .ok a, s => q a s
  | .raised _, _ => True

section
variable {F α β S : Type} {step : S → Ev F → S} {pre : S → Prop}

theorem Holds.sat {p : P F α} {f : α → P F β} {mid : α → S → Prop} {post : β → S → Prop}
    (h1 : Holds step pre p (OkSat mid)) (h2 : ∀ a, Holds step (mid a) (f a) (OkSat post)) :
    Holds step pre (p >>= f) (OkSat post) :=
  Holds.bind h1 (mid := mid) (fun _ _ h => h) (fun _ _ _ => trivial) h2

theorem Holds.pureSat {a : α} {post : α → S → Prop} (h : ∀ s, pre s → post a s) :
    Holds step pre (Pure.pure a : P F α) (OkSat post) := Holds.pure h

theorem Holds.raiseSat {e : Exn} {post : α → S → Prop} :
    Holds step pre (M.raise e : P F α) (OkSat post) := Holds.raise fun _ _ => trivial

theorem Holds.orRaiseSat {o : Option α} {e : Exn} {post : α → S → Prop}
    (h : ∀ a, o = some a → ∀ s, pre s → post a s) :
    Holds step pre (orRaise e o : P F α) (OkSat post) := by
  cases o with
  | none => exact Holds.raiseSat
  | some a => exact Holds.pureSat (h a rfl)

theorem Holds.checkSat {c : Bool} {e : Exn} {post : Unit → S → Prop}
    (h : c = true → ∀ s, pre s → post () s) :
    Holds step pre (check c e : P F Unit) (OkSat post) := by
  unfold check
  by_cases hc : c = true
  · rw [if_pos hc]
    exact Holds.pureSat (h hc)
  · rw [if_neg hc]
    exact Holds.raiseSat

theorem Holds.commandSat {c : Cmd F} {post : Unit → S → Prop}
    (h : ∀ s, pre s → post () (step s (.sent c true))) :
    Holds step pre (command c) (OkSat post) := by
  rintro s hs t r (⟨rfl, rfl⟩ | ⟨e, rfl, rfl⟩)
  · exact h s hs
  · exact trivial

theorem Holds.clockSat [Arith F] {post : F → S → Prop} (h : ∀ x s, pre s → post x s) :
    Holds step pre (clock : P F F) (OkSat post) := by
  rintro s hs t r ⟨rfl, x, rfl⟩
  exact h x s hs

theorem Holds.statsSat {post : Stats F → S → Prop}
    (h : ∀ x s, pre s → post x (step s (.stats x))) :
    Holds step pre (readServoStats : P F (Stats F)) (OkSat post) := by
  unfold readServoStats
  refine Holds.sat (mid := post) ?_ fun x => ?_
  · rintro s hs t r (⟨x, rfl, rfl⟩ | ⟨rfl, e, rfl⟩)
    · exact h x s hs
    · exact trivial
  · split
    · exact Holds.raiseSat
    · exact Holds.pureSat fun _ h => h

/-- A list of results: each satisfies `A`, as long as `good` holds at the end. -/
theorem Holds.collectSat {σ : Type} {inv good : S → Prop} {A : σ → α → Prop} {f : σ → P F α}
    (mono : ∀ s ev, good (step s ev) → good s)
    (h : ∀ x, Holds step inv (f x) (OkSat fun y s => inv s ∧ (good s → A x y))) (xs : List σ) :
    Holds step inv (M.collect xs f)
      (OkSat fun l s => inv s ∧ (good s → List.Forall₂ A xs l)) := by
  have monoFold : ∀ (t : List (Ev F)) s, good (t.foldl step s) → good s := by
    intro t
    induction t with
    | nil => exact fun _ h => h
    | cons ev t ih => exact fun s h => mono _ _ (ih _ h)
  induction xs with
  | nil => exact Holds.pureSat fun _ h => ⟨h, fun _ => List.Forall₂.nil⟩
  | cons x xs ih =>
    refine Holds.sat (h x) fun y => ?_
    refine Holds.sat (mid := fun l s => inv s ∧ (good s → A x y ∧ List.Forall₂ A xs l)) ?_
      fun l => ?_
    · rintro s ⟨hs, hg⟩ t r hr
      have := ih s hs t r hr
      cases r with
      | raised => exact trivial
      | ok l => exact ⟨this.1, fun h => ⟨hg (monoFold _ _ h), this.2 h⟩⟩
    · exact Holds.pureSat fun s h => ⟨h.1, fun hg => List.Forall₂.cons (h.2 hg).1 (h.2 hg).2⟩

theorem Holds.loopSat {σ : Type} {body : σ → P F (σ ⊕ α)} {inv : σ → S → Prop}
    {post : α → S → Prop}
    (h : ∀ x, Holds step (inv x) (body x) (OkSat fun r s => match r with
      | .inl y => inv y s
      | .inr a => post a s)) (x : σ) :
    Holds step (inv x) (M.Loop body x) (OkSat post) := by
  refine Holds.loop (inv := inv) (fun x => (h x).weaken (fun _ h => h) fun r s h => ?_) x
  cases r with
  | raised => exact trivial
  | ok z => cases z <;> exact h

end

/-! ## Arithmetic -/

theorem lit_eq (r : ℚ) : (lit r : Q) = some r := rfl
theorem mul_some (x y : ℚ) : (mul (some x) (some y) : Q) = some (x * y) := rfl
theorem sub_some (x y : ℚ) : (sub (some x) (some y) : Q) = some (x - y) := rfl
theorem lt_some (x y : ℚ) : lt (some x : Q) (some y) = decide (x < y) := rfl
theorem le_some (x y : ℚ) : le (some x : Q) (some y) = decide (x ≤ y) := rfl
theorem div_some (x y : ℚ) (h : y ≠ 0) : (div (some x) (some y : Q)) = some (some (x / y)) :=
  if_neg fun h' => h (Option.some.inj h')

theorem sum_const (c a : ℚ) (l : List Q) (h : ∀ y ∈ l, y = some c) :
    l.foldl (Q.both none fun x y => some (x + y)) (some a) = some (a + l.length * c) := by
  induction l generalizing a with
  | nil =>
    rw [List.length_nil, Nat.cast_zero, zero_mul, add_zero]
    rfl
  | cons y l ih =>
    have hy := h y (by simp)
    subst hy
    rw [List.foldl_cons]
    show List.foldl _ (some (a + c)) l = _
    rw [ih (a + c) fun z hz => h z (by simp [hz]), List.length_cons, Nat.cast_succ]
    congr 1
    ring

/-- The mean of equal numbers. -/
theorem mean_const (c : ℚ) (l : List Q) (h : ∀ y ∈ l, y = some c) (hl : l ≠ []) :
    (div (sum l) (lit l.length) : Option Q) = some (some c) := by
  have h0 : (l.length : ℚ) ≠ 0 := by
    rw [Nat.cast_ne_zero]
    exact fun h => hl (List.length_eq_zero_iff.1 h)
  have hs : (sum l : Q) = some (0 + l.length * c) := sum_const c 0 l h
  rw [hs, lit_eq, div_some _ _ h0, zero_add, mul_div_cancel_left₀ c h0]

/-- Rounding to three decimals. -/
def r3 (v : ℚ) : ℚ := ((v * 1000 + 1 / 2).floor : ℚ) / 1000

theorem fmt3_some (v : ℚ) : (fmt3 (some v) : Q) = some (r3 v) := rfl

theorem r3_le (v : ℚ) : r3 v ≤ v + 1 / 2000 := by
  have h : ((v * 1000 + 1 / 2).floor : ℚ) ≤ v * 1000 + 1 / 2 := Int.floor_le _
  unfold r3
  rw [div_le_iff₀ (by norm_num)]
  linarith

theorem le_r3 (v : ℚ) : v - 1 / 2000 ≤ r3 v := by
  have h : v * 1000 + 1 / 2 < ((v * 1000 + 1 / 2).floor : ℚ) + 1 := Int.lt_floor_add_one _
  unfold r3
  rw [le_div_iff₀ (by norm_num)]
  linarith

theorem setStep_same {F : Type} (k : String) (x : F) (b : Bool) (s : Option F) :
    [Ev.sent (.confSet k x) b].foldl (setStep k) s = some x := if_pos rfl

/-! ## One current -/

theorem ohm_mono (R : ℚ) (z : Option ℚ × Prop) (ev : Ev Q) (h : (ohm R z ev).2) : z.2 := by
  unfold ohm at h
  split at h
  · exact h
  · exact h
  · exact h.1
  · exact h

theorem ohm_fold_mono (R : ℚ) (t : List (Ev Q)) (z : Option ℚ × Prop)
    (h : (t.foldl (ohm R) z).2) : z.2 := by
  induction t generalizing z with
  | nil => exact h
  | cons ev t ih => exact ohm_mono R z ev (ih _ h)

/-- A fact that depends only on the good behaviour so far remains. -/
theorem Holds.frame {α : Type} {R : ℚ} {A : Prop} {p : P Q α} {post : α → Option ℚ × Prop → Prop}
    {pre : Option ℚ × Prop → Prop}
    (h : Holds (ohm R) pre p (OkSat post)) :
    Holds (ohm R) (fun z => pre z ∧ (z.2 → A)) p (OkSat fun a z => post a z ∧ (z.2 → A)) := by
  rintro z ⟨h1, h2⟩ t r hr
  have := h z h1 t r hr
  cases r with
  | raised => exact trivial
  | ok a => exact ⟨this, fun hg => h2 (ohm_fold_mono R t z hg)⟩

/-- `find_current` returns the current of the resistor for the voltage that was
sent. -/
theorem findCurrent_ohm (R v : ℚ) :
    Holds (ohm R) (fun _ => True) (findCurrent (some v : Q))
      (OkSat fun c z => z.2 → c.1 = some (r3 v / R)) := by
  unfold findCurrent
  refine Holds.sat (mid := fun _ _ => True) (Holds.checkSat fun _ _ _ => trivial) fun _ => ?_
  refine Holds.sat (mid := fun _ (z : Option ℚ × Prop) => z.1 = some (r3 v)) (Holds.commandSat fun z _ => rfl)
    fun _ => ?_
  refine Holds.sat (Holds.collectSat (inv := fun z : Option ℚ × Prop => z.1 = some (r3 v))
    (good := fun z => z.2)
    (A := fun _ y => y = some (r3 v / R)) (ohm_mono R) (fun x => ?_) _) fun data => ?_
  · refine Holds.sat (mid := fun s (z : Option ℚ × Prop) => z.1 = some (r3 v) ∧
      (z.2 → hypot s.d_A s.q_A = (some (r3 v / R) : Q)))
      (Holds.statsSat fun s (z : Option ℚ × Prop) hz => ⟨hz, fun h => h.2 _ hz⟩) fun s => ?_
    exact Holds.pureSat fun z h => h
  refine Holds.sat (mid := fun _ z => z.2 → List.Forall₂ (fun _ y => y = some (r3 v / R))
    (List.range 20) data) (Holds.commandSat fun z h => h.2) fun _ => ?_
  refine Holds.sat (mid := fun c z => z.2 → c = some (r3 v / R))
    (Holds.orRaiseSat fun c hc z hz hg => ?_) fun c => ?_
  · have hf := hz hg
    have hl : data ≠ [] := by
      rintro rfl
      exact absurd hf (by rw [List.forall₂_nil_right_iff]; decide)
    have : ∀ y ∈ data, y = some (r3 v / R) := by
      intro y hy
      obtain ⟨i, hi, rfl⟩ := List.getElem_of_mem hy
      exact hf.get (by rw [hf.length_eq]; exact hi) hi
    rw [mean_const _ data this hl] at hc
    exact (Option.some.inj hc).symm
  refine Holds.sat (mid := fun _ z => z.2 → c = some (r3 v / R))
    (Holds.orRaiseSat fun _ _ z hz => hz) fun n => ?_
  exact Holds.pureSat fun z h => h

/-- The samples are those of a resistor. -/
def OhmSamples (R : ℚ) (l : List (Sample Q)) : Prop :=
  ∀ x ∈ l, ∃ v, 1 / 100 ≤ v ∧ x.voltage = some v ∧ x.current = some (r3 v / R)

theorem resistanceRound_ohm (R : ℚ) (a : Args Q) (i : Q) (v : ℚ) (l : List (Sample Q))
    (hv : 1 / 100 ≤ v) :
    Holds (ohm R) (fun z => z.2 → OhmSamples R l) (resistanceRound a i (some v, l))
      (OkSat fun r z => match r with
        | .inl st => (∃ v, 1 / 100 ≤ v ∧ st.1 = some v) ∧ (z.2 → OhmSamples R st.2)
        | .inr m => z.2 → OhmSamples R m) := by
  unfold resistanceRound
  refine Holds.sat (((findCurrent_ohm R v).frame (A := OhmSamples R l)).weaken
    (fun _ h => ⟨trivial, h⟩) fun _ _ h => h) fun c => ?_
  obtain ⟨c, n⟩ := c
  have hnew : (c = some (r3 v / R)) → OhmSamples R l →
      OhmSamples R (l ++ [⟨some v, c, n⟩]) := by
    intro hc hl x hx
    rcases List.mem_append.1 hx with hx | hx
    · exact hl x hx
    · rw [List.mem_singleton.1 hx]
      exact ⟨v, hv, rfl, hc⟩
  refine Holds.sat (mid := fun _ z => z.2 → OhmSamples R (l ++ [⟨some v, c, n⟩]))
    (Holds.orRaiseSat fun _ _ z hz hg => hnew (hz.1 hg) (hz.2 hg)) fun _ => ?_
  dsimp only
  split
  · exact Holds.pureSat fun z h => h
  · exact Holds.pureSat fun z h => ⟨⟨v * (11 / 10), by linarith, rfl⟩, h⟩

theorem search_ohm (R : ℚ) (a : Args Q) (i : Q) :
    Holds (ohm R) (fun _ => True) (M.Loop (resistanceRound a i) (lit (1/100), []))
      (OkSat fun m z => z.2 → OhmSamples R m) := by
  refine (Holds.loopSat (inv := fun st z => (∃ v, 1 / 100 ≤ v ∧ st.1 = some v) ∧ (z.2 → OhmSamples R st.2))
    (fun st => ?_) (lit (1/100), [])).weaken (fun _ _ => ⟨⟨1/100, le_rfl, rfl⟩, fun _ x hx => by
      exact absurd hx List.not_mem_nil⟩) fun _ _ h => h
  obtain ⟨v, l⟩ := st
  rcases v with - | v
  · rintro z ⟨⟨v, -, h⟩, -⟩
    cases h
  · by_cases hv : 1 / 100 ≤ v
    · refine (resistanceRound_ohm R a i v l hv).weaken (fun _ h => h.2) fun r _ h => ?_
      cases r with
      | raised => exact trivial
      | ok z => cases z <;> exact h
    · rintro z ⟨⟨w, hw, h⟩, -⟩
      cases h
      exact absurd hw hv

/-- The error of the quotient of differences of rounded numbers. -/
theorem slope_error {R v1 v2 : ℚ} (hR : 0 < R) (h2 : 0 < r3 v2)
    (h : r3 v1 / R < 6 / 10 * (r3 v2 / R)) :
    |(v2 - v1) / (r3 v2 / R - r3 v1 / R) - R| ≤ R / (400 * r3 v2) := by
  have h1 : r3 v1 < 6 / 10 * r3 v2 := by
    rw [← mul_div_assoc, div_lt_div_iff_of_pos_right hR] at h
    exact h
  have hd : 4 / 10 * r3 v2 < r3 v2 - r3 v1 := by linarith
  have hpos : 0 < r3 v2 - r3 v1 := lt_trans (by linarith) hd
  have e : (v2 - v1) / (r3 v2 / R - r3 v1 / R) - R =
      R * (((v2 - r3 v2) - (v1 - r3 v1)) / (r3 v2 - r3 v1)) := by
    rw [← sub_div]
    field_simp
    ring
  rw [e, abs_mul, abs_of_pos hR, div_eq_mul_one_div R]
  apply mul_le_mul_of_nonneg_left _ hR.le
  rw [abs_div, abs_of_pos hpos, div_le_div_iff₀ hpos (by linarith)]
  have b : |(v2 - r3 v2) - (v1 - r3 v1)| ≤ 1 / 1000 := by
    have := r3_le v1
    have := r3_le v2
    have := le_r3 v1
    have := le_r3 v2
    rw [abs_le]
    constructor <;> linarith
  calc |(v2 - r3 v2) - (v1 - r3 v1)| * (400 * r3 v2)
      ≤ 1 / 1000 * (400 * r3 v2) := mul_le_mul_of_nonneg_right b (by linarith)
    _ ≤ 1 * (r3 v2 - r3 v1) := by linarith

/-- **C75.** If the motor behaves like a resistor `R` while the voltages are
applied, then the measured resistance differs from `R` by at most
`R / (400 · V)`, where `V` is the highest voltage that was applied (as sent, with
three decimals). -/
theorem C75_resistance (R : ℚ) (hR : 0 < R) (a : Args Q) (i : Q) (t : List (Ev Q))
    (r v n : Q) (h : calibrateWindingResistance2 a i t (.ok (r, v, n))) (ho : Ohmic R t) :
    ∃ ρ w, r = some ρ ∧ v = some w ∧ lastSet "motor.resistance_ohm" t = some r ∧
      |ρ - R| ≤ R / (400 * r3 w) := by
  have hset : lastSet "motor.resistance_ohm" t = some r := by
    unfold calibrateWindingResistance2 at h
    cases h with | ok h1 h =>
    cases h with | ok h2 h =>
    cases h with | ok h3 h =>
    cases h with | ok h4 h =>
    cases h with | ok h5 h =>
    obtain ⟨rfl, h⟩ := h
    injection h with h
    injection h with h6 h7
    subst h6
    rcases h5 with ⟨rfl, -⟩ | ⟨e, -, h5⟩
    · unfold lastSet
      rw [List.append_nil, ← List.append_assoc, ← List.append_assoc, ← List.append_assoc,
        List.foldl_append]
      exact setStep_same _ _ _ _
    · cases h5
  have key : Holds (ohm R) (fun _ => True) (calibrateWindingResistance2 a i)
      (OkSat fun x z => z.2 → ∃ ρ w, x.1 = some ρ ∧ x.2.1 = some w ∧
        |ρ - R| ≤ R / (400 * r3 w)) := by
    unfold calibrateWindingResistance2
    refine Holds.sat (search_ohm R a i) fun m => ?_
    refine Holds.sat (mid := fun l z => z.2 → ∃ w, 1 / 100 ≤ w ∧ l.voltage = some w ∧
        l.current = some (r3 w / R) ∧ OhmSamples R m) (Holds.orRaiseSat fun l hl z hz hg => ?_)
        fun l => ?_
    · obtain ⟨w, h0, h1, h2⟩ := hz hg l (List.mem_of_getLast? hl)
      exact ⟨w, h0, h1, h2, hz hg⟩
    refine Holds.sat (mid := fun k z => z.2 → ∃ w u, 1 / 100 ≤ w ∧ l.voltage = some w ∧
        l.current = some (r3 w / R) ∧ k.voltage = some u ∧ k.current = some (r3 u / R) ∧
        r3 u / R < 6 / 10 * (r3 w / R))
        (Holds.orRaiseSat fun k hk z hz hg => ?_) fun k => ?_
    · obtain ⟨w, h0, h1, h2, h3⟩ := hz hg
      have hm := List.mem_filter.1 (List.mem_of_getLast? hk)
      obtain ⟨u, -, h4, h5⟩ := h3 k hm.1
      refine ⟨w, u, h0, h1, h2, h4, h5, ?_⟩
      have := hm.2
      rw [h2, h5, lit_eq, mul_some, lt_some] at this
      exact of_decide_eq_true this
    refine Holds.sat (mid := fun ρ z => z.2 → ∃ x w, ρ = some x ∧ l.voltage = some w ∧
        |x - R| ≤ R / (400 * r3 w))
        (Holds.orRaiseSat fun ρ hρ z hz hg => ?_) fun ρ => ?_
    · obtain ⟨w, u, h0', h1, h2, h3, h4, h5⟩ := hz hg
      rw [h1, h2, h3, h4, sub_some, sub_some] at hρ
      by_cases h0 : r3 w / R - r3 u / R = 0
      · have : (div (some (w - u)) (some (r3 w / R - r3 u / R) : Q)) = none := by
          rw [h0]
          exact if_pos rfl
        rw [this] at hρ
        cases hρ
      · rw [div_some _ _ h0] at hρ
        exact ⟨_, w, (Option.some.inj hρ).symm, h1,
          slope_error hR (by have := le_r3 w; linarith) h5⟩
    refine Holds.sat (mid := fun _ z => z.2 → ∃ x w, ρ = some x ∧ l.voltage = some w ∧
        |x - R| ≤ R / (400 * r3 w)) (Holds.commandSat fun z h => h) fun _ => ?_
    exact Holds.pureSat fun z h hg => h hg
  obtain ⟨ρ, w, h1, h2, h3⟩ := key (none, True) trivial t _ h ho
  exact ⟨ρ, w, h1, h2, hset, h3⟩

/-! ## The voltages that are applied -/

/-- How many voltages were applied, and whether all of them were at most `b`. -/
def probe (b : ℚ) (z : ℕ × Prop) : Ev Q → ℕ × Prop
  | .sent (.pwm _ v _) _ => (z.1 + 1, z.2 ∧ ∃ w, v = some w ∧ w ≤ b)
  | _ => z

/-- Number of voltages that were applied. -/
def applied (t : List (Ev Q)) : ℕ := t.countP fun ev => match ev with
  | .sent (.pwm ..) _ => true
  | _ => false

theorem probe_fold (b : ℚ) (t : List (Ev Q)) (z : ℕ × Prop) :
    (t.foldl (probe b) z).1 = z.1 + applied t ∧
    ((t.foldl (probe b) z).2 → z.2 ∧
      ∀ p v r a, .sent (.pwm p v r) a ∈ t → ∃ w, v = some w ∧ w ≤ b) := by
  induction t generalizing z with
  | nil => exact ⟨rfl, fun h => ⟨h, fun _ _ _ _ h => absurd h List.not_mem_nil⟩⟩
  | cons ev t ih =>
    obtain ⟨h1, h2⟩ := ih (probe b z ev)
    refine ⟨?_, fun h => ?_⟩
    · rw [List.foldl_cons, h1]
      unfold applied
      rw [List.countP_cons]
      unfold probe
      split
      · dsimp only
        rw [if_pos rfl]
        omega
      · rw [if_neg Bool.false_ne_true, Nat.add_zero]
    · obtain ⟨h3, h4⟩ := h2 h
      have h5 : z.2 ∧ ∀ p v r a, ev = .sent (.pwm p v r) a → ∃ w, v = some w ∧ w ≤ b := by
        unfold probe at h3
        split at h3
        · refine ⟨h3.1, fun p v r a he => ?_⟩
          cases he
          exact h3.2
        · rename_i hn
          exact ⟨h3, fun p v r a he => absurd he (hn _ _ _ _)⟩
      refine ⟨h5.1, fun p v r a hm => ?_⟩
      rcases List.mem_cons.1 hm with he | hm
      · exact h5.2 p v r a he.symm
      · exact h4 p v r a hm

/-- Events that apply no voltage. -/
def NoPwm : Ev Q → Prop
  | .sent (.pwm ..) _ => False
  | _ => True

theorem Only.probe {α : Type} {p : P Q α} (h : Only NoPwm p) (b : ℚ) (inv : ℕ × Prop → Prop) :
    Holds (probe b) inv p (fun _ z => inv z) :=
  h.holds fun ev z hev hz => by
    unfold NoPwm at hev
    unfold Session.probe
    split at hev
    · exact hev.elim
    · exact hz

theorem findCurrent_probe (b v : ℚ) (hv : v + 1 / 2000 ≤ b) (n : ℕ) :
    Holds (probe b) (fun z => z.1 = n ∧ z.2) (findCurrent (some v : Q))
      (fun r z => z.2 ∧ z.1 ≤ n + 1 ∧ match r with
        | .ok _ => z.1 = n + 1
        | .raised _ => True) := by
  unfold findCurrent
  refine Holds.bind (Only.probe check_only b _) (mid := fun _ z => z.1 = n ∧ z.2)
    (fun _ _ h => h) (fun _ z h => ⟨h.2, by have := h.1; omega, trivial⟩) fun _ => ?_
  refine Holds.bind (Q := fun _ z => z.1 = n + 1 ∧ z.2) (mid := fun _ z => z.1 = n + 1 ∧ z.2)
    ?_ (fun _ _ h => h) (fun _ z h => ⟨h.2, by have := h.1; omega, trivial⟩) fun _ => ?_
  · have key : ∀ (z : ℕ × Prop) a, z.1 = n ∧ z.2 →
        (probe b z (.sent (.pwm (lit 0) (fmt3 (some v)) none) a)).1 = n + 1 ∧
        (probe b z (.sent (.pwm (lit 0) (fmt3 (some v)) none) a)).2 := by
      intro z a hz
      refine ⟨congrArg (· + 1) hz.1, hz.2, r3 v, rfl, ?_⟩
      have := r3_le v
      linarith
    rintro z hz t r (⟨rfl, rfl⟩ | ⟨e, rfl, rfl⟩)
    · exact key z true hz
    · exact key z false hz
  · refine (Only.probe (b := b) (inv := fun z => z.1 = n + 1 ∧ z.2) ?_).weaken
      (fun _ h => h) fun r z h => ⟨h.2, by have := h.1; omega, ?_⟩
    · meas_tac
    · cases r with
      | ok => exact h.1
      | raised => exact trivial

/-- **C75.** For a supply of `V` ≥ 1 V, every voltage that is applied while the
resistance is measured is at most 0.44 · V (plus the rounding to three decimals),
and at most `N + 1` voltages are applied, where 0.01 · 1.1^N exceeds 0.4 · V:
whatever the controller answers, also when the measurement fails. -/
theorem C75_voltages (a : Args Q) (V : ℚ) (hV : 1 ≤ V) (N : ℕ)
    (hN : 4 / 10 * V < 1 / 100 * (11 / 10) ^ N) (t : List (Ev Q)) (r : Res Exn (Q × Q × Q))
    (h : calibrateWindingResistance2 a (some V) t r) :
    (∀ p v f b, .sent (.pwm p v f) b ∈ t → ∃ w, v = some w ∧ w ≤ 44 / 100 * V + 1 / 2000) ∧
    applied t ≤ N + 1 := by
  have hround : ∀ n l, (∀ m, n = m + 1 → 1 / 100 * (11 / 10) ^ m ≤ 4 / 10 * V) →
      Holds (probe (44 / 100 * V + 1 / 2000)) (fun z => z.1 = n ∧ z.2)
        (resistanceRound a (some V) (some (1 / 100 * (11 / 10) ^ n), l))
        (fun r z => z.2 ∧ z.1 ≤ N + 1 ∧ match r with
          | .ok (.inl st) => z.1 = n + 1 ∧ st.1 = some (1 / 100 * (11 / 10) ^ (n + 1)) ∧
              1 / 100 * (11 / 10) ^ n ≤ 4 / 10 * V
          | _ => True) := by
    intro n l hn
    have hnN : n ≤ N := by
      rcases n with - | m
      · exact Nat.zero_le _
      · by_contra hc
        have hm : N ≤ m := by omega
        have : (11 / 10 : ℚ) ^ N ≤ (11 / 10) ^ m := pow_le_pow_right₀ (by norm_num) hm
        have := hn m rfl
        linarith
    have hv : 1 / 100 * (11 / 10 : ℚ) ^ n + 1 / 2000 ≤ 44 / 100 * V + 1 / 2000 := by
      rcases n with - | m
      · rw [pow_zero]
        linarith
      · have := hn m rfl
        rw [pow_succ]
        linarith
    unfold resistanceRound
    refine Holds.bind (findCurrent_probe _ _ hv n) (mid := fun _ z => z.2 ∧ z.1 = n + 1)
      (fun _ _ h => ⟨h.1, h.2.2⟩) (fun _ z h => ⟨h.1, by have := h.2.1; omega, trivial⟩) fun c => ?_
    refine Holds.bind (Only.probe Only.orRaise _ _) (mid := fun _ z => z.2 ∧ z.1 = n + 1)
      (fun _ _ h => h) (fun _ z h => ⟨h.1, by have := h.2; omega, trivial⟩) fun _ => ?_
    dsimp only
    split
    · exact Holds.pure fun z h => ⟨h.1, by have := h.2; omega, trivial⟩
    · rename_i hc
      refine Holds.pure fun z h => ⟨h.1, by have := h.2; omega, h.2, ?_, ?_⟩
      · rw [lit_eq, mul_some, pow_succ, mul_assoc]
      · rw [Bool.or_eq_true, not_or] at hc
        have h2 := hc.2
        rw [lit_eq, mul_some, lt_some, decide_eq_true_eq, not_lt] at h2
        exact h2
  have hloop : Holds (probe (44 / 100 * V + 1 / 2000)) (fun z => z.1 = 0 ∧ z.2)
      (M.Loop (resistanceRound a (some V)) (lit (1/100), []))
      (fun _ z => z.2 ∧ z.1 ≤ N + 1) := by
    refine (Holds.loop (inv := fun st z => z.2 ∧ ∃ n, z.1 = n ∧
      st.1 = some (1 / 100 * (11 / 10) ^ n) ∧
      (∀ m, n = m + 1 → 1 / 100 * (11 / 10) ^ m ≤ 4 / 10 * V)) (fun st => ?_)
      (lit (1/100), [])).weaken (fun z h => ⟨h.2, 0, h.1, ?_, fun m hm => by omega⟩)
      fun _ _ h => h
    · obtain ⟨v, l⟩ := st
      rintro z ⟨h1, n, h2, h3, h4⟩ t r hr
      have h3' : v = some (1 / 100 * (11 / 10) ^ n) := h3
      subst h3'
      have := hround n l h4 z ⟨h2, h1⟩ t r hr
      rcases r with (st | m) | e
      · obtain ⟨h5, -, h6, h7, h8⟩ := this
        refine ⟨h5, n + 1, h6, h7, fun m hm => ?_⟩
        cases hm
        exact h8
      · exact ⟨this.1, this.2.1⟩
      · exact ⟨this.1, this.2.1⟩
    · rw [pow_zero, mul_one]
      rfl
  have key : Holds (probe (44 / 100 * V + 1 / 2000)) (fun z => z.1 = 0 ∧ z.2)
      (calibrateWindingResistance2 a (some V)) (fun _ z => z.2 ∧ z.1 ≤ N + 1) := by
    unfold calibrateWindingResistance2
    refine Holds.bind hloop (mid := fun _ z => z.2 ∧ z.1 ≤ N + 1) (fun _ _ h => h)
      (fun _ _ h => h) fun m => ?_
    refine Only.probe ?_ _ (fun z => z.2 ∧ z.1 ≤ N + 1)
    meas_tac
  obtain ⟨h1, h2⟩ := key (0, True) ⟨rfl, trivial⟩ t r h
  obtain ⟨h3, h4⟩ := probe_fold (44 / 100 * V + 1 / 2000) t (0, True)
  rw [h3, Nat.zero_add] at h2
  exact ⟨(h4 h1).2, h2⟩

/-- For 24 V: at most 74 voltages. -/
example : (4 / 10 * 24 : ℚ) < 1 / 100 * (11 / 10) ^ 73 := by norm_num

/-! ## An execution with a resistor -/

theorem can_collect {α σ S : Type} {step : S → Ev Q → S} {s : S} {xs : List σ}
    {f : σ → P Q α} (g : σ → α)
    (h : ∀ x ∈ xs, Can step s (f x) (fun r z => r = .ok (g x) ∧ z = s)) :
    Can step s (M.collect xs f) (fun r z => r = .ok (xs.map g) ∧ z = s) := by
  induction xs with
  | nil => exact Can.pure ⟨rfl, rfl⟩
  | cons x xs ih =>
    exact Can.bind _ _ (h x (by simp)) (Can.bind _ _ (ih fun y hy => h y (by simp [hy]))
      (Can.pure ⟨rfl, rfl⟩))

/-- Options with 4 mW. -/
def smallArgs : Args Q := { runArgs 4 with calMotorPower := some (1 / 250) }

/-- A current with the right value. -/
theorem can_current (v : ℚ) (n : Q)
    (h0 : (lt (some v : Q) (lit 20) && le (lit 0) (some v : Q)) = true)
    (hh : hypot (some (r3 v / (1 / 10))) (some 0) = (some (r3 v / (1 / 10)) : Q))
    (h2 : stddev ((List.range 20).map fun _ => (some (r3 v / (1 / 10)) : Q)) = some n) :
    Can (ohm (1 / 10)) (none, True) (findCurrent (some v : Q))
      (fun r z => r = .ok (some (r3 v / (1 / 10)), n) ∧ z = (none, True)) := by
  have hno : ∀ {α : Type} {z : Option ℚ × Prop} {p : P Q α} {a : α}, Runs p (.ok a) →
      Only (fun _ => False) p → Can (ohm (1 / 10)) z p (fun r y => r = .ok a ∧ y = z) := by
    rintro α z p a ⟨t, ht⟩ ho
    refine ⟨t, _, ht, rfl, ?_⟩
    cases t with
    | nil => rfl
    | cons ev t => exact (ho.elim ht ev (by simp)).elim
  unfold findCurrent
  refine Can.bind () (none, True) (hno (Runs.check h0) check_only) ?_
  refine Can.bind () (some (r3 v), True) ⟨_, _, Or.inl ⟨rfl, rfl⟩, rfl, rfl⟩ ?_
  refine Can.bind _ _ (can_collect (fun _ => (some (r3 v / (1 / 10)) : Q)) fun x _ => ?_) ?_
  · refine Can.bind (runStats (r3 v / (1 / 10)) 0 0) (some (r3 v), True) ?_
      (Can.pure ⟨congrArg Res.ok hh, rfl⟩)
    refine Can.bind (runStats (r3 v / (1 / 10)) 0 0) (some (r3 v), True)
      ⟨_, _, Or.inl ⟨runStats (r3 v / (1 / 10)) 0 0, rfl, rfl⟩, rfl, ?_⟩ ?_
    · refine Prod.ext rfl (eq_true ⟨trivial, fun w hw => ?_⟩)
      rw [← Option.some.inj hw]
      exact hh
    · rw [if_neg (by simp only [runStats]; decide)]
      exact Can.pure ⟨rfl, rfl⟩
  refine Can.bind () (none, True) ⟨_, _, Or.inl ⟨rfl, rfl⟩, rfl, rfl⟩ ?_
  refine Can.bind (some (r3 v / (1 / 10))) (none, True) (hno (Runs.orRaise ?_) Only.orRaise) ?_
  · refine mean_const _ _ (fun y hy => ?_) (by simp)
    rw [List.mem_map] at hy
    obtain ⟨_, -, rfl⟩ := hy
    rfl
  exact Can.bind n (none, True) (hno (Runs.orRaise h2) Only.orRaise) (Can.pure ⟨rfl, rfl⟩)

/-- A round that goes on. -/
theorem can_round (v v' : ℚ) (l : List (Sample Q))
    (h0 : (lt (some v : Q) (lit 20) && le (lit 0) (some v : Q)) = true)
    (hh : hypot (some (r3 v / (1 / 10))) (some 0) = (some (r3 v / (1 / 10)) : Q))
    (h2 : stddev ((List.range 20).map fun _ => (some (r3 v / (1 / 10)) : Q)) = some (some 0))
    (h3 : (stepResistance l (some v) (some (r3 v / (1 / 10)) : Q)).isSome = true)
    (h4 : (lt smallArgs.calMotorPower (mul (mul (some (r3 v / (1 / 10))) (some v)) (lit (3/2))) ||
      lt (mul (lit (4/10)) (some 24)) (some v : Q)) = false)
    (h5 : v * (11 / 10) = v') :
    Can (ohm (1 / 10)) (none, True) (resistanceRound smallArgs (some 24) (some v, l))
      (fun r z => r = .ok (.inl (some v', l ++ [⟨some v, some (r3 v / (1 / 10)), some 0⟩])) ∧
        z = (none, True)) := by
  obtain ⟨x, hx⟩ := Option.isSome_iff_exists.1 h3
  unfold resistanceRound
  refine Can.bind _ _ (can_current v (some 0) h0 hh h2) ?_
  refine Can.bind x (none, True) ?_ ?_
  · dsimp only
    rw [hx]
    exact Can.pure ⟨rfl, rfl⟩
  dsimp only
  rw [h4, if_neg Bool.false_ne_true]
  exact Can.pure ⟨by rw [← h5]; rfl, rfl⟩

theorem can_lastRound (v : ℚ) (l : List (Sample Q))
    (h0 : (lt (some v : Q) (lit 20) && le (lit 0) (some v : Q)) = true)
    (hh : hypot (some (r3 v / (1 / 10))) (some 0) = (some (r3 v / (1 / 10)) : Q))
    (h2 : stddev ((List.range 20).map fun _ => (some (r3 v / (1 / 10)) : Q)) = some (some 0))
    (h3 : (stepResistance l (some v) (some (r3 v / (1 / 10)) : Q)).isSome = true)
    (h4 : (lt smallArgs.calMotorPower (mul (mul (some (r3 v / (1 / 10))) (some v)) (lit (3/2))) ||
      lt (mul (lit (4/10)) (some 24)) (some v : Q)) = true) :
    Can (ohm (1 / 10)) (none, True) (resistanceRound smallArgs (some 24) (some v, l))
      (fun r z => r = .ok (.inr (l ++ [⟨some v, some (r3 v / (1 / 10)), some 0⟩])) ∧
        z = (none, True)) := by
  obtain ⟨x, hx⟩ := Option.isSome_iff_exists.1 h3
  unfold resistanceRound
  refine Can.bind _ _ (can_current v (some 0) h0 hh h2) ?_
  refine Can.bind x (none, True) ?_ ?_
  · dsimp only
    rw [hx]
    exact Can.pure ⟨rfl, rfl⟩
  dsimp only
  rw [h4, if_pos rfl]
  exact Can.pure ⟨rfl, rfl⟩

deriving instance DecidableEq for Sample

/-- What the search measures on a resistor of 0.1 ohm. -/
def sevenSamples : List (Sample Q) :=
  [⟨some (1 / 100), some (r3 (1 / 100) / (1 / 10)), some 0⟩,
    ⟨some (11 / 1000), some (r3 (11 / 1000) / (1 / 10)), some 0⟩,
    ⟨some (121 / 10000), some (r3 (121 / 10000) / (1 / 10)), some 0⟩,
    ⟨some (1331 / 100000), some (r3 (1331 / 100000) / (1 / 10)), some 0⟩,
    ⟨some (14641 / 1000000), some (r3 (14641 / 1000000) / (1 / 10)), some 0⟩,
    ⟨some (161051 / 10000000), some (r3 (161051 / 10000000) / (1 / 10)), some 0⟩,
    ⟨some (1771561 / 100000000), some (r3 (1771561 / 100000000) / (1 / 10)), some 0⟩]

/-- The hypotheses of `C75_resistance` are met: with a resistor of 0.1 ohm, the
measurement stores 0.7715610 / 8 ohm. -/
theorem can_resistance :
    Can (ohm (1 / 10)) (none, True) (calibrateWindingResistance2 smallArgs (some 24))
      (fun r z => r = .ok (some (771561 / 8000000), some (1771561 / 100000000), some 0) ∧
        z = (none, True)) := by
  unfold calibrateWindingResistance2
  refine Can.bind sevenSamples (none, True) ?_ ?_
  · refine Can.again _ _ (can_round (1 / 100) (11 / 1000) []
      ?_ ?_ ?_ ?_ ?_ ?_) ?_
    iterate 6 decide +kernel
    refine Can.again _ _ (can_round (11 / 1000) (121 / 10000) _
      ?_ ?_ ?_ ?_ ?_ ?_) ?_
    iterate 6 decide +kernel
    refine Can.again _ _ (can_round (121 / 10000) (1331 / 100000) _
      ?_ ?_ ?_ ?_ ?_ ?_) ?_
    iterate 6 decide +kernel
    refine Can.again _ _ (can_round (1331 / 100000) (14641 / 1000000) _
      ?_ ?_ ?_ ?_ ?_ ?_) ?_
    iterate 6 decide +kernel
    refine Can.again _ _ (can_round (14641 / 1000000) (161051 / 10000000) _
      ?_ ?_ ?_ ?_ ?_ ?_) ?_
    iterate 6 decide +kernel
    refine Can.again _ _ (can_round (161051 / 10000000) (1771561 / 100000000) _
      ?_ ?_ ?_ ?_ ?_ ?_) ?_
    iterate 6 decide +kernel
    refine Can.leave sevenSamples ?_
    obtain ⟨t, r, h1, h2, h3⟩ := can_lastRound (1771561 / 100000000) (sevenSamples.take 6)
      (by decide +kernel) (by decide +kernel) (by decide +kernel) (by decide +kernel)
      (by decide +kernel)
    exact ⟨t, r, h1, h2, rfl, h3⟩
  refine Can.bind (⟨some (1771561 / 100000000), some (r3 (1771561 / 100000000) / (1 / 10)), some 0⟩ :
    Sample Q) (none, True) (Can.pure ⟨rfl, rfl⟩) ?_
  dsimp only
  refine Can.bind (⟨some (1 / 100), some (r3 (1 / 100) / (1 / 10)), some 0⟩ : Sample Q)
    (none, True) ?_ ?_
  · rw [show (List.filter (fun x => lt x.current (mul (lit (6 / 10))
      (some (r3 (1771561 / 100000000) / (1 / 10)) : Q))) sevenSamples).getLast? =
        some ⟨some (1 / 100), some (r3 (1 / 100) / (1 / 10)), some 0⟩ by decide +kernel]
    exact Can.pure ⟨rfl, rfl⟩
  refine Can.bind (some (771561 / 8000000) : Q) (none, True) ?_ ?_
  · rw [show div (sub (some (1771561 / 100000000)) (some (1 / 100)))
      (sub (some (r3 (1771561 / 100000000) / (1 / 10))) (some (r3 (1 / 100) / (1 / 10)))) =
        some (some (771561 / 8000000) : Q) by decide +kernel]
    exact Can.pure ⟨rfl, rfl⟩
  refine Can.bind () (none, True) ⟨_, _, Or.inl ⟨rfl, rfl⟩, rfl, rfl⟩ ?_
  exact Can.pure ⟨rfl, rfl⟩

/-- A measurement on a resistor of 0.1 ohm that ends. -/
example : ∃ t, calibrateWindingResistance2 smallArgs (some 24) t
    (.ok (some (771561 / 8000000), some (1771561 / 100000000), some 0)) ∧ Ohmic (1 / 10) t := by
  obtain ⟨t, r, h1, h2, h3⟩ := can_resistance
  subst h2
  exact ⟨t, h1, by unfold Ohmic; rw [h3]; trivial⟩

/-- With a supply of 24 V, at most 74 voltages are applied. -/
example : (4 / 10 * 24 : ℚ) < 1 / 100 * (11 / 10) ^ 73 := by norm_num

end Verif.Session
