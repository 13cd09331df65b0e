import Verif.Session.Saves
import Mathlib.Data.Rat.Sqrt

/-!
# Executions of the calibration: the theorems are not vacuous, and what can go wrong

Rational numbers with a NaN as the numbers of the tool, and rules to build
executions.
-/

namespace Verif.Session

open Arith

/-- Rational numbers and NaN (`none`). -/
abbrev Q := Option ℚ

/-- Both are numbers. -/
def Q.both {α : Type} (d : α) (f : ℚ → ℚ → α) : Q → Q → α
  | some x, some y => f x y
  | _, _ => d

/-- Exact arithmetic; the square root is exact for squares of rational
numbers. -/
instance : Arith Q where
  lit r := some r
  add := Q.both none fun x y => some (x + y)
  sub := Q.both none fun x y => some (x - y)
  mul := Q.both none fun x y => some (x * y)
  div x y := if y = some 0 then none else some (Q.both none (fun x y => some (x / y)) x y)
  lt := Q.both false fun x y => decide (x < y)
  le := Q.both false fun x y => decide (x ≤ y)
  sqrt x := if Q.both false (fun x y => decide (x < y)) x (some 0) then none
    else some (x.map Rat.sqrt)
  hypot := Q.both none fun x y => some (Rat.sqrt (x * x + y * y))
  abs x := x.map fun x => if x < 0 then -x else x
  sum l := l.foldl (Q.both none fun x y => some (x + y)) (some 0)
  round x := x.map fun x => some ((x + 1 / 2).floor : ℚ)
  fmt3 x := x.map fun x => ((x * 1000 + 1 / 2).floor : ℚ) / 1000
  pi := some (355 / 113)
  nan := none

/-- Some execution ends with `r`. -/
def Runs {F α : Type} (p : P F α) (r : Res Exn α) : Prop := ∃ t, p t r

namespace Runs

variable {F α β σ : Type} {r : Res Exn β}

theorem pure {a : α} : Runs (Pure.pure a : P F α) (.ok a) := ⟨[], rfl, rfl⟩

theorem raise {e : Exn} : Runs (M.raise e : P F α) (.raised e) := ⟨[], rfl, rfl⟩

theorem bind {p : P F α} {f : α → P F β} {a : α} (h1 : Runs p (.ok a)) (h2 : Runs (f a) r) :
    Runs (p >>= f) r := by
  obtain ⟨t, h1⟩ := h1
  obtain ⟨u, h2⟩ := h2
  exact ⟨t ++ u, M.Bind.ok h1 h2⟩

theorem bindRaise {p : P F α} {f : α → P F β} {e : Exn} (h1 : Runs p (.raised e)) :
    Runs (p >>= f) (.raised e) := by
  obtain ⟨t, h1⟩ := h1
  exact ⟨t, M.Bind.raised h1⟩

theorem command (c : Cmd F) : Runs (Session.command c) (.ok ()) :=
  ⟨_, Or.inl ⟨rfl, rfl⟩⟩

theorem commandErr (c : Cmd F) (e : Exn) : Runs (Session.command c) (.raised e) :=
  ⟨_, Or.inr ⟨e, rfl, rfl⟩⟩

theorem writeMessage (c : Cmd F) : Runs (Session.writeMessage c) (.ok ()) :=
  ⟨_, rfl, Or.inl rfl⟩

theorem readAny (r : Res Exn α) : Runs (readAny : P F α) r := ⟨_, rfl⟩

theorem anything (r : Res Exn α) : Runs (anything : P F α) r := ⟨_, rfl⟩

theorem clock (x : F) : Runs (clock : P F F) (.ok x) := ⟨_, rfl, x, rfl⟩

theorem readConfig {k : String} (x : F) : Runs (readConfig k : P F F) (.ok x) :=
  bind (a := .value x) ⟨_, Or.inl ⟨x, rfl, rfl⟩⟩ pure

theorem supported {k : String} : Runs (isConfigSupported k : P F Bool) (.ok true) :=
  bind (a := .text) ⟨_, Or.inr ⟨rfl, Or.inl rfl⟩⟩ pure

theorem unsupported {k : String} : Runs (isConfigSupported k : P F Bool) (.ok false) :=
  bind (a := .unsupported) ⟨_, Or.inr ⟨rfl, Or.inr (Or.inl rfl)⟩⟩ pure

theorem orRaise {e : Exn} {o : Option α} {a : α} (h : o = some a) :
    Runs (orRaise e o : P F α) (.ok a) := by
  subst h
  exact pure

theorem check {c : Bool} {e : Exn} (h : c = true) : Runs (check c e : P F Unit) (.ok ()) := by
  subst h
  exact pure

theorem checkFails {c : Bool} {e : Exn} (h : c = false) :
    Runs (Session.check c e : P F Unit) (.raised e) := by
  subst h
  exact raise

theorem whenNot {c : Bool} {p : P F Unit} (h : c = false) : Runs (when c p) (.ok ()) := by
  subst h
  exact pure

theorem whenDo {c : Bool} {p : P F Unit} {r : Res Exn Unit} (h : c = true) (h' : Runs p r) :
    Runs (when c p) r := by
  subst h
  exact h'

theorem ite {c : Prop} [Decidable c] {p q : P F α} {r : Res Exn α} (h : c) (hp : Runs p r) :
    Runs (if c then p else q) r := by
  rw [if_pos h]
  exact hp

theorem iteNot {c : Prop} [Decidable c] {p q : P F α} {r : Res Exn α} (h : ¬ c)
    (hp : Runs q r) : Runs (if c then p else q) r := by
  rw [if_neg h]
  exact hp

theorem again {body : σ → P F (σ ⊕ α)} {x y : σ} {r : Res Exn α}
    (h1 : Runs (body x) (.ok (.inl y))) (h2 : Runs (M.Loop body y) r) :
    Runs (M.Loop body x) r := by
  obtain ⟨t, h1⟩ := h1
  obtain ⟨u, h2⟩ := h2
  exact ⟨t ++ u, M.Loop.again h1 h2⟩

theorem leave {body : σ → P F (σ ⊕ α)} {x : σ} {a : α}
    (h1 : Runs (body x) (.ok (.inr a))) : Runs (M.Loop body x) (.ok a) := by
  obtain ⟨t, h1⟩ := h1
  exact ⟨t, M.Loop.leave h1⟩

theorem loopRaise {body : σ → P F (σ ⊕ α)} {x : σ} {e : Exn}
    (h1 : Runs (body x) (.raised e)) : Runs (M.Loop body x) (.raised e) := by
  obtain ⟨t, h1⟩ := h1
  exact ⟨t, M.Loop.raised h1⟩

theorem tryOk {p : P F α} {h : Exn → P F α} {a : α} (h1 : Runs p (.ok a)) :
    Runs (M.Catch p h) (.ok a) := by
  obtain ⟨t, h1⟩ := h1
  exact ⟨t, M.Catch.ok h1⟩

theorem caught {p : P F α} {h : Exn → P F α} {e : Exn} {r : Res Exn α}
    (h1 : Runs p (.raised e)) (h2 : Runs (h e) r) : Runs (M.Catch p h) r := by
  obtain ⟨t, h1⟩ := h1
  obtain ⟨u, h2⟩ := h2
  exact ⟨t ++ u, M.Catch.caught h1 h2⟩

theorem finallyOk {p : P F α} {q : P F Unit} {r : Res Exn α} (h1 : Runs p r)
    (h2 : Runs q (.ok ())) : Runs (M.Finally p q) r := by
  obtain ⟨t, h1⟩ := h1
  obtain ⟨u, h2⟩ := h2
  exact ⟨t ++ u, M.Finally.done h1 h2⟩

theorem collect {xs : List σ} {f : σ → P F α} (g : σ → α)
    (h : ∀ x ∈ xs, Runs (f x) (.ok (g x))) : Runs (M.collect xs f) (.ok (xs.map g)) := by
  induction xs with
  | nil => exact pure
  | cons x xs ih =>
    exact bind (h x (by simp)) (bind (ih fun y hy => h y (by simp [hy])) pure)

theorem attempt {p : P F α} {a : α} (h : Runs p (.ok a)) :
    Runs (attempt p) (.ok (Except.ok a)) := tryOk (bind h pure)

end Runs

/-! ## A run -/

/-- Options: the default ones, except for a small motor power, so that the run
is short, and for a given voltage for the Kv measurement. -/
def runArgs (kv : ℚ) : Args Q where
  calNoUpdate := false
  calHall := false
  calBwHz := some 200
  encoderBwHz := none
  calLlEncoderVoltage := none
  calLlEncoderSpeed := some (some 1)
  calLlKvVoltage := some (some kv)
  calPower := none
  calSpeed := none
  calVoltage := none
  calKvVoltage := none
  calMotorPower := some (3 / 1000)
  calMotorSpeed := some 6
  calMotorPoles := none
  calForceKv := none
  calMaxKvPowerFactor := some (3 / 2)
  calForceEncoderCurrentMode := false

/-- Evaluate a condition on the options. -/
macro "eval_tac" : tactic => `(tactic| (simp only [runArgs]; decide +kernel))

/-- Telemetry with this current, velocity and integrator. -/
def runStats (d v i : ℚ) : Stats Q :=
  ⟨0, some d, some 0, some v, none, some 24, some i⟩

theorem run_stats (d v i : ℚ) : Runs (readServoStats : P Q (Stats Q)) (.ok (runStats d v i)) :=
  Runs.bind (a := runStats d v i) ⟨_, Or.inl ⟨_, rfl, rfl⟩⟩ (Runs.iteNot (by simp only [runStats]; decide) Runs.pure)

theorem run_fault : Runs (checkForFault : P Q Unit) (.ok ()) :=
  Runs.bind (run_stats 0 0 0) Runs.pure

theorem run_current (v : ℚ) (g : Nat → ℚ) (c n : Q)
    (h0 : (lt (some v : Q) (lit 20) && le (lit 0) (some v : Q)) = true)
    (h1 : (div (sum ((List.range 20).map fun i => hypot (some (g i)) (some 0 : Q)))
      (lit 20) : Option Q) = some c)
    (h2 : stddev ((List.range 20).map fun i => hypot (some (g i)) (some 0 : Q)) = some n) :
    Runs (findCurrent (some v : Q)) (.ok (c, n)) := by
  unfold findCurrent
  refine Runs.bind (Runs.check h0) ?_
  refine Runs.bind (Runs.command _) ?_
  refine Runs.bind (Runs.collect (fun i => hypot (some (g i)) (some 0 : Q)) fun i _ => ?_) ?_
  · exact Runs.bind (run_stats (g i) 0 0) Runs.pure
  refine Runs.bind (Runs.command _) ?_
  refine Runs.bind (Runs.orRaise h1) ?_
  exact Runs.bind (Runs.orRaise h2) Runs.pure

/-- Half of the readings are 0.4 A, the other half 0.6 A. -/
def noisy (i : Nat) : ℚ := if i % 2 = 0 then 2 / 5 else 3 / 5

theorem run_resistance (kv : ℚ) :
    Runs (calibrateWindingResistance2 (runArgs kv) (some 24))
      (.ok (some (1 / 500), some (11 / 1000), some (1 / 10))) := by
  unfold calibrateWindingResistance2
  refine Runs.bind (a := [⟨some (1 / 100), some 0, some 0⟩,
    ⟨some (11 / 1000), some (1 / 2), some (1 / 10)⟩]) ?_ ?_
  · refine Runs.again (y := (some (11 / 1000), [⟨some (1 / 100), some 0, some 0⟩])) ?_
      (Runs.leave ?_)
    · refine Runs.bind (run_current (1 / 100) (fun _ => 0) (some 0) (some 0) ?_ ?_ ?_) ?_
      · decide +kernel
      · decide +kernel
      · decide +kernel
      · exact Runs.bind (Runs.orRaise (a := some 0) rfl) (Runs.iteNot (by eval_tac)
          (by
            have : (mul (some (1 / 100) : Q) (lit (11 / 10))) = some (11 / 1000) := by
              decide +kernel
            show Runs (Pure.pure (Sum.inl (mul (some (1 / 100) : Q) (lit (11 / 10)), _))) _
            rw [this]
            exact Runs.pure))
    · refine Runs.bind (run_current (11 / 1000) noisy (some (1 / 2)) (some (1 / 10)) ?_ ?_ ?_) ?_
      · decide +kernel
      · decide +kernel
      · decide +kernel
      · exact Runs.bind (Runs.orRaise (a := some (1 / 500)) (by decide +kernel))
          (Runs.ite (by eval_tac) Runs.pure)
  · refine Runs.bind (Runs.orRaise rfl) ?_
    refine Runs.bind (Runs.orRaise (a := ⟨some (1 / 100), some 0, some 0⟩) ?_) ?_
    · rw [List.filter_cons_of_pos (by decide +kernel), List.filter_cons_of_neg (by decide +kernel)]
      rfl
    refine Runs.bind (Runs.orRaise (a := some (1 / 500)) (by decide +kernel)) ?_
    exact Runs.bind (Runs.command _) Runs.pure

/-- The firmware of the run. -/
def runFw : Firmware := ⟨0x10a, 0⟩

theorem run_period (n : Nat) (d : ℚ) :
    Runs (testInductancePeriod runFw (some (11 / 1000) : Q) (some 24) n)
      (.ok (some d, some (11 / 1250))) := by
  unfold testInductancePeriod
  refine Runs.bind (Runs.command _) (Runs.bind (Runs.clock (some 0)) ?_)
  refine Runs.bind (Runs.command _) (Runs.bind (Runs.clock (some 1)) ?_)
  refine Runs.bind (run_stats 0 0 d) (Runs.bind (Runs.orRaise (a := some d) ?_) ?_)
  · show (if _ then none else some (some (d / (1 - 0)))) = _
    rw [if_neg (by decide +kernel)]
    rw [sub_zero, div_one]
  · have : (if runFw.version < 0x010a then (some (11 / 1000) : Q) else
      pyMin (mul (lit (15/100)) (some 24)) (mul (lit (8/10)) (some (11 / 1000)))) =
        some (11 / 1250) := by decide +kernel
    rw [this]
    exact Runs.pure

theorem run_inductance : Runs (calibrateInductance runFw (some (11 / 1000) : Q) (some 24))
    (.ok (some (some (11 / 125000)))) := by
  unfold calibrateInductance
  refine Runs.bind (Runs.readConfig (some 14)) ?_
  refine Runs.bind (Runs.whenNot (by decide +kernel)) ?_
  refine Runs.bind (a := some (some (some 100, some (11 / 1250), 1))) (Runs.tryOk ?_) ?_
  · refine Runs.bind (a := some (some 100, some (11 / 1250), 1)) ?_
      (Runs.bind (Runs.command _) Runs.pure)
    refine Runs.bind (run_period 2 100) (Runs.iteNot (by decide +kernel) ?_)
    refine Runs.bind (run_period 3 10) (Runs.ite (by decide +kernel) ?_)
    have : updateHighest (some (updateHighest none (some 100) (some (11 / 1250) : Q)))
        (some 10) (some (11 / 1250)) = (some 100, some (11 / 1250), 1) := by decide +kernel
    rw [this]
    exact Runs.pure
  · exact Runs.bind (Runs.orRaise (a := some (11 / 125000)) (by decide +kernel))
      (Runs.iteNot (by decide +kernel) Runs.pure)

theorem run_bandwidth (kv : ℚ) :
    Runs (storeBandwidth (runArgs kv) (some (1 / 500)) (some (some (11 / 125000)))
      (some 30000)) (.ok (some (some 200))) := by
  have h : Runs (calculateBandwidth (runArgs kv) (some (1 / 500)) (some (11 / 125000))
      (some 30000)) (.ok (mul (some (400 * (355 / 113))) (some (11 / 125000)),
        mul (some (400 * (355 / 113))) (some (1 / 500)), some 200)) := by
    unfold calculateBandwidth
    refine Runs.bind Runs.unsupported (Runs.bind (Runs.whenNot rfl) ?_)
    refine Runs.bind (Runs.orRaise (a := some 1000) (by decide +kernel)) ?_
    have : pyMin (mul (mul (some 1000) (lit 2)) pi) (mul (runArgs kv).calBwHz (mul (lit 2) pi))
        = some (400 * (355 / 113)) := by eval_tac
    dsimp only
    rw [this]
    exact Runs.bind (Runs.orRaise (a := some 200) (by decide +kernel)) Runs.pure
  unfold storeBandwidth
  refine Runs.bind h ?_
  exact Runs.bind (Runs.command _) (Runs.bind (Runs.command _) (Runs.bind run_fault Runs.pure))

theorem run_filter (kv : ℚ) :
    Runs (setEncoderFilter (runArgs kv) (some (some 200)) (some (some (11 / 125000)))
      (some 30000)) (.ok (some (some (800 * (355 / 113)),
        some (400 * (355 / 113) * (400 * (355 / 113))), some 200))) := by
  unfold setEncoderFilter
  refine Runs.bind Runs.supported (Runs.bind Runs.unsupported (Runs.iteNot (by decide) ?_))
  refine Runs.bind (a := some 200) ?_ ?_
  · unfold desiredBandwidth
    refine Runs.iteNot (by eval_tac) (Runs.bind (Runs.orRaise rfl) ?_)
    refine Runs.bind (a := false) ?_ (Runs.iteNot (by decide) ?_)
    · exact Runs.bind Runs.unsupported (Runs.iteNot (by decide) Runs.pure)
    · have : pyMax (lit 10) (some 200 : Q) = some 200 := by decide +kernel
      rw [this]
      exact Runs.pure
  refine Runs.bind (Runs.orRaise (a := some 1000) (by decide +kernel)) ?_
  have h1 : mul (lit 2) (mul (mul (pyMin (some 1000) (some 200)) (lit 2)) pi) =
    (some (800 * (355 / 113)) : Q) := by decide +kernel
  have h2 : mul (mul (mul (pyMin (some 1000) (some 200)) (lit 2)) pi)
    (mul (mul (pyMin (some 1000) (some 200)) (lit 2)) pi) =
    (some (400 * (355 / 113) * (400 * (355 / 113))) : Q) := by decide +kernel
  have h3 : pyMin (some 1000) (some 200) = (some 200 : Q) := by decide +kernel
  dsimp only
  rw [h1, h2, h3]
  refine Runs.bind (a := ()) ?_ Runs.pure
  unfold storeFilter
  refine Runs.iteNot (by decide) ?_
  exact Runs.bind (Runs.readConfig (some 0)) (Runs.command _)

/-- The position is known. -/
theorem run_theta (a : Args Q) (v : Q) : Runs (ensureValidTheta a v) (.ok ()) := by
  unfold ensureValidTheta
  refine Runs.bind (Runs.readConfig (some 14)) (Runs.bind (Runs.whenNot (by decide +kernel)) ?_)
  refine Runs.bind (a := some ⟨0, 1, true, 0⟩)
    (Runs.tryOk (Runs.bind (Runs.readAny (.ok _)) Runs.pure)) ?_
  exact Runs.pure

/-- What the encoder calibration of the run finds. -/
def runResult : CalResult Q := ⟨14, false, false, [some (1 / 10), some (2 / 10)], false⟩

theorem run_absolute (kv : ℚ) :
    Runs (calibrateEncoderMappingAbsolute (runArgs kv) runFw (some (1 / 500)) (some 1)
      (some (1 / 10))) (.ok runResult) := by
  unfold calibrateEncoderMappingAbsolute
  refine Runs.bind (run_theta _ _) ?_
  refine Runs.bind (Runs.orRaise (a := some 10) (by decide +kernel)) ?_
  refine Runs.bind (Runs.orRaise rfl) ?_
  refine Runs.bind (a := ()) ?_ ?_
  · unfold startCalibration
    refine Runs.iteNot (by eval_tac) ?_
    exact Runs.bind (Runs.command _) (Runs.writeMessage _)
  refine Runs.bind (a := ()) ?_ ?_
  · exact Runs.leave (Runs.bind (Runs.readAny (.ok .done)) Runs.pure)
  refine Runs.bind Runs.supported (Runs.bind (Runs.anything (.ok runResult)) ?_)
  refine Runs.bind (Runs.check (by decide)) (Runs.bind (Runs.check (by eval_tac)) ?_)
  refine Runs.bind (Runs.command _) (Runs.bind Runs.supported ?_)
  refine Runs.bind (Runs.command _) (Runs.bind (Runs.whenDo rfl (Runs.command _)) ?_)
  refine Runs.bind (a := ()) ?_ Runs.pure
  exact Runs.bind (Runs.command _) (Runs.bind (Runs.command _) Runs.pure)

theorem run_mapping (kv : ℚ) (x : Q) :
    Runs (calibrateEncoderMapping (runArgs kv) runFw x (some 24) (some (1 / 500)) (some (1 / 10)))
      (.ok (runResult, some (1 / 500))) := by
  unfold calibrateEncoderMapping
  refine Runs.bind (a := some (some (1 / 500))) ?_ ?_
  · unfold findEncoderCalVoltage
    refine Runs.iteNot (by eval_tac) ?_
    refine Runs.bind (Runs.orRaise (a := some (1 / 500)) (by eval_tac)) ?_
    refine Runs.bind (Runs.orRaise (a := some (1 / 500)) (by decide +kernel)) ?_
    have : pyMin (mul (lit (4/10)) (some 24 : Q)) (some (1 / 500)) = some (1 / 500) := by
      decide +kernel
    rw [this]
    exact Runs.pure
  refine Runs.bind (Runs.orRaise rfl) (Runs.bind (Runs.orRaise (a := some 1) (by decide +kernel)) ?_)
  refine Runs.bind (a := false) (Runs.bind Runs.unsupported (Runs.iteNot (by decide) Runs.pure)) ?_
  refine Runs.iteNot (by eval_tac) ?_
  refine Runs.bind (a := (some (some 1), some (some 0), none)) ?_ ?_
  · unfold saveSettings
    refine Runs.bind (Runs.attempt Runs.supported) ?_
    refine Runs.bind (Runs.attempt (Runs.readConfig (some 1))) ?_
    refine Runs.bind (Runs.attempt (Runs.command _)) ?_
    exact Runs.bind (Runs.attempt (Runs.readConfig (some 0))) Runs.pure
  refine Runs.bind (Runs.finallyOk (run_absolute kv) ?_) Runs.pure
  exact Runs.bind (Runs.command _) (Runs.bind (Runs.command _) (Runs.command _))

theorem run_parameters (kv : ℚ) :
    Runs (calculateCalibrationParameters (runArgs kv)) (.ok (runArgs kv)) :=
  Runs.bind Runs.pure (Runs.bind Runs.pure (Runs.bind Runs.pure (Runs.bind Runs.pure Runs.pure)))

theorem run_electrical (kv : ℚ) (x : Q) :
    Runs (calibrateElectrical (runArgs kv) runFw x)
      (.ok (some (some 1, some 1), some (1 / 500), some (1 / 10), some 24,
        some (1 / 500))) := by
  unfold calibrateElectrical
  refine Runs.bind (a := ()) ?_ ?_
  · exact Runs.leave (Runs.caught (Runs.bindRaise (Runs.commandErr _ (.command .errorSetting)))
      Runs.pure)
  refine Runs.bind (Runs.command _) ?_
  refine Runs.bind (a := some (some 1, some 1)) ?_ ?_
  · refine Runs.bind Runs.unsupported (Runs.iteNot (by decide) ?_)
    refine Runs.bind Runs.supported (Runs.ite (by decide) ?_)
    exact Runs.bind (Runs.readConfig _) (Runs.bind (Runs.readConfig _) Runs.pure)
  refine Runs.bind (a := some 30000) ?_ ?_
  · refine Runs.bind Runs.supported (Runs.ite (by decide) ?_)
    exact Runs.bind (Runs.readConfig (some 30000)) (Runs.ite (by decide +kernel) Runs.pure)
  refine Runs.bind (Runs.tryOk (Runs.command _)) ?_
  refine Runs.bind (Runs.tryOk (Runs.command _)) ?_
  refine Runs.bind (run_stats 0 0 0) ?_
  refine Runs.bind (Runs.orRaise (a := some 24) (by decide +kernel)) ?_
  refine Runs.bind run_fault (Runs.bind (run_resistance kv) ?_)
  refine Runs.bind run_fault (Runs.bind run_inductance ?_)
  refine Runs.bind run_fault (Runs.bind (run_bandwidth kv) ?_)
  refine Runs.bind (run_filter kv) (Runs.bind run_fault ?_)
  exact Runs.bind (run_mapping kv x) Runs.pure

/-! ### Kv -/

/-- The first reading comes more than two seconds after the start. -/
theorem run_speedLoop (a : Args Q) (v : Q) (w : ℚ) :
    Runs (M.Loop (speedRound a v (some 0)) ([], [])) (.ok (some w)) := by
  refine Runs.leave (Runs.bind (run_stats 0 w 0) ?_)
  refine Runs.bind (Runs.orRaise (a := some w) ?_) ?_
  · show (if (some ((1 : Nat) : ℚ) : Q) = some 0 then none
      else some (some ((0 + w) / ((1 : Nat) : ℚ)))) = _
    rw [if_neg (by decide +kernel), zero_add, Nat.cast_one, div_one]
  exact Runs.bind (Runs.clock (some 3)) (Runs.ite (by decide +kernel) Runs.pure)

theorem run_speed (a : Args Q) (v w : ℚ)
    (h : (lt (some v : Q) (lit 20) && le (lit 0) (some v : Q)) = true) :
    Runs (findSpeed a (some v)) (.ok (some w)) := by
  unfold findSpeed
  exact Runs.bind (Runs.check h) (Runs.bind (Runs.command _)
    (Runs.bind (Runs.clock (some 0)) (run_speedLoop a _ w)))

/-- The motor stands still in six consecutive readings. -/
theorem run_idleLoop : Runs (M.Loop (fun n : Nat => do
    let s ← (readServoStats : P Q (Stats Q))
    let n := if lt (abs (s.velocityFilt.getD s.velocity)) (lit (3/10)) then n + 1 else 0
    pure (if n > 5 then .inr () else .inl n)) 0) (.ok ()) := by
  have hlt : lt (Arith.abs ((runStats 0 0 0).velocityFilt.getD (runStats 0 0 0).velocity))
      (lit (3/10)) = true := by decide +kernel
  have h : ∀ n : Nat, n < 5 → Runs (do
      let s ← (readServoStats : P Q (Stats Q))
      let n := if lt (abs (s.velocityFilt.getD s.velocity)) (lit (3/10)) then n + 1 else 0
      pure (if n > 5 then .inr () else .inl n)) (.ok (.inl (n + 1) : Nat ⊕ Unit)) := by
    intro n hn
    refine Runs.bind (run_stats 0 0 0) ?_
    dsimp only
    rw [hlt, if_pos rfl, if_neg (by omega)]
    exact Runs.pure
  refine Runs.again (h 0 (by omega)) (Runs.again (h 1 (by omega)) (Runs.again (h 2 (by omega))
    (Runs.again (h 3 (by omega)) (Runs.again (h 4 (by omega)) (Runs.leave ?_)))))
  refine Runs.bind (run_stats 0 0 0) ?_
  dsimp only
  rw [hlt, if_pos rfl, if_pos (by omega)]
  exact Runs.pure

theorem run_idle : Runs (stopAndIdle : P Q Unit) (.ok ()) :=
  Runs.bind (Runs.command _) run_idleLoop

/-- Twice as fast for twice the voltage. -/
def runSpeed : Q → Q := fun v => mul (lit 2) v

theorem run_kv : Runs (measureKv (runArgs 4) runFw (some (1 / 500)) (some 24) (some 1) (some 1))
    (.ok (some (342 / 5))) := by
  unfold measureKv
  refine Runs.bind (run_theta _ _) ?_
  refine Runs.bind (Runs.readConfig (some (-1))) (Runs.bind (Runs.readConfig (some 1)) ?_)
  refine Runs.bind (Runs.command _) (Runs.bind (Runs.command _) (Runs.bind (Runs.command _) ?_))
  refine Runs.bind (a := some 4) ?_ ?_
  · unfold findKvCalVoltage
    exact Runs.ite (by decide +kernel) (Runs.orRaise rfl)
  refine Runs.bind run_idle ?_
  have hv : ([lit 0, lit (1/4), lit (1/2), lit (3/4), lit 1].map
      fun x : Q => mul x (some 4)) = [some 0, some 1, some 2, some 3, some 4] := by
    decide +kernel
  dsimp only
  rw [hv]
  refine Runs.bind (Runs.collect (fun v : Q => v.map fun v => 2 * v) fun v hv => ?_) ?_
  · rcases v with - | v
    · exact absurd hv (by decide)
    · refine run_speed _ v (2 * v) ?_
      have hm : v = 0 ∨ v = 1 ∨ v = 2 ∨ v = 3 ∨ v = 4 := by simpa using hv
      rcases hm with rfl | rfl | rfl | rfl | rfl
      all_goals decide +kernel
  refine Runs.bind run_idle (Runs.bind (Runs.command _) (Runs.bind (Runs.command _) ?_))
  unfold kvOfSpeeds
  refine Runs.bind (Runs.orRaise (a := (some 4, some 8)) (by decide +kernel)) ?_
  refine Runs.bind (Runs.orRaise (a := (some 0, some 2)) (by decide +kernel)) ?_
  refine Runs.bind (Runs.orRaise (a := some (1 / 2)) (by decide +kernel)) ?_
  refine Runs.iteNot (by decide +kernel) ?_
  exact Runs.orRaise (by decide +kernel)

theorem run_mechanical :
    Runs (calibrateMechanical (runArgs 4) runFw (some (some 1, some 1)) (some (1 / 500))
      (some (1 / 10)) (some 24) (some (1 / 500))) (.ok ()) := by
  unfold calibrateMechanical
  refine Runs.bind run_fault (Runs.bind (Runs.orRaise rfl) ?_)
  refine Runs.bind (a := some (342 / 5)) ?_ ?_
  · unfold calibrateKvRating
    refine Runs.bind run_kv (Runs.bind (a := some (342 / 5)) ?_ ?_)
    · exact Runs.ite (by decide) (Runs.bind (Runs.command _) Runs.pure)
    · exact Runs.bind (Runs.check (by decide +kernel)) Runs.pure
  refine Runs.bind run_fault (Runs.bind (Runs.command _) (Runs.bind (a := ()) ?_ ?_))
  · unfold chooseVoltageMode
    refine Runs.bind Runs.supported (Runs.whenDo rfl ?_)
    refine Runs.bind (Runs.orRaise (a := some 6000) (by decide +kernel)) ?_
    exact Runs.bind (Runs.orRaise (a := some 60000) (by decide +kernel)) (Runs.command _)
  exact Runs.bind (Runs.readAny (.ok ())) Runs.pure

/-- There is a calibration that completes, so that the theorems about completed
calibrations and about what is saved speak of something. -/
theorem run_complete (x : Q) : Runs (doCalibrate (runArgs 4) x) (.ok ()) := by
  unfold doCalibrate
  refine Runs.bind (a := none) ?_ (Runs.bind (Runs.command _) (Runs.anything _))
  unfold measureAll
  refine Runs.bind (Runs.readAny (.ok runFw)) (Runs.bind (a := none) Runs.pure ?_)
  refine Runs.bind (Runs.check (by decide)) (Runs.bind (a := ()) ?_ ?_)
  · exact Runs.bind Runs.supported (Runs.whenDo rfl (Runs.bind (Runs.readConfig (some 0))
      (Runs.check (by decide +kernel))))
  refine Runs.bind (run_parameters 4) ?_
  exact Runs.bind (run_electrical 4 x) (Runs.bind run_mechanical Runs.pure)

/-- The hypotheses of `C72_complete`, `C73_complete_saves`, `C73_saved_off`,
`C73_limits` and `C73_sign` are met: a run that completes, saves, and leaves the
motor off. -/
example (x : Q) : ∃ t, doCalibrate (runArgs 4) x t (.ok ()) ∧ Saved t ∧ powered t = false := by
  obtain ⟨t, h⟩ := run_complete x
  exact ⟨t, h, ⟨true, C73_complete_saves _ x t h⟩, C72_complete _ x t h⟩

/-! ## Aborted calibrations -/

section
variable {F S α β : Type} {step : S → Ev F → S} {s : S} {post : Res Exn β → S → Prop}

theorem Can.bindRuns {p : P F α} {f : α → P F β} {a : α} (h1 : Runs p (.ok a))
    (h2 : ∀ s, Can step s (f a) post) : Can step s (p >>= f) post := by
  obtain ⟨t, h1⟩ := h1
  exact Can.bind a _ ⟨t, _, h1, rfl, rfl⟩ (h2 _)

theorem Can.command (c : Cmd F) :
    Can step s (command c) (fun r z => r = .ok () ∧ z = step s (.sent c true)) :=
  ⟨_, _, Or.inl ⟨rfl, rfl⟩, rfl, rfl⟩

/-- Nothing but readings. -/
def JustReading : Ev F → Prop
  | .reading => True
  | .stats _ => True
  | _ => False

theorem Can.reads {p : P F α} {a : α} (hstep : ∀ s, step s .reading = s)
    (hstep' : ∀ s x, step s (.stats x) = s)
    (h1 : Runs p (.ok a)) (h2 : Only JustReading p) :
    Can step s p (fun r z => r = .ok a ∧ z = s) := by
  obtain ⟨t, h1⟩ := h1
  refine ⟨t, _, h1, rfl, ?_⟩
  have ht := h2.elim h1
  induction t with
  | nil => rfl
  | cons ev t ih =>
    have : ∀ (t : List (Ev F)), (∀ ev ∈ t, JustReading ev) → t.foldl step s = s := by
      intro t
      induction t with
      | nil => intro _; rfl
      | cons ev t ih =>
        intro h
        have he : step s ev = s := by
          have := h ev (by simp)
          cases ev with
          | reading => exact hstep s
          | stats x => exact hstep' s x
          | sent => exact this.elim
          | got => exact this.elim
          | listed => exact this.elim
        rw [List.foldl_cons, he]
        exact ih fun x hx => h x (by simp [hx])
    exact this _ ht

end

/-- Power, and the value of the lower limit. -/
def watch (s : Bool × Option Q) (ev : Ev Q) : Bool × Option Q :=
  (power s.1 ev, setStep "servopos.position_min" s.2 ev)

theorem watch_fold (s : Bool × Option Q) (t : List (Ev Q)) :
    t.foldl watch s = (t.foldl power s.1, t.foldl (setStep "servopos.position_min") s.2) := by
  induction t generalizing s with
  | nil => rfl
  | cons ev t ih => exact ih _

theorem can_stats (s : Bool × Option Q) (d v i : ℚ) :
    Can watch s (readServoStats : P Q (Stats Q))
      (fun r z => r = .ok (runStats d v i) ∧ z = s) :=
  Can.reads (fun _ => rfl) (fun _ _ => rfl) (run_stats d v i) (readServoStats_only trivial fun _ => trivial)

theorem can_nothing {α : Type} {s : Bool × Option Q} {p : P Q α} {a : α}
    (h1 : Runs p (.ok a)) (h2 : Only (fun _ => False) p) :
    Can watch s p (fun r z => r = .ok a ∧ z = s) :=
  Can.reads (fun _ => rfl) (fun _ _ => rfl) h1 (h2.mono fun _ h => h.elim)

theorem can_speed (a : Args Q) (v w : ℚ) (x : Option Q) (p : Bool)
    (h : (lt (some v : Q) (lit 20) && le (lit 0) (some v : Q)) = true) :
    Can watch (p, x) (findSpeed a (some v))
      (fun r z => r = .ok (some w) ∧ z = (true, x)) := by
  unfold findSpeed
  refine Can.bind () (p, x) (can_nothing (Runs.check h) check_only) ?_
  refine Can.bind () (true, x) ?_ ?_
  · refine ⟨_, _, Or.inl ⟨rfl, rfl⟩, rfl, ?_⟩
    cases p <;> rfl
  refine Can.bind (some 0) (true, x) ⟨[], _, ⟨rfl, some 0, rfl⟩, rfl, rfl⟩ ?_
  refine Can.leave (some w) ?_
  refine Can.bind _ _ (can_stats _ 0 w 0) ?_
  refine Can.bind (some w) (true, x) (can_nothing (Runs.orRaise ?_) Only.orRaise) ?_
  · show (if (some ((1 : Nat) : ℚ) : Q) = some 0 then none
      else some (some ((0 + w) / ((1 : Nat) : ℚ)))) = _
    rw [if_neg (by decide +kernel), zero_add, Nat.cast_one, div_one]
  refine Can.bind (some 3) (true, x) ⟨[], _, ⟨rfl, some 3, rfl⟩, rfl, rfl⟩ ?_
  rw [if_pos (by decide +kernel)]
  exact Can.pure ⟨rfl, rfl, rfl⟩

theorem can_idle (x : Option Q) (p : Bool) :
    Can watch (p, x) (stopAndIdle : P Q Unit) (fun r z => r = .ok () ∧ z = (false, x)) := by
  unfold stopAndIdle
  refine Can.bind () (false, x) ⟨_, _, Or.inl ⟨rfl, rfl⟩, rfl, rfl⟩ ?_
  refine Can.reads (fun _ => rfl) (fun _ _ => rfl) run_idleLoop ?_
  refine Only.loop (fun n => ?_) _
  refine Only.bind (readServoStats_only trivial fun _ => trivial) fun _ => Only.pure

/-- With `--cal-ll-kv-voltage 24` the speeds at 0, 6, 12 and 18 V are measured,
and then the assertion of `find_speed` fails. -/
theorem can_abort (s : Bool × Option Q) :
    Can watch s
      (measureKv (runArgs 24) runFw (some (1 / 500)) (some 24) (some 1) (some 1))
      (fun r z => r = .raised .assertion ∧ z = (true, some none)) := by
  unfold measureKv
  refine Can.bindRuns (run_theta _ _) fun s => ?_
  refine Can.bindRuns (Runs.readConfig (some (-1))) fun s => ?_
  refine Can.bindRuns (Runs.readConfig (some 1)) fun s => ?_
  refine Can.bind () (s.1, some none) ⟨_, _, Or.inl ⟨rfl, rfl⟩, rfl, ?_⟩ ?_
  · rcases s with ⟨_ | _, _⟩ <;> rfl
  refine Can.bind () (s.1, some none) ⟨_, _, Or.inl ⟨rfl, rfl⟩, rfl, ?_⟩ ?_
  · rcases s with ⟨_ | _, _⟩ <;> rfl
  refine Can.bind () (s.1, some none) ⟨_, _, Or.inl ⟨rfl, rfl⟩, rfl, ?_⟩ ?_
  · rcases s with ⟨_ | _, _⟩ <;> rfl
  refine Can.bind (some 24) (s.1, some none) ?_ ?_
  · unfold findKvCalVoltage
    rw [if_pos (by decide +kernel)]
    exact can_nothing (Runs.orRaise rfl) Only.orRaise
  refine Can.bind () _ (can_idle _ _) ?_
  have hv : ([lit 0, lit (1/4), lit (1/2), lit (3/4), lit 1].map
      fun x : Q => mul x (some 24)) = [some 0, some 6, some 12, some 18, some 24] := by
    decide +kernel
  dsimp only
  rw [hv]
  refine Can.bindRaise .assertion ?_
  refine Can.bind _ _ (can_speed _ 0 0 _ _ (by decide +kernel)) ?_
  refine Can.bindRaise .assertion ?_
  refine Can.bind _ _ (can_speed _ 6 12 _ _ (by decide +kernel)) ?_
  refine Can.bindRaise .assertion ?_
  refine Can.bind _ _ (can_speed _ 12 24 _ _ (by decide +kernel)) ?_
  refine Can.bindRaise .assertion ?_
  refine Can.bind _ _ (can_speed _ 18 36 _ _ (by decide +kernel)) ?_
  refine Can.bindRaise .assertion ?_
  refine Can.bindRaise .assertion ?_
  unfold findSpeed
  refine Can.bindRaise .assertion ?_
  unfold check
  rw [if_neg (by decide +kernel)]
  exact Can.raise (by simp)

/-- **C72, refuted for calibrations that fail.** With `--cal-ll-kv-voltage 24`
and a controller that accepts every command, the calibration stops with an
AssertionError while 18 V are applied to the motor, and with the lower position
limit set to NaN: nothing turns the motor off. -/
theorem C72_abort_refuted (x : Q) :
    ∃ t, doCalibrate (runArgs 24) x t (.raised .assertion) ∧ powered t = true ∧
      lastSet "servopos.position_min" t = some none := by
  have h : Can watch (true, none) (doCalibrate (runArgs 24) x)
      (fun r z => r = .raised .assertion ∧ z = (true, some none)) := by
    unfold doCalibrate
    refine Can.bindRaise .assertion ?_
    unfold measureAll
    refine Can.bindRuns (Runs.readAny (.ok runFw)) fun s => ?_
    refine Can.bindRuns (a := none) Runs.pure fun s => ?_
    refine Can.bindRuns (Runs.check (by decide)) fun s => ?_
    refine Can.bindRuns (a := ()) (Runs.bind Runs.supported (Runs.whenDo rfl
      (Runs.bind (Runs.readConfig (some 0)) (Runs.check (by decide +kernel))))) fun s => ?_
    refine Can.bindRuns (run_parameters 24) fun s => ?_
    refine Can.bindRuns (run_electrical 24 x) fun s => ?_
    refine Can.bindRaise .assertion ?_
    unfold calibrateMechanical
    refine Can.bindRuns run_fault fun s => ?_
    refine Can.bindRuns (Runs.orRaise rfl) fun s => ?_
    refine Can.bindRaise .assertion ?_
    unfold calibrateKvRating
    refine Can.bindRaise .assertion ?_
    obtain ⟨t, r, h1, h2, h3⟩ := can_abort s
    exact ⟨t, r, h1, h2, rfl, rfl, rfl, rfl, h3⟩
  obtain ⟨t, r, h1, rfl, h3⟩ := h
  rw [watch_fold] at h3
  exact ⟨t, h1, (Prod.ext_iff.1 h3).1, (Prod.ext_iff.1 h3).2⟩

end Verif.Session
