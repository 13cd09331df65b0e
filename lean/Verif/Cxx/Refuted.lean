import Verif.Cxx.Props

/-! # C46: where the two libraries differ, and examples -/

namespace Verif.Cxx

open Verif Verif.Float Verif.Multiplex Verif.Multiplex.Spec Verif.Commands Verif.Commands.Spec
  Verif.Cxx.Spec

/-! ## A pair of controllers -/

def exampleCxx (query : Bool) : Controller :=
  ⟨⟨1, .default, query⟩, [0x11, 0x00, 0x1f, 0x01, 0x13, 0x0d], 22⟩

theorem sameQuery_default : SameQuery .default .default where
  mode := rfl
  position := rfl
  velocity := rfl
  torque := rfl
  q_current := rfl
  d_current := rfl
  abs_position := rfl
  power := rfl
  motor_temperature := rfl
  trajectory_complete := rfl
  home_state := rfl
  rezero_state := rfl
  voltage := rfl
  temperature := rfl
  fault := rfl
  aux1_gpio := rfl
  aux2_gpio := rfl
  extra := ⟨List.Perm.refl _, List.Pairwise.nil, by simp [QueryFormat.default], by simp [QueryFormat.default],
    by simp [QueryFormat.default]⟩

theorem example_same (query : Bool) (il : Option Res) :
    SameController (exampleCxx query) (exampleController il) query where
  cxx := by
    have : makeQuery [] .default = .ok ([0x11, 0x00, 0x1f, 0x01, 0x13, 0x0d], 22) := by decide +kernel
    unfold Controller.make
    rw [show (exampleCxx query).options.query_format = .default from rfl, this]
    rfl
  python := exampleController_constructed il
  id := rfl
  query_format := sameQuery_default
  default_query := rfl

/-- A query with extra registers, listed in another order in Python. -/
example : SameQuery { QueryFormat.default with extra := [(0x10, some .int8), (0x70, some .f32)] }
    { QueryResolution.default with extra := [(0x70, some .f32), (0x10, some .int8)] } := by
  refine { sameQuery_default with extra := ⟨List.Perm.swap _ _ _, by simp, by simp, by simp, by simp⟩ }

theorem sendable_half (res : Option Res) : Sendable res (.fin (1 / 2)) :=
  ⟨by show b64.round _ = .fin _; decide +kernel, fun _ v h => by
    cases h
    decide +kernel⟩

theorem sendable_nan (res : Option Res) : Sendable res .nan := ⟨trivial, fun _ _ h => by cases h⟩

theorem sendable_zero (res : Option Res) : Sendable res (.fin 0) :=
  ⟨by show b64.round _ = .fin _; decide +kernel, fun _ v h => by
    cases h
    decide +kernel⟩

theorem sendable_one (res : Option Res) : Sendable res (.fin 1) :=
  ⟨by show b64.round _ = .fin _; decide +kernel, fun _ v h => by
    cases h
    decide +kernel⟩

theorem left_out {x : Fl} {res : Option Res} (h : Sendable none x) : SameParam none x res none :=
  ⟨Or.inl ⟨rfl, rfl⟩, h⟩

/-- Position and velocity are given, everything else is left out. -/
theorem example_position (il : Option Res) :
    SamePosition { position := some .f32, velocity := some .f32 }
      { position := .fin (1 / 2), velocity := .nan }
      (exampleController il).position_resolution { position := some (.fin (1 / 2)), velocity := some .nan } where
  position := ⟨Or.inr ⟨rfl, rfl⟩, sendable_half _⟩
  velocity := ⟨Or.inr ⟨rfl, rfl⟩, sendable_nan _⟩
  feedforward_torque := left_out (sendable_zero _)
  kp_scale := left_out (sendable_one _)
  kd_scale := left_out (sendable_one _)
  maximum_torque := left_out (sendable_nan _)
  stop_position := left_out (sendable_nan _)
  watchdog_timeout := left_out (sendable_nan _)
  velocity_limit := left_out (sendable_nan _)
  accel_limit := left_out (sendable_nan _)
  fixed_voltage_override := left_out (sendable_nan _)
  ilimit_scale := left_out (sendable_one _)

/-- The hypotheses of `C46_position_partial` are met, and there is a frame. -/
example : ∃ (x : PositionFormat) (v : PositionCommand) (a : PositionArgs) (f : Frame),
    SameController (exampleCxx true) (exampleController none) true ∧ SameOverride none none ∧
    SamePosition x v (exampleController none).position_resolution a ∧ x.ilimit_scale = none ∧
    (exampleCxx true).makePosition v x none = .ok f ∧ f.data.length = 19 :=
  ⟨{}, { position := .fin (1 / 2), velocity := .nan },
    { position := some (.fin (1 / 2)), velocity := some .nan },
    ⟨1, true, 22, [1, 0, 10, 14, 32, 0, 0, 0, 63, 0, 0, 192, 127, 17, 0, 31, 1, 19, 13]⟩,
    example_same _ _, trivial, example_position _, rfl, by decide +kernel, by decide +kernel⟩

/-- The hypotheses of `C46_stay_within` are met. -/
example : SameWithin { upper_bound := none } { lower_bound := .fin (1 / 2) }
    (exampleController none).position_resolution { lower_bound := some (.fin (1 / 2)) } where
  lower_bound := ⟨Or.inr ⟨rfl, rfl⟩, sendable_half _⟩
  upper_bound := left_out (sendable_nan _)
  feedforward_torque := left_out (sendable_zero _)
  kp_scale := left_out (sendable_one _)
  kd_scale := left_out (sendable_one _)
  maximum_torque := left_out (sendable_zero _)
  watchdog_timeout := left_out (sendable_nan _)
  ilimit_scale := left_out (sendable_one _)

/-- The hypotheses of `C46_current` are met. -/
example : SameParam (some .f32) (.fin (1 / 2)) (exampleController none).current_resolution.d_A
    (some (.fin (1 / 2))) := ⟨Or.inr ⟨rfl, rfl⟩, sendable_half _⟩

/-- The hypotheses of `C46_vfoc_partial` are met. -/
example : SameVfoc {} { theta_rad := .fin (1 / 2), voltage := .fin 1, theta_rad_rate := .fin 1 }
      (exampleController none).vfoc_resolution ⟨some (.fin (1 / 2)), some (.fin 1), some (.fin 1)⟩ ∧
    (some (Fl.fin 1)) ≠ some (.fin 0) :=
  ⟨⟨⟨Or.inr ⟨rfl, rfl⟩, sendable_half _⟩, ⟨Or.inr ⟨rfl, rfl⟩, sendable_one _⟩,
    ⟨Or.inr ⟨rfl, rfl⟩, sendable_one _⟩⟩, by simp⟩

/-- The hypotheses of `C46_write_gpio_partial` are met. -/
example : SameGpio (some .int8) 5 (some 5) ∧ SameGpio none 0 none :=
  ⟨Or.inr ⟨rfl, rfl, by decide, by decide⟩, Or.inl ⟨rfl, rfl⟩⟩

/-- The hypotheses of `C46_aux_pwm_partial` are met. -/
example : (∀ i (h : i < 10), SameParam ((List.replicate 10 (some Res.int16))[i]'(by simp; omega))
      ((List.replicate 10 (Fl.fin (1 / 2)))[i]'(by simp; omega))
      ((exampleController none).pwm_resolution.aux[i]'(by
        rw [(exampleController none).pwm_resolution.ten]; omega))
      ((List.replicate 10 (some (Fl.fin (1 / 2))))[i]'(by simp; omega))) ∧
    ∀ v ∈ List.replicate 10 (Fl.fin (1 / 2)), v.isFinite := by
  constructor
  · intro i h
    have : (exampleController none).pwm_resolution.aux = List.replicate 10 (some .int16) := rfl
    simp only [this, List.getElem_replicate]
    exact ⟨Or.inr ⟨rfl, rfl⟩, sendable_half _⟩
  · intro v hv
    rw [List.eq_of_mem_replicate hv]; rfl

/-! ## Differences -/

theorem not_sameFrame {py : Except Err Command} {cx : Except Halt Frame} {c : Command} {f : Frame}
    (h1 : py = .ok c) (h2 : cx = .ok f) (h : f ≠ asFrame c) : ¬ SameFrame py cx := by
  intro hs
  obtain ⟨c', h3, _, h4⟩ := (hs f).mp h2
  rw [h1] at h3
  cases h3
  exact h h4

/-- C46 fails for `ilimit_scale` as an integer: 0.5 at INT8 is 1 in Python
(the scale of voltages) and 63 in C++ (the scale of fractions). -/
theorem C46_ilimit_scale_refuted :
    ¬ ∀ (cx : Controller) (py : Commands.Controller) (query : Bool) (_ : SameController cx py query)
      (x : PositionFormat) (v : PositionCommand) (a : PositionArgs)
      (_ : SamePosition x v py.position_resolution a),
      SameFrame (py.makePosition a query none) (cx.makePosition v x none) := by
  intro h
  refine not_sameFrame (c := ⟨1, 0, false, 0, [1, 0, 10, 1, 43, 1]⟩)
    (f := ⟨1, false, 0, [1, 0, 10, 1, 43, 63]⟩) ?_ ?_ (by decide)
    (h (exampleCxx false) (exampleController (some .int8)) false (example_same _ _)
      { position := none, velocity := none, ilimit_scale := some .int8 } { ilimit_scale := .fin (1 / 2) }
      { ilimit_scale := some (.fin (1 / 2)) } ?_)
  · decide +kernel
  · decide +kernel
  · exact {
      position := left_out (sendable_zero _)
      velocity := left_out (sendable_zero _)
      feedforward_torque := left_out (sendable_zero _)
      kp_scale := left_out (sendable_one _)
      kd_scale := left_out (sendable_one _)
      maximum_torque := left_out (sendable_nan _)
      stop_position := left_out (sendable_nan _)
      watchdog_timeout := left_out (sendable_nan _)
      velocity_limit := left_out (sendable_nan _)
      accel_limit := left_out (sendable_nan _)
      fixed_voltage_override := left_out (sendable_nan _)
      ilimit_scale := ⟨Or.inr ⟨rfl, rfl⟩, sendable_half _⟩ }

/-- C46 fails for VFOC with rate zero: C++ sends the rate, Python does not. -/
theorem C46_vfoc_zero_rate_refuted :
    ¬ ∀ (cx : Controller) (py : Commands.Controller) (query : Bool) (_ : SameController cx py query)
      (x : VFOCFormat) (v : VFOCCommand) (a : VFOCArgs) (_ : SameVfoc x v py.vfoc_resolution a),
      SameFrame (py.makeVfoc a query none) (cx.makeVfoc v x none) := by
  intro h
  refine not_sameFrame (c := ⟨1, 0, false, 0, [1, 0, 7, 14, 24, 0, 0, 0, 0, 0, 0, 0, 0]⟩)
    (f := ⟨1, false, 0, [1, 0, 7, 14, 24, 0, 0, 0, 0, 0, 0, 0, 0, 13, 30, 0, 0, 0, 0]⟩) ?_ ?_ (by decide)
    (h (exampleCxx false) (exampleController none) false (example_same _ _) {} {}
      ⟨some (.fin 0), some (.fin 0), some (.fin 0)⟩ ?_)
  · decide +kernel
  · decide +kernel
  · exact ⟨⟨Or.inr ⟨rfl, rfl⟩, sendable_zero _⟩, ⟨Or.inr ⟨rfl, rfl⟩, sendable_zero _⟩,
      ⟨Or.inr ⟨rfl, rfl⟩, sendable_zero _⟩⟩

/-- C46 fails for reindex and recapture with a query: Python leaves the query
out. -/
theorem C46_triggers_refuted :
    ¬ (∀ (cx : Controller) (py : Commands.Controller) (query : Bool) (_ : SameController cx py query),
      SameFrame (py.makeRequireReindex query none) (cx.makeRequireReindex none)) ∧
    ¬ (∀ (cx : Controller) (py : Commands.Controller) (query : Bool) (_ : SameController cx py query),
      SameFrame (py.makeRecapture query none) (cx.makeRecapture none)) := by
  constructor
  · intro h
    exact not_sameFrame (c := ⟨1, 0, true, 22, [0x01, 0xb2, 0x02, 0x01]⟩)
      (f := ⟨1, true, 22, [0x01, 0xb2, 0x02, 0x01, 17, 0, 31, 1, 19, 13]⟩) (by decide +kernel)
      (by decide +kernel) (by decide)
      (h (exampleCxx true) (exampleController none) true (example_same _ _))
  · intro h
    exact not_sameFrame (c := ⟨1, 0, true, 22, [0x01, 0xb3, 0x02, 0x01]⟩)
      (f := ⟨1, true, 22, [0x01, 0xb3, 0x02, 0x01, 17, 0, 31, 1, 19, 13]⟩) (by decide +kernel)
      (by decide +kernel) (by decide)
      (h (exampleCxx true) (exampleController none) true (example_same _ _))

/-- C46 fails for digital outputs: the pattern -128 (only the highest pin) is
sent by Python and clamped by C++ to -127, which also sets the lowest pin. -/
theorem C46_write_gpio_refuted :
    ∃ c f, (exampleController none).makeWriteGpio (some (-128)) none false none = .ok c ∧
      (exampleCxx false).makeWriteGpio (-128) 0 (some .int8) none none = .ok f ∧
      c.data = [0x01, 0x5c, 0x80] ∧ f.data = [0x01, 0x5c, 0x81] :=
  ⟨⟨1, 0, false, 0, [0x01, 0x5c, 0x80]⟩, ⟨1, false, 0, [0x01, 0x5c, 0x81]⟩, by decide +kernel,
    by decide +kernel, rfl, rfl⟩

/-- C46 fails for PWM outputs that are not a number: Python sends them, C++
leaves them out. -/
theorem C46_aux_pwm_refuted :
    ∃ c f, (exampleController none).makeAuxPwm (some .nan :: List.replicate 9 none) false none = .ok c ∧
      (exampleCxx false).makeAuxPwm (.nan :: List.replicate 9 (.fin 0))
        (some .int16 :: List.replicate 9 none) none = .ok f ∧
      c.data = [0x05, 0x76, 0x00, 0x80] ∧ f.data = [] :=
  ⟨⟨1, 0, false, 0, [0x05, 0x76, 0x00, 0x80]⟩, ⟨1, false, 0, []⟩, by decide +kernel,
    by decide +kernel, rfl, rfl⟩

/-- C46 fails for the reading of digital inputs, whatever the C++ options: the
Python command reads the two registers and announces the size of a reply to
the default query. -/
theorem C46_read_gpio_refuted (query : Bool) :
    ¬ SameFrame (exampleController none).makeReadGpio
      ((exampleCxx query).makeGpioRead (some .int8) (some .int8) none) := by
  cases query with
  | false =>
    exact not_sameFrame (c := ⟨1, 0, true, 22, [0x12, 0x5e]⟩) (f := ⟨1, false, 4, [0x12, 0x5e]⟩)
      (by decide +kernel) (by decide +kernel) (by decide)
  | true =>
    exact not_sameFrame (c := ⟨1, 0, true, 22, [0x12, 0x5e]⟩)
      (f := ⟨1, true, 22, [0x12, 0x5e, 17, 0, 31, 1, 19, 13]⟩)
      (by decide +kernel) (by decide +kernel) (by decide)

/-- C46 fails for numbers too large for a `float`: Python raises
`OverflowError`, C++ sends an infinity. -/
theorem C46_too_large_refuted :
    (exampleController none).makeSetOutputExact (.fin (2 ^ 128)) false none = .error .overflowError ∧
      ∃ f, (exampleCxx false).makeOutputExact (.fin (2 ^ 128)) none = .ok f ∧
        f.data = [0x0d, 0xb1, 0x02, 0x00, 0x00, 0x80, 0x7f] :=
  ⟨by decide +kernel, ⟨1, false, 0, [0x0d, 0xb1, 0x02, 0x00, 0x00, 0x80, 0x7f]⟩, by decide +kernel, rfl⟩

/-- C46 fails for extra registers that are far apart: Python reads them, C++
ends the process. -/
theorem C46_far_registers_refuted :
    ∃ c, makeQueryData { QueryResolution.default with extra := [(0, some .int8), (600, some .int8)] } = .ok c ∧
      c.1.length = 11 ∧
      Cxx.makeQuery [] { QueryFormat.default with extra := [(0, some .int8), (600, some .int8)] } =
        .error .abort :=
  ⟨([0x11, 0x00, 0x1f, 0x01, 0x13, 0x0d, 0x11, 0x00, 0x11, 0xd8, 0x04], 29), by decide +kernel, rfl,
    by decide +kernel⟩

end Verif.Cxx
