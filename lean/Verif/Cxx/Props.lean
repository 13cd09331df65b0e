import Verif.Cxx.FrameSim
import Verif.Commands.Props
import Verif.Stream.Model

/-! # Property C46: the C++ and the Python library produce the same frames -/

namespace Verif.Cxx

open Verif Verif.Float Verif.Multiplex Verif.Multiplex.Spec Verif.Commands Verif.Commands.Spec
  Verif.Cxx.Spec

/-! ## Queries, stop, brake -/

/-- C46 for `make_query` / `MakeQuery`. -/
theorem C46_query {cx : Controller} {py : Commands.Controller} {query : Bool}
    (hc : SameController cx py query) {oc : Option QueryFormat} {op : Option QueryResolution}
    (ho : SameOverride oc op) : SameFrame (py.makeQuery op) (cx.makeQuery oc) := by
  have key : ∀ (f : QueryFormat) (q : QueryResolution), SameQuery f q → ∀ fr,
      (cx.makeFrame (plain .ok) (some f) = .ok fr ↔ ∃ b n, makeQueryData q = .ok (b, n) ∧
        b.length ≤ 64 ∧ fr = ⟨py.id, true, n, b⟩) := by
    intro f q h fr
    obtain ⟨qb, n, hn, hp, ha⟩ := query_same h
    simp only [Controller.makeFrame, plain, Except.map, bind, Except.bind]
    rw [show Cxx.makeQuery [] f = _ from ha [] (by simp)]
    rw [hp]
    simp only [List.nil_append, fit]
    by_cases hl : 64 < qb.length
    · rw [if_pos hl]
      constructor
      · intro h; cases h
      · rintro ⟨b, m, h, h2, _⟩
        cases h; omega
    · rw [if_neg hl, Nat.mod_eq_of_lt hn]
      constructor
      · intro h
        cases h
        exact ⟨_, _, rfl, by omega, by simp [hc.id]⟩
      · rintro ⟨b, m, h, h2, rfl⟩
        cases h
        simp [hc.id]
  intro fr
  unfold Controller.makeQuery
  cases oc with
  | some f =>
    cases op with
    | none => exact ho.elim
    | some q =>
      rw [show (some f).getD cx.options.query_format = f from rfl, key f q ho fr]
      unfold Commands.Controller.makeQuery
      constructor
      · rintro ⟨b, n, h1, h2, rfl⟩
        exact ⟨{ py.makeCommand true (some q) with data := b, expectedReplySize := n },
          by simp only [h1]; rfl, h2, rfl⟩
      · rintro ⟨c, h1, h2, rfl⟩
        cases hq : makeQueryData q with
        | error e => simp only [hq] at h1; cases h1
        | ok p =>
          simp only [hq] at h1
          cases h1
          exact ⟨p.1, p.2, rfl, h2, rfl⟩
  | none =>
    cases op with
    | some q => exact ho.elim
    | none =>
      rw [show (none : Option QueryFormat).getD cx.options.query_format = cx.options.query_format from rfl,
        key _ _ hc.query_format fr]
      have hpy : makeQueryData py.query_resolution = .ok (py.queryData, py.queryReplySize) := hc.python
      rw [hpy]
      unfold Commands.Controller.makeQuery
      constructor
      · rintro ⟨b, n, h1, h2, rfl⟩
        cases h1
        exact ⟨_, rfl, h2, rfl⟩
      · rintro ⟨c, h1, h2, rfl⟩
        cases h1
        exact ⟨_, _, rfl, h2, rfl⟩

theorem mode_same {mode : Nat} (h : mode < 128) : makeMode [] mode = lift [] (modeWrite mode) := by
  rw [makeMode_same [] h, modeWrite_eq h]; rfl

/-- C46 for `make_stop` / `MakeStop`. -/
theorem C46_stop {cx : Controller} {py : Commands.Controller} {query : Bool}
    (hc : SameController cx py query) {oc : Option QueryFormat} {op : Option QueryResolution}
    (ho : SameOverride oc op) : SameFrame (py.makeStop query op) (cx.makeStop oc) :=
  frame_same hc ho (modeWrite 0) _ (mode_same (by omega))

/-- C46 for `make_brake` / `MakeBrake`. -/
theorem C46_brake {cx : Controller} {py : Commands.Controller} {query : Bool}
    (hc : SameController cx py query) {oc : Option QueryFormat} {op : Option QueryResolution}
    (ho : SameOverride oc op) : SameFrame (py.makeBrake query op) (cx.makeBrake oc) :=
  frame_same hc ho (modeWrite 15) _ (mode_same (by omega))

/-! ## Modes with parameters -/

/-- The Python builders run the combiner and append the query. -/
theorem builder_same {cx : Controller} {py : Commands.Controller} {query : Bool}
    (hc : SameController cx py query) {oc : Option QueryFormat} {op : Option QueryResolution}
    (ho : SameOverride oc op) {mode : Nat} (hm : mode < 128) (start : Nat) (es : List Pair)
    (hlen : es.length < 128) (hw : ∀ p ∈ es, PairOk p) :
    SameFrame (do
        let buf ← modeWrite mode
        let w ← (WriteCombiner.init buf 0x00 start (es.map (·.1))).run (es.map (·.2.1))
        py.formatQuery query op w.buf (py.makeCommand query op))
      (cx.makeFrame (plain fun f => makeModeBlock f mode start (es.map (·.1)) (es.map (·.2.2))) oc) := by
  have h := frame_same hc ho _
    (fun f => makeModeBlock f mode start (es.map (·.1)) (es.map (·.2.2)))
    (modeBlock_same hm start es hlen hw)
  intro f
  rw [h f]
  rw [modeWrite_eq hm]
  simp only [bind, Except.bind]
  cases (WriteCombiner.init [1, 0, UInt8.ofNat mode] 0x00 start (es.map (·.1))).run (es.map (·.2.1)) <;>
    rfl

def positionPairs (x : PositionFormat) (v : PositionCommand) (pr : PositionResolution)
    (a : PositionArgs) : List Pair :=
  [ pair .position writePosition x.position v.position pr.position a.position,
    pair .velocity writeVelocity x.velocity v.velocity pr.velocity a.velocity,
    pair .torque writeTorque x.feedforward_torque v.feedforward_torque pr.feedforward_torque
      a.feedforward_torque,
    pair .pwm writePwm x.kp_scale v.kp_scale pr.kp_scale a.kp_scale,
    pair .pwm writePwm x.kd_scale v.kd_scale pr.kd_scale a.kd_scale,
    pair .torque writeTorque x.maximum_torque v.maximum_torque pr.maximum_torque a.maximum_torque,
    pair .position writePosition x.stop_position v.stop_position pr.stop_position a.stop_position,
    pair .time writeTime x.watchdog_timeout v.watchdog_timeout pr.watchdog_timeout a.watchdog_timeout,
    pair .velocity writeVelocity x.velocity_limit v.velocity_limit pr.velocity_limit a.velocity_limit,
    pair .accel writeAccel x.accel_limit v.accel_limit pr.accel_limit a.accel_limit,
    pair .voltage writeVoltage x.fixed_voltage_override v.fixed_voltage_override
      pr.fixed_voltage_override a.fixed_voltage_override,
    pair .voltage writePwm x.ilimit_scale v.ilimit_scale pr.ilimit_scale a.ilimit_scale ]

/-- Without an integer resolution the scale does not matter. -/
theorem pair_ok_float {k k' : Kind} {w : Fl → Option Res → Bytes → Except Halt Bytes} (hw : IsWriter k' w)
    {fmt res : Option Res} {x : Fl} {arg : Option Fl} (h : SameParam fmt x res arg)
    (hf : fmt = none ∨ fmt = some .f32) : PairOk (pair k w fmt x res arg) := by
  intro hs f hl
  rcases hf with hf | hf
  · simp only [pair, hf] at hs; cases hs
  · have h1 := pair_ok hw h hs f hl
    simp only [pair] at h1 ⊢
    rw [h1]
    congr 1
    rcases h.1 with ⟨_, h2⟩ | ⟨_, h2⟩
    · rw [h2] at hf; cases hf
    · rw [← h2, hf]; rfl

/-- C46 for `make_position` / `MakePosition`: the same frame for every set of
parameters, resolution and value, except that `ilimit_scale` must not be sent
as an integer. -/
theorem C46_position_partial {cx : Controller} {py : Commands.Controller} {query : Bool}
    (hc : SameController cx py query) {oc : Option QueryFormat} {op : Option QueryResolution}
    (ho : SameOverride oc op) {x : PositionFormat} {v : PositionCommand} {a : PositionArgs}
    (hp : SamePosition x v py.position_resolution a)
    (hi : x.ilimit_scale = none ∨ x.ilimit_scale = some .f32) :
    SameFrame (py.makePosition a query op) (cx.makePosition v x oc) := by
  set es := positionPairs x v py.position_resolution a with hes
  have h1 : positionResolutions py.position_resolution a = es.map (·.1) := by
    simp only [positionResolutions, hes, positionPairs, pair, List.map_cons, List.map_nil,
      sel_same hp.position.1, sel_same hp.velocity.1, sel_same hp.feedforward_torque.1,
      sel_same hp.kp_scale.1, sel_same hp.kd_scale.1, sel_same hp.maximum_torque.1,
      sel_same hp.stop_position.1, sel_same hp.watchdog_timeout.1, sel_same hp.velocity_limit.1,
      sel_same hp.accel_limit.1, sel_same hp.fixed_voltage_override.1, sel_same hp.ilimit_scale.1]
  have hb := builder_same hc ho (mode := 10) (by omega) 0x020 es (by simp [hes, positionPairs]) (by
    simp only [hes, positionPairs, List.mem_cons, List.not_mem_nil, or_false]
    rintro p (rfl | rfl | rfl | rfl | rfl | rfl | rfl | rfl | rfl | rfl | rfl | rfl)
    · exact pair_ok isWriter_position hp.position
    · exact pair_ok isWriter_velocity hp.velocity
    · exact pair_ok isWriter_torque hp.feedforward_torque
    · exact pair_ok isWriter_pwm hp.kp_scale
    · exact pair_ok isWriter_pwm hp.kd_scale
    · exact pair_ok isWriter_torque hp.maximum_torque
    · exact pair_ok isWriter_position hp.stop_position
    · exact pair_ok isWriter_time hp.watchdog_timeout
    · exact pair_ok isWriter_velocity hp.velocity_limit
    · exact pair_ok isWriter_accel hp.accel_limit
    · exact pair_ok isWriter_voltage hp.fixed_voltage_override
    · exact pair_ok_float isWriter_pwm hp.ilimit_scale hi)
  rw [← h1] at hb
  have hx : x.position :: x.velocity :: x.feedforward_torque :: x.kp_scale :: x.kd_scale ::
      x.maximum_torque :: x.stop_position :: x.watchdog_timeout :: x.velocity_limit :: x.accel_limit ::
      x.fixed_voltage_override :: x.ilimit_scale :: [] = positionResolutions py.position_resolution a := h1.symm
  unfold Controller.makePosition Cxx.makePosition
  rw [hx]
  exact hb

def withinPairs (x : WithinFormat) (v : WithinCommand) (pr : PositionResolution)
    (a : WithinArgs) : List Pair :=
  [ pair .position writePosition x.lower_bound v.lower_bound pr.position a.lower_bound,
    pair .position writePosition x.upper_bound v.upper_bound pr.position a.upper_bound,
    pair .torque writeTorque x.feedforward_torque v.feedforward_torque pr.feedforward_torque
      a.feedforward_torque,
    pair .pwm writePwm x.kp_scale v.kp_scale pr.kp_scale a.kp_scale,
    pair .pwm writePwm x.kd_scale v.kd_scale pr.kd_scale a.kd_scale,
    pair .torque writeTorque x.maximum_torque v.maximum_torque pr.maximum_torque a.maximum_torque,
    pair .time writeTime x.watchdog_timeout v.watchdog_timeout pr.watchdog_timeout a.watchdog_timeout,
    pair .pwm writePwm x.ilimit_scale v.ilimit_scale pr.ilimit_scale a.ilimit_scale ]

/-- C46 for `make_stay_within` / `MakeStayWithin`. -/
theorem C46_stay_within {cx : Controller} {py : Commands.Controller} {query : Bool}
    (hc : SameController cx py query) {oc : Option QueryFormat} {op : Option QueryResolution}
    (ho : SameOverride oc op) {x : WithinFormat} {v : WithinCommand} {a : WithinArgs}
    (hp : SameWithin x v py.position_resolution a) :
    SameFrame (py.makeStayWithin a query op) (cx.makeStayWithin v x oc) := by
  set es := withinPairs x v py.position_resolution a with hes
  have h1 : withinResolutions py.position_resolution a = es.map (·.1) := by
    simp only [withinResolutions, hes, withinPairs, pair, List.map_cons, List.map_nil,
      sel_same hp.lower_bound.1, sel_same hp.upper_bound.1, sel_same hp.feedforward_torque.1,
      sel_same hp.kp_scale.1, sel_same hp.kd_scale.1, sel_same hp.maximum_torque.1,
      sel_same hp.watchdog_timeout.1, sel_same hp.ilimit_scale.1]
  have hb := builder_same hc ho (mode := 13) (by omega) 0x040 es (by simp [hes, withinPairs]) (by
    simp only [hes, withinPairs, List.mem_cons, List.not_mem_nil, or_false]
    rintro p (rfl | rfl | rfl | rfl | rfl | rfl | rfl | rfl)
    · exact pair_ok isWriter_position hp.lower_bound
    · exact pair_ok isWriter_position hp.upper_bound
    · exact pair_ok isWriter_torque hp.feedforward_torque
    · exact pair_ok isWriter_pwm hp.kp_scale
    · exact pair_ok isWriter_pwm hp.kd_scale
    · exact pair_ok isWriter_torque hp.maximum_torque
    · exact pair_ok isWriter_time hp.watchdog_timeout
    · exact pair_ok isWriter_pwm hp.ilimit_scale)
  rw [← h1] at hb
  have hx : x.lower_bound :: x.upper_bound :: x.feedforward_torque :: x.kp_scale :: x.kd_scale ::
      x.maximum_torque :: x.watchdog_timeout :: x.ilimit_scale :: [] =
      withinResolutions py.position_resolution a := h1.symm
  unfold Controller.makeStayWithin Cxx.makeStayWithin
  rw [hx]
  exact hb

/-- In `make_current` a value is written although its resolution is not in
use: both libraries fail. -/
theorem pair_ok_any {k : Kind} {w : Fl → Option Res → Bytes → Except Halt Bytes} (hw : IsWriter k w)
    {fmt res : Option Res} {x : Fl} {arg : Option Fl} (h : SameParam fmt x res arg) (o : Option Res) :
    PairOk (o, Commands.writeMapped k arg res, w x fmt) := by
  intro _ f hl
  cases fmt with
  | some r => exact pair_ok hw h rfl f hl
  | none =>
    show w x none f = lift f (Commands.writeMapped k arg res)
    rw [hw]
    rcases h.1 with ⟨rfl, _⟩ | ⟨_, rfl⟩
    · cases res <;> rfl
    · rfl

/-- C46 for `make_current` / `MakeCurrent`: the libraries share the confusion
of the two resolutions (`C12_current_refuted`), and both fail when only one of
the values is given. -/
theorem C46_current {cx : Controller} {py : Commands.Controller} {query : Bool}
    (hc : SameController cx py query) {oc : Option QueryFormat} {op : Option QueryResolution}
    (ho : SameOverride oc op) {x : CurrentFormat} {v : CurrentCommand} {d q : Option Fl}
    (hd : SameParam x.d_A v.d_A py.current_resolution.d_A d)
    (hq : SameParam x.q_A v.q_A py.current_resolution.q_A q) :
    SameFrame (py.makeCurrent d q query op) (cx.makeCurrent v x oc) := by
  set es : List Pair := [(x.d_A, Commands.writeMapped .current q py.current_resolution.q_A,
      writeCurrent v.q_A x.q_A),
    (x.q_A, Commands.writeMapped .current d py.current_resolution.d_A, writeCurrent v.d_A x.d_A)] with hes
  have h1 : [sel py.current_resolution.d_A d, sel py.current_resolution.q_A q] = es.map (·.1) := by
    simp only [hes, List.map_cons, List.map_nil, sel_same hd.1, sel_same hq.1]
  have hb := builder_same hc ho (mode := 9) (by omega) 0x01c es (by simp [hes]) (by
    simp only [hes, List.mem_cons, List.not_mem_nil, or_false]
    rintro p (rfl | rfl)
    · exact pair_ok_any isWriter_current hq _
    · exact pair_ok_any isWriter_current hd _)
  rw [← h1] at hb
  have hx : [x.d_A, x.q_A] = [sel py.current_resolution.d_A d, sel py.current_resolution.q_A q] := h1.symm
  unfold Controller.makeCurrent Cxx.makeCurrent
  rw [hx]
  exact hb

/-! ## VFOC -/

theorem sendable_div {res : Option Res} {x : Fl} (h : Sendable res x) : Sendable res (divMPi x) := by
  cases x with
  | nan => exact h
  | inf n => exact h
  | fin q =>
    set p : ℚ := 884279719003555 / 281474976710656 with hp
    have hp1 : 1 < p := by rw [hp]; norm_num
    have hq : b64.roundQ q = q := by
      have h1 := h.1
      simp only [IsDouble, Fmt.round] at h1
      split at h1
      · simpa using h1
      · cases h1
    have hround : b64.roundQ (b64.roundQ (q / p)) = b64.roundQ (q / p) := roundQ_idem (by decide) _
    simp only [divMPi]
    rw [← hp]
    have hcase : ∀ r, b64.round (q / p) = .fin r → r = b64.roundQ (q / p) := by
      intro r hr
      unfold Fmt.round at hr
      split at hr
      · simpa using hr.symm
      · cases hr
    refine ⟨?_, ?_⟩
    · cases hr : b64.round (q / p) with
      | nan => trivial
      | inf n => trivial
      | fin r =>
        have h1 := hcase r hr
        show b64.round r = .fin r
        unfold Fmt.round at hr ⊢
        rw [h1, hround]
        rw [← h1]
        split at hr
        · next hlt => rw [← h1] at hlt; rw [if_pos hlt]
        · cases hr
    · intro hf v hv
      have h1 := hcase v hv
      have hb := h.2 hf q rfl
      rw [h1]
      rw [abs_lt] at hb ⊢
      rcases le_total 0 q with h0 | h0
      · have ha : 0 ≤ q / p := div_nonneg h0 (by linarith)
        have hle : q / p ≤ q := div_le_self h0 hp1.le
        have k1 : 0 ≤ b64.roundQ (q / p) := roundQ_nonneg ha
        have k2 : b64.roundQ (q / p) ≤ q := by
          have := roundQ_mono (f := b64) (by decide) hle
          rwa [hq] at this
        have k3 : 0 ≤ b32.roundQ (b64.roundQ (q / p)) := roundQ_nonneg k1
        have k4 := roundQ_mono (f := b32) (by decide) k2
        constructor <;> linarith
      · have hle : q ≤ q / p := by
          rw [le_div_iff₀ (by linarith)]
          nlinarith
        have ha : q / p ≤ 0 := div_nonpos_of_nonpos_of_nonneg h0 (by linarith)
        have k1 : b64.roundQ (q / p) ≤ 0 := by
          have := roundQ_mono (f := b64) (by decide) ha
          rwa [roundQ_zero] at this
        have k2 : q ≤ b64.roundQ (q / p) := by
          have := roundQ_mono (f := b64) (by decide) hle
          rwa [hq] at this
        have k3 : b32.roundQ (b64.roundQ (q / p)) ≤ 0 := by
          have := roundQ_mono (f := b32) (by decide) k1
          rwa [roundQ_zero] at this
        have k4 := roundQ_mono (f := b32) (by decide) k2
        constructor <;> linarith

theorem sameParam_div {fmt res : Option Res} {x : Fl} {arg : Option Fl} (h : SameParam fmt x res arg) :
    SameParam fmt (divMPi x) res (divPi arg) := by
  refine ⟨?_, sendable_div h.2⟩
  rcases h.1 with ⟨rfl, h2⟩ | ⟨rfl, h2⟩
  · exact Or.inl ⟨rfl, h2⟩
  · refine Or.inr ⟨?_, h2⟩
    cases x <;> rfl

/-- C46 for `make_vfoc` / `MakeVFOC`, unless the rate is zero. -/
theorem C46_vfoc_partial {cx : Controller} {py : Commands.Controller} {query : Bool}
    (hc : SameController cx py query) {oc : Option QueryFormat} {op : Option QueryResolution}
    (ho : SameOverride oc op) {x : VFOCFormat} {v : VFOCCommand} {a : VFOCArgs}
    (hp : SameVfoc x v py.vfoc_resolution a) (hrate : a.theta_rate ≠ some (.fin 0)) :
    SameFrame (py.makeVfoc a query op) (cx.makeVfoc v x oc) := by
  set bad : Pair := (none, .error .assertionError, fun _ => .error .abort) with hbad
  set es : List Pair :=
    [ pair .pwm writePwm x.theta_rad (divMPi v.theta_rad) py.vfoc_resolution.theta (divPi a.theta),
      pair .voltage writeVoltage x.voltage v.voltage py.vfoc_resolution.voltage a.voltage,
      bad, bad, bad, bad,
      pair .velocity writeVelocity x.theta_rad_rate (divMPi v.theta_rad_rate) py.vfoc_resolution.theta_rate
        (divPi a.theta_rate) ] with hes
  have hr : (if a.theta_rate ≠ some (.fin 0) ∧ a.theta_rate.isSome then py.vfoc_resolution.theta_rate
      else none) = x.theta_rad_rate := by
    rw [← sel_same hp.theta_rate.1]
    unfold sel
    by_cases h : a.theta_rate.isSome = true
    · rw [if_pos ⟨hrate, h⟩, if_pos h]
    · rw [if_neg (fun h' => h h'.2), if_neg h]
  have h1 : vfocResolutions py.vfoc_resolution a = es.map (·.1) := by
    unfold vfocResolutions
    rw [hr, sel_same hp.theta.1, sel_same hp.voltage.1]
    rfl
  have hb := builder_same hc ho (mode := 7) (by omega) 0x018 es (by simp [hes]) (by
    have hbadok : PairOk bad := fun h => by cases h
    simp only [hes, List.mem_cons, List.not_mem_nil, or_false]
    rintro p (rfl | rfl | rfl | rfl | rfl | rfl | rfl)
    · exact pair_ok isWriter_pwm (sameParam_div hp.theta)
    · exact pair_ok isWriter_voltage hp.voltage
    · exact hbadok
    · exact hbadok
    · exact hbadok
    · exact hbadok
    · exact pair_ok isWriter_velocity (sameParam_div hp.theta_rate))
  rw [← h1] at hb
  have hx : [x.theta_rad, x.voltage, none, none, none, none, x.theta_rad_rate] =
      vfocResolutions py.vfoc_resolution a := h1.symm
  unfold Controller.makeVfoc Cxx.makeVfoc
  rw [hx]
  exact hb

/-! ## Commands without a mode -/

theorem makeOutput_same {reg : Nat} {p : Fl} (hp : Sendable (some .f32) p) :
    makeOutput [] reg p = lift [] (do
      let a ← writeInt8 (0x0c ||| 0x01)
      let v ← writeF32 p
      pure (a ++ Multiplex.writeVaruint reg ++ v)) := by
  have hf := float_pack p hp.1 (hp.2 rfl)
  rw [saturateF32_double hp.1] at hf
  have h1 : writeInt [] .int8 (0x0c + 0x01) = write [] [0x0d] := writeInt8_eq [] (n := 13) (by omega)
  have h2 : writeInt8 (0x0c ||| 0x01) = .ok [0x0d] := rfl
  unfold makeOutput
  rw [h1, h2]
  simp only [writeVaruint_eq, hf]
  cases hw : writeF32 p with
  | error e =>
    simp only [writeF32] at hw
    split at hw
    · next hn =>
      obtain ⟨q, h1, h2⟩ := (pack32_none_iff p).mp hn
      exact (lt_irrefl _ (lt_of_lt_of_le (hp.2 rfl q h1) h2)).elim
    · cases hw
  | ok b =>
    show (write [] [0x0d] >>= fun f => write f (Multiplex.writeVaruint reg) >>= fun f => write f b) = _
    rw [write_bind, write_write]
    rfl

theorem output_frame {cx : Controller} {py : Commands.Controller} {query : Bool}
    (hc : SameController cx py query) {oc : Option QueryFormat} {op : Option QueryResolution}
    (ho : SameOverride oc op) {p : Fl} (hp : Sendable (some .f32) p) (reg : Nat) :
    SameFrame (py.makeSetOutput p reg query op)
      (cx.makeFrame (plain fun f => makeOutput f reg p) oc) := by
  have h := frame_same hc ho _ (fun f => makeOutput f reg p) (makeOutput_same hp)
  intro f
  rw [h f]
  unfold Commands.Controller.makeSetOutput
  rw [show writeInt8 (0x0c ||| 0x01) = .ok [0x0d] from rfl]
  simp only [bind, Except.bind]
  cases writeF32 p <;> rfl

/-- C46 for `make_set_output_nearest` / `MakeOutputNearest`. -/
theorem C46_output_nearest {cx : Controller} {py : Commands.Controller} {query : Bool}
    (hc : SameController cx py query) {oc : Option QueryFormat} {op : Option QueryResolution}
    (ho : SameOverride oc op) {p : Fl} (hp : Sendable (some .f32) p) :
    SameFrame (py.makeSetOutputNearest p query op) (cx.makeOutputNearest p oc) :=
  output_frame hc ho hp 0x130

/-- C46 for `make_set_output_exact` / `MakeOutputExact`. -/
theorem C46_output_exact {cx : Controller} {py : Commands.Controller} {query : Bool}
    (hc : SameController cx py query) {oc : Option QueryFormat} {op : Option QueryResolution}
    (ho : SameOverride oc op) {p : Fl} (hp : Sendable (some .f32) p) :
    SameFrame (py.makeSetOutputExact p query op) (cx.makeOutputExact p oc) :=
  output_frame hc ho hp 0x131

/-- C46 for `make_require_reindex` and `make_recapture_position_velocity`,
when no reply is asked for. -/
theorem C46_triggers_partial {cx : Controller} {py : Commands.Controller}
    (hc : SameController cx py false) :
    SameFrame (py.makeRequireReindex false none) (cx.makeRequireReindex none) ∧
      SameFrame (py.makeRecapture false none) (cx.makeRecapture none) := by
  constructor
  · have h := frame_same hc (oc := none) (op := none) trivial (.ok [0x01, 0xb2, 0x02, 0x01])
      (fun f => makeTrigger f 0x132) (by decide +kernel)
    have he : py.makeRequireReindex false none =
        .ok { py.makeCommand false none with data := [0x01, 0xb2, 0x02, 0x01] } := by
      have : Multiplex.writeVaruint 0x132 = [0xb2, 0x02] := by decide +kernel
      unfold Commands.Controller.makeRequireReindex
      rw [this]; rfl
    rw [he]
    exact h
  · have h := frame_same hc (oc := none) (op := none) trivial (.ok [0x01, 0xb3, 0x02, 0x01])
      (fun f => makeTrigger f 0x133) (by decide +kernel)
    have he : py.makeRecapture false none =
        .ok { py.makeCommand false none with data := [0x01, 0xb3, 0x02, 0x01] } := by
      have : Multiplex.writeVaruint 0x133 = [0xb3, 0x02] := by decide +kernel
      unfold Commands.Controller.makeRecapture
      rw [this]; rfl
    rw [he]
    exact h

theorem int32_write (f : Bytes) {t : Int} (h : -2147483648 ≤ t ∧ t < 2147483648) :
    writeInt f .int32 t = lift f (packInt .int32 t) := by
  unfold packInt writeInt
  rw [if_pos (by simpa [Res.size] using h)]
  rfl

/-- C46 for `make_set_trim` / `MakeClockTrim`; the Python command never asks
for a reply. -/
theorem C46_clock_trim {cx : Controller} {py : Commands.Controller}
    (hc : SameController cx py false) {t : Int} (ht : -2147483648 ≤ t ∧ t < 2147483648) :
    SameFrame (py.makeSetTrim t) (cx.makeClockTrim t none) := by
  have hcmd : Cxx.makeClockTrim [] t = lift [] (do
      let a ← writeInt8 (0x08 ||| 0x01)
      let v ← packInt .int32 t
      pure (a ++ Multiplex.writeVaruint 0x071 ++ v)) := by
    have h1 : writeInt [] .int8 (0x08 + 0x01) = write [] [0x09] := writeInt8_eq [] (n := 9) (by omega)
    have h2 : writeInt8 (0x08 ||| 0x01) = .ok [0x09] := rfl
    unfold Cxx.makeClockTrim
    rw [h1, h2]
    simp only [writeVaruint_eq, int32_write _ ht]
    rw [show packInt .int32 t = .ok (leBytes Res.int32.size (ofSigned Res.int32.size t)) by
      unfold packInt; rw [if_pos (by simpa [Res.size] using ht)]]
    show (write [] [0x09] >>= fun f => write f _ >>= fun f => write f _) = _
    rw [write_bind, write_write]
    rfl
  have h := frame_same hc (oc := none) (op := none) trivial _ (fun f => Cxx.makeClockTrim f t) hcmd
  intro f
  have h' := h f
  unfold Controller.makeClockTrim
  rw [h']
  unfold Commands.Controller.makeSetTrim
  rw [show writeInt8 (0x08 ||| 0x01) = .ok [0x09] from rfl]
  simp only [bind, Except.bind]
  cases packInt .int32 t <;> rfl

/-! ## Outputs -/

/-- A digital output value: left out in both, or an `int8_t` other than -128. -/
def SameGpio (x : Option Res) (v : Int) (arg : Option Int) : Prop :=
  (x = none ∧ arg = none) ∨ (x = some .int8 ∧ arg = some v ∧ -127 ≤ v ∧ v ≤ 127)

theorem int8_write (f : Bytes) {t : Int} (h : -127 ≤ t ∧ t ≤ 127) :
    writeClampedInt f t (some .int8) = lift f (writeInt8Opt (some t)) := by
  have hp : packInt .int8 t = .ok (leBytes Res.int8.size (ofSigned Res.int8.size t)) := by
    unfold packInt; rw [if_pos (by simp only [Res.size]; omega)]
  have hm : max (-127) (min 127 t) = t := by omega
  simp only [writeClampedInt, writeInt8Opt, hp, hm, writeInt, lift]

/-- C46 for `make_write_gpio` / `MakeWriteGpio`, unless a value is -128. -/
theorem C46_write_gpio_partial {cx : Controller} {py : Commands.Controller} {query : Bool}
    (hc : SameController cx py query) {oc : Option QueryFormat} {op : Option QueryResolution}
    (ho : SameOverride oc op) {x1 x2 : Option Res} {v1 v2 : Int} {a1 a2 : Option Int}
    (h1 : SameGpio x1 v1 a1) (h2 : SameGpio x2 v2 a2) :
    SameFrame (py.makeWriteGpio a1 a2 query op) (cx.makeWriteGpio v1 v2 x1 x2 oc) := by
  set es : List Pair := [(x1, writeInt8Opt a1, fun f => writeClampedInt f v1 x1),
    (x2, writeInt8Opt a2, fun f => writeClampedInt f v2 x2)] with hes
  have hok : ∀ {x v a}, SameGpio x v a → PairOk (x, writeInt8Opt a, fun f => writeClampedInt f v x) ∧
      (if a.isSome then some Res.int8 else none) = x := by
    rintro x v a (⟨rfl, rfl⟩ | ⟨rfl, rfl, h⟩)
    · refine ⟨fun h => ?_, rfl⟩
      cases h
    · exact ⟨fun _ f _ => int8_write f h, rfl⟩
  have hcmd := block_same 0x05c es (by simp [hes]) (by
    simp only [hes, List.mem_cons, List.not_mem_nil, or_false]
    rintro p (rfl | rfl)
    · exact (hok h1).1
    · exact (hok h2).1) [] (by simp)
  have h := frame_same hc ho _ (fun f => makeGpioWrite f v1 v2 x1 x2) hcmd
  intro f
  have h' := h f
  unfold Controller.makeWriteGpio
  rw [h']
  unfold Commands.Controller.makeWriteGpio
  rw [(hok h1).2, (hok h2).2]
  simp only [bind, Except.bind, hes, List.map_cons, List.map_nil]
  cases (WriteCombiner.init [] 0x00 0x05c [x1, x2]).run [writeInt8Opt a1, writeInt8Opt a2] <;> rfl

/-- C46 for `make_aux_pwm` / `MakeAuxPwmWrite`, unless a value is not finite. -/
theorem C46_aux_pwm_partial {cx : Controller} {py : Commands.Controller} {query : Bool}
    (hc : SameController cx py query) {oc : Option QueryFormat} {op : Option QueryResolution}
    (ho : SameOverride oc op) {values : List Fl} {formats : List (Option Res)} {args : List (Option Fl)}
    (hn : values.length = 10 ∧ formats.length = 10 ∧ args.length = 10)
    (hp : ∀ i (h : i < 10), SameParam (formats[i]'(by omega)) (values[i]'(by omega))
      (py.pwm_resolution.aux[i]'(by rw [py.pwm_resolution.ten]; omega)) (args[i]'(by omega)))
    (hfin : ∀ v ∈ values, v.isFinite) :
    SameFrame (py.makeAuxPwm args query op) (cx.makeAuxPwm values formats oc) := by
  have hten := py.pwm_resolution.ten
  set es : List Pair := ((values.zip formats).zip (py.pwm_resolution.aux.zip args)).map fun z =>
    pair .pwm writePwm z.1.2 z.1.1 z.2.1 z.2.2 with hes
  have hlen : es.length = 10 := by simp [hes, hn, hten]
  have e1 : es.map (·.1) = (py.pwm_resolution.aux.zip args).map fun x => sel x.1 x.2 := by
    apply List.ext_getElem
    · simp [hlen, hn, hten]
    · intro i hi _
      have hi' : i < 10 := by simpa [hlen] using hi
      simp only [hes, pair, List.getElem_map, List.getElem_zip]
      exact (sel_same (hp i hi').1).symm
  have e1' : es.map (·.1) = (values.zip formats).map fun x => if x.1.isFinite then x.2 else none := by
    apply List.ext_getElem
    · simp [hlen, hn]
    · intro i hi _
      have hi' : i < 10 := by simpa [hlen] using hi
      simp only [hes, pair, List.getElem_map, List.getElem_zip]
      rw [if_pos (hfin _ (List.getElem_mem _))]
  have e2 : es.map (·.2.1) = (py.pwm_resolution.aux.zip args).map fun x =>
      Commands.writeMapped .pwm x.2 x.1 := by
    apply List.ext_getElem
    · simp [hlen, hn, hten]
    · intro i hi _
      simp only [hes, pair, List.getElem_map, List.getElem_zip]
  have e3 : es.map (·.2.2) = (values.zip formats).map fun x => writePwm x.1 x.2 := by
    apply List.ext_getElem
    · simp [hlen, hn]
    · intro i hi _
      simp only [hes, pair, List.getElem_map, List.getElem_zip]
  have hcmd := block_same 0x076 es (by omega) (by
    intro p hp'
    obtain ⟨i, hi, rfl⟩ := List.getElem_of_mem hp'
    have hi' : i < 10 := by omega
    simp only [hes, List.getElem_map, List.getElem_zip]
    exact pair_ok isWriter_pwm (hp i hi')) [] (by simp)
  have h := frame_same hc ho _ (fun f => Cxx.makeAuxPwm f values formats) (by
    show Cxx.makeAuxPwm [] values formats = _
    unfold Cxx.makeAuxPwm
    rw [← e1', ← e3]
    exact hcmd)
  intro f
  have h' := h f
  unfold Controller.makeAuxPwm
  rw [h']
  unfold Commands.Controller.makeAuxPwm
  rw [e1, e2]
  simp only [bind, Except.bind]
  cases (WriteCombiner.init [] 0x00 0x076 ((py.pwm_resolution.aux.zip args).map fun x => sel x.1 x.2)).run
    ((py.pwm_resolution.aux.zip args).map fun x => Commands.writeMapped .pwm x.2 x.1) <;> rfl

/-! ## Diagnostic channel -/

/-- C46: diagnostic writes with the same payload, refused by both when the data
does not fit. -/
theorem C46_diagnostic_write (channel : Nat) (hch : channel < 128) (data : Bytes)
    (hd : data.length < 128) (f : Bytes) :
    Cxx.makeDiagnosticWrite [] channel data = .ok f ↔ Stream.makeDiagnosticWrite data channel = .ok f := by
  have h1 : writeInt [] .int8 0x40 = write [] [0x40] := writeInt8_eq [] (n := 64) (by omega)
  have h2 : ∀ f, writeInt f .int8 channel = write f [UInt8.ofNat channel] :=
    fun f => writeInt8_eq f (by omega)
  have h3 : ∀ f, writeInt f .int8 data.length = write f [UInt8.ofNat data.length] :=
    fun f => writeInt8_eq f (by omega)
  have hcx : Cxx.makeDiagnosticWrite [] channel data =
      cap ([0x40, UInt8.ofNat channel, UInt8.ofNat data.length] ++ data) := by
    unfold Cxx.makeDiagnosticWrite
    simp only [h1, h2, h3, write_bind, write_eq, List.nil_append]
    rfl
  have hpy : ¬ 61 < data.length → Stream.makeDiagnosticWrite data channel =
      .ok ([0x40, UInt8.ofNat channel, UInt8.ofNat data.length] ++ data) := by
    intro h
    unfold Stream.makeDiagnosticWrite
    rw [if_neg h, writeInt8_ok (n := 0x40) (by omega), writeInt8_ok hch, writeInt8_ok hd]
    rfl
  rw [hcx]
  unfold cap
  by_cases h : 61 < data.length
  · rw [if_pos (by simp; omega)]
    unfold Stream.makeDiagnosticWrite
    rw [if_pos h]
    simp
  · rw [if_neg (by simp; omega), hpy h]
    simp

/-- C46: diagnostic reads with the same payload and the same expected reply
size. -/
theorem C46_diagnostic_read (channel maxLength : Nat) (hch : channel < 128) (hm : maxLength < 128) :
    ∃ f n, Cxx.makeDiagnosticRead [] channel maxLength = .ok (f, n) ∧
      Stream.makeDiagnosticRead maxLength channel = .ok (f, n) ∧ f.length = 3 := by
  have h1 : writeInt [] .int8 0x42 = write [] [0x42] := writeInt8_eq [] (n := 66) (by omega)
  have h2 : ∀ f, writeInt f .int8 channel = write f [UInt8.ofNat channel] :=
    fun f => writeInt8_eq f (by omega)
  have h3 : ∀ f, writeInt f .int8 maxLength = write f [UInt8.ofNat maxLength] :=
    fun f => writeInt8_eq f (by omega)
  refine ⟨[0x42, UInt8.ofNat channel, UInt8.ofNat maxLength], 3 + maxLength, ?_, ?_, rfl⟩
  · unfold Cxx.makeDiagnosticRead
    simp only [h1, h2, h3, write_bind]
    show Except.ok (_, _) = _
    simp only [ofSigned]
    congr 2
    omega
  · unfold Stream.makeDiagnosticRead
    rw [writeInt8_ok (n := 0x42) (by omega), writeInt8_ok hch, writeInt8_ok hm]
    rfl

end Verif.Cxx
