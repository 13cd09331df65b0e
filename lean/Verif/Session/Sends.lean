import Verif.Session.Only

/-!
# What the parts of the calibration send
-/

namespace Verif.Session

open Arith

variable {F : Type} [Arith F]

/-- Events of a measurement: settings of `sk`, readings of settings of `gk`,
driving commands, but no `conf write` and no `d reset`.  The sweep of the
encoder (`d cal`, `d cali`) is allowed if `sk` has the name `d cal`. -/
def Meas (sk gk : String → Prop) : Ev F → Prop
  | .sent (.confSet k _) _ => sk k
  | .sent (.cal ..) _ => sk "d cal"
  | .sent (.cali ..) _ => sk "d cal"
  | .sent .confWrite _ => False
  | .sent .reset _ => False
  | .sent _ _ => True
  | .got k _ => gk k
  | .listed _ => True
  | .stats _ => True
  | .reading => True

variable {sk gk : String → Prop}

section reads

variable {F : Type}

theorem isConfigSupported_only {q : Ev F → Prop} {k : String} (h : ∀ x, q (.got k x))
    (h' : q .reading) : Only q (isConfigSupported k : P F Bool) := by
  unfold isConfigSupported
  only_tac

theorem readConfig_only {q : Ev F → Prop} {k : String} (h : ∀ x, q (.got k x))
    (h' : q .reading) : Only q (readConfig k : P F F) := by
  unfold readConfig
  only_tac

theorem readServoStats_only {q : Ev F → Prop} (h' : q .reading) (h : ∀ s, q (.stats s)) :
    Only q (readServoStats : P F (Stats F)) := by
  unfold readServoStats
  only_tac

theorem checkForFault_only {q : Ev F → Prop} (h' : q .reading) (h : ∀ s, q (.stats s)) :
    Only q (checkForFault : P F Unit) := by
  unfold checkForFault
  exact Only.bind (readServoStats_only h' h) fun _ => Only.pure

theorem check_only {q : Ev F → Prop} {c : Bool} {e : Exn} :
    Only q (check c e : P F Unit) := by
  unfold check
  only_tac

theorem when_only {q : Ev F → Prop} {c : Bool} {p : P F Unit} (h : Only q p) :
    Only q (when c p) := by
  unfold when
  only_tac

theorem attempt_only {q : Ev F → Prop} {α : Type} {p : P F α} (h : Only q p) :
    Only q (attempt p) := by
  unfold attempt
  only_tac

end reads

/-- As `only_tac`, with the lemmas about reading. -/
macro "meas_tac" : tactic => `(tactic| (
  repeat' (first
    | assumption
    | with_reducible exact Only.pure | with_reducible exact Only.raise
    | with_reducible exact Only.anything
    | with_reducible exact Only.clock | with_reducible exact Only.orRaise
    | with_reducible exact check_only
    | with_reducible apply readServoStats_only
    | with_reducible apply checkForFault_only
    | with_reducible apply when_only | with_reducible apply attempt_only
    | with_reducible apply isConfigSupported_only
    | with_reducible apply readConfig_only
    | with_reducible apply Only.bind | with_reducible apply Only.tryCatch
    | with_reducible apply Only.tryFinally
    | with_reducible apply Only.loop | with_reducible apply Only.each
    | with_reducible apply Only.collect
    | with_reducible apply Only.command | with_reducible apply Only.writeMessage
    | with_reducible apply Only.confEnumerate
    | with_reducible apply Only.readStatsData
    | with_reducible apply Only.confGet | with_reducible apply Only.readAny
    | exact trivial
    | (intro _)
    | (split)
    | (dsimp only))))

theorem findCurrent_meas (v : F) : Only (Meas sk gk) (findCurrent v) := by
  unfold findCurrent
  meas_tac

theorem resistanceRound_meas (a : Args F) (v : F) (st : F × List (Sample F)) :
    Only (Meas sk gk) (resistanceRound a v st) := by
  unfold resistanceRound
  refine Only.bind (findCurrent_meas _) ?_
  meas_tac

theorem calibrateWindingResistance2_meas (a : Args F) (v : F)
    (h : sk "motor.resistance_ohm") :
    Only (Meas sk gk) (calibrateWindingResistance2 a v) := by
  unfold calibrateWindingResistance2
  refine Only.bind (Only.loop (resistanceRound_meas a v) _) ?_
  meas_tac

theorem testInductancePeriod_meas (fw : Firmware) (v w : F) (n : Nat) :
    Only (Meas sk gk) (testInductancePeriod fw v w n) := by
  unfold testInductancePeriod
  meas_tac

theorem inductanceSweep_meas (fw : Firmware) (v w : F) (l : List Nat) (h : Highest F) :
    Only (Meas sk gk) (inductanceSweep fw v w l h) := by
  induction l generalizing h with
  | nil => exact Only.pure
  | cons n l ih =>
    rw [inductanceSweep]
    refine Only.bind (testInductancePeriod_meas _ _ _ _) ?_
    rintro ⟨d, i⟩
    dsimp only
    split
    · exact Only.pure
    · exact ih _

theorem calibrateInductance_meas (fw : Firmware) (v w : F) (h : sk "motor.poles")
    (h' : gk "motor.poles") : Only (Meas sk gk) (calibrateInductance fw v w) := by
  have hs := inductanceSweep_meas (sk := sk) (gk := gk) fw v w periodsToTest none
  unfold calibrateInductance
  meas_tac

theorem calculateBandwidth_meas (a : Args F) (r l c : F)
    (h : gk "servo.current_sense_ohm") :
    Only (Meas sk gk) (calculateBandwidth a r l c) := by
  unfold calculateBandwidth
  meas_tac

theorem storeBandwidth_meas (a : Args F) (r : F) (l : Option F) (c : F)
    (h : gk "servo.current_sense_ohm") (h1 : sk "servo.pid_dq.kp")
    (h2 : sk "servo.pid_dq.ki") :
    Only (Meas sk gk) (storeBandwidth a r l c) := by
  unfold storeBandwidth
  cases l with
  | none => exact Only.pure
  | some l =>
    refine Only.bind (calculateBandwidth_meas a r l c h) ?_
    meas_tac

theorem findIndex_meas (a : Args F) (v : F) : Only (Meas sk gk) (findIndex a v) := by
  unfold findIndex
  meas_tac

theorem ensureValidTheta_meas (a : Args F) (v : F) (h : sk "motor.poles")
    (h' : gk "motor.poles") : Only (Meas sk gk) (ensureValidTheta a v) := by
  have hi := findIndex_meas (sk := sk) (gk := gk) a v
  unfold ensureValidTheta
  meas_tac

theorem speedRound_meas (a : Args F) (v s : F) (st : List F × List F) :
    Only (Meas sk gk) (speedRound a v s st) := by
  unfold speedRound powerSafety settled
  meas_tac

theorem findSpeed_meas (a : Args F) (v : F) : Only (Meas sk gk) (findSpeed a v) := by
  have h := fun s st => speedRound_meas (sk := sk) (gk := gk) a v s st
  unfold findSpeed
  refine Only.bind check_only fun _ => Only.bind (Only.command fun _ => trivial) fun _ =>
    Only.bind Only.clock fun s => Only.loop (h s) _

theorem findKvCalVoltage_meas (a : Args F) (v s : F) :
    Only (Meas sk gk) (findKvCalVoltage a v s) := by
  unfold findKvCalVoltage
  split
  · exact Only.orRaise
  · refine Only.loop (fun st => ?_) _
    unfold kvRound
    dsimp only
    split
    · exact Only.pure
    · refine Only.bind (findSpeed_meas _ _) ?_
      meas_tac

theorem stopAndIdle_meas : Only (Meas sk gk) (stopAndIdle : P F Unit) := by
  unfold stopAndIdle
  meas_tac

theorem kvOfSpeeds_meas (fw : Firmware) (s g : F) (l : List (F × F)) :
    Only (Meas sk gk) (kvOfSpeeds fw s g l) := by
  unfold kvOfSpeeds
  meas_tac

/-! ## The settings that are written -/

theorem offset_ne (i : Nat) (k : String) (h : k.toList.head? ≠ some 'm') :
    s!"motor.offset.{i}" ≠ k := by
  rintro rfl
  apply h
  simp [String.toList_append]
  exact Or.inl (by decide)

theorem clearMotorOffsets_meas (h : ∀ i : Nat, sk s!"motor.offset.{i}") :
    Only (Meas sk gk) (clearMotorOffsets : P F Unit) := by
  unfold clearMotorOffsets
  meas_tac
  exact h _

omit [Arith F] in
theorem setIfSupported_meas (k : String) (x : F) (h : sk k) :
    Only (Meas sk gk) (setIfSupported k x) := by
  unfold setIfSupported
  meas_tac

/-- Every setting may be read. -/
abbrev AnyKey : String → Prop := fun _ => True

theorem outputScale_meas : Only (Meas sk AnyKey) (outputScale : P F _) := by
  unfold outputScale
  meas_tac

theorem controlRate_meas : Only (Meas sk AnyKey) (controlRate : P F _) := by
  unfold controlRate
  meas_tac

theorem setEncoderFilter_meas (a : Args F) (t l : Option F) (c : F)
    (h1 : sk "servo.encoder_filter.enabled") (h2 : sk "servo.encoder_filter.kp")
    (h3 : sk "servo.encoder_filter.ki")
    (h4 : sk "motor_position.sources.N.pll_filter_hz") :
    Only (Meas sk AnyKey) (setEncoderFilter a t l c) := by
  unfold setEncoderFilter desiredBandwidth storeFilter hallOutput hallBandwidth
  meas_tac

omit [Arith F] in
theorem storeOffsets_meas (i : Nat) (l : List F) (h : ∀ i : Nat, sk s!"motor.offset.{i}") :
    Only (Meas sk gk) (storeOffsets i l) := by
  induction l generalizing i with
  | nil => exact Only.pure
  | cons x l ih =>
    rw [storeOffsets]
    exact Only.bind (Only.command fun _ => h i) fun _ => ih _

/-- The settings that the encoder calibration writes. -/
structure EncoderKeys (sk : String → Prop) : Prop where
  poles : sk "motor.poles"
  sign : sk "motor_position.sources.0.sign"
  signN : sk "motor_position.sources.N.sign"
  offsetN : sk "motor_position.sources.N.offset"
  polarity : sk "auxN.hall.polarity"
  invert : sk "motor.invert"
  phase : sk "motor.phase_invert"
  offset : ∀ i : Nat, sk s!"motor.offset.{i}"

theorem calibrateEncoderMappingAbsolute_meas (a : Args F) (fw : Firmware) (v c n : F)
    (h : EncoderKeys sk) (h0 : sk "d cal") (g1 : gk "motor.poles") (g2 : gk "motor.phase_invert")
    (g3 : gk "motor_position.sources.0.sign") :
    Only (Meas sk gk) (calibrateEncoderMappingAbsolute a fw v c n) := by
  have h1 := ensureValidTheta_meas (sk := sk) (gk := gk) a v h.poles g1
  have h2 := fun l : List F => storeOffsets_meas (sk := sk) (gk := gk) 0 l h.offset
  have h3 := h.poles
  have h4 := h.sign
  have h5 := h.invert
  have h6 := h.phase
  unfold calibrateEncoderMappingAbsolute startCalibration readCalibration
  meas_tac
  all_goals exact h2 _

theorem calibrateEncoderMappingHall_meas (a : Args F) (v : F) (h : EncoderKeys sk) :
    Only (Meas sk AnyKey) (calibrateEncoderMappingHall a v) := by
  have h3 := h.poles
  have h4 := h.signN
  have h5 := h.offsetN
  have h6 := h.phase
  have h7 := h.polarity
  unfold calibrateEncoderMappingHall
  meas_tac
  exact h.offset _

theorem hallCommutation_meas : Only (Meas sk AnyKey) (hallCommutation : P F _) := by
  unfold hallCommutation
  meas_tac

theorem saveSettings_meas (h : sk "motor_position.output.sign") :
    Only (Meas sk AnyKey) (saveSettings : P F _) := by
  unfold saveSettings
  meas_tac

omit [Arith F] in
theorem restoreSettings_meas (x : F) (s m : Option F)
    (h : sk "motor_position.output.sign") (h' : sk "servo.voltage_mode_control") :
    Only (Meas sk AnyKey) (restoreSettings x s m) := by
  unfold restoreSettings
  meas_tac

theorem calibrateEncoderMapping_meas (a : Args F) (fw : Firmware) (x i r n : F)
    (h : EncoderKeys sk) (h0 : sk "d cal") (h' : sk "motor_position.output.sign")
    (h'' : sk "servo.voltage_mode_control") :
    Only (Meas sk AnyKey) (calibrateEncoderMapping a fw x i r n) := by
  have h1 := hallCommutation_meas (F := F) (sk := sk)
  have h2 := fun v => calibrateEncoderMappingHall_meas (sk := sk) a v h
  have h3 := fun v c => calibrateEncoderMappingAbsolute_meas (sk := sk)
    (gk := AnyKey) a fw v c n h h0 trivial trivial trivial
  have h4 := saveSettings_meas (F := F) (sk := sk) h'
  have h5 := fun s m => restoreSettings_meas (sk := sk) x s m h' h''
  unfold calibrateEncoderMapping findEncoderCalVoltage
  meas_tac
  all_goals first | exact h2 _ | exact h3 _ _ | exact h5 _ _

end Verif.Session
