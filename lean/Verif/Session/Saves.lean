import Verif.Session.Stops

/-!
# What a calibration saves
-/

namespace Verif.Session

open Arith

variable {F : Type}

section
variable [Arith F]

/-! ## Only the end writes the persistent storage -/

theorem checkCommutationSource_meas {sk : String → Prop} :
    Only (Meas sk AnyKey) (checkCommutationSource : P F Unit) := by
  unfold checkCommutationSource
  meas_tac

omit [Arith F] in
theorem captureConfig_meas {sk gk : String → Prop} (a : Args F) :
    Only (Meas sk gk) (captureConfig a) := by
  unfold captureConfig
  meas_tac

omit [Arith F] in
theorem calculateCalibrationParameters_meas {sk gk : String → Prop} (a : Args F) :
    Only (Meas sk gk) (calculateCalibrationParameters a) := by
  unfold calculateCalibrationParameters handleDeprecated
  meas_tac

/-- The settings that are written before Kv is measured. -/
structure ElectricalKeys (sk : String → Prop) : Prop extends EncoderKeys sk where
  sweep : sk "d cal"
  resistance : sk "motor.resistance_ohm"
  kp : sk "servo.pid_dq.kp"
  ki : sk "servo.pid_dq.ki"
  enabled : sk "servo.encoder_filter.enabled"
  fkp : sk "servo.encoder_filter.kp"
  fki : sk "servo.encoder_filter.ki"
  pll : sk "motor_position.sources.N.pll_filter_hz"
  outSign : sk "motor_position.output.sign"
  voltageMode : sk "servo.voltage_mode_control"

theorem calibrateElectrical_meas {sk : String → Prop} (a : Args F) (fw : Firmware) (x : F)
    (h : ElectricalKeys sk) : Only (Meas sk AnyKey) (calibrateElectrical a fw x) := by
  unfold calibrateElectrical
  refine Only.bind (clearMotorOffsets_meas h.offset) fun _ => ?_
  refine Only.bind (Only.command fun _ => trivial) fun _ => ?_
  refine Only.bind outputScale_meas fun _ => ?_
  refine Only.bind controlRate_meas fun _ => ?_
  refine Only.bind (setIfSupported_meas _ _ h.phase) fun _ => ?_
  refine Only.bind (setIfSupported_meas _ _ h.sign) fun _ => ?_
  refine Only.bind (readServoStats_only trivial fun _ => trivial) fun _ => ?_
  refine Only.bind Only.orRaise fun _ => ?_
  refine Only.bind (checkForFault_only trivial fun _ => trivial) fun _ => ?_
  refine Only.bind (calibrateWindingResistance2_meas _ _ h.resistance) fun _ => ?_
  refine Only.bind (checkForFault_only trivial fun _ => trivial) fun _ => ?_
  refine Only.bind (calibrateInductance_meas _ _ _ h.poles trivial) fun _ => ?_
  refine Only.bind (checkForFault_only trivial fun _ => trivial) fun _ => ?_
  refine Only.bind (storeBandwidth_meas _ _ _ _ trivial h.kp h.ki) fun _ => ?_
  refine Only.bind (setEncoderFilter_meas _ _ _ _ h.enabled h.fkp h.fki h.pll) fun _ => ?_
  refine Only.bind (checkForFault_only trivial fun _ => trivial) fun _ => ?_
  refine Only.bind (calibrateEncoderMapping_meas _ _ _ _ _ _ h.toEncoderKeys h.sweep h.outSign
    h.voltageMode) fun _ => Only.pure

/-- The settings that are written and read after the encoder mapping. -/
structure KvKeys (sk gk : String → Prop) : Prop where
  poles : sk "motor.poles"
  min : sk "servopos.position_min"
  max : sk "servopos.position_max"
  kv : sk "motor.Kv"
  vPerHz : sk "motor.v_per_hz"
  voltageMode : sk "servo.voltage_mode_control"
  gpoles : gk "motor.poles"
  gmin : gk "servopos.position_min"
  gmax : gk "servopos.position_max"
  gvoltageMode : gk "servo.voltage_mode_control"

variable {sk gk : String → Prop}

theorem measureKv_meas (a : Args F) (fw : Firmware) (e i s g : F)
    (h : KvKeys sk gk) : Only (Meas sk gk) (measureKv a fw e i s g) := by
  unfold measureKv
  refine Only.bind (ensureValidTheta_meas _ _ h.poles h.gpoles) fun _ => ?_
  refine Only.bind (readConfig_only (fun _ => h.gmin) trivial) fun _ => ?_
  refine Only.bind (readConfig_only (fun _ => h.gmax) trivial) fun _ => ?_
  refine Only.bind (Only.command fun _ => h.min) fun _ => ?_
  refine Only.bind (Only.command fun _ => h.max) fun _ => ?_
  refine Only.bind (Only.command fun _ => trivial) fun _ => ?_
  refine Only.bind (findKvCalVoltage_meas _ _ _) fun _ => ?_
  refine Only.bind stopAndIdle_meas fun _ => ?_
  refine Only.bind (Only.collect fun _ => findSpeed_meas _ _) fun _ => ?_
  refine Only.bind stopAndIdle_meas fun _ => ?_
  refine Only.bind (Only.command fun _ => h.min) fun _ => ?_
  refine Only.bind (Only.command fun _ => h.max) fun _ => ?_
  exact kvOfSpeeds_meas _ _ _ _

theorem storeKv_meas (fw : Firmware) (kv : F)
    (h : sk "motor.Kv") (h' : sk "motor.v_per_hz") : Only (Meas sk gk) (storeKv fw kv) := by
  unfold storeKv
  meas_tac

theorem calibrateKvRating_meas (a : Args F) (fw : Firmware) (e i s g : F)
    (h : KvKeys sk gk) : Only (Meas sk gk) (calibrateKvRating a fw e i s g) := by
  have hm := measureKv_meas a fw e i s g h
  have hs := fun kv : F => storeKv_meas (gk := gk) fw kv h.kv h.vPerHz
  unfold calibrateKvRating
  meas_tac
  exact hs _

theorem chooseVoltageMode_meas (i r n : F)
    (h : sk "servo.voltage_mode_control") (h' : gk "servo.voltage_mode_control") :
    Only (Meas sk gk) (chooseVoltageMode i r n) := by
  unfold chooseVoltageMode
  meas_tac

/-- moteus_tool.py:1137-1161, the part after Kv. -/
theorem afterKv_meas (i r n : F)
    (h : sk "servo.voltage_mode_control") (h' : gk "servo.voltage_mode_control") :
    Only (Meas sk gk) (do
      checkForFault
      command .rezero
      chooseVoltageMode i r n
      let _ ← (readAny : P F Unit)
      pure ()) := by
  refine Only.bind (checkForFault_only trivial fun _ => trivial) fun _ => ?_
  refine Only.bind (Only.command fun _ => trivial) fun _ => ?_
  refine Only.bind (chooseVoltageMode_meas _ _ _ h h') fun _ => ?_
  meas_tac

theorem calibrateMechanical_meas (a : Args F) (fw : Firmware)
    (s : Option (F × F)) (r n i e : F) (h : KvKeys sk gk) :
    Only (Meas sk gk) (calibrateMechanical a fw s r n i e) := by
  unfold calibrateMechanical
  refine Only.bind (checkForFault_only trivial fun _ => trivial) fun _ => ?_
  refine Only.bind Only.orRaise fun _ => ?_
  refine Only.bind (calibrateKvRating_meas _ _ _ _ _ _ h) fun _ => ?_
  exact afterKv_meas _ _ _ h.voltageMode h.gvoltageMode

theorem anyKeys : ElectricalKeys AnyKey := by
  constructor <;> first | trivial | (constructor <;> first | trivial | exact fun _ => trivial)

theorem measureAll_meas (a : Args F) (x : F) :
    Only (Meas AnyKey AnyKey) (measureAll a x) := by
  unfold measureAll
  refine Only.bind (Only.readAny trivial) fun _ => ?_
  refine Only.bind (captureConfig_meas _) fun _ => ?_
  refine Only.bind check_only fun _ => ?_
  refine Only.bind checkCommutationSource_meas fun _ => ?_
  refine Only.bind (calculateCalibrationParameters_meas _) fun _ => ?_
  refine Only.bind (calibrateElectrical_meas _ _ _ anyKeys) fun _ => ?_
  refine Only.bind (calibrateMechanical_meas _ _ _ _ _ _ _ (by constructor <;> trivial)) fun _ => Only.pure

omit [Arith F] in
theorem Only.elim {α : Type} {q : Ev F → Prop} {p : P F α} (h : Only q p) {t : List (Ev F)}
    {r : Res Exn α} (hr : p t r) : ∀ ev ∈ t, q ev := by
  unfold Only at h
  exact h t r hr

omit [Arith F] in
theorem not_saved_of_meas {sk gk : String → Prop} {t : List (Ev F)}
    (h : ∀ ev ∈ t, Meas sk gk ev) : ¬ Saved t := fun ⟨_, hb⟩ => h _ hb

/-- If anything was saved, all measurements had ended well before. -/
theorem saved_split {a : Args F} {x : F} {t : List (Ev F)} {r : Res Exn Unit}
    (h : doCalibrate a x t r) (hs : Saved t) :
    ∃ t1 o t2 r2, measureAll a x t1 (.ok o) ∧ saveOrRestore o t2 r2 ∧ t = t1 ++ t2 := by
  unfold doCalibrate at h
  cases h with
  | raised h => exact absurd hs (not_saved_of_meas ((measureAll_meas a x).elim h))
  | ok h1 h2 =>
    cases h2 with
    | raised h2 => exact ⟨_, _, _, _, h1, h2, rfl⟩
    | ok h2 h3 =>
      have h3' := show _ = [] from h3
      subst h3'
      rw [List.append_nil]
      exact ⟨_, _, _, _, h1, h2, rfl⟩

/-- **C73.** When settings are saved, the motor is off, and stays off: also when
the calibration fails while it saves or afterwards. -/
theorem C73_saved_off (a : Args F) (x : F) (t : List (Ev F)) (r : Res Exn Unit)
    (h : doCalibrate a x t r) (hs : Saved t) : powered t = false := by
  obtain ⟨t1, o, t2, r2, h1, h2, rfl⟩ := saved_split h hs
  have hp := measureAll_off a x true trivial t1 _ h1
  unfold powered
  rw [List.foldl_append]
  exact (Only.off (saveOrRestore_quiet o)) _ hp t2 r2 h2

omit [Arith F] in
theorem tail_unique {t1 t3 pre post : List (Ev F)} {b b' : Bool}
    (h1 : ∀ ev ∈ t1, Unsaved ev) (h3 : ∀ ev ∈ t3, Unsaved ev)
    (h : t1 ++ .sent .confWrite b' :: t3 = pre ++ .sent .confWrite b :: post) :
    post = t3 := by
  induction t1 generalizing pre with
  | nil =>
    cases pre with
    | nil =>
      rw [List.nil_append, List.nil_append] at h
      exact (List.cons.inj h).2.symm
    | cons p pre =>
      rw [List.nil_append, List.cons_append] at h
      have : Ev.sent Cmd.confWrite b ∈ t3 := by
        rw [(List.cons.inj h).2]
        simp
      exact (h3 _ this).elim
  | cons ev t1 ih =>
    cases pre with
    | nil =>
      rw [List.cons_append, List.nil_append] at h
      have := h1 ev (by simp)
      rw [(List.cons.inj h).1] at this
      exact this.elim
    | cons p pre =>
      rw [List.cons_append, List.cons_append] at h
      exact ih (fun x hx => h1 x (by simp [hx])) (List.cons.inj h).2

/-- The trace itself as the state. -/
def record (s : List (Ev F)) (ev : Ev F) : List (Ev F) := s ++ [ev]

omit [Arith F] in
theorem record_fold (s t : List (Ev F)) : t.foldl record s = s ++ t := by
  induction t generalizing s with
  | nil => rw [List.append_nil]; rfl
  | cons ev t ih =>
    rw [List.foldl_cons, ih]
    unfold record
    rw [List.append_assoc]
    rfl

/-- The settings that are put back are those that were listed. -/
def Listed (a : Args F) (o : Option (List (String × F))) (s : List (Ev F)) : Prop :=
  match o with
  | none => a.calNoUpdate = false
  | some l => a.calNoUpdate = true ∧ .listed l ∈ s

omit [Arith F] in
theorem Listed.more {a : Args F} {o : Option (List (String × F))} {α : Type} {p : P F α} :
    Holds record (Listed a o) p (fun _ s => Listed a o s) := by
  intro s hs t r _
  rw [record_fold]
  unfold Listed at *
  cases o with
  | none => exact hs
  | some l => exact ⟨hs.1, List.mem_append_left _ hs.2⟩

theorem measureAll_listed (a : Args F) (x : F) :
    Holds record (fun _ => True) (measureAll a x)
      (fun r s => match r with
        | .ok o => Listed a o s
        | .raised _ => True) := by
  unfold measureAll
  refine Holds.bind (Q := fun _ _ => True) (mid := fun _ _ => True) Holds.any
    (fun _ _ h => h) (fun _ _ _ => trivial) fun fw => ?_
  refine Holds.bind (mid := fun o s => Listed a o s) (Q := fun r s => match r with
        | .ok o => Listed a o s
        | .raised _ => True) ?_ (fun _ _ h => h) (fun _ _ _ => trivial) fun o => ?_
  · unfold captureConfig
    by_cases h : a.calNoUpdate = true
    · rw [if_pos h]
      rintro s - t r hr
      cases hr with
      | raised => exact trivial
      | ok h1 h2 =>
        obtain ⟨rfl, rfl⟩ := h2
        rcases h1 with ⟨l, rfl, h1⟩ | ⟨e, rfl, h1⟩
        · cases h1
          refine ⟨h, ?_⟩
          rw [List.append_nil, record_fold]
          simp
        · cases h1
    · rw [if_neg h]
      exact Holds.pure fun s _ => Bool.eq_false_iff.2 h
  · refine Holds.bind (mid := fun _ s => Listed a o s) Listed.more
      (fun _ _ h => h) (fun _ _ _ => trivial) fun _ => ?_
    refine Holds.bind (mid := fun _ s => Listed a o s) Listed.more
      (fun _ _ h => h) (fun _ _ _ => trivial) fun _ => ?_
    refine Holds.bind (mid := fun _ s => Listed a o s) Listed.more
      (fun _ _ h => h) (fun _ _ _ => trivial) fun _ => ?_
    refine Holds.bind (mid := fun _ s => Listed a o s) Listed.more
      (fun _ _ h => h) (fun _ _ _ => trivial) fun _ => ?_
    refine Holds.bind (mid := fun _ s => Listed a o s) Listed.more
      (fun _ _ h => h) (fun _ _ _ => trivial) fun _ => ?_
    exact Holds.pure fun _ h => h

omit [Arith F] in
theorem writeConfigStream_meas (l : List (String × F)) :
    Only (Meas AnyKey gk) (writeConfigStream l) := by
  induction l with
  | nil => exact Only.pure
  | cons x l ih =>
    obtain ⟨k, v⟩ := x
    rw [writeConfigStream]
    refine Only.bind ?_ fun _ => ih
    meas_tac

/-- **C73.** After `conf write` there is nothing else, except for the reset that
follows the restoration of the old settings with `--cal-no-update`. -/
theorem C73_last (a : Args F) (x : F) (t : List (Ev F)) (r : Res Exn Unit)
    (h : doCalibrate a x t r) (pre post : List (Ev F)) (b : Bool)
    (ht : t = pre ++ .sent .confWrite b :: post) :
    post = [] ∨ (a.calNoUpdate = true ∧ post = [.sent .reset false]) := by
  have hs : Saved t := ⟨b, by rw [ht]; simp⟩
  obtain ⟨t1, o, t2, r2, h1, h2, rfl⟩ := saved_split h hs
  have hm := fun ev hev => ((measureAll_meas a x).elim h1 ev hev).unsaved
  have hl := measureAll_listed a x [] trivial t1 _ h1
  cases o with
  | none =>
    left
    rcases h2 with ⟨rfl, -⟩ | ⟨e, rfl, -⟩
    · exact tail_unique hm (t3 := []) (by simp) ht
    · exact tail_unique hm (t3 := []) (by simp) ht
  | some l =>
    have hu : a.calNoUpdate = true := hl.1
    cases h2 with
    | raised h2 =>
      exfalso
      have h3 := fun ev hev => ((writeConfigStream_meas (gk := AnyKey) l).elim h2 ev hev).unsaved
      have : Ev.sent (F := F) Cmd.confWrite b ∈ t1 ++ t2 := by
        rw [ht]
        exact List.mem_append_right _ (by simp)
      rcases List.mem_append.1 this with h | h
      · exact hm _ h
      · exact h3 _ h
    | ok h2 h4 =>
      rename_i u v _
      have h3 := fun ev hev => ((writeConfigStream_meas (gk := AnyKey) l).elim h2 ev hev).unsaved
      have hboth : ∀ ev ∈ t1 ++ u, Unsaved ev := by
        intro ev hev
        rcases List.mem_append.1 hev with h | h
        · exact hm _ h
        · exact h3 _ h
      rw [← List.append_assoc] at ht
      cases h4 with
      | raised h4 =>
        rcases h4 with ⟨rfl, h5⟩ | ⟨e, rfl, -⟩
        · cases h5
        · exact Or.inl (tail_unique hboth (t3 := []) (by simp) ht)
      | ok h4 h5 =>
        obtain ⟨rfl, -⟩ := h5
        rcases h4 with ⟨rfl, -⟩ | ⟨e, rfl, h6⟩
        · exact Or.inr ⟨hu, tail_unique hboth (by
            intro ev hev
            rw [List.mem_singleton] at hev
            rw [hev]
            exact trivial) ht⟩
        · cases h6

/-- A calibration that completes has saved. -/
theorem C73_complete_saves (a : Args F) (x : F) (t : List (Ev F))
    (h : doCalibrate a x t (.ok ())) : .sent .confWrite true ∈ t := by
  cases h with
  | ok h1 h2 =>
    rename_i t1 t2 o
    apply List.mem_append_right
    cases h2 with
    | ok h2 h3 =>
      apply List.mem_append_left
      cases o with
      | none =>
        rcases h2 with ⟨rfl, -⟩ | ⟨e, rfl, h⟩
        · simp
        · cases h
      | some l =>
        cases h2 with
        | ok h2 h4 =>
          apply List.mem_append_right
          cases h4 with
          | ok h4 h5 =>
            apply List.mem_append_left
            rcases h4 with ⟨rfl, -⟩ | ⟨e, rfl, h⟩
            · simp
            · cases h

/-! ## The settings that are changed temporarily are put back -/

omit [Arith F] in
theorem track_fold (k : String) (s : Option F × Option F) (t : List (Ev F)) :
    (t.foldl (track k) s).1 = t.foldl (setStep k) s.1 := by
  induction t generalizing s with
  | nil => rfl
  | cons ev t ih => exact ih _

omit [Arith F] in
theorem track_write (k : String) (s : Option F × Option F) (b : Bool) :
    [.sent .confWrite b].foldl (track k) s = s := Prod.ext rfl (ite_self _)

omit [Arith F] in
/-- A part that does not send `k`. -/
theorem Only.keepSet {α : Type} {k : String} {p : P F α}
    (h : Only (Meas (fun k' => k' ≠ k) gk) p) (v : Option F) :
    Holds (track k) (fun s => s.1 = v) p (fun _ s => s.1 = v) :=
  h.holds fun ev s hev hs => by
    cases ev with
    | sent c b =>
      cases c <;> first | exact hs | skip
      exact (if_neg hev).trans hs
    | got => exact hs
    | listed => exact hs
    | stats => exact hs
    | reading => exact hs

omit [Arith F] in
/-- A part that does not read `k`. -/
theorem Only.keepGot {α : Type} {k : String} {p : P F α}
    (h : Only (Meas sk (fun k' => k' ≠ k)) p) (v : Option F) :
    Holds (track k) (fun s => s.2 = v) p (fun _ s => s.2 = v) :=
  h.holds fun ev s hev hs => by
    cases ev with
    | sent c b => exact (ite_self _).trans hs
    | got =>
      show (if s.1.isNone then gotStep k s.2 _ else s.2) = v
      split
      · exact (if_neg hev).trans hs
      · exact hs
    | listed => exact (ite_self _).trans hs
    | stats => exact (ite_self _).trans hs
    | reading => exact (ite_self _).trans hs

omit [Arith F] in
/-- A part that neither sends nor reads `k`. -/
theorem Only.keep {α : Type} {k : String} {p : P F α}
    (h : Only (Meas (fun k' => k' ≠ k) (fun k' => k' ≠ k)) p)
    (inv : Option F × Option F → Prop) :
    Holds (track k) inv p (fun _ s => inv s) := by
  intro s hs t r hr
  have h1 := h.keepSet s.1 s rfl t r hr
  have h2 := h.keepGot s.2 s rfl t r hr
  have : t.foldl (track k) s = s := Prod.ext h1 h2
  rw [this]
  exact hs

/-- Never sent, or last sent as it was received last. -/
def PutBack : Option F × Option F → Prop := fun s => s.1 = none ∨ (s.1 ≠ none ∧ s.1 = s.2)

/-- Postcondition: a fact that holds if the program ended well. -/
def IfOk {α S : Type} (inv : S → Prop) : Res Exn α → S → Prop
  | .ok _, s => inv s
  | .raised _, _ => True

omit [Arith F] in
theorem Holds.ifOk {α S : Type} {step : S → Ev F → S} {pre inv : S → Prop} {p : P F α}
    (h : Holds step pre p (fun _ s => inv s)) : Holds step pre p (IfOk inv) :=
  h.weaken (fun _ h => h) fun r _ h => by cases r <;> first | exact h | exact trivial

omit [Arith F] in
theorem Holds.thenIfOk {α β S : Type} {step : S → Ev F → S} {pre inv post : S → Prop}
    {p : P F α} {f : α → P F β} (h1 : Holds step pre p (IfOk inv))
    (h2 : ∀ a, Holds step inv (f a) (IfOk post)) : Holds step pre (p >>= f) (IfOk post) :=
  Holds.bind h1 (mid := fun _ => inv) (fun _ _ h => h) (fun _ _ _ => trivial) h2

omit [Arith F] in
/-- What was received by `read_config`. -/
theorem readConfig_got (k : String) :
    Holds (track k) (fun s => s.1 = none) (readConfig k : P F F)
      (fun r s => match r with
        | .ok x => s.2 = some x
        | .raised _ => True) := by
  rintro s hs t r hr
  cases hr with
  | raised => exact trivial
  | ok h1 h2 =>
    rcases h1 with ⟨x, rfl, h1⟩ | ⟨rfl, h1⟩
    · cases h1
      obtain ⟨rfl, rfl⟩ := h2
      show (if s.1.isNone then gotStep k s.2 _ else s.2) = _
      rw [hs, Option.isNone_none, if_pos rfl]
      exact if_pos rfl
    · rcases h1 with h1 | h1 | h1 | ⟨e, h1⟩
      all_goals cases h1
      all_goals
        obtain ⟨-, rfl⟩ := h2
        exact trivial

omit [Arith F] in
theorem command_got (k : String) (c : Cmd F) (v : Option F) :
    Holds (track k) (fun s => s.2 = v) (command c) (IfOk fun s => s.2 = v) := by
  rintro s hs t r (⟨rfl, rfl⟩ | ⟨e, rfl, rfl⟩)
  · exact (ite_self _).trans hs
  · exact trivial

omit [Arith F] in
theorem command_set (k : String) (x : F) :
    Holds (track k) (fun s => s.2 = some x) (command (.confSet k x)) (IfOk PutBack) := by
  rintro s hs t r (⟨rfl, rfl⟩ | ⟨e, rfl, rfl⟩)
  · right
    have h1 : (track k s (.sent (.confSet k x) true)).1 = some x := if_pos rfl
    refine ⟨fun h => ?_, h1.trans (((ite_self _).trans hs).symm)⟩
    rw [List.foldl_cons, List.foldl_nil, h1] at h
    cases h
  · exact trivial

theorem measureKv_min (a : Args F) (fw : Firmware) (e i s g : F) :
    Holds (track "servopos.position_min") (fun s => s.1 = none) (measureKv a fw e i s g)
      (IfOk PutBack) := by
  unfold measureKv
  refine Holds.thenIfOk (Only.keepSet (k := "servopos.position_min")
    (ensureValidTheta_meas (gk := AnyKey) _ _ (by decide)
    trivial) none).ifOk fun _ => ?_
  refine Holds.bind (readConfig_got _) (mid := fun x s => s.2 = some x) (fun _ _ h => h)
    (fun _ _ _ => trivial) fun lo => ?_
  refine Holds.thenIfOk (Only.keepGot (sk := AnyKey)
    (readConfig_only (fun _ => (by decide : "servopos.position_max" ≠ "servopos.position_min"))
      trivial) _).ifOk fun _ => ?_
  refine Holds.thenIfOk (command_got _ _ _) fun _ => ?_
  refine Holds.thenIfOk (command_got _ _ _) fun _ => ?_
  refine Holds.thenIfOk (command_got _ _ _) fun _ => ?_
  refine Holds.thenIfOk (Only.keepGot (sk := AnyKey)
    (findKvCalVoltage_meas _ _ _) _).ifOk fun _ => ?_
  refine Holds.thenIfOk (Only.keepGot (sk := AnyKey) stopAndIdle_meas _).ifOk fun _ => ?_
  refine Holds.thenIfOk (Only.keepGot (sk := AnyKey)
    (Only.collect fun _ => findSpeed_meas _ _) _).ifOk fun _ => ?_
  refine Holds.thenIfOk (Only.keepGot (sk := AnyKey) stopAndIdle_meas _).ifOk fun _ => ?_
  refine Holds.thenIfOk (command_set _ _) fun _ => ?_
  refine Holds.thenIfOk (Only.keep (k := "servopos.position_min")
    (p := command (.confSet "servopos.position_max" _)) (Only.command fun _ =>
    (by decide : "servopos.position_max" ≠ "servopos.position_min")) PutBack).ifOk fun _ => ?_
  exact (Only.keep (kvOfSpeeds_meas _ _ _ _) PutBack).ifOk

theorem measureKv_max (a : Args F) (fw : Firmware) (e i s g : F) :
    Holds (track "servopos.position_max") (fun s => s.1 = none) (measureKv a fw e i s g)
      (IfOk PutBack) := by
  unfold measureKv
  refine Holds.thenIfOk (Only.keepSet (k := "servopos.position_max")
    (ensureValidTheta_meas (gk := AnyKey) _ _ (by decide)
    trivial) none).ifOk fun _ => ?_
  refine Holds.thenIfOk (Only.keepSet (gk := AnyKey) (readConfig_only (fun _ => trivial) trivial)
    none).ifOk fun _ => ?_
  refine Holds.bind (readConfig_got _) (mid := fun x s => s.2 = some x) (fun _ _ h => h)
    (fun _ _ _ => trivial) fun lo => ?_
  refine Holds.thenIfOk (command_got _ _ _) fun _ => ?_
  refine Holds.thenIfOk (command_got _ _ _) fun _ => ?_
  refine Holds.thenIfOk (command_got _ _ _) fun _ => ?_
  refine Holds.thenIfOk (Only.keepGot (sk := AnyKey)
    (findKvCalVoltage_meas _ _ _) _).ifOk fun _ => ?_
  refine Holds.thenIfOk (Only.keepGot (sk := AnyKey) stopAndIdle_meas _).ifOk fun _ => ?_
  refine Holds.thenIfOk (Only.keepGot (sk := AnyKey)
    (Only.collect fun _ => findSpeed_meas _ _) _).ifOk fun _ => ?_
  refine Holds.thenIfOk (Only.keepGot (sk := AnyKey) stopAndIdle_meas _).ifOk fun _ => ?_
  refine Holds.thenIfOk (command_got _ _ _) fun _ => ?_
  refine Holds.thenIfOk (command_set _ _) fun _ => ?_
  exact (Only.keep (kvOfSpeeds_meas _ _ _ _) PutBack).ifOk

/-- One of the two position limits. -/
def IsLimit (k : String) : Prop := k = "servopos.position_min" ∨ k = "servopos.position_max"

theorem measureKv_limit {k : String} (hk : IsLimit k) (a : Args F) (fw : Firmware)
    (e i s g : F) :
    Holds (track k) (fun s => s.1 = none) (measureKv a fw e i s g) (IfOk PutBack) := by
  rcases hk with rfl | rfl
  · exact measureKv_min a fw e i s g
  · exact measureKv_max a fw e i s g

theorem IsLimit.ne {k k' : String} (hk : IsLimit k)
    (h : (k' != "servopos.position_min" && k' != "servopos.position_max") = true) :
    k' ≠ k := by
  rw [Bool.and_eq_true, bne_iff_ne, bne_iff_ne] at h
  rcases hk with rfl | rfl
  · exact h.1
  · exact h.2

theorem IsLimit.offset {k : String} (hk : IsLimit k) (i : Nat) : s!"motor.offset.{i}" ≠ k := by
  rcases hk with rfl | rfl
  · exact offset_ne i _ (by decide)
  · exact offset_ne i _ (by decide)

theorem IsLimit.keys {k : String} (hk : IsLimit k) : ElectricalKeys (fun k' => k' ≠ k) := by
  constructor
  constructor
  all_goals first | exact hk.offset | exact hk.ne (by decide)

theorem calibrateMechanical_limit {k : String} (hk : IsLimit k) (a : Args F) (fw : Firmware)
    (s : Option (F × F)) (r n i e : F) :
    Holds (track k) (fun s => s.1 = none) (calibrateMechanical a fw s r n i e)
      (IfOk PutBack) := by
  unfold calibrateMechanical
  refine Holds.thenIfOk (Only.keepSet (gk := AnyKey)
    (checkForFault_only trivial fun _ => trivial) _).ifOk fun _ => ?_
  refine Holds.thenIfOk (Only.keepSet (gk := AnyKey) Only.orRaise _).ifOk fun ss => ?_
  dsimp only
  refine Holds.thenIfOk (inv := PutBack) ?_ fun _ =>
    (Only.keep (afterKv_meas _ _ _ (hk.ne (by decide)) (hk.ne (by decide))) PutBack).ifOk
  unfold calibrateKvRating
  refine Holds.thenIfOk (inv := PutBack) (p := match a.calForceKv with
    | some kv => pure kv
    | none => measureKv a fw e i ss.1 ss.2) ?_ fun kv => ?_
  · cases a.calForceKv with
    | some kv => exact (Holds.pure fun _ h => Or.inl h)
    | none =>
      exact measureKv_limit hk a fw e i _ _
  · refine Holds.thenIfOk (Only.keep (storeKv_meas _ _ (hk.ne (by decide))
      (hk.ne (by decide))) PutBack).ifOk fun _ => ?_
    refine Holds.thenIfOk (Only.keep check_only PutBack).ifOk fun _ => ?_
    exact (Only.keep Only.pure PutBack).ifOk

theorem measureAll_limit {k : String} (hk : IsLimit k) (a : Args F) (x : F) :
    Holds (track k) (fun s => s.1 = none) (measureAll a x) (IfOk PutBack) := by
  unfold measureAll
  refine Holds.thenIfOk (Only.keepSet (gk := AnyKey) (Only.readAny trivial) _).ifOk
    fun fw => ?_
  refine Holds.thenIfOk (Only.keepSet (gk := AnyKey) (captureConfig_meas _) _).ifOk
    fun o => ?_
  refine Holds.thenIfOk (Only.keepSet (gk := AnyKey) check_only _).ifOk fun _ => ?_
  refine Holds.thenIfOk (Only.keepSet checkCommutationSource_meas _).ifOk fun _ => ?_
  refine Holds.thenIfOk (Only.keepSet (gk := AnyKey)
    (calculateCalibrationParameters_meas a) none).ifOk fun a => ?_
  refine Holds.thenIfOk (Only.keepSet (calibrateElectrical_meas _ _ _ hk.keys) _).ifOk
    fun _ => ?_
  refine Holds.thenIfOk (calibrateMechanical_limit hk _ _ _ _ _ _ _) fun _ => ?_
  exact Holds.pure fun _ h => h

omit [Arith F] in
theorem putBack_iff {k : String} {t : List (Ev F)}
    (h : PutBack (t.foldl (track k) (none, none))) :
    lastSet k t = none ∨ (∃ v, lastSet k t = some v ∧ original k t = some v) := by
  unfold original lastSet
  rw [← track_fold k (none, none) t]
  rcases h with h | ⟨h1, h2⟩
  · exact Or.inl h
  · obtain ⟨v, hv⟩ := Option.ne_none_iff_exists'.1 h1
    exact Or.inr ⟨v, hv, h2.symm.trans hv⟩

/-- **C73.** The position limits that are saved are the ones that the controller
reported: each limit was not sent at all, or the last value sent for it is the
last value received for it before it was changed. -/
theorem C73_limits (a : Args F) (x : F) (hu : a.calNoUpdate = false) (k : String)
    (hk : k = "servopos.position_min" ∨ k = "servopos.position_max")
    (t : List (Ev F)) (r : Res Exn Unit)
    (h : doCalibrate a x t r) (hs : Saved t) :
    lastSet k t = none ∨ (∃ v, lastSet k t = some v ∧ original k t = some v) := by
  obtain ⟨t1, o, t2, r2, h1, h2, rfl⟩ := saved_split h hs
  have hl := measureAll_listed a x [] trivial t1 _ h1
  have hp := measureAll_limit hk a x (none, none) rfl t1 _ h1
  cases o with
  | some l => exact absurd hl.1 (by rw [hu]; exact Bool.false_ne_true)
  | none =>
    apply putBack_iff
    rw [List.foldl_append]
    rcases h2 with ⟨rfl, -⟩ | ⟨e, rfl, -⟩
    · rw [track_write]
      exact hp
    · rw [track_write]
      exact hp

/-- The sign of the output, which is 1 while the encoder is mapped. -/
abbrev signKey : String := "motor_position.output.sign"

theorem signKeys : EncoderKeys (fun k' => k' ≠ signKey) := by
  constructor
  all_goals first | decide | skip
  intro i h
  have h2 : (s!"motor.offset.{i}").toList.take 6 = signKey.toList.take 6 := by rw [h]
  rw [String.toList_append, List.take_append_of_le_length (by decide)] at h2
  exact absurd h2 (by decide)

omit [Arith F] in
theorem attempt_holds {α S : Type} {step : S → Ev F → S} {pre : S → Prop} {p : P F α}
    {post : Res Exn α → S → Prop} (h : Holds step pre p post) :
    Holds step pre (attempt p) (fun r s => match r with
      | .ok (.ok a) => post (.ok a) s
      | .ok (.error e) => post (.raised e) s
      | .raised _ => False) := by
  unfold attempt
  refine Holds.tryCatch (Q := fun r s => match r with
      | .ok (.ok a) => post (.ok a) s
      | .ok (.error e) => False
      | .raised e => post (.raised e) s) ?_ ?_ ?_
  · exact Holds.bind h (mid := fun a s => post (.ok a) s) (fun _ _ h => h) (fun _ _ h => h)
      fun a => Holds.pure fun _ h => h
  · intro a s h
    cases a with
    | ok => exact h
    | error => exact h.elim
  · intro e
    exact Holds.pure fun _ h => h

/-- What `saveSettings` has read and sent. -/
theorem saveSettings_sign :
    Holds (track signKey) (fun s => s.1 = none) (saveSettings : P F _)
      (fun r s => match r with
        | .ok (some v, _) => s.2 = some v
        | .ok (none, _) => s.1 = none
        | .raised _ => True) := by
  unfold saveSettings
  refine Holds.bind (attempt_holds (Only.keepSet (gk := AnyKey) (isConfigSupported_only
    (fun _ => trivial) trivial) none)) (mid := fun _ s => s.1 = none)
    (fun a _ h => by cases a <;> exact h) (fun _ _ _ => trivial) fun b => ?_
  cases b with
  | error e => exact Holds.pure fun _ h => h
  | ok b =>
    cases b with
    | false => exact Holds.pure fun _ h => h
    | true =>
      dsimp only
      have hg : Holds (track signKey) (fun s => s.1 = none) (readConfig signKey : P F F)
          (fun r s => match r with
            | .ok x => s.2 = some x
            | .raised _ => s.1 = none) := by
        intro s hs t r hr
        have h1 := readConfig_got signKey s hs t r hr
        have h2 := Only.keepSet (gk := AnyKey) (k := signKey) (readConfig_only
          (fun _ => trivial) trivial) none s hs t r hr
        cases r with
        | ok => exact h1
        | raised => exact h2
      refine Holds.bind (attempt_holds hg) (mid := fun a s => match a with
        | .ok x => s.2 = some x
        | .error _ => s.1 = none)
        (fun a _ h => by cases a <;> exact h) (fun _ _ _ => trivial) fun b => ?_
      cases b with
      | error e => exact Holds.pure fun _ h => h
      | ok v =>
        dsimp only
        refine Holds.bind (attempt_holds (post := fun _ s => s.2 = some v) ?_)
          (mid := fun _ s => s.2 = some v)
          (fun a _ h => by cases a <;> exact h) (fun _ _ _ => trivial) fun b => ?_
        · rintro s hs t r (⟨rfl, rfl⟩ | ⟨e, rfl, rfl⟩)
          · exact (ite_self _).trans hs
          · exact (ite_self _).trans hs
        cases b with
        | error e => exact Holds.pure fun _ h => h
        | ok u =>
          dsimp only
          refine Holds.bind (attempt_holds (Only.keepGot (sk := AnyKey) (readConfig_only
            (fun _ => (by decide : "servo.voltage_mode_control" ≠ signKey)) trivial) (some v)))
            (mid := fun _ s => s.2 = some v)
            (fun a _ h => by cases a <;> exact h) (fun _ _ _ => trivial) fun b => ?_
          cases b with
          | error e => exact Holds.pure fun _ h => h
          | ok w => exact Holds.pure fun _ h => h

omit [Arith F] in
theorem restoreSettings_sign (x : F) (v : F) (m : Option F) :
    Holds (track signKey) (fun s => s.2 = some v) (restoreSettings x (some v) m)
      (IfOk PutBack) := by
  unfold restoreSettings
  refine Holds.thenIfOk (command_got _ _ _) fun _ => ?_
  dsimp only
  refine Holds.thenIfOk (command_set _ _) fun _ => ?_
  exact (Only.keep (k := signKey) (p := command (.confSet "servo.voltage_mode_control" _))
    (Only.command fun _ => (by decide : "servo.voltage_mode_control" ≠ signKey)) PutBack).ifOk

omit [Arith F] in
theorem Holds.finallyIfOk {α S : Type} {step : S → Ev F → S} {pre inv post : S → Prop}
    {p : P F α} {q : P F Unit} (h1 : Holds step pre p (fun _ s => inv s))
    (h2 : Holds step inv q (IfOk post)) : Holds step pre (M.Finally p q) (IfOk post) := by
  refine Holds.tryFinally h1 fun r => h2.weaken (fun _ h => h) fun x s h => ?_
  cases x with
  | ok u =>
    cases r with
    | ok => exact h
    | raised => exact trivial
  | raised => exact trivial

theorem calibrateEncoderMapping_sign (a : Args F) (fw : Firmware) (x i r n : F) :
    Holds (track signKey) (fun s => s.1 = none) (calibrateEncoderMapping a fw x i r n)
      (IfOk PutBack) := by
  unfold calibrateEncoderMapping
  refine Holds.thenIfOk (Only.keepSet (gk := AnyKey) (by
    unfold findEncoderCalVoltage
    meas_tac) none).ifOk fun _ => ?_
  refine Holds.thenIfOk (Only.keepSet (gk := AnyKey) Only.orRaise none).ifOk fun v => ?_
  refine Holds.thenIfOk (Only.keepSet (gk := AnyKey) Only.orRaise none).ifOk fun c => ?_
  refine Holds.thenIfOk (Only.keepSet hallCommutation_meas none).ifOk fun hc => ?_
  split
  · refine Holds.thenIfOk (Only.keepSet (gk := AnyKey) check_only none).ifOk fun _ => ?_
    refine Holds.thenIfOk (Only.keepSet (calibrateEncoderMappingHall_meas a v signKeys)
      none).ifOk fun _ => ?_
    exact Holds.pure fun _ h => Or.inl h
  · refine Holds.bind saveSettings_sign (mid := fun z s => match z with
        | (some v, _) => s.2 = some v
        | (none, _) => s.1 = none) (fun z _ h => ?_) (fun _ _ _ => trivial) fun z => ?_
    · obtain ⟨o, m, f⟩ := z
      cases o <;> exact h
    obtain ⟨o, m, f⟩ := z
    refine Holds.thenIfOk (inv := PutBack) ?_ fun _ => Holds.pure fun _ h => h
    have habs := calibrateEncoderMappingAbsolute_meas (gk := fun k' => k' ≠ signKey) a fw v c n
      signKeys (by decide) (by decide) (by decide) (by decide)
    cases o with
    | none =>
      refine Holds.finallyIfOk (inv := fun s => s.1 = none) ?_ ?_
      · cases f with
        | some e => exact Holds.raise fun _ h => h
        | none => exact habs.keepSet none
      · unfold restoreSettings
        refine Holds.thenIfOk (inv := PutBack) ?_ fun _ => Holds.pure fun _ h => h
        exact ((Only.keepSet (gk := AnyKey) (k := signKey) (p := command .stop)
          (Only.command fun _ => trivial) none).weaken
          (post' := fun _ s => PutBack s) (fun _ h => h) fun _ _ h => Or.inl h).ifOk
    | some v =>
      refine Holds.finallyIfOk (inv := fun s => s.2 = some v) ?_ (restoreSettings_sign x v m)
      cases f with
      | some e => exact Holds.raise fun _ h => h
      | none => exact habs.keepGot (some v)

theorem signElectrical (a : Args F) (fw : Firmware) (x : F) :
    Holds (track signKey) (fun s => s.1 = none) (calibrateElectrical a fw x)
      (IfOk PutBack) := by
  unfold calibrateElectrical
  refine Holds.thenIfOk (Only.keepSet (gk := AnyKey)
    (clearMotorOffsets_meas signKeys.offset) none).ifOk fun _ => ?_
  refine Holds.thenIfOk (Only.keepSet (gk := AnyKey) (k := signKey) (p := command .stop)
    (Only.command fun _ => trivial) none).ifOk fun _ => ?_
  refine Holds.thenIfOk (Only.keepSet outputScale_meas none).ifOk fun _ => ?_
  refine Holds.thenIfOk (Only.keepSet controlRate_meas none).ifOk fun _ => ?_
  refine Holds.thenIfOk (Only.keepSet (gk := AnyKey)
    (setIfSupported_meas _ _ signKeys.phase) none).ifOk fun _ => ?_
  refine Holds.thenIfOk (Only.keepSet (gk := AnyKey)
    (setIfSupported_meas _ _ signKeys.sign) none).ifOk fun _ => ?_
  refine Holds.thenIfOk (Only.keepSet (gk := AnyKey)
    (readServoStats_only trivial fun _ => trivial) none).ifOk fun _ => ?_
  refine Holds.thenIfOk (Only.keepSet (gk := AnyKey) Only.orRaise none).ifOk fun _ => ?_
  refine Holds.thenIfOk (Only.keepSet (gk := AnyKey)
    (checkForFault_only trivial fun _ => trivial) none).ifOk fun _ => ?_
  refine Holds.thenIfOk (Only.keepSet (gk := AnyKey)
    (calibrateWindingResistance2_meas _ _ (by decide)) none).ifOk fun _ => ?_
  refine Holds.thenIfOk (Only.keepSet (gk := AnyKey)
    (checkForFault_only trivial fun _ => trivial) none).ifOk fun _ => ?_
  refine Holds.thenIfOk (Only.keepSet (gk := AnyKey)
    (calibrateInductance_meas _ _ _ signKeys.poles trivial) none).ifOk fun _ => ?_
  refine Holds.thenIfOk (Only.keepSet (gk := AnyKey)
    (checkForFault_only trivial fun _ => trivial) none).ifOk fun _ => ?_
  refine Holds.thenIfOk (Only.keepSet (gk := AnyKey)
    (storeBandwidth_meas _ _ _ _ trivial (by decide) (by decide)) none).ifOk fun _ => ?_
  refine Holds.thenIfOk (Only.keepSet
    (setEncoderFilter_meas _ _ _ _ (by decide) (by decide) (by decide) (by decide))
    none).ifOk fun _ => ?_
  refine Holds.thenIfOk (Only.keepSet (gk := AnyKey)
    (checkForFault_only trivial fun _ => trivial) none).ifOk fun _ => ?_
  refine Holds.thenIfOk (calibrateEncoderMapping_sign _ _ _ _ _ _) fun _ => ?_
  exact Holds.pure fun _ h => h

theorem measureAll_sign (a : Args F) (x : F) :
    Holds (track signKey) (fun s => s.1 = none) (measureAll a x) (IfOk PutBack) := by
  unfold measureAll
  refine Holds.thenIfOk (Only.keepSet (gk := AnyKey) (Only.readAny trivial) _).ifOk
    fun fw => ?_
  refine Holds.thenIfOk (Only.keepSet (gk := AnyKey) (captureConfig_meas _) _).ifOk
    fun o => ?_
  refine Holds.thenIfOk (Only.keepSet (gk := AnyKey) check_only _).ifOk fun _ => ?_
  refine Holds.thenIfOk (Only.keepSet checkCommutationSource_meas _).ifOk fun _ => ?_
  refine Holds.thenIfOk (Only.keepSet (gk := AnyKey)
    (calculateCalibrationParameters_meas a) none).ifOk fun a => ?_
  refine Holds.thenIfOk (signElectrical a fw x) fun _ => ?_
  refine Holds.thenIfOk (Only.keep (calibrateMechanical_meas _ _ _ _ _ _ _
    (by constructor <;> decide)) PutBack).ifOk fun _ => ?_
  exact Holds.pure fun _ h => h

/-- **C73.** The sign of the output that is saved is the one that the controller
reported before it was changed. -/
theorem C73_sign (a : Args F) (x : F) (hu : a.calNoUpdate = false)
    (t : List (Ev F)) (r : Res Exn Unit)
    (h : doCalibrate a x t r) (hs : Saved t) :
    lastSet "motor_position.output.sign" t = none ∨
    (∃ v, lastSet "motor_position.output.sign" t = some v ∧
      original "motor_position.output.sign" t = some v) := by
  obtain ⟨t1, o, t2, r2, h1, h2, rfl⟩ := saved_split h hs
  have hl := measureAll_listed a x [] trivial t1 _ h1
  have hp := measureAll_sign a x (none, none) rfl t1 _ h1
  cases o with
  | some l => exact absurd hl.1 (by rw [hu]; exact Bool.false_ne_true)
  | none =>
    apply putBack_iff
    rw [List.foldl_append]
    rcases h2 with ⟨rfl, -⟩ | ⟨e, rfl, -⟩
    · rw [track_write]
      exact hp
    · rw [track_write]
      exact hp

end

end Verif.Session
