import Verif.Session.Sends

/-!
# When the motor is left without power, and what is saved

Specification: three functions of the trace.

* `powered`: some driving command was sent after the last acknowledged `d stop`
  (whatever was the reply to it).
* `Saved`: a `conf write` was sent.
* `lastSet k`, `original k`: the last value that was sent for a setting, and the
  last value the device reported for it before it was changed.
-/

namespace Verif.Session

open Arith

variable {F : Type}

/-- Commands that make the controller drive the motor (fw/board_debug.cc:453-790:
each of them sets a mode with torque). -/
def Cmd.drives : Cmd F → Bool
  | .pwm .. => true
  | .vdq .. => true
  | .ind .. => true
  | .posCurrent .. => true
  | .posVoltage .. => true
  | .cali .. => true
  | .cal .. => true
  | _ => false

/-- May the motor be driven after this event? -/
def power (p : Bool) : Ev F → Bool
  | .sent .stop true => false
  | .sent c _ => p || c.drives
  | _ => p

/-- May the motor be driven after these events?  Nothing is known before. -/
def powered (t : List (Ev F)) : Bool := t.foldl power true

/-- Settings were written to the persistent storage. -/
def Saved (t : List (Ev F)) : Prop := ∃ b, .sent .confWrite b ∈ t

/-- Value that was last sent for the setting `k`. -/
def setStep (k : String) (s : Option F) : Ev F → Option F
  | .sent (.confSet k' x) _ => if k' = k then some x else s
  | _ => s

/-- Value that was last received for the setting `k`. -/
def gotStep (k : String) (s : Option F) : Ev F → Option F
  | .got k' x => if k' = k then some x else s
  | _ => s

/-- Last value that was sent for the setting `k`. -/
def lastSet (k : String) (t : List (Ev F)) : Option F := t.foldl (setStep k) none

/-- What was last sent for the setting `k`, and what was last received for it
before anything was sent for it. -/
def track (k : String) (s : Option F × Option F) (ev : Ev F) : Option F × Option F :=
  (setStep k s.1 ev, if s.1.isNone then gotStep k s.2 ev else s.2)

/-- The value that the device reported for the setting `k` before it was changed. -/
def original (k : String) (t : List (Ev F)) : Option F := (t.foldl (track k) (none, none)).2

/-! ## Lemmas -/

/-- No `conf write`. -/
def Unsaved : Ev F → Prop
  | .sent .confWrite _ => False
  | _ => True

theorem Meas.unsaved {sk gk : String → Prop} {ev : Ev F} (h : Meas sk gk ev) : Unsaved ev := by
  unfold Meas at h
  unfold Unsaved
  split
  · exact h
  · exact trivial

/-! ## Power -/

/-- Postcondition: off if the program ended well. -/
def OffIfOk {α : Type} : Res Exn α → Bool → Prop
  | .ok _, p => p = false
  | .raised _, _ => True

/-- Postcondition: off, whatever happened. -/
def Off {α : Type} : Res Exn α → Bool → Prop := fun _ p => p = false

/-- Events that do not drive. -/
def Quiet : Ev F → Prop
  | .sent c _ => c.drives = false
  | _ => True

theorem power_quiet {ev : Ev F} {p : Bool} (h : Quiet ev) (hp : p = false) :
    power p ev = false := by
  subst hp
  unfold power
  split
  · rfl
  · exact h
  · rfl

theorem Only.off {α : Type} {p : P F α} (h : Only Quiet p) :
    Holds power (fun s => s = false) p Off :=
  h.holds fun _ _ => power_quiet

/-- The first part leaves the motor off if it ends well, and so does the second
one then. -/
theorem Holds.seq {α β : Type} {pre : Bool → Prop} {p : P F α} {f : α → P F β}
    (h1 : Holds power pre p OffIfOk)
    (h2 : ∀ a, Holds power (fun s => s = false) (f a) OffIfOk) :
    Holds power pre (p >>= f) OffIfOk :=
  Holds.bind h1 (mid := fun _ s => s = false) (fun _ _ h => h) (fun _ _ _ => trivial) h2

/-- Whatever the first part does, the second one leaves the motor off. -/
theorem Holds.last {α β : Type} {pre : Bool → Prop} {p : P F α} {f : α → P F β}
    (h2 : ∀ a, Holds power (fun _ => True) (f a) OffIfOk) :
    Holds power pre (p >>= f) OffIfOk :=
  Holds.bind (Q := fun _ _ => True) Holds.any (mid := fun _ _ => True) (fun _ _ h => h)
    (fun _ _ _ => trivial) h2

theorem Holds.offIfOk {α : Type} {pre : Bool → Prop} {p : P F α}
    (h : Holds power pre p Off) : Holds power pre p OffIfOk :=
  h.weaken (fun _ h => h) fun r _ h => by cases r <;> first | exact h | exact trivial

theorem stop_off : Holds power (fun _ => True) (command .stop : P F Unit) OffIfOk := by
  rintro s - t r (⟨rfl, rfl⟩ | ⟨e, rfl, rfl⟩)
  · exact (rfl : power s (.sent .stop true : Ev F) = false)
  · exact trivial

theorem Holds.pre_true {α : Type} {pre : Bool → Prop} {p : P F α}
    {post : Res Exn α → Bool → Prop} (h : Holds power (fun _ => True) p post) :
    Holds power pre p post := h.weaken (fun _ _ => trivial) fun _ _ h => h

section
variable [Arith F]

theorem findCurrent_off (v : F) : Holds power (fun s => s = false) (findCurrent v) OffIfOk := by
  unfold findCurrent
  refine Holds.last fun _ => Holds.last fun _ => Holds.last fun data => ?_
  refine Holds.seq stop_off fun _ => (Only.off ?_).offIfOk
  meas_tac

omit [Arith F] in
theorem readCalibration_quiet : Only Quiet (readCalibration : P F Unit) := by
  unfold readCalibration
  meas_tac

theorem findIndex_off (a : Args F) (v : F) :
    Holds power (fun _ => True) (findIndex a v) OffIfOk := by
  unfold findIndex
  exact Holds.last fun _ => Holds.last fun _ => Holds.last fun _ => Holds.last fun _ => stop_off

theorem ensureValidTheta_off (a : Args F) (v : F) :
    Holds power (fun s => s = false) (ensureValidTheta a v) OffIfOk := by
  unfold ensureValidTheta
  refine Holds.seq (Only.off ?_).offIfOk fun _ => ?_
  · meas_tac
  refine Holds.seq (Only.off ?_).offIfOk fun _ => ?_
  · meas_tac
    rfl
  refine Holds.seq (Only.off ?_).offIfOk fun m => ?_
  · meas_tac
  cases m with
  | none => exact (Only.off Only.pure).offIfOk
  | some m =>
    dsimp only
    split
    · exact (Only.off Only.raise).offIfOk
    · split
      · exact (findIndex_off a v).pre_true
      · exact (Only.off Only.pure).offIfOk

theorem stopAndIdle_off : Holds power (fun _ => True) (stopAndIdle : P F Unit) OffIfOk := by
  unfold stopAndIdle
  refine Holds.seq stop_off fun _ => (Only.off ?_).offIfOk
  meas_tac

theorem kvOfSpeeds_quiet (fw : Firmware) (s g : F) (l : List (F × F)) :
    Only Quiet (kvOfSpeeds fw s g l) := by
  unfold kvOfSpeeds
  meas_tac

theorem measureKv_off (a : Args F) (fw : Firmware) (e i s g : F) :
    Holds power (fun _ => True) (measureKv a fw e i s g) OffIfOk := by
  unfold measureKv
  refine Holds.last fun _ => Holds.last fun _ => Holds.last fun _ => Holds.last fun _ =>
    Holds.last fun _ => Holds.last fun _ => Holds.last fun _ => Holds.last fun _ => ?_
  dsimp only
  refine Holds.last fun _ => Holds.seq stopAndIdle_off fun _ => (Only.off ?_).offIfOk
  refine Only.bind (Only.command fun _ => rfl) fun _ =>
    Only.bind (Only.command fun _ => rfl) fun _ => kvOfSpeeds_quiet _ _ _ _

theorem storeKv_quiet (fw : Firmware) (kv : F) : Only Quiet (storeKv fw kv) := by
  unfold storeKv
  meas_tac
  all_goals rfl

theorem calibrateKvRating_off (a : Args F) (fw : Firmware) (e i s g : F) :
    Holds power (fun s => s = false) (calibrateKvRating a fw e i s g) OffIfOk := by
  unfold calibrateKvRating
  refine Holds.seq (p := match a.calForceKv with
    | some kv => pure kv
    | none => measureKv a fw e i s g) ?_ fun kv => (Only.off ?_).offIfOk
  · cases a.calForceKv with
    | some kv => exact (Only.off Only.pure).offIfOk
    | none => exact (measureKv_off a fw e i s g).pre_true
  · refine Only.bind (storeKv_quiet fw kv) ?_
    meas_tac

theorem calibrateEncoderMappingHall_off (a : Args F) (v : F) :
    Holds power (fun _ => True) (calibrateEncoderMappingHall a v) OffIfOk := by
  unfold calibrateEncoderMappingHall
  refine Holds.last fun _ => Holds.last fun _ => Holds.last fun _ => Holds.last fun _ =>
    Holds.last fun _ => Holds.seq stop_off fun _ => (Only.off ?_).offIfOk
  meas_tac
  all_goals rfl

omit [Arith F] in
/-- The `finally` block: off if the stop was acknowledged. -/
theorem restoreSettings_off (x : F) (s m : Option F) :
    Holds power (fun _ => True) (restoreSettings x s m) OffIfOk := by
  unfold restoreSettings
  refine Holds.seq stop_off fun _ => (Only.off ?_).offIfOk
  meas_tac
  all_goals rfl

omit [Arith F] in
theorem finally_off {α : Type} {p : P F α} {q : P F Unit}
    (h : Holds power (fun _ => True) q OffIfOk) :
    Holds power (fun _ => True) (M.Finally p q) OffIfOk := by
  refine Holds.tryFinally (Q := fun _ _ => True) Holds.any fun r => ?_
  refine h.weaken (fun _ h => h) fun x s h => ?_
  cases x with
  | ok u =>
    cases r with
    | ok => exact h
    | raised => exact trivial
  | raised => exact trivial

theorem calibrateEncoderMapping_off (a : Args F) (fw : Firmware) (x i r n : F) :
    Holds power (fun _ => True) (calibrateEncoderMapping a fw x i r n) OffIfOk := by
  unfold calibrateEncoderMapping
  refine Holds.last fun _ => Holds.last fun v => Holds.last fun c => Holds.last fun h => ?_
  split
  · refine Holds.last fun _ => Holds.seq (calibrateEncoderMappingHall_off a v) fun _ =>
      (Only.off Only.pure).offIfOk
  · refine Holds.last fun s => ?_
    dsimp only
    exact Holds.seq (finally_off (restoreSettings_off x _ _)) fun _ =>
      (Only.off Only.pure).offIfOk

theorem calibrateElectrical_off (a : Args F) (fw : Firmware) (x : F) :
    Holds power (fun _ => True) (calibrateElectrical a fw x) OffIfOk := by
  unfold calibrateElectrical
  iterate 9 refine Holds.last fun _ => ?_
  refine Holds.last fun r => ?_
  dsimp only
  iterate 6 refine Holds.last fun _ => ?_
  exact Holds.seq (calibrateEncoderMapping_off _ _ _ _ _ _) fun _ =>
    (Only.off Only.pure).offIfOk

theorem chooseVoltageMode_quiet (i r n : F) : Only Quiet (chooseVoltageMode i r n) := by
  unfold chooseVoltageMode
  meas_tac
  all_goals rfl

theorem calibrateMechanical_off (a : Args F) (fw : Firmware) (s : Option (F × F))
    (r n i e : F) :
    Holds power (fun s => s = false) (calibrateMechanical a fw s r n i e) OffIfOk := by
  unfold calibrateMechanical
  refine Holds.seq (Only.off (checkForFault_only trivial fun _ => trivial)).offIfOk fun _ => ?_
  refine Holds.seq (Only.off Only.orRaise).offIfOk fun ss => ?_
  dsimp only
  refine Holds.seq (calibrateKvRating_off a fw _ _ _ _) fun _ => (Only.off ?_).offIfOk
  refine Only.bind (checkForFault_only trivial fun _ => trivial) fun _ =>
    Only.bind (Only.command fun _ => rfl) fun _ =>
    Only.bind (chooseVoltageMode_quiet i r n) ?_
  meas_tac

omit [Arith F] in
theorem writeConfigStream_quiet (l : List (String × F)) : Only Quiet (writeConfigStream l) := by
  induction l with
  | nil => exact Only.pure
  | cons x l ih =>
    obtain ⟨k, v⟩ := x
    rw [writeConfigStream]
    refine Only.bind ?_ fun _ => ih
    meas_tac
    rfl

omit [Arith F] in
theorem saveOrRestore_quiet (o : Option (List (String × F))) : Only Quiet (saveOrRestore o) := by
  unfold saveOrRestore restoreConfig
  split
  · exact Only.command fun _ => rfl
  · exact Only.bind (writeConfigStream_quiet _) fun _ =>
      Only.bind (Only.command fun _ => rfl) fun _ => Only.writeMessage fun _ => rfl

theorem measureAll_off (a : Args F) (x : F) :
    Holds power (fun _ => True) (measureAll a x) OffIfOk := by
  unfold measureAll
  refine Holds.last fun fw => Holds.last fun o => Holds.last fun _ => Holds.last fun _ => ?_
  refine Holds.last fun a => ?_
  refine Holds.seq (calibrateElectrical_off a fw x) fun ⟨ss, r, n, i, e⟩ => ?_
  exact Holds.seq (calibrateMechanical_off a fw ss r n i e) fun _ =>
    (Only.off Only.pure).offIfOk

theorem doCalibrate_off (a : Args F) (x : F) :
    Holds power (fun _ => True) (doCalibrate a x) OffIfOk := by
  unfold doCalibrate
  refine Holds.seq (measureAll_off a x) fun o => ?_
  refine Holds.seq (Only.off (saveOrRestore_quiet o)).offIfOk fun _ => ?_
  exact (Only.off Only.anything).offIfOk

/-- **C72.** Whatever the controller answers, whatever the options: when the
calibration completes, the motor is off. -/
theorem C72_complete (a : Args F) (x : F) (t : List (Ev F))
    (h : doCalibrate a x t (.ok ())) : powered t = false :=
  doCalibrate_off a x true trivial t _ h

end

end Verif.Session
