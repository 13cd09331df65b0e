import Verif.Session.Run
import Mathlib.Data.List.Induction

/-!
# The sweep of the encoder is always stopped; `--cal-no-update`; options
-/

namespace Verif.Session

open Arith

variable {F : Type}

/-- The commands that make the controller turn the motor by itself while the
encoder is read. -/
def Cmd.sweeps : Cmd F → Bool
  | .cal .. => true
  | .cali .. => true
  | _ => false

/-- State of the sweep: no sweep since the last acknowledged stop; a sweep was
started; a stop was sent as the last command, without acknowledgement. -/
inductive Sweep where
  | clean | moving | tried
  deriving DecidableEq

/-- How events change the state of the sweep. -/
def sweepStep (s : Sweep) (ev : Ev F) : Sweep :=
  match ev, s with
  | .sent .stop true, _ => .clean
  | .sent .stop false, .clean => .clean
  | .sent .stop false, _ => .tried
  | .sent (.cal ..) _, _ => .moving
  | .sent (.cali ..) _, _ => .moving
  | _, .clean => .clean
  | _, _ => .moving

/-- What may be sent apart from the sweep. -/
abbrev NoSweep : String → Prop := fun k => k ≠ "d cal"

theorem Only.clean {α : Type} {gk : String → Prop} {p : P F α}
    (h : Only (Meas NoSweep gk) p) :
    Holds sweepStep (fun s => s = .clean) p (fun _ s => s = .clean) :=
  h.holds fun ev s hev hs => by
    subst hs
    cases ev with
    | sent c b =>
      cases c <;> cases b <;> first | rfl | exact absurd rfl hev
    | got => rfl
    | listed => rfl
    | stats => rfl
    | reading => rfl

/-- Postcondition: no sweep, or a stop was sent last. -/
def Stopped : Sweep → Prop := fun s => s = .clean ∨ s = .tried

theorem Holds.stopped {α β : Type} {p : P F α} {f : α → P F β}
    (h1 : Holds sweepStep (fun s => s = .clean) p (fun _ s => s = .clean))
    (h2 : ∀ a, Holds sweepStep (fun s => s = .clean) (f a) (fun _ => Stopped)) :
    Holds sweepStep (fun s => s = .clean) (p >>= f) (fun _ => Stopped) :=
  Holds.bind h1 (mid := fun _ s => s = .clean) (fun _ _ h => h) (fun _ _ h => Or.inl h) h2

theorem Holds.toStopped {α : Type} {p : P F α}
    (h : Holds sweepStep (fun s => s = .clean) p (fun _ s => s = .clean)) :
    Holds sweepStep (fun s => s = .clean) p (fun _ => Stopped) :=
  h.weaken (fun _ h => h) fun _ _ h => Or.inl h

/-- Postcondition: no sweep if the program ended well, and stopped otherwise. -/
def CleanOk {α : Type} : Res Exn α → Sweep → Prop
  | .ok _, z => z = .clean
  | .raised _, z => Stopped z

theorem Holds.cl {α β : Type} {gk : String → Prop} {p : P F α} {f : α → P F β}
    (h1 : Only (Meas NoSweep gk) p)
    (h2 : ∀ a, Holds sweepStep (fun s => s = .clean) (f a) CleanOk) :
    Holds sweepStep (fun s => s = .clean) (p >>= f) CleanOk :=
  Holds.bind (Only.clean h1) (mid := fun _ s => s = .clean) (fun _ _ h => h)
    (fun _ _ h => Or.inl h) h2

theorem noSweep_offset (i : Nat) : NoSweep s!"motor.offset.{i}" := offset_ne i _ (by decide)

theorem noSweepKeys : EncoderKeys NoSweep := by
  constructor
  all_goals first | decide | exact noSweep_offset

/-- After the `finally` block: stopped, and clean if it ended well. -/
theorem restoreSettings_stopped (x : F) (s m : Option F) :
    Holds sweepStep (fun _ => True) (restoreSettings x s m)
      CleanOk := by
  unfold restoreSettings
  refine Holds.bind (p := command .stop) (Q := CleanOk) (mid := fun _ z => z = .clean) ?_ (fun _ _ h => h)
    (fun _ _ h => h) fun _ => ?_
  · rintro z - t r (⟨rfl, rfl⟩ | ⟨e, rfl, rfl⟩)
    · rfl
    · cases z
      · exact Or.inl rfl
      · exact Or.inr rfl
      · exact Or.inr rfl
  · refine (Only.clean (gk := AnyKey) ?_).weaken (fun _ h => h)
      (post' := CleanOk) fun r _ h => ?_
    · cases s with
      | none => exact Only.pure
      | some s =>
        exact Only.bind (Only.command fun _ => (by decide : NoSweep "motor_position.output.sign"))
          fun _ => Only.command fun _ => (by decide : NoSweep "servo.voltage_mode_control")
    · cases r with
      | ok => exact h
      | raised => exact Or.inl h

section
variable [Arith F]

theorem calibrateEncoderMapping_stopped (a : Args F) (fw : Firmware) (x i r n : F) :
    Holds sweepStep (fun s => s = .clean) (calibrateEncoderMapping a fw x i r n)
      CleanOk := by
  unfold calibrateEncoderMapping
  refine Holds.cl (gk := AnyKey) (p := findEncoderCalVoltage a i r)
    (by unfold findEncoderCalVoltage; meas_tac) fun v => ?_
  refine Holds.cl (gk := AnyKey) Only.orRaise fun v => ?_
  refine Holds.cl (gk := AnyKey) Only.orRaise fun c => ?_
  refine Holds.cl hallCommutation_meas fun h => ?_
  split
  · refine Holds.cl (gk := AnyKey) check_only fun _ => ?_
    refine Holds.cl (calibrateEncoderMappingHall_meas a v noSweepKeys) fun _ => ?_
    exact Holds.pure fun _ h => h
  · refine Holds.cl (saveSettings_meas (by decide)) fun z => ?_
    obtain ⟨o, m, f⟩ := z
    refine Holds.bind (Q := CleanOk) (mid := fun _ z => z = .clean) ?_ (fun _ _ h => h)
        (fun _ _ h => h) fun _ => Holds.pure fun _ h => h
    refine Holds.tryFinally (Q := fun _ _ => True) Holds.any fun r => ?_
    refine (restoreSettings_stopped x o m).weaken (fun _ h => h) fun y z h => ?_
    cases y with
    | ok u =>
      cases r with
      | ok => exact h
      | raised => exact Or.inl h
    | raised e => exact h

theorem calibrateElectrical_stopped (a : Args F) (fw : Firmware) (x : F) :
    Holds sweepStep (fun s => s = .clean) (calibrateElectrical a fw x)
      CleanOk := by
  unfold calibrateElectrical
  refine Holds.cl (gk := AnyKey) (clearMotorOffsets_meas noSweep_offset) fun _ => ?_
  refine Holds.cl (gk := AnyKey) (Only.command fun _ => trivial) fun _ => ?_
  refine Holds.cl outputScale_meas fun _ => ?_
  refine Holds.cl controlRate_meas fun _ => ?_
  refine Holds.cl (gk := AnyKey) (setIfSupported_meas _ _ (by decide)) fun _ => ?_
  refine Holds.cl (gk := AnyKey) (setIfSupported_meas _ _ (by decide)) fun _ => ?_
  refine Holds.cl (gk := AnyKey) (readServoStats_only trivial fun _ => trivial) fun _ => ?_
  refine Holds.cl (gk := AnyKey) Only.orRaise fun _ => ?_
  refine Holds.cl (gk := AnyKey) (checkForFault_only trivial fun _ => trivial) fun _ => ?_
  refine Holds.cl (gk := AnyKey) (calibrateWindingResistance2_meas _ _ (by decide)) fun _ => ?_
  refine Holds.cl (gk := AnyKey) (checkForFault_only trivial fun _ => trivial) fun _ => ?_
  refine Holds.cl (gk := AnyKey) (calibrateInductance_meas _ _ _ (by decide) trivial) fun _ => ?_
  refine Holds.cl (gk := AnyKey) (checkForFault_only trivial fun _ => trivial) fun _ => ?_
  refine Holds.cl (gk := AnyKey) (storeBandwidth_meas _ _ _ _ trivial (by decide) (by decide)) fun _ => ?_
  refine Holds.cl (setEncoderFilter_meas _ _ _ _ (by decide) (by decide) (by decide) (by decide))
    fun _ => ?_
  refine Holds.cl (gk := AnyKey) (checkForFault_only trivial fun _ => trivial) fun _ => ?_
  refine Holds.bind (calibrateEncoderMapping_stopped _ _ _ _ _ _) (mid := fun _ z => z = .clean)
    (fun _ _ h => h) (fun _ _ h => h) fun _ => Holds.pure fun _ h => h

omit [Arith F] in
theorem saveOrRestore_clean (o : Option (List (String × F))) :
    Holds sweepStep (fun s => s = .clean) (saveOrRestore o) (fun _ s => s = .clean) := by
  refine Only.holds (q := fun ev => ∀ s, s = .clean → sweepStep s ev = .clean) ?_
    fun ev s hev hs => hev s hs
  have hc : ∀ k (x : F) b s, s = Sweep.clean → sweepStep s (.sent (.confSet k x) b) = .clean := by
    rintro k x b s rfl
    rfl
  have hw : ∀ b s, s = Sweep.clean → sweepStep (F := F) s (.sent .confWrite b) = .clean := by
    rintro b s rfl
    rfl
  have hr : ∀ b s, s = Sweep.clean → sweepStep (F := F) s (.sent .reset b) = .clean := by
    rintro b s rfl
    rfl
  unfold saveOrRestore
  cases o with
  | none => exact Only.command fun b => hw b
  | some l =>
    dsimp only
    unfold restoreConfig
    refine Only.bind ?_ fun _ => Only.bind (Only.command fun b => hw b) fun _ =>
      Only.writeMessage fun b => hr b
    induction l with
    | nil => exact Only.pure
    | cons y l ih =>
      obtain ⟨k, v⟩ := y
      rw [writeConfigStream]
      refine Only.bind (Only.tryCatch (Only.command fun b => hc k v b) fun e => ?_) fun _ => ih
      split
      · exact Only.pure
      · exact Only.raise

theorem doCalibrate_stopped (a : Args F) (x : F) :
    Holds sweepStep (fun s => s = .clean) (doCalibrate a x) (fun _ => Stopped) := by
  unfold doCalibrate
  refine Holds.bind (Q := CleanOk) (mid := fun _ z => z = .clean) ?_ (fun _ _ h => h)
        (fun _ _ h => h) fun o => ?_
  · unfold measureAll
    refine Holds.cl (gk := AnyKey) (Only.readAny trivial) fun fw => ?_
    refine Holds.cl (gk := AnyKey) (captureConfig_meas _) fun o => ?_
    refine Holds.cl (gk := AnyKey) check_only fun _ => ?_
    refine Holds.cl checkCommutationSource_meas fun _ => ?_
    refine Holds.cl (gk := AnyKey) (calculateCalibrationParameters_meas a) fun a => ?_
    refine Holds.bind (calibrateElectrical_stopped _ _ _) (mid := fun _ z => z = .clean)
      (fun _ _ h => h) (fun _ _ h => h) fun _ => ?_
    refine Holds.cl (gk := AnyKey) (calibrateMechanical_meas _ _ _ _ _ _ _
      (by constructor <;> first | exact trivial | decide)) fun _ => ?_
    exact Holds.pure fun _ h => h
  · exact Holds.stopped (saveOrRestore_clean o) fun _ =>
      (Only.clean (gk := AnyKey) Only.anything).toStopped

/-! ### From states to traces -/

omit [Arith F] in
theorem sweepStep_not_clean {s : Sweep} {ev : Ev F} (hs : s ≠ .clean)
    (he : ev ≠ .sent .stop true) : sweepStep s ev ≠ .clean := by
  cases ev with
  | sent c b => cases c <;> cases b <;> cases s <;> simp_all [sweepStep]
  | got => cases s <;> simp_all [sweepStep]
  | listed => cases s <;> simp_all [sweepStep]
  | stats => cases s <;> simp_all [sweepStep]
  | reading => cases s <;> simp_all [sweepStep]

omit [Arith F] in
theorem sweepStep_tried {s : Sweep} {ev : Ev F} (h : sweepStep s ev = .tried) :
    ev = .sent .stop false := by
  cases ev with
  | sent c b => cases c <;> cases b <;> cases s <;> simp_all [sweepStep]
  | got => cases s <;> simp_all [sweepStep]
  | listed => cases s <;> simp_all [sweepStep]
  | stats => cases s <;> simp_all [sweepStep]
  | reading => cases s <;> simp_all [sweepStep]

omit [Arith F] in
theorem fold_not_clean {s : Sweep} {t : List (Ev F)} (hs : s ≠ .clean)
    (ht : .sent .stop true ∉ t) : t.foldl sweepStep s ≠ .clean := by
  induction t generalizing s with
  | nil => exact hs
  | cons ev t ih =>
    exact ih (sweepStep_not_clean hs fun h => ht (by simp [h])) fun h => ht (by simp [h])

/-- **C72, the part that holds for calibrations that fail.** When the controller
has been told to sweep the motor (`d cal`, `d cali`), whatever happens then
(errors, timeouts, Ctrl-C, a controller that answers anything): a stop that the
controller acknowledges follows, or the last thing that was sent is a stop that
was not acknowledged. -/
theorem C72_sweep_partial (a : Args F) (x : F) (t : List (Ev F)) (r : Res Exn Unit)
    (h : doCalibrate a x t r) (pre post : List (Ev F)) (c : Cmd F) (b : Bool)
    (ht : t = pre ++ .sent c b :: post) (hc : c.sweeps = true) :
    .sent .stop true ∈ post ∨ t.getLast? = some (.sent .stop false) := by
  by_cases hm : .sent .stop true ∈ post
  · exact Or.inl hm
  right
  have hf := doCalibrate_stopped a x .clean rfl t r h
  rw [ht, List.foldl_append, List.foldl_cons] at hf
  have hmov : ∀ s, sweepStep s (.sent c b) ≠ .clean := by
    intro s
    cases c <;> cases hc <;> cases s <;> cases b <;> simp [sweepStep]
  have hn := fold_not_clean (hmov (pre.foldl sweepStep .clean)) hm
  have htr := hf.resolve_left hn
  rcases List.eq_nil_or_concat post with rfl | ⟨l, ev, rfl⟩
  · rw [List.foldl_nil] at htr
    have := sweepStep_tried htr
    rw [Ev.sent.injEq] at this
    rw [this.1] at hc
    cases hc
  · rw [List.concat_eq_append, List.foldl_append] at htr
    have := sweepStep_tried (F := F) htr
    rw [ht, List.concat_eq_append, this]
    rw [show pre ++ Ev.sent c b :: (l ++ [Ev.sent Cmd.stop false]) =
      (pre ++ Ev.sent c b :: l) ++ [Ev.sent Cmd.stop false] by simp]
    exact List.getLast?_concat

end

/-! ## `--cal-no-update` -/

/-- The last value that a list of settings has for `k`. -/
def lastIn (k : String) (l : List (String × F)) : Option F :=
  ((l.filter fun p => p.1 = k).getLast?).map (·.2)

theorem lastIn_cons (k : String) (p : String × F) (l : List (String × F)) :
    lastIn k (p :: l) = (lastIn k l).or (if p.1 = k then some p.2 else none) := by
  unfold lastIn
  by_cases hp : p.1 = k
  · rw [List.filter_cons_of_pos (by simpa using hp), if_pos hp]
    cases h : (l.filter fun p => decide (p.1 = k)) with
    | nil => rfl
    | cons q m =>
      rw [List.getLast?_cons]
      simp
  · rw [List.filter_cons_of_neg (by simpa using hp), if_neg hp]
    cases ((l.filter fun p => decide (p.1 = k)).getLast?) <;> rfl

theorem writeConfigStream_set (k : String) (l : List (String × F)) (v : Option F) :
    Holds (setStep k) (fun s => s = v) (writeConfigStream l)
      (IfOk fun s => s = (lastIn k l).or v) := by
  induction l generalizing v with
  | nil => exact Holds.pure fun s h => h
  | cons p l ih =>
    obtain ⟨k', x⟩ := p
    rw [writeConfigStream]
    refine Holds.thenIfOk (inv := fun s => s = if k' = k then some x else v) ?_ fun _ => ?_
    · intro s hs t r hr
      have key : ∀ b, setStep k s (.sent (.confSet k' x) b) = if k' = k then some x else v := by
        intro b
        rw [← hs]
        rfl
      cases hr with
      | ok h =>
        rcases h with ⟨rfl, -⟩ | ⟨e, rfl, h⟩
        · exact key true
        · cases h
      | caught h1 h2 =>
        rcases h1 with ⟨rfl, h1⟩ | ⟨e, rfl, h1⟩
        · cases h1
        · cases h1
          split at h2
          · obtain ⟨rfl, rfl⟩ := h2
            exact key false
          · obtain ⟨rfl, rfl⟩ := h2
            exact trivial
    · refine (ih (if k' = k then some x else v)).weaken (fun _ h => h) fun r s h => ?_
      cases r with
      | raised => exact trivial
      | ok u =>
        have h' : s = (lastIn k l).or (if k' = k then some x else v) := h
        show s = (lastIn k ((k', x) :: l)).or v
        rw [h', lastIn_cons]
        cases lastIn k l
        · by_cases hk : k' = k
          · rw [if_pos hk]
            dsimp only
            rw [if_pos hk]
            rfl
          · rw [if_neg hk]
            dsimp only
            rw [if_neg hk]
            rfl
        · rfl

/-- **C73.** With `--cal-no-update`, what is saved is what the controller listed
at the beginning: the last value sent for every setting of the list is the
listed one. -/
theorem C73_no_update [Arith F] (a : Args F) (x : F) (hu : a.calNoUpdate = true)
    (t : List (Ev F)) (r : Res Exn Unit) (h : doCalibrate a x t r) (hs : Saved t) :
    ∃ l, .listed l ∈ t ∧ ∀ k v, lastIn k l = some v → lastSet k t = some v := by
  obtain ⟨t1, o, t2, r2, h1, h2, rfl⟩ := saved_split h hs
  have hl := measureAll_listed a x [] trivial t1 _ h1
  cases o with
  | none => exact absurd (hu.symm.trans hl) (by decide)
  | some l =>
    refine ⟨l, List.mem_append_left _ (by
      have := hl.2
      rwa [record_fold, List.nil_append] at this), fun k v hv => ?_⟩
    unfold lastSet
    rw [List.foldl_append]
    generalize hv0 : List.foldl (setStep k) none t1 = v0
    cases h2 with
    | raised h2 =>
      -- then nothing was saved
      obtain ⟨b, hb⟩ := hs
      rcases List.mem_append.1 hb with hb | hb
      · exact ((measureAll_meas a x).elim h1 _ hb).elim
      · exact ((writeConfigStream_meas (gk := AnyKey) l).elim h2 _ hb).elim
    | ok h2 h4 =>
      rename_i t3 u _
      have hset := writeConfigStream_set k l v0 v0 rfl _ _ h2
      have hset' : List.foldl (setStep k) v0 _ = (lastIn k l).or v0 := hset
      rw [List.foldl_append, hset', hv]
      have hq : ∀ ev ∈ u, ∀ s : Option F, setStep k s ev = s := by
        intro ev hev s
        have hm : (ev = .sent .confWrite true ∨ ev = .sent .confWrite false) ∨
            ev = .sent .reset false := by
          cases h4 with
          | raised h4 =>
            rcases h4 with ⟨rfl, -⟩ | ⟨e, rfl, -⟩
            · exact Or.inl (Or.inl (List.mem_singleton.1 hev))
            · exact Or.inl (Or.inr (List.mem_singleton.1 hev))
          | ok h4 h5 =>
            obtain ⟨rfl, -⟩ := h5
            rcases List.mem_append.1 hev with hev | hev
            · rcases h4 with ⟨rfl, -⟩ | ⟨e, rfl, -⟩
              · exact Or.inl (Or.inl (List.mem_singleton.1 hev))
              · exact Or.inl (Or.inr (List.mem_singleton.1 hev))
            · exact Or.inr (List.mem_singleton.1 hev)
        rcases hm with (rfl | rfl) | rfl <;> rfl
      have : ∀ (u : List (Ev F)) (s : Option F), (∀ ev ∈ u, ∀ s, setStep k s ev = s) →
          u.foldl (setStep k) s = s := by
        intro u
        induction u with
        | nil => intro s _; rfl
        | cons ev u ih =>
          intro s hu
          rw [List.foldl_cons, hu ev (by simp)]
          exact ih s fun e he => hu e (by simp [he])
      exact this _ _ hq

/-! ## Deprecated options -/

/-- The program never completes. -/
def Fails {α : Type} (p : P F α) : Prop := ∀ t a, ¬ p t (.ok a)

theorem Fails.left {α β : Type} {p : P F α} {f : α → P F β} (h : Fails p) : Fails (p >>= f) := by
  intro t b hb
  cases hb with
  | ok h1 _ => exact h _ _ h1

theorem Fails.right {α β : Type} {p : P F α} {f : α → P F β} (h : ∀ a, Fails (f a)) :
    Fails (p >>= f) := by
  intro t b hb
  cases hb with
  | ok _ h1 => exact h _ _ _ h1

/-- The second part fails on every result of the first one. -/
theorem Fails.after {α β : Type} {p : P F α} {f : α → P F β} {q : α → Prop}
    (h1 : ∀ t a, p t (.ok a) → q a) (h : ∀ a, q a → Fails (f a)) : Fails (p >>= f) := by
  intro t b hb
  cases hb with
  | ok h2 h3 => exact h _ (h1 _ _ h2) _ _ h3

theorem Fails.raise {α : Type} {e : Exn} : Fails (M.raise e : P F α) := by
  rintro t a ⟨-, h⟩
  cases h

section
variable [Arith F]

theorem electrical_fails {a : Args F} {q : Args F → Prop} {x : F}
    (h1 : ∀ t b, calculateCalibrationParameters a t (.ok b) → q b)
    (h2 : ∀ b fw i r n, q b → Fails (calibrateEncoderMapping b fw x i r n)) :
    Fails (doCalibrate a x) := by
  unfold doCalibrate
  refine Fails.left ?_
  unfold measureAll
  refine Fails.right fun fw => Fails.right fun o => Fails.right fun _ => Fails.right fun _ => ?_
  refine Fails.after h1 fun b hb => Fails.left ?_
  unfold calibrateElectrical
  refine Fails.right fun _ => Fails.right fun _ => Fails.right fun _ => Fails.right fun _ =>
    Fails.right fun _ => Fails.right fun _ => Fails.right fun _ => Fails.right fun _ =>
    Fails.right fun _ => Fails.right fun r => ?_
  dsimp only
  refine Fails.right fun _ => Fails.right fun _ => Fails.right fun _ => Fails.right fun _ =>
    Fails.right fun _ => Fails.right fun _ => ?_
  exact Fails.left (h2 _ _ _ _ _ hb)

/-- With a voltage for the encoder, `find_encoder_cal_voltage` returns a tuple. -/
theorem mapping_fails (a : Args F) (fw : Firmware) (x i r n : F)
    (h : truthy a.calLlEncoderVoltage = true) :
    Fails (calibrateEncoderMapping a fw x i r n) := by
  unfold calibrateEncoderMapping
  refine Fails.after (q := fun v => v = none) ?_ fun v hv => ?_
  · intro t v hv
    unfold findEncoderCalVoltage at hv
    rw [if_pos h] at hv
    have := hv.2
    injection this
  · subst hv
    exact Fails.left Fails.raise

omit [Arith F] in
theorem handleDeprecated_ok {e : Bool} {new old y : Option F} {t : List (Ev F)}
    (h : handleDeprecated e new old t (.ok y)) :
    (old = none ∧ y = new) ∨ (∃ v, old = some v ∧ e = true ∧ new = none ∧ y = some v) := by
  unfold handleDeprecated at h
  cases old with
  | none =>
    have := h.2
    injection this with this
    exact Or.inl ⟨rfl, this⟩
  | some v =>
    right
    cases e with
    | false =>
      have := h.2
      cases this
    | true =>
      cases new with
      | some w =>
        have := h.2
        cases this
      | none =>
        have := h.2
        injection this with this
        exact ⟨v, rfl, rfl, rfl, this⟩

omit [Arith F] in
/-- What `calculate_calibration_parameters` does when it ends well. -/
theorem parameters_ok {a b : Args F} {t : List (Ev F)}
    (h : calculateCalibrationParameters a t (.ok b)) :
    a.calVoltage = none ∧
    ((a.calSpeed = none ∧ b.calLlEncoderSpeed = a.calLlEncoderSpeed) ∨
      (a.calLlEncoderSpeed = none ∧ b.calLlEncoderSpeed = a.calSpeed)) ∧
    ((a.calPower = none ∧ b.calLlEncoderVoltage = a.calLlEncoderVoltage) ∨
      (a.calLlEncoderVoltage = none ∧ b.calLlEncoderVoltage = a.calPower)) ∧
    ((a.calKvVoltage = none ∧ b.calLlKvVoltage = a.calLlKvVoltage) ∨
      (a.calLlKvVoltage = none ∧ b.calLlKvVoltage = a.calKvVoltage)) := by
  unfold calculateCalibrationParameters at h
  cases h with | ok h1 h =>
  cases h with | ok h2 h =>
  cases h with | ok h3 h =>
  cases h with | ok h4 h =>
  obtain ⟨-, h⟩ := h
  injection h with h
  subst h
  have p1 := handleDeprecated_ok h1
  have p2 := handleDeprecated_ok h2
  have p3 := handleDeprecated_ok h3
  have p4 := handleDeprecated_ok h4
  refine ⟨?_, ?_, ?_, ?_⟩
  · rcases p3 with h | ⟨v, -, h, -⟩
    · exact h.1
    · cases h
  · rcases p2 with h | ⟨v, h5, -, h6, h7⟩
    · exact Or.inl h
    · exact Or.inr ⟨h6, h7.trans h5.symm⟩
  · rcases p1 with h | ⟨v, h5, -, h6, h7⟩
    · exact Or.inl h
    · exact Or.inr ⟨h6, h7.trans h5.symm⟩
  · rcases p4 with h | ⟨v, h5, -, h6, h7⟩
    · exact Or.inl h
    · exact Or.inr ⟨h6, h7.trans h5.symm⟩

/-- **C74, refuted.** With `--cal-ll-encoder-voltage` (a number that is not
zero), no calibration completes. -/
theorem C74_encoder_voltage_refuted (a : Args F) (x : F)
    (h : truthy a.calLlEncoderVoltage = true) (t : List (Ev F)) :
    ¬ doCalibrate a x t (.ok ()) := by
  refine electrical_fails (q := fun b => truthy b.calLlEncoderVoltage = true) ?_
    (fun b fw i r n hb => mapping_fails b fw x i r n hb) t ()
  intro t b hb
  rcases (parameters_ok hb).2.2.1 with ⟨-, h1⟩ | ⟨h1, -⟩
  · rw [h1]
    exact h
  · rw [h1] at h
    cases h

/-- **C74, refuted.** With the deprecated `--cal-power` (a number that is not
zero), no calibration completes. -/
theorem C74_power_refuted (a : Args F) (x : F)
    (h : truthy a.calPower = true) (t : List (Ev F)) :
    ¬ doCalibrate a x t (.ok ()) := by
  refine electrical_fails (q := fun b => truthy b.calLlEncoderVoltage = true) ?_
    (fun b fw i r n hb => mapping_fails b fw x i r n hb) t ()
  intro t b hb
  rcases (parameters_ok hb).2.2.1 with ⟨h1, -⟩ | ⟨-, h1⟩
  · rw [h1] at h
    cases h
  · rw [h1]
    exact h

/-- **C74, refuted.** With the deprecated `--cal-voltage`, no calibration
completes. -/
theorem C74_voltage_refuted (a : Args F) (x v : F)
    (h : a.calVoltage = some v) (t : List (Ev F)) :
    ¬ doCalibrate a x t (.ok ()) := by
  refine electrical_fails (q := fun _ => False) ?_ (fun _ _ _ _ _ hb => hb.elim) t ()
  intro t b hb
  have := (parameters_ok hb).1
  rw [h] at this
  cases this

/-- **C74, refuted.** `--cal-ll-encoder-speed` has a default, so it is always
set; with the deprecated `--cal-speed`, no calibration completes. -/
theorem C74_speed_refuted (a : Args F) (x v w : F)
    (h : a.calSpeed = some v) (hd : a.calLlEncoderSpeed = some w) (t : List (Ev F)) :
    ¬ doCalibrate a x t (.ok ()) := by
  refine electrical_fails (q := fun _ => False) ?_ (fun _ _ _ _ _ hb => hb.elim) t ()
  intro t b hb
  rcases (parameters_ok hb).2.1 with ⟨h1, -⟩ | ⟨h1, -⟩
  · rw [h] at h1
    cases h1
  · rw [hd] at h1
    cases h1

/-- **C74, the part that holds.** The deprecated `--cal-kv-voltage` has exactly the
executions of `--cal-ll-kv-voltage` with the same value. -/
theorem C74_kv_voltage_partial (a : Args F) (x v : F) (t : List (Ev F)) (r : Res Exn Unit) :
    doCalibrate { a with calKvVoltage := some v, calLlKvVoltage := none } x t r ↔
    doCalibrate { a with calKvVoltage := none, calLlKvVoltage := some v } x t r := by
  have key : ∀ (f : Args F → P F (Option (List (String × F)))),
      (∀ b : Args F, f { b with calKvVoltage := some v } = f { b with calKvVoltage := none }) →
      (calculateCalibrationParameters { a with calKvVoltage := some v, calLlKvVoltage := none }
        >>= f) =
      (calculateCalibrationParameters { a with calKvVoltage := none, calLlKvVoltage := some v }
        >>= f) := by
    intro f hf
    unfold calculateCalibrationParameters
    simp only [M.assoc]
    refine congrArg _ (funext fun y => congrArg _ (funext fun s => congrArg _
      (funext fun _ => ?_)))
    show ((pure (some v) : P F _) >>= _) = ((pure (some v) : P F _) >>= _)
    rw [M.pure_then, M.pure_then, M.pure_then, M.pure_then]
    exact hf { a with calLlEncoderVoltage := y, calLlEncoderSpeed := s, calLlKvVoltage := some v }
  have hall : measureAll { a with calKvVoltage := some v, calLlKvVoltage := none } x =
      measureAll { a with calKvVoltage := none, calLlKvVoltage := some v } x := by
    unfold measureAll
    refine congrArg _ (funext fun fw => congrArg _ (funext fun o => congrArg _
      (funext fun _ => congrArg _ (funext fun _ => key _ fun b => rfl))))
  unfold doCalibrate
  rw [hall]

end

/-! ## Examples -/

/-- A sweep was started. -/
def seen (s : Bool) : Ev F → Bool
  | .sent c _ => s || c.sweeps
  | _ => s

theorem seen_split (t : List (Ev F)) (h : t.foldl seen false = true) :
    ∃ pre c b post, t = pre ++ .sent c b :: post ∧ c.sweeps = true := by
  induction t using List.reverseRecOn with
  | nil => cases h
  | append_singleton t ev ih =>
    rw [List.foldl_append] at h
    by_cases hs : t.foldl seen false = true
    · obtain ⟨pre, c, b, post, rfl, hc⟩ := ih hs
      exact ⟨pre, c, b, post ++ [ev], by simp, hc⟩
    · rw [Bool.not_eq_true] at hs
      rw [hs] at h
      cases ev with
      | sent c b => exact ⟨t, c, b, [], rfl, by simpa [seen] using h⟩
      | got => cases h
      | listed => cases h
      | stats => cases h
      | reading => cases h

/-- The hypotheses of `C72_sweep_partial` are met: Ctrl-C while the encoder is
swept. -/
theorem run_interrupted (x : Q) :
    ∃ t, doCalibrate (runArgs 4) x t (.raised .other) ∧ t.foldl seen false = true := by
  have h : Can seen false (doCalibrate (runArgs 4) x)
      (fun r z => r = .raised .other ∧ z = true) := by
    unfold doCalibrate
    refine Can.bindRaise .other ?_
    unfold measureAll
    refine Can.bindRuns (Runs.readAny (.ok runFw)) fun s => ?_
    refine Can.bindRuns (a := none) Runs.pure fun s => ?_
    refine Can.bindRuns (Runs.check (by decide)) fun s => ?_
    refine Can.bindRuns (a := ()) (Runs.bind Runs.supported (Runs.whenDo rfl
      (Runs.bind (Runs.readConfig (some 0)) (Runs.check (by decide +kernel))))) fun s => ?_
    refine Can.bindRuns (run_parameters 4) fun s => ?_
    refine Can.bindRaise .other ?_
    unfold calibrateElectrical
    refine Can.bindRuns (a := ()) (Runs.leave (Runs.caught (Runs.bindRaise
      (Runs.commandErr _ (.command .errorSetting))) Runs.pure)) fun s => ?_
    refine Can.bindRuns (Runs.command _) fun s => ?_
    refine Can.bindRuns (a := none) ?_ fun s => ?_
    · exact Runs.bind Runs.unsupported (Runs.iteNot (by decide)
        (Runs.bind Runs.unsupported (Runs.iteNot (by decide) Runs.pure)))
    refine Can.bindRuns (a := some 30000) ?_ fun s => ?_
    · refine Runs.bind Runs.supported (Runs.ite (by decide) ?_)
      exact Runs.bind (Runs.readConfig (some 30000)) (Runs.ite (by decide +kernel) Runs.pure)
    refine Can.bindRuns (Runs.tryOk (Runs.command _)) fun s => ?_
    refine Can.bindRuns (Runs.tryOk (Runs.command _)) fun s => ?_
    refine Can.bindRuns (run_stats 0 0 0) fun s => ?_
    refine Can.bindRuns (Runs.orRaise (a := some 24) (by decide +kernel)) fun s => ?_
    refine Can.bindRuns run_fault fun s => Can.bindRuns (run_resistance 4) fun s => ?_
    refine Can.bindRuns run_fault fun s => Can.bindRuns run_inductance fun s => ?_
    refine Can.bindRuns run_fault fun s => Can.bindRuns (run_bandwidth 4) fun s => ?_
    refine Can.bindRuns (run_filter 4) fun s => Can.bindRuns run_fault fun s => ?_
    refine Can.bindRaise .other ?_
    unfold calibrateEncoderMapping
    refine Can.bindRuns (a := some (some (1 / 500))) ?_ fun s => ?_
    · unfold findEncoderCalVoltage
      refine Runs.iteNot (by decide +kernel) ?_
      refine Runs.bind (Runs.orRaise (a := some (1 / 500)) (by decide +kernel)) ?_
      refine Runs.bind (Runs.orRaise (a := some (1 / 500)) (by decide +kernel)) ?_
      have : pyMin (mul (lit (4/10)) (some 24 : Q)) (some (1 / 500)) = some (1 / 500) := by
        decide +kernel
      rw [this]
      exact Runs.pure
    refine Can.bindRuns (Runs.orRaise rfl) fun s => ?_
    refine Can.bindRuns (Runs.orRaise (a := some 1) (by decide +kernel)) fun s => ?_
    refine Can.bindRuns (a := false) (Runs.bind Runs.unsupported
      (Runs.iteNot (by decide) Runs.pure)) fun s => ?_
    rw [if_neg (by decide)]
    refine Can.bindRuns (a := (none, none, none)) ?_ fun s => ?_
    · exact Runs.bind (Runs.attempt Runs.unsupported) Runs.pure
    refine Can.bindRaise .other ?_
    refine Can.finallyOk (.raised .other) true ?_ ?_
    · unfold calibrateEncoderMappingAbsolute
      refine Can.bindRuns (run_theta _ _) fun s => ?_
      refine Can.bindRuns (Runs.orRaise (a := some 10) (by decide +kernel)) fun s => ?_
      refine Can.bindRuns (Runs.orRaise rfl) fun s => ?_
      refine Can.bind () true ?_ ?_
      · unfold startCalibration
        rw [if_neg (by decide +kernel)]
        refine Can.bindRuns (Runs.command _) fun s => ?_
        refine ⟨_, _, ⟨rfl, Or.inl rfl⟩, rfl, ?_⟩
        cases s <;> rfl
      refine Can.bindRaise .other ?_
      refine Can.loopRaise .other (Can.bindRaise .other ?_)
      exact ⟨[.reading], .raised .other, rfl, rfl, rfl, rfl, rfl, rfl⟩
    · refine Can.bind () true ⟨_, _, Or.inl ⟨rfl, rfl⟩, rfl, rfl⟩ ?_
      exact Can.pure ⟨rfl, rfl, rfl, rfl, rfl, rfl, rfl⟩
  obtain ⟨t, r, h1, rfl, h3⟩ := h
  exact ⟨t, h1, h3⟩

example (x : Q) : ∃ t r pre c b post, doCalibrate (runArgs 4) x t r ∧
    t = pre ++ .sent c b :: post ∧ c.sweeps = true := by
  obtain ⟨t, h, hs⟩ := run_interrupted x
  obtain ⟨pre, c, b, post, h1, h2⟩ := seen_split t hs
  exact ⟨t, _, pre, c, b, post, h, h1, h2⟩

/-- The hypotheses of `C73_no_update` are met. -/
theorem run_no_update (x : Q) (l : List (String × Q)) :
    ∃ t, doCalibrate { runArgs 4 with calNoUpdate := true } x t (.ok ()) ∧ .listed l ∈ t := by
  have hm : ∃ t, measureAll { runArgs 4 with calNoUpdate := true } x t (.ok (some l)) ∧
      .listed l ∈ t := by
    have h2 : Runs (do
        check (decide (runFw.version ≤ 0x010a)) .runtime
        checkCommutationSource
        let a ← calculateCalibrationParameters { runArgs 4 with calNoUpdate := true }
        let (scaleSign, resistance, noise, inputV, encoderVoltage) ←
          calibrateElectrical a runFw x
        calibrateMechanical a runFw scaleSign resistance noise inputV encoderVoltage
        pure (some l)) (.ok (some l)) := by
      refine Runs.bind (Runs.check (by decide)) (Runs.bind (a := ()) ?_ ?_)
      · exact Runs.bind Runs.supported (Runs.whenDo rfl (Runs.bind (Runs.readConfig (some 0))
          (Runs.check (by decide +kernel))))
      refine Runs.bind (Runs.bind Runs.pure (Runs.bind Runs.pure (Runs.bind Runs.pure
        (Runs.bind Runs.pure Runs.pure)))) ?_
      exact Runs.bind (run_electrical 4 x) (Runs.bind run_mechanical Runs.pure)
    obtain ⟨t, ht⟩ := h2
    refine ⟨[.reading] ++ ([.sent .confEnumerate true, .listed l] ++ [] ++ t), ?_, by simp⟩
    refine M.Bind.ok (a := runFw) rfl (M.Bind.ok (a := some l) ?_ ht)
    exact M.Bind.ok (a := l) (Or.inl ⟨l, rfl, rfl⟩) ⟨rfl, rfl⟩
  obtain ⟨t, h1, h2⟩ := hm
  have hw : ∀ l, Runs (writeConfigStream l : P Q Unit) (.ok ()) := by
    intro l
    induction l with
    | nil => exact Runs.pure
    | cons p l ih =>
      obtain ⟨k, v⟩ := p
      exact Runs.bind (Runs.tryOk (Runs.command _)) ih
  obtain ⟨u, hu⟩ : Runs (do
      saveOrRestore (some l)
      (anything : P Q Unit)) (.ok ()) :=
    Runs.bind (Runs.bind (hw l) (Runs.bind (Runs.command _) (Runs.writeMessage _)))
      (Runs.anything _)
  exact ⟨t ++ u, M.Bind.ok h1 hu, List.mem_append_left _ h2⟩

example (x : Q) : ∃ t, doCalibrate { runArgs 4 with calNoUpdate := true } x t (.ok ()) ∧
    Saved t ∧ .listed [("motor.poles", some 14), ("motor.poles", some 12)] ∈ t ∧
    lastIn "motor.poles" [("motor.poles", (some 14 : Q)), ("motor.poles", some 12)] =
      some (some 12) := by
  obtain ⟨t, h1, h2⟩ := run_no_update x [("motor.poles", some 14), ("motor.poles", some 12)]
  exact ⟨t, h1, ⟨true, C73_complete_saves _ x t h1⟩, h2, by decide⟩

/-- The hypotheses of the refutations of C74 are met by any value that is not
zero. -/
example : truthy (some (some (1 / 2) : Q)) = true ∧ truthy (some (some 0 : Q)) = false := by
  decide +kernel

/-- With the values that work, the calibration completes also through the
deprecated option. -/
example (x : Q) : ∃ t,
    doCalibrate { runArgs 4 with calKvVoltage := some (some 4), calLlKvVoltage := none } x t
      (.ok ()) := by
  obtain ⟨t, h⟩ := run_complete x
  exact ⟨t, (C74_kv_voltage_partial (runArgs 4) x (some 4) t _).2 h⟩

end Verif.Session
