import Verif.Cxx.Refuted

/-!
# Properties C61 and C62: the frames that the C++ library builds

C61: nothing is written behind the 64 bytes of a frame.
C62: a frame that reads registers asks for a reply and announces its size.
-/

namespace Verif.Cxx

open Verif Verif.Float Verif.Multiplex Verif.Multiplex.Spec Verif.Commands Verif.Commands.Spec
  Verif.Cxx.Spec

/-! ## All commands -/

/-- The frames that `moteus.h` can be asked to build. -/
inductive Request
  | query
  | stop
  | brake
  | position (cmd : PositionCommand) (format : PositionFormat)
  | vfoc (cmd : VFOCCommand) (format : VFOCFormat)
  | current (cmd : CurrentCommand) (format : CurrentFormat)
  | stayWithin (cmd : WithinCommand) (format : WithinFormat)
  | outputNearest (position : Fl)
  | outputExact (position : Fl)
  | requireReindex
  | recapture
  | clockTrim (trim : Int)
  | writeGpio (aux1 aux2 : Int) (x1 x2 : Option Res)
  | gpioRead (x1 x2 : Option Res)
  | auxPwm (values : List Fl) (formats : List (Option Res))
  | schemaVersion

/-- The builder for each of them. -/
def Controller.build (c : Controller) (override : Option QueryFormat) : Request → Except Halt Frame
  | .query => c.makeQuery override
  | .stop => c.makeStop override
  | .brake => c.makeBrake override
  | .position cmd x => c.makePosition cmd x override
  | .vfoc cmd x => c.makeVfoc cmd x override
  | .current cmd x => c.makeCurrent cmd x override
  | .stayWithin cmd x => c.makeStayWithin cmd x override
  | .outputNearest p => c.makeOutputNearest p override
  | .outputExact p => c.makeOutputExact p override
  | .requireReindex => c.makeRequireReindex override
  | .recapture => c.makeRecapture override
  | .clockTrim t => c.makeClockTrim t override
  | .writeGpio a b x y => c.makeWriteGpio a b x y override
  | .gpioRead x y => c.makeGpioRead x y override
  | .auxPwm v x => c.makeAuxPwm v x override
  | .schemaVersion => c.makeSchemaVersionQuery

/-! ## Checked writes -/

/-- Keeps to the frame: the result fits, and nothing outside is accessed. -/
def Safe (m : Bytes → Except Halt Bytes) : Prop :=
  ∀ f : Bytes, f.length ≤ 64 → m f ≠ .error .overrun ∧ ∀ g, m f = .ok g → g.length ≤ 64

def Safe2 (m : Bytes → Except Halt (Bytes × Nat)) : Prop :=
  ∀ f : Bytes, f.length ≤ 64 → m f ≠ .error .overrun ∧ ∀ g n, m f = .ok (g, n) → g.length ≤ 64

theorem safe_write (b : Bytes) : Safe (fun f => write f b) := by
  intro f _
  simp only [write_eq, cap]
  split
  · exact ⟨by simp, fun g h => by cases h⟩
  · exact ⟨by simp, fun g h => by cases h; omega⟩

theorem safe_ok : Safe Except.ok := fun f hf => ⟨by simp, fun g h => by cases h; exact hf⟩

theorem safe_abort : Safe (fun _ => .error .abort) := fun f hf => ⟨by simp, fun g h => by cases h⟩

theorem safe_bind {m k : Bytes → Except Halt Bytes} (hm : Safe m) (hk : Safe k) :
    Safe (fun f => m f >>= k) := by
  intro f hf
  have h := hm f hf
  simp only [bind, Except.bind]
  cases hr : m f with
  | error e => exact ⟨fun h' => h.1 (by rw [hr]; cases h'; rfl), fun g h' => by cases h'⟩
  | ok g => exact hk g (h.2 g hr)

theorem safe_int (r : Res) (v : Int) : Safe (fun f => writeInt f r v) := safe_write _

theorem safe_float (x : Fl) : Safe (fun f => writeFloat f x) := safe_write _

theorem safe_varuint (v : Nat) : Safe (fun f => writeVaruint f v) := by
  simp only [writeVaruint_eq]; exact safe_write _

theorem safe_mapped (x : Fl) (a b c : ℚ) (res : Option Res) : Safe (fun f => writeMapped f x a b c res) := by
  cases res with
  | none => exact safe_abort
  | some r => cases r <;> first | exact safe_int _ _ | exact safe_float _

theorem safe_clamped (v : Int) (res : Option Res) : Safe (fun f => writeClampedInt f v res) := by
  cases res with
  | none => exact safe_abort
  | some r => cases r <;> first | exact safe_int _ _ | exact safe_float _

theorem safe_framing (command count reg : Nat) : Safe (fun f => writeFraming f command count reg) := by
  unfold writeFraming
  by_cases h : count ≤ 3
  · simp only [h, if_true]
    exact safe_bind (safe_int _ _) (safe_varuint _)
  · simp only [h, if_false]
    exact safe_bind (safe_int _ _) (safe_bind (safe_int _ _) (safe_varuint _))

theorem safe_run (ws : List (Bytes → Except Halt Bytes)) (hw : ∀ w ∈ ws, Safe w) (c : Combiner)
    (hlen : c.offset + ws.length = c.resolutions.length) : Safe2 (fun f => c.run f ws) := by
  induction ws generalizing c with
  | nil =>
    intro f hf
    simp only [Combiner.run]
    rw [if_neg (by simp only [List.length_nil] at hlen; omega)]
    exact ⟨by simp, fun g n h => by cases h; exact hf⟩
  | cons w ws ih =>
    intro f hf
    simp only [List.length_cons] at hlen
    have hw' : ∀ w ∈ ws, Safe w := fun v hv => hw v (List.mem_cons_of_mem _ hv)
    have step : ∀ (b : Bool) (c' : Combiner) (g : Bytes), g.length ≤ 64 → c'.offset = c.offset + 1 →
        c'.resolutions = c.resolutions → Safe2 (fun _ =>
          if b then (w g >>= fun f => c'.run f ws) else c'.run g ws) := by
      intro b c' g hg ho hr f' _
      have hs := ih hw' c' (by rw [ho, hr]; omega)
      cases b with
      | false => exact hs g hg
      | true =>
        have h1 := hw w (by simp) g hg
        simp only [if_true, bind, Except.bind]
        cases hwg : w g with
        | error e => exact ⟨fun h' => h1.1 (by rw [hwg]; cases h'; rfl), fun g n h' => by cases h'⟩
        | ok g' => exact hs g' (h1.2 g' hwg)
    obtain ⟨x, hx⟩ : ∃ x, c.resolutions[c.offset]? = some x :=
      ⟨_, List.getElem?_eq_getElem (by omega)⟩
    simp only [Combiner.run]
    have hm : (c.maybeWrite f = .error .abort) ∨ ∃ b c' g, c.maybeWrite f = .ok (b, c', g) ∧
        g.length ≤ 64 ∧ c'.offset = c.offset + 1 ∧ c'.resolutions = c.resolutions := by
      unfold Combiner.maybeWrite
      rw [hx]
      simp only
      split
      · exact Or.inr ⟨_, _, _, rfl, hf, rfl, rfl⟩
      · cases x with
        | none => exact Or.inr ⟨_, _, _, rfl, hf, rfl, rfl⟩
        | some r =>
          simp only
          have hs := safe_framing (c.base + commandOffset r)
            (1 + runLength (some r) (c.resolutions.drop (c.offset + 1))) (c.start + c.offset) f hf
          cases hfr : writeFraming f (c.base + commandOffset r)
              (1 + runLength (some r) (c.resolutions.drop (c.offset + 1))) (c.start + c.offset) with
          | error e =>
            left
            cases e with
            | abort => rfl
            | overrun => exact absurd hfr hs.1
          | ok g => exact Or.inr ⟨_, _, _, rfl, hs.2 g hfr, rfl, rfl⟩
    rcases hm with hm | ⟨b, c', g, hm, h1, h2, h3⟩
    · rw [hm]
      exact ⟨fun h => (by cases h), fun g n h => by cases h⟩
    · rw [hm]
      exact step b c' g h1 h2 h3 f hf

theorem safe_fst {m : Bytes → Except Halt (Bytes × Nat)} (h : Safe2 m) :
    Safe (fun f => (m f).map Prod.fst) := by
  intro f hf
  have h1 := h f hf
  simp only
  cases hm : m f with
  | error e => exact ⟨fun h' => h1.1 (by rw [hm]; cases h'; rfl), fun g h' => by cases h'⟩
  | ok p => exact ⟨fun h' => (by cases h'), fun g h' => by cases h'; exact h1.2 p.1 p.2 hm⟩

theorem safe_plain {m : Bytes → Except Halt Bytes} (h : Safe m) : Safe2 (plain m) := by
  intro f hf
  have h1 := h f hf
  unfold plain
  cases hm : m f with
  | error e => exact ⟨fun h' => h1.1 (by rw [hm]; cases h'; rfl), fun g n h' => by cases h'⟩
  | ok p => exact ⟨fun h' => (by cases h'), fun g n h' => by cases h'; exact h1.2 p hm⟩

theorem safe_readBlock (start : Nat) (rs : List (Option Res)) : Safe2 (fun f => readBlock f start rs) :=
  safe_run _ (fun w hw => by rw [List.eq_of_mem_replicate hw]; exact safe_ok) _
    (by simp [Combiner.init])

theorem safe_items (items : List (Nat × Option Res)) : Safe2 (fun f => makeItems f items) := by
  intro f hf
  unfold makeItems
  split
  · dsimp only
    split
    · exact ⟨by simp, fun g n h => by cases h⟩
    · exact safe_readBlock _ _ f hf
  · exact ⟨by simp, fun g n h => by cases h; exact hf⟩

theorem safe2_bind {m : Bytes → Except Halt (Bytes × Nat)} {k : Bytes × Nat → Except Halt (Bytes × Nat)}
    (hm : Safe2 m) (hk : ∀ n, Safe2 (fun f => k (f, n))) : Safe2 (fun f => m f >>= k) := by
  intro f hf
  have h := hm f hf
  simp only [bind, Except.bind]
  cases hr : m f with
  | error e => exact ⟨fun h' => h.1 (by rw [hr]; cases h'; rfl), fun g n h' => by cases h'⟩
  | ok p => exact hk p.2 p.1 (h.2 p.1 p.2 hr)

theorem safe_query (q : QueryFormat) : Safe2 (fun f => makeQuery f q) := by
  refine safe2_bind (safe_readBlock _ _) fun s1 => ?_
  refine safe2_bind (safe_readBlock _ _) fun s2 => ?_
  refine safe2_bind (safe_readBlock _ _) fun s3 => ?_
  refine safe2_bind (safe_items _) fun s4 => ?_
  exact fun f hf => ⟨by simp, fun g n h => by cases h; exact hf⟩

theorem safe_mode (mode : Nat) : Safe (fun f => makeMode f mode) :=
  safe_bind (safe_int _ _) (safe_bind (safe_int _ _) (safe_int _ _))

theorem safe_modeBlock (mode start : Nat) (rs : List (Option Res)) (ws : List (Bytes → Except Halt Bytes))
    (hw : ∀ w ∈ ws, Safe w) (hlen : ws.length = rs.length) :
    Safe (fun f => makeModeBlock f mode start rs ws) :=
  safe_bind (safe_mode mode) (safe_fst (safe_run ws hw _ (by simp [Combiner.init, hlen])))

theorem safe_position (c : PositionCommand) (x : PositionFormat) : Safe (fun f => makePosition f c x) := by
  refine safe_modeBlock _ _ _ _ ?_ rfl
  simp only [List.mem_cons, List.not_mem_nil, or_false]
  rintro w (rfl | rfl | rfl | rfl | rfl | rfl | rfl | rfl | rfl | rfl | rfl | rfl) <;>
    exact safe_mapped _ _ _ _ _

theorem safe_vfoc (c : VFOCCommand) (x : VFOCFormat) : Safe (fun f => makeVfoc f c x) := by
  refine safe_modeBlock _ _ _ _ ?_ rfl
  simp only [List.mem_cons, List.not_mem_nil, or_false]
  rintro w (rfl | rfl | rfl | rfl | rfl | rfl | rfl) <;>
    first | exact safe_mapped _ _ _ _ _ | exact safe_abort

theorem safe_current (c : CurrentCommand) (x : CurrentFormat) : Safe (fun f => makeCurrent f c x) := by
  refine safe_modeBlock _ _ _ _ ?_ rfl
  simp only [List.mem_cons, List.not_mem_nil, or_false]
  rintro w (rfl | rfl) <;> exact safe_mapped _ _ _ _ _

theorem safe_stayWithin (c : WithinCommand) (x : WithinFormat) : Safe (fun f => makeStayWithin f c x) := by
  refine safe_modeBlock _ _ _ _ ?_ rfl
  simp only [List.mem_cons, List.not_mem_nil, or_false]
  rintro w (rfl | rfl | rfl | rfl | rfl | rfl | rfl | rfl) <;> exact safe_mapped _ _ _ _ _

theorem safe_gpio (a b : Int) (x y : Option Res) : Safe (fun f => makeGpioWrite f a b x y) := by
  refine safe_fst (safe_run _ ?_ _ rfl)
  simp only [List.mem_cons, List.not_mem_nil, or_false]
  rintro w (rfl | rfl) <;> exact safe_clamped _ _

theorem safe_auxPwm (v : List Fl) (x : List (Option Res)) : Safe (fun f => makeAuxPwm f v x) := by
  refine safe_fst (safe_run _ ?_ _ (by simp [Combiner.init]))
  intro w hw
  obtain ⟨p, _, rfl⟩ := List.mem_map.mp hw
  exact safe_mapped _ _ _ _ _

theorem safe_output (reg : Nat) (p : Fl) : Safe (fun f => makeOutput f reg p) :=
  safe_bind (safe_int _ _) (safe_bind (safe_varuint _) (safe_float _))

theorem safe_trigger (reg : Nat) : Safe (fun f => makeTrigger f reg) :=
  safe_bind (safe_int _ _) (safe_bind (safe_varuint _) (safe_int _ _))

theorem safe_trim (t : Int) : Safe (fun f => makeClockTrim f t) :=
  safe_bind (safe_int _ _) (safe_bind (safe_varuint _) (safe_int _ _))

/-- The body of each request. -/
theorem build_eq (c : Controller) (override : Option QueryFormat) (r : Request) :
    ∃ cmd o, Safe2 cmd ∧ c.build override r = c.makeFrame cmd o ∧
      (o = none → r ≠ .query ∧ (override = none ∨ r = .schemaVersion)) := by
  cases r with
  | query =>
    exact ⟨plain .ok, some (override.getD c.options.query_format), safe_plain safe_ok, rfl, fun h => by cases h⟩
  | stop => exact ⟨_, _, safe_plain (safe_mode 0), rfl, fun h => ⟨by simp, Or.inl h⟩⟩
  | brake => exact ⟨_, _, safe_plain (safe_mode 15), rfl, fun h => ⟨by simp, Or.inl h⟩⟩
  | position cmd x => exact ⟨_, _, safe_plain (safe_position cmd x), rfl, fun h => ⟨by simp, Or.inl h⟩⟩
  | vfoc cmd x => exact ⟨_, _, safe_plain (safe_vfoc cmd x), rfl, fun h => ⟨by simp, Or.inl h⟩⟩
  | current cmd x => exact ⟨_, _, safe_plain (safe_current cmd x), rfl, fun h => ⟨by simp, Or.inl h⟩⟩
  | stayWithin cmd x => exact ⟨_, _, safe_plain (safe_stayWithin cmd x), rfl, fun h => ⟨by simp, Or.inl h⟩⟩
  | outputNearest p => exact ⟨_, _, safe_plain (safe_output _ p), rfl, fun h => ⟨by simp, Or.inl h⟩⟩
  | outputExact p => exact ⟨_, _, safe_plain (safe_output _ p), rfl, fun h => ⟨by simp, Or.inl h⟩⟩
  | requireReindex => exact ⟨_, _, safe_plain (safe_trigger _), rfl, fun h => ⟨by simp, Or.inl h⟩⟩
  | recapture => exact ⟨_, _, safe_plain (safe_trigger _), rfl, fun h => ⟨by simp, Or.inl h⟩⟩
  | clockTrim t => exact ⟨_, _, safe_plain (safe_trim t), rfl, fun h => ⟨by simp, Or.inl h⟩⟩
  | writeGpio a b x y => exact ⟨_, _, safe_plain (safe_gpio a b x y), rfl, fun h => ⟨by simp, Or.inl h⟩⟩
  | gpioRead x y => exact ⟨_, _, safe_readBlock 0x05e [x, y], rfl, fun h => ⟨by simp, Or.inl h⟩⟩
  | auxPwm v x => exact ⟨_, _, safe_plain (safe_auxPwm v x), rfl, fun h => ⟨by simp, Or.inl h⟩⟩
  | schemaVersion =>
    exact ⟨fun f => makeItems f [(0x102, some .int32)], none, safe_items _, rfl,
      fun _ => ⟨by simp, Or.inr rfl⟩⟩

/-! ## C61 -/

/-- C61: every frame that is returned holds at most 64 bytes. -/
theorem C61_frame_size (c : Controller) (override : Option QueryFormat) (r : Request) (f : Frame)
    (h : c.build override r = .ok f) : f.data.length ≤ 64 := by
  obtain ⟨cmd, o, hs, hb, _⟩ := build_eq c override r
  rw [hb] at h
  unfold Controller.makeFrame at h
  have h1 := hs [] (by simp)
  cases hc : cmd [] with
  | error e => rw [hc] at h; cases h
  | ok p =>
    have hp := h1.2 p.1 p.2 hc
    simp only [hc, bind, Except.bind] at h
    cases o with
    | some q =>
      simp only at h
      cases hq : Cxx.makeQuery p.1 q with
      | error e => rw [hq] at h; cases h
      | ok s =>
        rw [hq] at h
        cases h
        exact (safe_query q p.1 hp).2 s.1 s.2 hq
    | none =>
      simp only at h
      split at h
      · split at h
        · cases h
        · next hl => cases h; simp only [List.length_append]; omega
      · cases h; exact hp

/-- C61: nothing behind the frame is written when the query comes from an
override or when there is none. -/
theorem C61_no_overrun_partial (c : Controller) (override : Option QueryFormat) (r : Request)
    (h : c.options.default_query = false ∨ r = .query ∨ (override.isSome ∧ r ≠ .schemaVersion)) :
    c.build override r ≠ .error .overrun := by
  obtain ⟨cmd, o, hs, hb, ho⟩ := build_eq c override r
  rw [hb]
  unfold Controller.makeFrame
  have h1 := hs [] (by simp)
  cases hc : cmd [] with
  | error e =>
    intro h'
    apply h1.1
    rw [hc]
    cases h'
    rfl
  | ok p =>
    have hp := h1.2 p.1 p.2 hc
    simp only [bind, Except.bind]
    cases o with
    | some q =>
      simp only
      have h2 : Cxx.makeQuery p.1 q ≠ .error .overrun := (safe_query q p.1 hp).1
      cases hq : Cxx.makeQuery p.1 q with
      | error e =>
        intro h'
        apply h2
        rw [hq]
        cases h'
        rfl
      | ok s => intro h'; cases h'
    | none =>
      obtain ⟨k1, k2⟩ := ho rfl
      rcases h with h | h | ⟨h, h'⟩
      · simp only [h]; intro h'; cases h'
      · exact absurd h k1
      · rcases k2 with k2 | k2
        · rw [k2] at h; cases h
        · exact absurd k2 h'

/-- The request used below: ten parameters at alternating resolutions. -/
def crowded : Request :=
  .position {} {
    position := some .f32, velocity := some .int32, feedforward_torque := some .f32,
    kp_scale := some .int32, kd_scale := some .f32, maximum_torque := some .int32,
    stop_position := some .f32, watchdog_timeout := some .int32, velocity_limit := some .f32,
    accel_limit := some .int32 }

/-- C61 fails with the default query: the frame is full but for one byte, and
the six bytes of the query are copied behind it (over `size` and what
follows). -/
theorem C61_overrun_refuted :
    ¬ ∀ (c : Controller) (_ : Controller.make c.options = .ok c) (override : Option QueryFormat) (r : Request),
      c.build override r ≠ .error .overrun := by
  intro h
  have h1 : (exampleCxx true).build none crowded = .error .overrun := by decide +kernel
  exact h (exampleCxx true) (example_same true none).cxx none crowded h1

/-- The hypotheses of `C61_no_overrun_partial` are met by the same request. -/
example : ∃ f, (exampleCxx false).build none crowded = .ok f ∧ f.data.length = 63 := by
  have h : ((exampleCxx false).build none crowded).map (fun f => f.data.length) = .ok 63 := by
    decide +kernel
  cases hb : (exampleCxx false).build none crowded with
  | error e => rw [hb] at h; cases h
  | ok f => rw [hb] at h; exact ⟨f, rfl, by simpa [Except.map] using h⟩

/-! ## C62 -/

/-- The controller can read the frame; if it contains a read, a reply is asked
for; and the reply has the announced size. -/
def Announced (f : Frame) : Prop :=
  ∃ l, accesses f.data = some l ∧ ((∃ reg r, Access.read reg r ∈ l) → f.replyRequired = true) ∧
    ∀ regs : Nat → Res → Bytes, (∀ reg r, (regs reg r).length = r.size) →
      (answer regs f.data).map List.length = some f.expectedReplySize

theorem extra_dictOk {l d : List (Nat × Option Res)} (h : SameExtra l d) : DictOk d where
  keys := (h.same.map Prod.fst).nodup_iff.mp (sorted_keys h.sorted)
  range := by
    intro e he
    have := h.range e (h.same.mem_iff.mpr he)
    omega
  runs := by
    rintro ⟨s, r, hall⟩
    have hsub : (List.range 128).map (fun i => (s + i, some r)) ⊆ d := by
      intro e he
      obtain ⟨i, hi, rfl⟩ := List.mem_map.mp he
      exact hall i (List.mem_range.mp hi)
    have hnd : ((List.range 128).map (fun i => (s + i, some r))).Nodup := by
      refine List.Nodup.map ?_ List.nodup_range
      intro a b hab
      simp only [Prod.mk.injEq, and_true] at hab
      omega
    have h1 := (hnd.subperm hsub).length_le
    have h2 := h.same.length_eq
    have h3 := h.size
    simp only [List.length_map, List.length_range] at h1
    omega

theorem queryOk_of {cx : Controller} {py : Commands.Controller} {query : Bool}
    (hc : SameController cx py query) {oc : Option QueryFormat} {op : Option QueryResolution}
    (ho : SameOverride oc op) : QueryOk py op := by
  refine ⟨extra_dictOk hc.query_format.extra, ?_⟩
  rintro q rfl
  cases oc with
  | none => exact ho.elim
  | some f => exact extra_dictOk (show SameQuery f q from ho).extra

theorem announced_of {py : Commands.Controller} {query : Bool} {op : Option QueryResolution}
    {c : Command} {ws : List Access} (h : Delivers py query op c ws)
    (hw : ∀ a ∈ ws, ∀ reg r, a ≠ .read reg r) : Announced (asFrame c) := by
  obtain ⟨_, _, h3, ⟨reads, h4, h4'⟩, h5⟩ := h
  refine ⟨_, h4', ?_, h5⟩
  rintro ⟨reg, r, hm⟩
  show c.replyRequired = true
  rw [h3]
  cases hq : queryPart py query op with
  | some q => rfl
  | none =>
    rw [hq] at h4
    cases (show reads = [] from h4)
    rw [List.append_nil] at hm
    exact absurd rfl (hw _ hm reg r)

theorem writes_only {ps : List Param} {ws : List Access} (h : Writes ps ws) :
    ∀ a ∈ ws, ∀ reg r, a ≠ .read reg r := by
  unfold Writes at h
  generalize ps.filterMap Param.sent = l at h
  induction h with
  | nil => intro a ha; cases ha
  | cons h1 _ ih =>
    intro a ha reg r
    rcases List.mem_cons.mp ha with rfl | ha
    · obtain ⟨b, rfl, _⟩ := h1
      simp
    · exact ih a ha reg r

theorem mode_only (m : UInt8) : ∀ a ∈ setMode m, ∀ reg r, a ≠ .read reg r := by
  intro a ha reg r
  cases List.mem_singleton.mp ha
  simp

theorem announced_delivers {py : Commands.Controller} {query : Bool} {op : Option QueryResolution}
    {cx : Except Halt Frame} {result : Except Err Command} {ws : List Access}
    (hs : SameFrame result cx) (h : ∃ cmd, result = .ok cmd ∧ Delivers py query op cmd ws)
    (hw : ∀ a ∈ ws, ∀ reg r, a ≠ .read reg r) (f : Frame) (hf : cx = .ok f) : Announced f := by
  obtain ⟨c, h1, _, rfl⟩ := (hs f).mp hf
  obtain ⟨c', h2, h3⟩ := h
  rw [h1] at h2
  cases h2
  exact announced_of h3 hw

theorem announced_realizes {py : Commands.Controller} {query : Bool} {op : Option QueryResolution}
    {cx : Except Halt Frame} {result : Except Err Command} {first : List Access} {ps : List Param}
    (hs : SameFrame result cx) (h : Realizes py query op result first ps)
    (hw : ∀ a ∈ first, ∀ reg r, a ≠ .read reg r) (f : Frame) (hf : cx = .ok f) : Announced f := by
  rcases h with ⟨_, h⟩ | ⟨_, cmd, ws, h1, h2, h3⟩
  · obtain ⟨c, h1, _, _⟩ := (hs f).mp hf
    rw [h] at h1; cases h1
  · refine announced_delivers hs ⟨cmd, h1, h3⟩ ?_ f hf
    intro a ha
    rcases List.mem_append.mp ha with ha | ha
    · exact hw a ha
    · exact writes_only h2 a ha

theorem isDouble_of {fmt res : Option Res} {x : Fl} {arg : Option Fl} (h : SameParam fmt x res arg) :
    ∀ v, arg = some v → IsDouble v := by
  intro v hv
  rcases h.1 with ⟨h1, _⟩ | ⟨h1, _⟩
  · rw [h1] at hv; cases hv
  · rw [h1] at hv; cases hv; exact h.2.1

section

variable {cx : Controller} {py : Commands.Controller} {query : Bool}
  (hc : SameController cx py query) {oc : Option QueryFormat} {op : Option QueryResolution}
  (ho : SameOverride oc op)

include hc ho

/-- C62, stop and brake. -/
theorem C62_stop_brake_partial (f : Frame) (hf : cx.makeStop oc = .ok f ∨ cx.makeBrake oc = .ok f) :
    Announced f := by
  rcases hf with hf | hf
  · exact announced_delivers (C46_stop hc ho) (C12_stop py hc.python query op (queryOk_of hc ho))
      (mode_only _) f hf
  · exact announced_delivers (C46_brake hc ho) (C12_brake py hc.python query op (queryOk_of hc ho))
      (mode_only _) f hf

/-- C62, position mode. -/
theorem C62_position_partial {x : PositionFormat} {v : PositionCommand} {a : PositionArgs}
    (hp : SamePosition x v py.position_resolution a)
    (hi : x.ilimit_scale = none ∨ x.ilimit_scale = some .f32)
    (f : Frame) (hf : cx.makePosition v x oc = .ok f) : Announced f := by
  refine announced_realizes (C46_position_partial hc ho hp hi)
    (C11_position_partial py hc.python a query op (queryOk_of hc ho) ?_ ?_) (mode_only _) f hf
  · intro p hm y hy
    simp only [positionParams, List.mem_cons, List.not_mem_nil, or_false] at hm
    rcases hm with rfl | rfl | rfl | rfl | rfl | rfl | rfl | rfl | rfl | rfl | rfl | rfl
    · exact isDouble_of hp.position y hy
    · exact isDouble_of hp.velocity y hy
    · exact isDouble_of hp.feedforward_torque y hy
    · exact isDouble_of hp.kp_scale y hy
    · exact isDouble_of hp.kd_scale y hy
    · exact isDouble_of hp.maximum_torque y hy
    · exact isDouble_of hp.stop_position y hy
    · exact isDouble_of hp.watchdog_timeout y hy
    · exact isDouble_of hp.velocity_limit y hy
    · exact isDouble_of hp.accel_limit y hy
    · exact isDouble_of hp.fixed_voltage_override y hy
    · exact isDouble_of hp.ilimit_scale y hy
  · rcases hp.ilimit_scale.1 with ⟨h1, _⟩ | ⟨_, h2⟩
    · exact Or.inl h1
    · rw [h2] at hi; exact Or.inr hi

/-- C62, stay within bounds. -/
theorem C62_stay_within_partial {x : WithinFormat} {v : WithinCommand} {a : WithinArgs}
    (hp : SameWithin x v py.position_resolution a)
    (f : Frame) (hf : cx.makeStayWithin v x oc = .ok f) : Announced f := by
  refine announced_realizes (C46_stay_within hc ho hp)
    (C12_stay_within py hc.python a query op (queryOk_of hc ho) ?_) (mode_only _) f hf
  intro p hm y hy
  simp only [withinParams, List.mem_cons, List.not_mem_nil, or_false] at hm
  rcases hm with rfl | rfl | rfl | rfl | rfl | rfl | rfl | rfl
  · exact isDouble_of hp.lower_bound y hy
  · exact isDouble_of hp.upper_bound y hy
  · exact isDouble_of hp.feedforward_torque y hy
  · exact isDouble_of hp.kp_scale y hy
  · exact isDouble_of hp.kd_scale y hy
  · exact isDouble_of hp.maximum_torque y hy
  · exact isDouble_of hp.watchdog_timeout y hy
  · exact isDouble_of hp.ilimit_scale y hy

/-- C62, setting of the output position. -/
theorem C62_output_partial {p : Fl} (hp : Sendable (some .f32) p) (f : Frame)
    (hf : cx.makeOutputNearest p oc = .ok f ∨ cx.makeOutputExact p oc = .ok f) : Announced f := by
  have h := C12_set_output py hc.python query op (queryOk_of hc ho) p hp.1
  have h0 : ∀ a ∈ ([] : List Access), ∀ reg r, a ≠ .read reg r := fun a ha => by cases ha
  rcases hf with hf | hf
  · exact announced_realizes (C46_output_nearest hc ho hp) h.1 h0 f hf
  · exact announced_realizes (C46_output_exact hc ho hp) h.2.1 h0 f hf

end

/-- The hypotheses of the theorems above are met, and there is a frame with a
read. -/
example : ∃ f, (exampleCxx true).makeStop none = .ok f ∧ Announced f ∧ f.replyRequired = true ∧
    f.data = [0x01, 0x00, 0x00, 0x11, 0x00, 0x1f, 0x01, 0x13, 0x0d] := by
  have h : (exampleCxx true).makeStop none =
      .ok ⟨1, true, 22, [0x01, 0x00, 0x00, 0x11, 0x00, 0x1f, 0x01, 0x13, 0x0d]⟩ := by decide +kernel
  exact ⟨_, h, C62_stop_brake_partial (example_same true none) (oc := none) (op := none) trivial _
    (Or.inl h), rfl, rfl⟩

/-- C62 fails for the reading of digital inputs and of the schema version
without a default query: the frames contain reads but ask for no reply. -/
theorem C62_unanswered_refuted :
    ∃ f g, (exampleCxx false).build none (.gpioRead (some .int8) (some .int8)) = .ok f ∧
      (exampleCxx false).build none .schemaVersion = .ok g ∧ ¬ Announced f ∧ ¬ Announced g := by
  refine ⟨⟨1, false, 4, [0x12, 0x5e]⟩, ⟨1, false, 7, [0x19, 0x82, 0x02]⟩, by decide +kernel,
    by decide +kernel, ?_, ?_⟩
  · rintro ⟨l, h1, h2, _⟩
    have h3 : accesses [0x12, 0x5e] = some [.read 0x05e .int8, .read 0x05f .int8] := by decide +kernel
    rw [show accesses _ = _ from h3] at h1
    cases h1
    cases h2 ⟨_, _, List.mem_cons_self⟩
  · rintro ⟨l, h1, h2, _⟩
    have h3 : accesses [0x19, 0x82, 0x02] = some [.read 0x102 .int32] := by decide +kernel
    rw [show accesses _ = _ from h3] at h1
    cases h1
    cases h2 ⟨_, _, List.mem_cons_self⟩

/-- C62 fails for the same with a default query: the announced size is that of
the query alone. -/
theorem C62_reply_size_refuted :
    ∃ f g, (exampleCxx true).build none (.gpioRead (some .int8) (some .int8)) = .ok f ∧
      (exampleCxx true).build none .schemaVersion = .ok g ∧ ¬ Announced f ∧ ¬ Announced g := by
  refine ⟨⟨1, true, 22, [0x12, 0x5e, 0x11, 0x00, 0x1f, 0x01, 0x13, 0x0d]⟩,
    ⟨1, true, 22, [0x19, 0x82, 0x02, 0x11, 0x00, 0x1f, 0x01, 0x13, 0x0d]⟩, by decide +kernel,
    by decide +kernel, ?_, ?_⟩
  · rintro ⟨l, _, _, h⟩
    have h1 := h (fun _ r => List.replicate r.size 0) (fun reg r => by simp)
    revert h1
    decide +kernel
  · rintro ⟨l, _, _, h⟩
    have h1 := h (fun _ r => List.replicate r.size 0) (fun reg r => by simp)
    revert h1
    decide +kernel

end Verif.Cxx
