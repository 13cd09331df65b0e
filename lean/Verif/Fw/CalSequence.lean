import Verif.Fw.TestModes

/-!
# The encoder calibration on the controller

Model of `BoardDebug::Impl::DoCalibration` (`fw/board_debug.cc` 234-392) and of the commands
`d cal` and `d cali` (481-608).  One step is one call of `PollMillisecond`, the end of a
write to the stream, or a command.  The formatting of the lines is modelled by their
values; their text is `lineText`.

Property C88.
-/

namespace Verif.Fw.Cal

open Verif.Float Verif.Fw

variable {A : Ar}

/-! ## Model -/

/-- `MotorCalMode` (lines 1133-1139). -/
inductive Mode
  | none | up | down | currentUp | currentDown
deriving DecidableEq

/-- The members of lines 1140-1147. -/
structure State where
  mode : Mode
  phase : ℤ
  count : ℤ
  old : Option ℤ
  delta : ℤ
  magnitude : Fl
  speed : Fl
  outstanding : Bool
deriving DecidableEq

/-- What happens outside: texts on the stream and commands to the servo. -/
inductive Out
  | fault | timeout | done | doneI | started | startedI | error
  | line (mode : Mode) (theta position delta : ℤ)
  | stop
  | foc (phase : ℤ) (voltage : Fl)
  | current (velocity amps : Fl)
deriving DecidableEq

/-- A value stored in a `uint16_t`, an `int16_t`, a `uint32_t`. -/
def u16 (n : ℤ) : ℤ := n % 65536
def i16 (n : ℤ) : ℤ := (n + 32768) % 65536 - 32768
def u32 (n : ℤ) : ℤ := n % 4294967296

/-- `kMaxTimeMs` (lines 269-274): the constants are multiplied first. -/
def maxTime (A : Ar) (speed : Fl) : Fl := A.div (.fin 200000) speed

/-- `kStep` (line 362); 65536 and 1000 are exact. -/
def stepOf (A : Ar) (speed : Fl) : ℤ := toI32 (A.div (A.mul speed (.fin 65536)) (.fin 1000))

/-- The end of a tick in an active mode (lines 358-391). -/
def drive (A : Ar) (s : State) : State × List Out :=
  match s.mode with
  | .up =>
    let p := u16 (s.phase + stepOf A s.speed)
    ({ s with phase := p }, [.foc p s.magnitude])
  | .down =>
    let p := u16 (s.phase - stepOf A s.speed)
    ({ s with phase := p }, [.foc p s.magnitude])
  | .currentUp => (s, [.current s.speed s.magnitude])
  | .currentDown => (s, [.current s.speed.neg s.magnitude])
  | .none => (s, [])

/-- The angle in a report (lines 336-341); `theta`: the electrical angle of the servo, in
1/65536 of a turn. -/
def reported (theta : ℤ) (s : State) : ℤ :=
  match s.mode with
  | .up | .down => s.phase
  | _ => u16 theta

/-- The report (lines 333-356) and what follows. -/
def report (A : Ar) (theta position : ℤ) (s : State) : State × List Out :=
  if s.count % 10 = 0 ∧ s.outstanding = false then
    let r := drive A { s with outstanding := true }
    (r.1, .line s.mode (reported theta s) position s.delta :: r.2)
  else drive A s

/-- `cal_position_delta_` with the new position (lines 259-263). -/
def moved (position : ℤ) (s : State) : ℤ :=
  match s.old with
  | some o => s.delta + i16 (position - o)
  | .none => s.delta

/-- `DoCalibration` (lines 234-392), called by `PollMillisecond` (137-140); `bad`: the servo is
in fault or position timeout mode. -/
def tick (A : Ar) (bad : Bool) (theta position : ℤ) (s : State) : State × List Out :=
  if s.mode = .none then (s, []) else
  if bad then
    if s.outstanding then (s, []) else ({ s with mode := .none }, [.fault])
  else
    let delta := moved position s
    let complete := 65536 < |delta|
    let s := { s with delta, old := some position, count := u32 (s.count + 1) }
    if (maxTime A s.speed).blt (A.lit s.count) then
      if s.outstanding then (s, []) else ({ s with mode := .none }, [.timeout, .stop])
    else if complete then
      match s.mode with
      | .up => report A theta position { s with mode := .down, delta := 0 }
      | .currentUp => report A theta position { s with mode := .currentDown, delta := 0 }
      | .down =>
        if s.outstanding then (s, []) else ({ s with mode := .none }, [.done, .stop])
      | .currentDown =>
        if s.outstanding then (s, []) else ({ s with mode := .none }, [.doneI, .stop])
      | .none => (s, [])
    else report A theta position s

/-- `d cal` (lines 481-550) after its options were read: `ready` is line 521-528, `magnitude`
the result of `Strtof`. -/
def startCal (magnitude : Option Fl) (speed : Fl) (ready : Bool) (s : State) : State × List Out :=
  let s := { s with speed }
  if ready = false then (s, [.error]) else
  let s := { s with mode := .up, phase := 0, count := 0, old := none, delta := 0 }
  match magnitude with
  | none => (s, [.error])
  | some m => ({ s with magnitude := m, outstanding := true }, [.started])

/-- `d cali` (lines 552-608). -/
def startCali (magnitude : Fl) (speed : Fl) (ready : Bool) (s : State) : State × List Out :=
  let s := { s with speed, magnitude }
  if ready = false then (s, [.error]) else
  ({ s with mode := .currentUp, count := 0, old := none, delta := 0, outstanding := true }, [.startedI])

/-- What happens from outside. -/
inductive Event
  | tick (bad : Bool) (theta position : ℤ)
  | written
  /-- Any other command, among them `d stop` (lines 423-430). -/
  | command

/-- One step while a calibration runs. -/
def step (A : Ar) (s : State) : Event → State × List Out
  | .tick bad theta position => tick A bad theta position s
  | .written => ({ s with outstanding := false }, [])
  | .command => (s, [])

/-- The state after some events and all that was put out. -/
def run (A : Ar) (s : State) : List Event → State × List Out
  | [] => (s, [])
  | e :: es =>
    let r := step A s e
    let q := run A r.1 es
    (q.1, r.2 ++ q.2)

/-- The text of a report (lines 343-351): the currents are in mA. -/
def lineText (mode theta position i1 i2 i3 delta : ℤ) : String :=
  toString mode ++ " " ++ toString theta ++ " " ++ toString position ++ " i1=" ++ toString i1
    ++ " i2=" ++ toString i2 ++ " i3=" ++ toString i3 ++ " d=" ++ toString delta ++ "\r\n"

/-! ## Specification -/

namespace Spec

/-- The ticks at which the servo works. -/
def good : List Event → ℕ
  | [] => 0
  | .tick false _ _ :: es => good es + 1
  | _ :: es => good es

/-- An event where the position is an unwrapped one, in 1/65536 of a turn. -/
inductive Seen
  | tick (bad : Bool) (theta P : ℤ)
  | written
  | command

/-- What the controller sees of it. -/
def seen : Seen → Event
  | .tick bad theta P => .tick bad theta (P % 65536)
  | .written => .written
  | .command => .command

/-- The positions at the working ticks. -/
def positions : List Seen → List ℤ
  | [] => []
  | .tick false _ P :: es => P :: positions es
  | _ :: es => positions es

/-- No more than just under half a turn from one value to the next. -/
def Smooth : List ℤ → Prop
  | [] => True
  | [_] => True
  | a :: b :: l => |b - a| < 32768 ∧ Smooth (b :: l)

/-- Each report of a calibration by voltage carries the angle that was commanded last, at
the beginning `p`. -/
def Labelled (p : ℤ) : List Out → Prop
  | [] => True
  | .foc q _ :: l => Labelled q l
  | .line m theta _ _ :: l => (m = .up ∨ m = .down → theta = p) ∧ Labelled p l
  | _ :: l => Labelled p l

/-- A report of the second half. -/
def isDown : Out → Prop
  | .line .down _ _ _ => True
  | .line .currentDown _ _ _ => True
  | _ => False

/-- A report of the first half. -/
def isUp : Out → Prop
  | .line .up _ _ _ => True
  | .line .currentUp _ _ _ => True
  | _ => False

end Spec

/-! ## Proofs -/

theorem run_append (s : State) (a b : List Event) :
    run A s (a ++ b) = ((run A (run A s a).1 b).1, (run A s a).2 ++ (run A (run A s a).1 b).2) := by
  induction a generalizing s with
  | nil => simp [run]
  | cons e a ih => simp [run, ih]

theorem tick_none {s : State} (h : s.mode = .none) (b : Bool) (t p : ℤ) :
    tick A b t p s = (s, []) := by simp [tick, h]

/-- Once a calibration has ended, nothing is put out and no command is given. -/
theorem C88_silent {s : State} (h : s.mode = .none) (es : List Event) :
    (run A s es).2 = [] ∧ (run A s es).1.mode = .none := by
  induction es generalizing s with
  | nil => simp [run, h]
  | cons e es ih =>
    have h1 : (step A s e).2 = [] ∧ (step A s e).1.mode = .none := by
      cases e with
      | tick b t p => simp [step, tick_none h, h]
      | written => simp [step, h]
      | command => simp [step, h]
    have h2 := ih h1.2
    simp [run, h1.1, h2]

@[simp] theorem drive_fields (s : State) :
    (drive A s).1.mode = s.mode ∧ (drive A s).1.count = s.count ∧ (drive A s).1.old = s.old ∧
    (drive A s).1.delta = s.delta ∧ (drive A s).1.speed = s.speed ∧
    (drive A s).1.magnitude = s.magnitude := by
  unfold drive; cases h : s.mode <;> simp [h]

@[simp] theorem report_fields (t p : ℤ) (s : State) :
    (report A t p s).1.mode = s.mode ∧ (report A t p s).1.count = s.count ∧
    (report A t p s).1.old = s.old ∧ (report A t p s).1.delta = s.delta ∧
    (report A t p s).1.speed = s.speed ∧ (report A t p s).1.magnitude = s.magnitude := by
  unfold report; split <;> simp [drive_fields]

/-- How a calibration ends, and only so: by a fault, where the servo has switched off already,
or with a message after which the servo is commanded to stop; and never while a write is
outstanding. -/
theorem C88_ends {s : State} (hs : s.mode ≠ .none) (e : Event) (h : (step A s e).1.mode = .none) :
    s.outstanding = false ∧
    ((∃ t p, e = .tick true t p ∧ (step A s e).2 = [.fault]) ∨
     (step A s e).2 = [.timeout, .stop] ∨
     (s.mode = .down ∧ (step A s e).2 = [.done, .stop]) ∨
     (s.mode = .currentDown ∧ (step A s e).2 = [.doneI, .stop])) := by
  cases e with
  | written => exact absurd h hs
  | command => exact absurd h hs
  | tick b t p =>
    simp only [step] at h ⊢
    unfold tick at h ⊢
    rw [if_neg hs] at h ⊢
    cases b with
    | true =>
      cases ho : s.outstanding with
      | true => simp [ho] at h; exact absurd h hs
      | false => simp
    | false =>
      simp only [Bool.false_eq_true, if_false] at h ⊢
      generalize moved p s = d at h ⊢
      cases hm : s.mode <;> cases ho : s.outstanding <;> simp only [hm, ho] at h ⊢ <;>
        split at h <;> (try split at h) <;> simp_all [report_fields]

theorem step_speed (s : State) (e : Event) : (step A s e).1.speed = s.speed := by
  cases e with
  | written => rfl
  | command => rfl
  | tick b t p =>
    simp only [step]; unfold tick
    split
    · rfl
    split
    · split <;> rfl
    dsimp only
    split
    · split <;> rfl
    split
    · split <;> first | rfl | exact (report_fields _ _ _).2.2.2.2.1 | (split <;> rfl)
    · exact (report_fields _ _ _).2.2.2.2.1

theorem tick_count {s : State} (hs : s.mode ≠ .none) (t p : ℤ) :
    (tick A false t p s).1.count = u32 (s.count + 1) := by
  unfold tick
  rw [if_neg hs]
  simp only [Bool.false_eq_true, if_false]
  split
  · split <;> rfl
  split
  · split <;> first | rfl | exact (report_fields _ _ _).2.1 | (split <;> rfl)
  · exact (report_fields _ _ _).2.1

theorem step_count {s : State} (hs : s.mode ≠ .none) (e : Event) (hc : 0 ≤ s.count)
    (hb : s.count < 4294967295) :
    (step A s e).1.count = s.count + Spec.good [e] := by
  cases e with
  | written => simp [step, Spec.good]
  | command => simp [step, Spec.good]
  | tick b t p =>
    cases b with
    | true =>
      simp only [step, Spec.good]; unfold tick
      rw [if_neg hs]
      simp only [if_true]
      split <;> simp_all
    | false =>
      simp only [step, Spec.good, tick_count hs, u32]
      push_cast
      omega

theorem good_cons (e : Event) (es : List Event) :
    Spec.good (e :: es) = Spec.good [e] + Spec.good es := by
  cases e with
  | written => simp [Spec.good]
  | command => simp [Spec.good]
  | tick b t p => cases b <;> simp [Spec.good]; omega

theorem good_one (e : Event) : Spec.good [e] ≤ 1 := by
  cases e with
  | written => simp [Spec.good]
  | command => simp [Spec.good]
  | tick b t p => cases b <;> simp [Spec.good]

theorem run_count (es : List Event) {s : State} (hc : 0 ≤ s.count)
    (hb : s.count + Spec.good es < 4294967296) :
    (run A s es).1.mode = .none ∨
    ((run A s es).1.count = s.count + Spec.good es ∧ (run A s es).1.speed = s.speed) := by
  induction es generalizing s with
  | nil => right; simp [run, Spec.good]
  | cons e es ih =>
    by_cases hs : s.mode = .none
    · left; exact (C88_silent hs _).2
    rw [good_cons] at hb ⊢
    by_cases h1 : s.count < 4294967295
    · have h2 := step_count (A := A) hs e hc h1
      rcases ih (s := (step A s e).1) (by rw [h2]; omega) (by rw [h2]; push_cast at hb; omega) with h | h
      · left; exact h
      · right
        simp only [run]
        rw [h.1, h.2, h2, step_speed]
        push_cast
        exact ⟨by ring, rfl⟩
    · have hg : Spec.good [e] = 0 := by push_cast at hb; omega
      have h2 : (step A s e).1.count = s.count := by
        cases e with
        | written => rfl
        | command => rfl
        | tick b t p =>
          cases b with
          | false => simp [Spec.good] at hg
          | true =>
            simp only [step]; unfold tick
            rw [if_neg hs]
            simp only [if_true]
            split <;> rfl
      rcases ih (s := (step A s e).1) (by rw [h2]; omega) (by rw [h2]; push_cast at hb; omega) with h | h
      · left; exact h
      · right
        simp only [run]
        rw [h.1, h.2, h2, step_speed, hg]
        push_cast
        exact ⟨by ring, rfl⟩

theorem blt_fin {a b : ℚ} : (Fl.fin a).blt (.fin b) = true ↔ a < b := by
  simp only [Fl.blt, Fl.ble, Bool.and_eq_true, decide_eq_true_eq, Bool.not_eq_true',
    decide_eq_false_iff_not, not_le]
  exact ⟨fun h => h.2, fun h => ⟨h.le, h⟩⟩

/-- A calibration ends.  When the time it may take is `t` ms, then at the first tick past it where
no write is outstanding it has ended, whatever the motor did. -/
theorem C88_timeout (L : Ar.Law2 A) {s : State} (hc : s.count = 0) {t : ℚ}
    (ht : maxTime A s.speed = .fin t) (hb : t < 16777216) (es : List Event)
    (hn : t < Spec.good es + 1) (hw : Spec.good es < 4294967295) (bad : Bool) (theta p : ℤ) :
    (run A s (es ++ [.written, .tick bad theta p])).1.mode = .none := by
  rw [run_append]
  rcases run_count (A := A) es (s := s) (by omega) (by omega) with h | ⟨h1, h2⟩
  · exact (C88_silent h _).2
  by_cases hs : (run A s es).1.mode = .none
  · exact (C88_silent hs _).2
  generalize (run A s es).1 = r at h1 h2 hs
  simp only [run, step]
  unfold tick
  rw [if_neg (by exact hs)]
  cases bad with
  | true => simp
  | false =>
    simp only [Bool.false_eq_true, if_false]
    have hk : u32 (r.count + 1) = ((Spec.good es + 1 : ℕ) : ℤ) := by
      rw [h1, hc, u32]; push_cast; omega
    have hlt : (maxTime A r.speed).blt (A.lit ((u32 (r.count + 1) : ℤ) : ℚ)) = true := by
      rw [h2, ht, hk]
      have h0 : 0 ≤ Spec.good es := Nat.zero_le _
      by_cases h24 : Spec.good es + 1 ≤ 2 ^ 24
      · rw [L.lit_int (by rw [abs_of_nonneg (by positivity)]; exact_mod_cast h24)]
        rw [blt_fin]
        push_cast
        exact_mod_cast hn
      · have hq : ((16777216 : ℤ) : ℚ) ≤ (((Spec.good es + 1 : ℕ) : ℤ) : ℚ) := by
          exact_mod_cast (by omega : (16777216 : ℤ) ≤ ((Spec.good es + 1 : ℕ) : ℤ))
        have hub : ((((Spec.good es + 1 : ℕ) : ℤ) : ℚ)) ≤ 4294967296 := by
          exact_mod_cast (by omega : ((Spec.good es + 1 : ℕ) : ℤ) ≤ 4294967296)
        have hrep := L.rep_int (n := 16777216) (by norm_num)
        have hm := L.mono hq
        rw [hrep.1] at hm
        rw [Ar.lit, L.rnd_fin]
        · rw [blt_fin]
          refine lt_of_lt_of_le hb ?_
          exact_mod_cast hm
        · rw [abs_of_nonneg (by positivity)]
          refine hub.trans ?_
          have : pow2 32 ≤ pow2 127 := by decide +kernel
          refine le_trans ?_ this
          decide +kernel
    rw [if_pos hlt]

/-- With a speed from 1/80 up, the time it may take is at most 16000000 ms. -/
theorem C88_max_time (L : Ar.Law2 A) {v : ℚ} (hv : 1 / 80 ≤ v) :
    ∃ t, maxTime A (.fin v) = .fin t ∧ t ≤ 16000000 ∧ 0 ≤ t := by
  have hv0 : 0 < v := lt_of_lt_of_le (by norm_num) hv
  have h1 : (200000 : ℚ) / v ≤ ((16000000 : ℤ) : ℚ) := by
    rw [div_le_iff₀ hv0]; push_cast; linarith
  have h0 : (0 : ℚ) ≤ 200000 / v := by positivity
  have hrep := L.rep_int (n := 16000000) (by norm_num)
  have hz := L.rep_int (n := 0) (by norm_num)
  have hm := L.mono h1
  have hm0 := L.mono (x := ((0 : ℤ) : ℚ)) (y := 200000 / v) (by exact_mod_cast h0)
  rw [hrep.1] at hm
  rw [hz.1] at hm0
  refine ⟨A.rq (200000 / v), ?_, by exact_mod_cast hm, by exact_mod_cast hm0⟩
  have hdiv : A.div (.fin 200000) (.fin v) = A.rnd (200000 / v) := by
    simp [Ar.div, hv0.ne']
  rw [maxTime, hdiv, L.rnd_fin]
  rw [abs_of_nonneg h0]
  refine h1.trans ?_
  have : pow2 32 ≤ pow2 127 := by decide +kernel
  refine le_trans ?_ this
  decide +kernel

/-- The tracked movement. -/
structure Inv (s : State) (h : List ℤ) : Prop where
  up : (s.mode = .up ∨ s.mode = .currentUp) →
    (h = [] ∧ s.old = none ∧ s.delta = 0) ∨
    ∃ p0 last, p0 ∈ h ∧ h.getLast? = some last ∧ s.old = some (last % 65536) ∧ s.delta = last - p0
  down : (s.mode = .down ∨ s.mode = .currentDown) →
    ∃ p0 p1 last, [p0, p1].Sublist h ∧ 65536 < |p1 - p0| ∧ h.getLast? = some last ∧
      s.old = some (last % 65536) ∧ s.delta = last - p1

theorem i16_diff {a b : ℤ} (h : |b - a| < 32768) : i16 (b % 65536 - a % 65536) = b - a := by
  rw [abs_lt] at h
  unfold i16
  omega

theorem moved_some {s : State} {l P : ℤ} (ho : s.old = some (l % 65536)) (h : |P - l| < 32768) :
    moved (P % 65536) s = s.delta + (P - l) := by
  rw [moved, ho]
  simp only
  rw [i16_diff h]

theorem smooth_last (h : List ℤ) (l P : ℤ) (t : List ℤ) (hl : h.getLast? = some l)
    (hs : Spec.Smooth (h ++ P :: t)) : |P - l| < 32768 := by
  induction h with
  | nil => simp at hl
  | cons a h ih =>
    cases h with
    | nil =>
      simp at hl; subst hl
      exact hs.1
    | cons b h =>
      refine ih ?_ hs.2
      rw [← hl]; simp [List.getLast?_cons_cons]

/-- A turn and back. -/
def Turned (h : List ℤ) : Prop :=
  ∃ p0 p1 p2, [p0, p1, p2].Sublist h ∧ 65536 < |p1 - p0| ∧ 65536 < |p2 - p1|

theorem report_out (t p : ℤ) (s : State) :
    Out.done ∉ (report A t p s).2 ∧ Out.doneI ∉ (report A t p s).2 := by
  unfold report drive; cases h : s.mode <;> simp <;> split <;> simp

theorem tick_inv {s : State} {h : List ℤ} (I : Inv s h) (t P : ℤ)
    (hs : ∀ l, h.getLast? = some l → |P - l| < 32768) :
    Inv (tick A false t (P % 65536) s).1 (h ++ [P]) ∧
    ((Out.done ∈ (tick A false t (P % 65536) s).2 ∨ Out.doneI ∈ (tick A false t (P % 65536) s).2) →
      Turned (h ++ [P])) := by
  by_cases hm : s.mode = .none
  · rw [tick_none hm]
    refine ⟨⟨fun h => ?_, fun h => ?_⟩, by simp⟩ <;> rw [hm] at h <;> simp at h
  -- what is known once the movement was added
  have hup : (s.mode = .up ∨ s.mode = .currentUp) →
      ∃ p0, (p0 ∈ h ∨ p0 = P) ∧ moved (P % 65536) s = P - p0 := by
    intro hu
    rcases I.up hu with ⟨h1, h2, h3⟩ | ⟨p0, l, h1, h2, h3, h4⟩
    · exact ⟨P, Or.inr rfl, by simp [moved, h2, h3]⟩
    · refine ⟨p0, Or.inl h1, ?_⟩
      rw [moved_some h3 (hs l h2), h4]; ring
  have hdown : (s.mode = .down ∨ s.mode = .currentDown) →
      ∃ p0 p1, [p0, p1].Sublist h ∧ 65536 < |p1 - p0| ∧ moved (P % 65536) s = P - p1 := by
    intro hu
    obtain ⟨p0, p1, l, h1, h2, h3, h4, h5⟩ := I.down hu
    refine ⟨p0, p1, h1, h2, ?_⟩
    rw [moved_some h4 (hs l h3), h5]; ring
  unfold tick
  rw [if_neg hm]
  simp only [Bool.false_eq_true, if_false]
  generalize moved (P % 65536) s = d at hup hdown ⊢
  -- states that keep the mode
  have keep : ∀ s' : State, s'.mode = s.mode → s'.old = some (P % 65536) → s'.delta = d →
      Inv s' (h ++ [P]) := by
    intro s' e1 e2 e3
    refine ⟨fun hu => Or.inr ?_, fun hu => ?_⟩
    · rw [e1] at hu
      obtain ⟨p0, h1, h2⟩ := hup hu
      exact ⟨p0, P, by simpa using h1, by simp, e2, by rw [e3, h2]⟩
    · rw [e1] at hu
      obtain ⟨p0, p1, h1, h2, h3⟩ := hdown hu
      exact ⟨p0, p1, P, h1.trans (List.sublist_append_left _ _), h2, by simp, e2, by rw [e3, h3]⟩
  have ended : ∀ s' : State, s'.mode = .none → Inv s' (h ++ [P]) := by
    intro s' e1
    refine ⟨fun h => ?_, fun h => ?_⟩ <;> rw [e1] at h <;> simp at h
  have turn : ∀ s' : State, (s.mode = .up ∨ s.mode = .currentUp) → 65536 < |d| →
      s'.mode ≠ .up → s'.mode ≠ .currentUp → s'.old = some (P % 65536) → s'.delta = 0 →
      Inv s' (h ++ [P]) := by
    intro s' hu hc n1 n2 e2 e3
    refine ⟨fun hx => absurd hx (by simp [n1, n2]), fun _ => ?_⟩
    obtain ⟨p0, h1, h2⟩ := hup hu
    rcases h1 with h1 | h1
    · refine ⟨p0, P, P, ?_, by rw [← h2]; exact hc, by simp, e2, by rw [e3]; ring⟩
      exact List.Sublist.append (List.singleton_sublist.mpr h1) (List.Sublist.refl [P])
    · rw [h2, h1] at hc; simp at hc
  have back : (s.mode = .down ∨ s.mode = .currentDown) → 65536 < |d| → Turned (h ++ [P]) := by
    intro hu hc
    obtain ⟨p0, p1, h1, h2, h3⟩ := hdown hu
    exact ⟨p0, p1, P, List.Sublist.append h1 (List.Sublist.refl [P]), h2, by rw [← h3]; exact hc⟩
  split
  · split
    · exact ⟨keep _ rfl rfl rfl, by simp⟩
    · exact ⟨ended _ rfl, by simp⟩
  split
  · rename_i hc
    split
    · rename_i hmm
      refine ⟨turn _ (Or.inl hmm) hc ?_ ?_ ?_ ?_, fun hd => ?_⟩
      · simp [report_fields]
      · simp [report_fields]
      · simp [report_fields]
      · simp [report_fields]
      · exact absurd hd (by simp [report_out])
    · rename_i hmm
      refine ⟨turn _ (Or.inr hmm) hc ?_ ?_ ?_ ?_, fun hd => ?_⟩
      · simp [report_fields]
      · simp [report_fields]
      · simp [report_fields]
      · simp [report_fields]
      · exact absurd hd (by simp [report_out])
    · rename_i hmm
      split
      · exact ⟨keep _ rfl rfl rfl, by simp⟩
      · exact ⟨ended _ rfl, fun _ => back (Or.inl hmm) hc⟩
    · rename_i hmm
      split
      · exact ⟨keep _ rfl rfl rfl, by simp⟩
      · exact ⟨ended _ rfl, fun _ => back (Or.inr hmm) hc⟩
    · rename_i hmm; exact absurd hmm hm
  · refine ⟨keep _ (by simp [report_fields]) (by simp [report_fields]) (by simp [report_fields]),
      fun hd => ?_⟩
    exact absurd hd (by simp [report_out])

theorem run_turned (es : List Spec.Seen) {s : State} {h : List ℤ} (I : Inv s h)
    (hs : Spec.Smooth (h ++ Spec.positions es))
    (hd : Out.done ∈ (run A s (es.map Spec.seen)).2 ∨ Out.doneI ∈ (run A s (es.map Spec.seen)).2) :
    Turned (h ++ Spec.positions es) := by
  induction es generalizing s h with
  | nil => simp [run] at hd
  | cons e es ih =>
    cases e with
    | written =>
      refine ih (s := { s with outstanding := false }) ⟨I.up, I.down⟩ hs ?_
      simpa [run, step, Spec.seen] using hd
    | command =>
      refine ih (s := s) I hs ?_
      simpa [run, step, Spec.seen] using hd
    | tick b t P =>
      cases b with
      | true =>
        have h1 : Inv (tick A true t (P % 65536) s).1 h ∧ Out.done ∉ (tick A true t (P % 65536) s).2 ∧
            Out.doneI ∉ (tick A true t (P % 65536) s).2 := by
          unfold tick
          split
          · exact ⟨I, by simp, by simp⟩
          simp only [if_true]
          split
          · exact ⟨I, by simp, by simp⟩
          · refine ⟨⟨fun h => ?_, fun h => ?_⟩, by simp, by simp⟩ <;> simp at h
        refine ih h1.1 hs ?_
        simpa [run, step, Spec.seen, h1.2.1, h1.2.2] using hd
      | false =>
        have hs' : Spec.Smooth (h ++ P :: Spec.positions es) := hs
        have h1 := tick_inv (A := A) I t P (fun l hl => smooth_last h l P _ hl hs')
        have e1 : h ++ P :: Spec.positions es = (h ++ [P]) ++ Spec.positions es := by simp
        show Turned (h ++ P :: Spec.positions es)
        by_cases hx : Out.done ∈ (tick A false t (P % 65536) s).2 ∨
            Out.doneI ∈ (tick A false t (P % 65536) s).2
        · obtain ⟨p0, p1, p2, h2, h3, h4⟩ := h1.2 hx
          rw [e1]
          exact ⟨p0, p1, p2, h2.trans (List.sublist_append_left _ _), h3, h4⟩
        · rw [e1] at hs' ⊢
          refine ih h1.1 hs' ?_
          push Not at hx
          simpa [run, step, Spec.seen, hx.1, hx.2] using hd

/-- "CAL done" or "CALI done" means that the motor was seen to move by more than a turn, and from
where it was then by more than a turn again. -/
theorem C88_done {s : State} (ho : s.old = none) (hz : s.delta = 0)
    (hm : s.mode = .up ∨ s.mode = .currentUp) (es : List Spec.Seen)
    (hs : Spec.Smooth (Spec.positions es))
    (hd : Out.done ∈ (run A s (es.map Spec.seen)).2 ∨ Out.doneI ∈ (run A s (es.map Spec.seen)).2) :
    ∃ p0 p1 p2, [p0, p1, p2].Sublist (Spec.positions es) ∧ 65536 < |p1 - p0| ∧
      65536 < |p2 - p1| := by
  have I : Inv s [] := by
    refine ⟨fun _ => Or.inl ⟨rfl, ho, hz⟩, fun h => ?_⟩
    rcases hm with hm | hm <;> rw [hm] at h <;> simp at h
  exact run_turned es (h := []) I hs hd

theorem drive_line (s : State) (m : Mode) (th p d : ℤ) : Out.line m th p d ∉ (drive A s).2 := by
  unfold drive; cases h : s.mode <;> simp

theorem report_line {t q : ℤ} {s : State} {m : Mode} {th p d : ℤ}
    (h : Out.line m th p d ∈ (report A t q s).2) :
    s.count % 10 = 0 ∧ s.outstanding = false ∧ (report A t q s).1.outstanding = true ∧
    m = s.mode ∧ p = q ∧ d = s.delta ∧ (m = .up ∨ m = .down → th = s.phase) := by
  unfold report at h ⊢
  split at h
  · rename_i hc
    rw [if_pos hc]
    dsimp only at h ⊢
    rcases List.mem_cons.mp h with h | h
    · injection h with h1 h2 h3 h4
      refine ⟨hc.1, hc.2, ?_, h1, h3, h4, ?_⟩
      · unfold drive; cases hm : s.mode <;> simp
      · intro hmm
        rw [h2, reported]
        rcases hmm with hmm | hmm <;> rw [h1] at hmm <;> rw [hmm]
    · exact absurd h (drive_line _ _ _ _ _)
  · exact absurd h (drive_line _ _ _ _ _)

/-- A report is written only at a working tick, every tenth of them, and only when no write is
outstanding; one is then.  It tells the position seen, the half that is under way and the movement
in it, which is at most a turn. -/
theorem C88_report {s : State} {e : Event} {m : Mode} {th p d : ℤ}
    (h : Out.line m th p d ∈ (step A s e).2) :
    (∃ t, e = .tick false t p) ∧ (step A s e).1.count % 10 = 0 ∧ s.outstanding = false ∧
    (step A s e).1.outstanding = true ∧ m = (step A s e).1.mode ∧ m ≠ .none ∧ |d| ≤ 65536 := by
  cases e with
  | written => simp [step] at h
  | command => simp [step] at h
  | tick b t q =>
    simp only [step] at h ⊢
    unfold tick at h ⊢
    by_cases hm : s.mode = .none
    · rw [if_pos hm] at h; simp at h
    rw [if_neg hm] at h ⊢
    cases b with
    | true =>
      simp only [if_true] at h
      split at h <;> simp at h
    | false =>
      simp only [Bool.false_eq_true, if_false] at h ⊢
      split at h
      · split at h <;> simp at h
      rename_i hx
      rw [if_neg hx]
      split at h
      · rename_i hc
        rw [if_pos hc]
        cases hmm : s.mode <;> simp only [hmm] at h ⊢
        · exact absurd hmm hm
        · obtain ⟨h1, h2, h3, h4, h5, h6, -⟩ := report_line h
          subst h5 h6
          exact ⟨⟨t, rfl⟩, by simpa [report_fields] using h1, h2, h3,
            by simpa [report_fields] using h4, by rw [h4]; simp, by simp⟩
        · split at h <;> simp at h
        · obtain ⟨h1, h2, h3, h4, h5, h6, -⟩ := report_line h
          subst h5 h6
          exact ⟨⟨t, rfl⟩, by simpa [report_fields] using h1, h2, h3,
            by simpa [report_fields] using h4, by rw [h4]; simp, by simp⟩
        · split at h <;> simp at h
      · rename_i hc
        rw [if_neg hc]
        obtain ⟨h1, h2, h3, h4, h5, h6, -⟩ := report_line h
        subst h5 h6
        exact ⟨⟨t, rfl⟩, by simpa [report_fields] using h1, h2, h3,
          by simpa [report_fields] using h4, by rw [h4]; exact hm, by simpa using hc⟩

/-- The order of the modes. -/
def rank : Mode → ℕ
  | .up | .currentUp => 0
  | .down | .currentDown => 1
  | .none => 2

theorem step_rank (s : State) (e : Event) : rank s.mode ≤ rank (step A s e).1.mode := by
  cases e with
  | written => exact le_rfl
  | command => exact le_rfl
  | tick b t p =>
    simp only [step]; unfold tick
    split
    · exact le_rfl
    split
    · split
      · exact le_rfl
      · cases s.mode <;> simp [rank]
    dsimp only
    split
    · split
      · exact le_rfl
      · cases s.mode <;> simp [rank]
    split
    · cases hm : s.mode <;> simp only [] <;> (try split) <;> simp [report_fields, rank]
    · rw [(report_fields _ _ _).1]

theorem step_lines (s : State) (e : Event) {o : Out} (h : o ∈ (step A s e).2) :
    (Spec.isUp o → rank (step A s e).1.mode = 0) ∧ (Spec.isDown o → rank (step A s e).1.mode = 1) := by
  cases o <;> simp only [Spec.isUp, Spec.isDown, false_imp_iff, and_self]
  rename_i m th p d
  have h1 := (C88_report h).2.2.2.2.1
  rw [← h1]
  cases m <;> simp [rank]

theorem run_lines (s : State) (es : List Event) {o : Out} (h : o ∈ (run A s es).2)
    (hu : Spec.isUp o) : rank s.mode = 0 := by
  induction es generalizing s with
  | nil => simp [run] at h
  | cons e es ih =>
    simp only [run, List.mem_append] at h
    have h2 := step_rank (A := A) s e
    rcases h with h | h
    · have h1 := (step_lines s e h).1 hu; omega
    · have h1 := ih _ h; omega

theorem step_len (s : State) (e : Event) :
    (step A s e).2.Pairwise (fun a b => Spec.isDown a → ¬ Spec.isUp b) := by
  refine List.Pairwise.imp_of_mem (R := fun _ _ => True) ?_ (List.pairwise_of_forall (by simp))
  intro a b ha hb _ hd hu
  have h1 := (step_lines s e ha).2 hd
  have h2 := (step_lines s e hb).1 hu
  omega

/-- No report of the first half follows one of the second. -/
theorem C88_order (s : State) (es : List Event) :
    (run A s es).2.Pairwise (fun a b => Spec.isDown a → ¬ Spec.isUp b) := by
  induction es generalizing s with
  | nil => simp [run]
  | cons e es ih =>
    simp only [run]
    rw [List.pairwise_append]
    refine ⟨step_len s e, ih _, ?_⟩
    intro a ha b hb hd hu
    have h1 := (step_lines s e ha).2 hd
    have h2 := run_lines _ es hb hu
    omega

theorem labelled_append {p : ℤ} {a b : List Out} (ha : Spec.Labelled p a)
    (hq : ∀ r, a.foldl (fun r o => match o with | .foc q _ => q | _ => r) p = r → Spec.Labelled r b) :
    Spec.Labelled p (a ++ b) := by
  induction a generalizing p with
  | nil => exact hq p rfl
  | cons o a ih =>
    cases o <;> simp only [Spec.Labelled, List.cons_append] at ha ⊢
    case line => exact ⟨ha.1, ih ha.2 hq⟩
    all_goals exact ih ha hq

theorem report_label (t p : ℤ) {q : ℤ} (s : State) (hq : s.phase = q) :
    Spec.Labelled q (report A t p s).2 ∧
    (report A t p s).2.foldl (fun r o => match o with | .foc q _ => q | _ => r) q
      = (report A t p s).1.phase := by
  subst hq
  unfold report drive reported
  cases hm : s.mode <;> simp <;> split <;> simp [Spec.Labelled]

theorem step_label (s : State) (e : Event) : Spec.Labelled s.phase (step A s e).2 ∧
    (step A s e).2.foldl (fun r o => match o with | .foc q _ => q | _ => r) s.phase
      = (step A s e).1.phase := by
  cases e with
  | written => simp [step, Spec.Labelled]
  | command => simp [step, Spec.Labelled]
  | tick b t p =>
    simp only [step]; unfold tick
    split
    · simp [Spec.Labelled]
    split
    · split <;> simp [Spec.Labelled]
    dsimp only
    split
    · split <;> simp [Spec.Labelled]
    split
    · split
      · exact report_label _ _ _ rfl
      · exact report_label _ _ _ rfl
      · split <;> simp [Spec.Labelled]
      · split <;> simp [Spec.Labelled]
      · simp [Spec.Labelled]
    · exact report_label _ _ _ rfl

/-- A report of a calibration by voltage carries the angle of the voltage that is being applied
when the position was read: the one commanded the tick before. -/
theorem C88_angle (s : State) (es : List Event) : Spec.Labelled s.phase (run A s es).2 := by
  induction es generalizing s with
  | nil => simp [run, Spec.Labelled]
  | cons e es ih =>
    simp only [run]
    refine labelled_append (step_label s e).1 ?_
    intro r hr
    rw [(step_label s e).2] at hr
    rw [← hr]
    exact ih _

theorem u16_range (n : ℤ) : 0 ≤ u16 n ∧ u16 n < 65536 := by unfold u16; omega

theorem report_commands {t p : ℤ} {s : State} {o : Out} (h : o ∈ (report A t p s).2) :
    (∀ q v, o = .foc q v → v = s.magnitude ∧ 0 ≤ q ∧ q < 65536 ∧
      ((s.mode = .up ∧ q = u16 (s.phase + stepOf A s.speed)) ∨
       (s.mode = .down ∧ q = u16 (s.phase - stepOf A s.speed)))) ∧
    (∀ w i, o = .current w i → i = s.magnitude ∧
      ((s.mode = .currentUp ∧ w = s.speed) ∨ (s.mode = .currentDown ∧ w = s.speed.neg))) := by
  have hd : ∀ s' : State, s'.mode = s.mode → s'.phase = s.phase → s'.speed = s.speed →
      s'.magnitude = s.magnitude → o ∈ (drive A s').2 →
    (∀ q v, o = .foc q v → v = s.magnitude ∧ 0 ≤ q ∧ q < 65536 ∧
      ((s.mode = .up ∧ q = u16 (s.phase + stepOf A s.speed)) ∨
       (s.mode = .down ∧ q = u16 (s.phase - stepOf A s.speed)))) ∧
    (∀ w i, o = .current w i → i = s.magnitude ∧
      ((s.mode = .currentUp ∧ w = s.speed) ∨ (s.mode = .currentDown ∧ w = s.speed.neg))) := by
    intro s' e1 e2 e3 e4 ho
    unfold drive at ho
    cases hm : s.mode <;> rw [e1, hm] at ho <;> simp only [List.mem_singleton] at ho
    · simp at ho
    · subst ho
      refine ⟨fun q v hq => ?_, by simp⟩
      injection hq with h1 h2
      subst h1 h2
      refine ⟨e4, (u16_range _).1, (u16_range _).2, Or.inl ⟨rfl, by rw [e2, e3]⟩⟩
    · subst ho
      refine ⟨fun q v hq => ?_, by simp⟩
      injection hq with h1 h2
      subst h1 h2
      refine ⟨e4, (u16_range _).1, (u16_range _).2, Or.inr ⟨rfl, by rw [e2, e3]⟩⟩
    · subst ho
      refine ⟨by simp, fun q v hq => ?_⟩
      injection hq with h1 h2
      subst h1 h2
      exact ⟨e4, Or.inl ⟨rfl, e3⟩⟩
    · subst ho
      refine ⟨by simp, fun q v hq => ?_⟩
      injection hq with h1 h2
      subst h1 h2
      exact ⟨e4, Or.inr ⟨rfl, by rw [e3]⟩⟩
  unfold report at h
  split at h
  · dsimp only at h
    rcases List.mem_cons.mp h with h | h
    · subst h; simp
    · exact hd { s with outstanding := true } rfl rfl rfl rfl h
  · exact hd _ rfl rfl rfl rfl h

/-- The voltage commanded is the one given with the command, at an angle that moves on by one
step per tick, up in the first half and down in the second; in the calibration by current the
current and the velocity are the ones given, the velocity negated in the second half. -/
theorem C88_commands {s : State} {e : Event} {o : Out} (h : o ∈ (step A s e).2) :
    (∀ q v, o = .foc q v → v = s.magnitude ∧ 0 ≤ q ∧ q < 65536 ∧
      (((step A s e).1.mode = .up ∧ q = (s.phase + stepOf A s.speed) % 65536) ∨
       ((step A s e).1.mode = .down ∧ q = (s.phase - stepOf A s.speed) % 65536))) ∧
    (∀ w i, o = .current w i → i = s.magnitude ∧
      (((step A s e).1.mode = .currentUp ∧ w = s.speed) ∨
       ((step A s e).1.mode = .currentDown ∧ w = s.speed.neg))) := by
  cases e with
  | written => simp [step] at h
  | command => simp [step] at h
  | tick b t q =>
    simp only [step] at h ⊢
    unfold tick at h ⊢
    by_cases hm : s.mode = .none
    · rw [if_pos hm] at h; simp at h
    rw [if_neg hm] at h ⊢
    cases b with
    | true =>
      simp only [if_true] at h
      split at h <;> simp at h
      subst h; simp
    | false =>
      simp only [Bool.false_eq_true, if_false] at h ⊢
      split at h
      · split at h <;> simp at h
        rcases h with h | h <;> subst h <;> simp
      rename_i hx
      rw [if_neg hx]
      split at h
      · rename_i hc
        rw [if_pos hc]
        cases hmm : s.mode <;> simp only [hmm] at h ⊢
        · simp at h
        · have := report_commands h
          simpa only [(report_fields _ _ _).1, u16] using this
        · split at h <;> simp at h
          rcases h with h | h <;> subst h <;> simp
        · have := report_commands h
          simpa only [(report_fields _ _ _).1, u16] using this
        · split at h <;> simp at h
          rcases h with h | h <;> subst h <;> simp
      · rename_i hc
        rw [if_neg hc]
        have := report_commands h
        simpa only [(report_fields _ _ _).1, u16] using this

theorem int_len {n : ℤ} {k : ℕ} (hk : 0 < k) (h : |n| < 10 ^ k) : (toString n).length ≤ k + 1 := by
  cases n with
  | ofNat m =>
    have h1 : toString (Int.ofNat m) = m.repr := rfl
    rw [h1]
    have h2 := (Nat.length_repr_le_iff (n := m) hk).mpr (by
      have : |((m : ℕ) : ℤ)| < 10 ^ k := h
      rw [abs_of_nonneg (by positivity)] at this
      exact_mod_cast this)
    omega
  | negSucc m =>
    have h1 : toString (Int.negSucc m) = "-" ++ (m + 1).repr := rfl
    rw [h1, String.length_append]
    have h2 := (Nat.length_repr_le_iff (n := m + 1) hk).mpr (by
      rw [Int.negSucc_eq, abs_neg, abs_of_nonneg (by positivity)] at h
      exact_mod_cast h)
    have h3 : "-".length = 1 := rfl
    omega

theorem nat_len {n : ℤ} {k : ℕ} (hk : 0 < k) (h0 : 0 ≤ n) (h : n < 10 ^ k) :
    (toString n).length ≤ k := by
  obtain ⟨m, rfl⟩ := Int.eq_ofNat_of_zero_le h0
  have h1 : toString ((m : ℕ) : ℤ) = m.repr := rfl
  rw [h1]
  exact (Nat.length_repr_le_iff (n := m) hk).mpr (by exact_mod_cast h)

/-- A report fits `out_message_`, with its zero: 64 bytes, while the currents are below 1000 A. -/
theorem C88_fits {m theta p i1 i2 i3 d : ℤ} (hm : 1 ≤ m ∧ m ≤ 4) (ht : 0 ≤ theta ∧ theta < 65536)
    (hp : 0 ≤ p ∧ p < 65536) (h1 : |i1| ≤ 999999) (h2 : |i2| ≤ 999999) (h3 : |i3| ≤ 999999)
    (hd : |d| ≤ 65536) : (lineText m theta p i1 i2 i3 d).length + 1 ≤ 64 := by
  have a1 := nat_len (n := m) (k := 1) (by norm_num) (by omega) (by norm_num; omega)
  have a2 := nat_len (n := theta) (k := 5) (by norm_num) ht.1 (by norm_num; omega)
  have a3 := nat_len (n := p) (k := 5) (by norm_num) hp.1 (by norm_num; omega)
  have a4 := int_len (n := i1) (k := 6) (by norm_num) (by norm_num; omega)
  have a5 := int_len (n := i2) (k := 6) (by norm_num) (by norm_num; omega)
  have a6 := int_len (n := i3) (k := 6) (by norm_num) (by norm_num; omega)
  have a7 := int_len (n := d) (k := 5) (by norm_num) (by norm_num; omega)
  have e1 : " ".length = 1 := rfl
  have e2 : " i1=".length = 4 := rfl
  have e3 : " i2=".length = 4 := rfl
  have e4 : " i3=".length = 4 := rfl
  have e5 : " d=".length = 3 := rfl
  have e6 : "\r\n".length = 2 := rfl
  unfold lineText
  simp only [String.length_append, e1, e2, e3, e4, e5, e6]
  omega

/-! ## What goes wrong -/

/-- At rest. -/
def rest : State := ⟨.none, 0, 0, none, 0, .fin 3, .fin 1, false⟩

/-- `d cal` with a magnitude that is no number replies with an error, but has begun: at the next
tick the voltage of the calibration before is applied. -/
theorem C88_malformed_refuted :
    (startCal none (.fin 1) true rest).2 = [.error] ∧
    (run .single (startCal none (.fin 1) true rest).1 [.tick false 0 0]).2 = [.foc 65 (.fin 3)] := by
  decide +kernel

/-- A command that stops the servo, say by a register, does not end the calibration: the next tick
applies the voltage again. -/
theorem C88_stop_refuted :
    (run .single (startCal (some (.fin 2)) (.fin 1) true rest).1
      [.written, .tick false 0 0, .command, .tick false 0 0]).2 =
      [.foc 65 (.fin 2), .foc 130 (.fin 2)] := by
  decide +kernel

/-- Moving on in one direction is enough: the second half does not look at the direction. -/
theorem C88_direction_refuted : ∃ es : List Spec.Seen,
    Out.done ∈ (run .single (startCal (some (.fin 2)) (.fin 1) true rest).1 (es.map Spec.seen)).2 ∧
    (Spec.positions es).Pairwise (· < ·) :=
  ⟨[.written, .tick false 0 0, .tick false 0 30000, .tick false 0 60000, .tick false 0 90000,
    .tick false 0 120000, .tick false 0 150000, .tick false 0 180000],
    by decide +kernel, by simp [Spec.positions]⟩

/-- With speed zero the calibration of a motor that stands still never ends: the voltage stays. -/
theorem C88_zero_speed_refuted (s : State) (m : Fl) (t p : ℤ) (n : ℕ) :
    (run .single (startCal (some m) (.fin 0) true s).1 (List.replicate n (.tick false t p))).1.mode
      = .up := by
  have hstep : ∀ s : State, s.mode = .up ∧ s.speed = .fin 0 ∧ (s.old = none ∨ s.old = some p) ∧
      s.delta = 0 → (tick .single false t p s).1.mode = .up ∧
      (tick .single false t p s).1.speed = .fin 0 ∧
      ((tick .single false t p s).1.old = none ∨ (tick .single false t p s).1.old = some p) ∧
      (tick .single false t p s).1.delta = 0 := by
    rintro s ⟨h1, h2, h3, h4⟩
    have hd : moved p s = 0 := by
      rcases h3 with h3 | h3 <;> simp [moved, h3, h4, i16]
    have hT : maxTime .single (.fin 0) = .inf false := by decide +kernel
    have hb : ∀ c : ℤ, (Fl.inf false).blt (Ar.single.lit c) = false := by
      intro c
      rcases Ar.single.lit (c : ℚ) with _ | ⟨_ | _⟩ | _ <;> rfl
    unfold tick
    simp [h1, h2, hd, hT, hb, report_fields]
  have hrun : ∀ s : State, s.mode = .up ∧ s.speed = .fin 0 ∧ (s.old = none ∨ s.old = some p) ∧
      s.delta = 0 → (run .single s (List.replicate n (.tick false t p))).1.mode = .up := by
    induction n with
    | zero => intro s h; exact h.1
    | succ n ih =>
      intro s h
      simp only [List.replicate_succ, run, step]
      exact ih _ (hstep s h)
  exact hrun _ (by simp [startCal])

/-! ## Examples -/

example : maxTime .single (.fin 1) = .fin 200000 ∧ stepOf .single (.fin 1) = 65 := by decide +kernel

/-- There and back: the hypotheses of `C88_done`. -/
def thereAndBack : List Spec.Seen :=
  [.written, .tick false 0 10, .tick false 0 30000, .tick false 0 60000, .tick false 0 90000,
   .tick false 0 60000, .tick false 0 30000, .tick false 0 0]

example : Out.done ∈ (run .single (startCal (some (.fin 2)) (.fin 1) true rest).1
    (thereAndBack.map Spec.seen)).2 ∧ Spec.Smooth (Spec.positions thereAndBack) := by
  refine ⟨by decide +kernel, ?_⟩
  simp [thereAndBack, Spec.positions, Spec.Smooth]

/-- A run that fails by its time, with the hypotheses of `C88_timeout`: 100000 per second. -/
example : (startCal (some (.fin 2)) (.fin 100000) true rest).1.count = 0 ∧
    maxTime .single (.fin 100000) = .fin 2 ∧
    (run .single (startCal (some (.fin 2)) (.fin 100000) true rest).1
      [.tick false 0 0, .tick false 0 0, .written, .tick false 0 0]).2 =
      [.foc 0 (.fin 2), .foc 0 (.fin 2), .timeout, .stop] := by
  decide +kernel

/-- The tenth tick reports, if the text before was written. -/
example : (run .single (startCal (some (.fin 2)) (.fin 1) true rest).1
    (.written :: List.replicate 10 (.tick false 0 7))).2.drop 9 =
      [.line .up 585 7 0, .foc 650 (.fin 2)] := by
  decide +kernel

/-- The calibration by current. -/
example : (run .single (startCali (.fin 2) (.fin 1) true rest).1
    (.written :: List.replicate 10 (.tick false 70000 7))).2.drop 9 =
      [.line .currentUp 4464 7 0, .current (.fin 1) (.fin 2)] := by
  decide +kernel

example : (step .single (startCal (some (.fin 2)) (.fin 1) true rest).1 .written).1.mode ≠ .none ∧
    (run .single (startCal (some (.fin 2)) (.fin 1) true rest).1
      [.written, .tick true 0 0]) = (⟨.none, 0, 0, none, 0, .fin 2, .fin 1, false⟩, [.fault]) := by
  decide +kernel

example : lineText 1 65000 65535 (-999999) (-999999) (-999999) (-65536) =
    "1 65000 65535 i1=-999999 i2=-999999 i3=-999999 d=-65536\r\n" := by decide +kernel

end Verif.Fw.Cal
