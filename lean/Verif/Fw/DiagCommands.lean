import Mathlib.Data.List.Basic
import Mathlib.Data.Int.Basic
import Mathlib.Tactic.SplitIfs

/-!
# Commands to the servo on the diagnostic channel: `d pos`, `d dq`, … (C114)

`HandleCommand` of fw/board_debug.cc with `ParseOptions` and `Strtof` (fw/strtof.h).

Assumed of mjlib: `Tokenizer::next` returns the text up to the next space, or a null view at the end of the
message; the text of a view is followed in memory by the rest of the message and by what is behind it
(`after`, the end of the line first).  Assumed of `strtof`: it passes over white space, then converts as
`conv` says, and returns 0 and the start if there is no number.  Numbers are of any type.

Not here: `d cal` and `d cali` (C88), `d hstart` and `d hend` (C97), `d cfg-set-output`, `d led`, and the commands that
stop the firmware.  What the servo does with a command is the matter of other properties.
-/

namespace Verif.Fw.DiagCommands

variable {α : Type}

/-! ## Model -/

/-- The constants, `value != 0.0f`, and `static_cast<int>`. -/
structure Consts (α : Type) where
  zero : α
  one : α
  hundred : α
  nan : α
  nonzero : α → Bool
  toInt : α → ℤ

inductive Mode
  | stopped | pwm | voltage | voltageFoc | voltageDq | current | position | positionTimeout | zeroVelocity
  | stayWithin | measureInductance | brake
  deriving DecidableEq

/-- `BldcServoCommandData` (fw/bldc_servo_structs.h:282-342), without the fields not set by callers. -/
structure Cmd (α : Type) where
  mode : Mode
  pwm : α × α × α
  phaseV : α × α × α
  theta : α
  voltage : α
  thetaRate : α
  dV : α
  qV : α
  iD : α
  iQ : α
  position : α
  velocity : α
  maxTorque : α
  stop : α
  feedforward : α
  kp : α
  kd : α
  ilimit : α
  velocityLimit : α
  accelLimit : α
  fixedVoltage : α
  fixedCurrent : α
  ignoreBounds : Bool
  timeout : α
  boundsMin : α
  boundsMax : α
  period : ℤ

/-- the defaults of the same structure. -/
def base (k : Consts α) : Cmd α :=
  ⟨.stopped, (k.zero, k.zero, k.zero), (k.zero, k.zero, k.zero), k.zero, k.zero, k.zero, k.zero, k.zero, k.zero, k.zero,
    k.zero, k.zero, k.hundred, k.nan, k.zero, k.one, k.one, k.one, k.nan, k.nan, k.nan, k.nan, false, k.zero, k.zero,
    k.zero, 4⟩

/-- `std::isspace` -/
def isSpace (c : Char) : Bool := c = ' ' || c = '\t' || c = '\n' || c = '\x0b' || c = '\x0c' || c = '\r'

/-- `Strtof` (fw/strtof.h:22-33). -/
def strtof (k : Consts α) (conv : List Char → Option (α × List Char)) (mem : List Char) : Option α :=
  let r := match conv (mem.dropWhile isSpace) with
    | some (v, rest) => (v, rest)
    | none => (k.zero, mem)
  match r.2 with
  | [] => some r.1
  | c :: _ => if isSpace c then some r.1 else none

/-- `Tokenizer::next`: the text and the memory from its start on, and the message that remains. -/
def next (after l : List Char) : Option (List Char × List Char) × List Char :=
  if l = [] then (none, []) else (some (l.takeWhile (· ≠ ' '), l ++ after), (l.dropWhile (· ≠ ' ')).drop 1)

/-- `Strtof(tokenizer.next())` -/
def take (k : Consts α) (conv : List Char → Option (α × List Char)) (after l : List Char) : Option α × List Char :=
  let n := next after l
  (n.1.bind fun p => strtof k conv p.2, n.2)

/-- the `switch` of `ParseOptions` (fw/board_debug.cc:65-113). -/
def setOption (k : Consts α) (o : Char) (v : α) (c : Cmd α) : Option (Cmd α) :=
  match o with
  | 'p' => some { c with kp := v }
  | 'd' => some { c with kd := v }
  | 'i' => some { c with ilimit := v }
  | 's' => some { c with stop := v }
  | 'f' => some { c with feedforward := v }
  | 't' => some { c with timeout := v }
  | 'a' => some { c with accelLimit := v }
  | 'v' => some { c with velocityLimit := v }
  | 'o' => some { c with fixedVoltage := v }
  | 'c' => some { c with fixedCurrent := v }
  | 'b' => some { c with ignoreBounds := k.nonzero v }
  | _ => none

/-- `ParseOptions` (fw/board_debug.cc:48-116): `none` if it returns false. -/
def parseOptions (k : Consts α) (conv : List Char → Option (α × List Char)) (after : List Char) (valid : List Char)
    (l : List Char) (c : Cmd α) : Option (Cmd α) :=
  if h : l = [] then some c
  else
    let rest := (l.dropWhile (· ≠ ' ')).drop 1
    match l.takeWhile (· ≠ ' ') with
    | [] => parseOptions k conv after valid rest c
    | o :: _ =>
      if o ∉ valid then none
      else match strtof k conv ((l ++ after).drop 1) with
        | none => none
        | some v => match setOption k o v c with
          | none => none
          | some c => parseOptions k conv after valid rest c
termination_by l.length
decreasing_by
  all_goals
    have h1 : (l.dropWhile (· ≠ ' ')).length ≤ l.length := (List.dropWhile_suffix _).length_le
    have h2 : 0 < l.length := List.length_pos_iff.2 h
    simp only [List.length_drop]
    omega

inductive Reply
  | ok
  | err (text : String)
  deriving DecidableEq

/-- What the servo is told. -/
inductive Effect (α : Type)
  | command (c : Cmd α)
  | exact (v : α)
  | nearest (v : α)
  | reindex
  | recapture

inductive Kind
  | stop | raw | pwm | v | vdq | dq | pos | tmt | zero | within | ind | brake | exact | nearest | reindex | recapture
  deriving DecidableEq

/-- The words (fw/board_debug.cc:423-860). -/
def words : List (List Char × Kind) :=
  [(['s', 't', 'o', 'p'], .stop), (['r', 'a', 'w'], .raw), (['p', 'w', 'm'], .pwm), (['v'], .v), (['v', 'd', 'q'], .vdq),
   (['d', 'q'], .dq), (['p', 'o', 's'], .pos), (['t', 'm', 't'], .tmt), (['z', 'e', 'r', 'o'], .zero),
   (['w', 'i', 't', 'h', 'i', 'n'], .within), (['i', 'n', 'd'], .ind), (['b', 'r', 'a', 'k', 'e'], .brake),
   (['e', 'x', 'a', 'c', 't'], .exact), (['i', 'n', 'd', 'e', 'x'], .exact),
   (['n', 'e', 'a', 'r', 'e', 's', 't'], .nearest), (['r', 'e', 'z', 'e', 'r', 'o'], .nearest),
   (['r', 'e', 'q', '-', 'r', 'e', 'i', 'n', 'd', 'e', 'x'], .reindex),
   (['r', 'e', 'c', 'a', 'p', 't', 'u', 'r', 'e'], .recapture)]

/-- `static_cast<int8_t>` -/
def int8 (n : ℤ) : ℤ := (n + 128) % 256 - 128

/-- `d pos`, `d tmt`, `d zero` (fw/board_debug.cc:677-715). -/
def motion (k : Consts α) (conv : List Char → Option (α × List Char)) (after : List Char) (mode : Mode) (l : List Char) :
    Reply × List (Effect α) :=
  let a := take k conv after l
  let b := take k conv after a.2
  let d := take k conv after b.2
  match a.1, b.1, d.1 with
  | some p, some v, some t =>
    match parseOptions k conv after ['p', 'd', 'i', 's', 'f', 't', 'a', 'v', 'o', 'c', 'b'] d.2
        { base k with timeout := k.nan } with
    | none => (.err "ERR unknown option", [])
    | some c => (.ok, [.command { c with mode := mode, position := p, velocity := v, maxTorque := t }])
  | _, _, _ => (.err "ERR missing p/v/i", [])

/-- the commands but for their first word. -/
def body (k : Consts α) (conv : List Char → Option (α × List Char)) (after : List Char) (kind : Kind) (l : List Char) :
    Reply × List (Effect α) :=
  let a := take k conv after l
  let b := take k conv after a.2
  let d := take k conv after b.2
  match kind with
  | .stop => (.ok, [.command { base k with mode := .stopped }])
  | .raw => match a.1, b.1, d.1 with
    | some x, some y, some z => (.ok, [.command { base k with mode := .pwm, pwm := (x, y, z) }])
    | _, _, _ => (.err "ERR missing pwm value", [])
  | .pwm => match a.1, b.1 with
    | some x, some y => (.ok, [.command { base k with
        mode := .voltageFoc, theta := x, voltage := y, thetaRate := d.1.getD k.zero }])
    | _, _ => (.err "ERR missing phase or mag", [])
  | .v => match a.1, b.1, d.1 with
    | some x, some y, some z => (.ok, [.command { base k with mode := .voltage, phaseV := (x, y, z) }])
    | _, _, _ => (.err "ERR missing a/b/c voltage", [])
  | .vdq => match a.1, b.1 with
    | some x, some y => (.ok, [.command { base k with mode := .voltageDq, dV := x, qV := y }])
    | _, _ => (.err "ERR missing d/q voltage", [])
  | .dq => match a.1, b.1 with
    | some x, some y => (.ok, [.command { base k with mode := .current, iD := x, iQ := y }])
    | _, _ => (.err "ERR missing d/q current", [])
  | .pos => motion k conv after .position l
  | .tmt => motion k conv after .positionTimeout l
  | .zero => motion k conv after .zeroVelocity l
  | .within => match a.1, b.1, d.1 with
    | some lo, some hi, some t =>
      match parseOptions k conv after ['p', 'd', 'i', 't', 'f', 'b'] d.2 { base k with timeout := k.nan } with
      | none => (.err "ERR unknown option", [])
      | some c => (.ok, [.command { c with mode := .stayWithin, boundsMin := lo, boundsMax := hi, maxTorque := t }])
    | _, _, _ => (.err "ERR missing min/max/t", [])
  | .ind => match a.1, b.1 with
    | some x, some y =>
      if int8 (k.toInt y) ≤ 0 then (.err "ERR period must > 0", [])
      else match parseOptions k conv after ['o', 'b'] b.2 (base k) with
        | none => (.err "ERR unknown option", [])
        | some c => (.ok, [.command { c with mode := .measureInductance, dV := x, period := int8 (k.toInt y) }])
    | _, _ => (.err "ERR missing volt/period", [])
  | .brake => (.ok, [.command { base k with mode := .brake }])
  | .exact => match a.1 with
    | some x => (.ok, [.exact x])
    | none => (.err "ERR missing index value", [])
  | .nearest => (.ok, [.nearest (a.1.getD k.zero)])
  | .reindex => (.ok, [.reindex])
  | .recapture => (.ok, [.recapture])

/-- `HandleCommand` (fw/board_debug.cc:398-860) of a message, that is of what follows `d `; `none` for the words not
modelled. -/
def handle (k : Consts α) (conv : List Char → Option (α × List Char)) (after msg : List Char) :
    Option (Reply × List (Effect α)) :=
  let n := next after msg
  (words.lookup ((n.1.map Prod.fst).getD [])).map fun kind => body k conv after kind n.2

/-! ## Specification -/

namespace Spec

/-- what follows a number ends it. -/
def Ends (m : List Char) : Prop := m = [] ∨ ∃ c t, m = c :: t ∧ isSpace c = true

/-- `x` is a text of the number `v`. -/
def Num (conv : List Char → Option (α × List Char)) (x : List Char) (v : α) : Prop :=
  x ≠ [] ∧ (∀ c ∈ x, isSpace c = false) ∧ ∀ m, Ends m → conv (x ++ m) = some (v, m)

/-- texts with one space in between. -/
def line : List (List Char) → List Char
  | [] => []
  | [t] => t
  | t :: ts => t ++ ' ' :: line ts

/-- the value given last for an option. -/
def given (o : Char) (os : List (Char × α)) : Option α := (os.reverse.find? (fun p => p.1 = o)).map Prod.snd

/-- a command with these options. -/
def withOptions (k : Consts α) (os : List (Char × α)) (c : Cmd α) : Cmd α :=
  { c with
    kp := (given 'p' os).getD c.kp
    kd := (given 'd' os).getD c.kd
    ilimit := (given 'i' os).getD c.ilimit
    stop := (given 's' os).getD c.stop
    feedforward := (given 'f' os).getD c.feedforward
    timeout := (given 't' os).getD c.timeout
    accelLimit := (given 'a' os).getD c.accelLimit
    velocityLimit := (given 'v' os).getD c.velocityLimit
    fixedVoltage := (given 'o' os).getD c.fixedVoltage
    fixedCurrent := (given 'c' os).getD c.fixedCurrent
    ignoreBounds := ((given 'b' os).map k.nonzero).getD c.ignoreBounds }

/-- texts of these options. -/
def Options (conv : List Char → Option (α × List Char)) : List (List Char) → List (Char × α) → Prop
  | [], [] => True
  | t :: ts, o :: os => (∃ x, t = o.1 :: x ∧ isSpace o.1 = false ∧ Num conv x o.2) ∧ Options conv ts os
  | _, _ => False

end Spec

open Spec

/-! ## Proofs -/

section
variable (k : Consts α) (conv : List Char → Option (α × List Char)) {after : List Char}

private theorem line_cons (t : List Char) (ts : List (List Char)) :
    ∃ m, line (t :: ts) = t ++ m ∧ (m = [] ∧ ts = [] ∨ m = ' ' :: line ts) := by
  cases ts with
  | nil => exact ⟨[], by simp [line], .inl ⟨rfl, rfl⟩⟩
  | cons s ts => exact ⟨' ' :: line (s :: ts), by simp [line], .inr rfl⟩

private theorem ends_of {m : List Char} {ts : List (List Char)} (h : m = [] ∧ ts = [] ∨ m = ' ' :: line ts) (ha : Ends after) :
    Ends (m ++ after) := by
  rcases h with ⟨rfl, -⟩ | rfl
  · simpa using ha
  · exact .inr ⟨' ', _, rfl, by decide⟩

private theorem strtof_num {x : List Char} {v : α} (h : Num conv x v) {m : List Char} (hm : Ends m) :
    strtof k conv (x ++ m) = some v := by
  obtain ⟨h1, h2, h3⟩ := h
  have e : (x ++ m).dropWhile isSpace = x ++ m := by
    cases x with
    | nil => exact absurd rfl h1
    | cons c x => simp [h2 c (by simp)]
  unfold strtof
  rw [e, h3 m hm]
  rcases hm with rfl | ⟨c, t, rfl, hc⟩
  · rfl
  · simp [hc]

private theorem split_line {t : List Char} (ht : ∀ c ∈ t, c ≠ ' ') (h0 : t ≠ []) (ts : List (List Char)) :
    (line (t :: ts)).takeWhile (· ≠ ' ') = t ∧ ((line (t :: ts)).dropWhile (· ≠ ' ')).drop 1 = line ts ∧
    line (t :: ts) ≠ [] := by
  obtain ⟨m, e, hm⟩ := line_cons t ts
  rw [e]
  have ht' : ∀ c ∈ t, decide (c ≠ ' ') = true := fun c hc => decide_eq_true (ht c hc)
  rcases hm with ⟨rfl, rfl⟩ | rfl
  · refine ⟨?_, ?_, by simpa using h0⟩
    · rw [List.takeWhile_append_of_pos ht']
      simp
    · rw [List.dropWhile_append_of_pos ht']
      simp [line]
  · refine ⟨?_, ?_, by simp⟩
    · rw [List.takeWhile_append_of_pos ht']
      simp
    · rw [List.dropWhile_append_of_pos ht']
      simp

private theorem noSpace {t : List Char} (h : ∀ c ∈ t, isSpace c = false) : ∀ c ∈ t, c ≠ ' ' := by
  rintro c hc rfl
  exact absurd (h _ hc) (by decide)

private theorem take_line (ha : Ends after) {t : List Char} {v : α} (h : Num conv t v) (ts : List (List Char)) :
    take k conv after (line (t :: ts)) = (some v, line ts) := by
  obtain ⟨s1, s2, s3⟩ := split_line (noSpace h.2.1) h.1 ts
  obtain ⟨m, e, hm⟩ := line_cons t ts
  unfold take next
  rw [if_neg s3]
  simp only [Option.bind_some]
  rw [s2, e, List.append_assoc, strtof_num k conv h (ends_of hm ha)]

private theorem take_nil : take k conv after [] = (none, []) := rfl

private theorem setOption_given (os : List (Char × α)) (o : Char) (v : α) (c : Cmd α)
    (ho : o ∈ ['p', 'd', 'i', 's', 'f', 't', 'a', 'v', 'o', 'c', 'b']) :
    ∃ c', setOption k o v c = some c' ∧ withOptions k os c' = withOptions k ((o, v) :: os) c := by
  have hg : ∀ q, given q ((o, v) :: os) = (given q os).or (if o = q then some v else none) := by
    intro q
    unfold given
    rw [List.reverse_cons, List.find?_append]
    cases List.find? (fun p => decide (p.1 = q)) os.reverse with
    | some p => simp
    | none =>
      by_cases h : o = q <;> simp [h]
  simp only [List.mem_cons, List.not_mem_nil, or_false] at ho
  unfold withOptions
  simp only [hg]
  rcases ho with rfl | rfl | rfl | rfl | rfl | rfl | rfl | rfl | rfl | rfl | rfl <;>
    refine ⟨_, rfl, ?_⟩ <;>
    simp

private theorem withOptions_nil (c : Cmd α) : withOptions k [] c = c := rfl

private theorem parse_step (ha : Ends after) (valid : List Char) {t : List Char} {ts : List (List Char)} {o : Char × α} {x : List Char}
    (hx : t = o.1 :: x) (ho : isSpace o.1 = false) (hn : Num conv x o.2) (c : Cmd α) :
    parseOptions k conv after valid (line (t :: ts)) c =
      (if o.1 ∉ valid then none else (setOption k o.1 o.2 c).bind (parseOptions k conv after valid (line ts))) := by
  have hs : ∀ c ∈ t, c ≠ ' ' := by
    apply noSpace
    intro c hc
    rw [hx] at hc
    rcases List.mem_cons.1 hc with rfl | hc
    · exact ho
    · exact hn.2.1 c hc
  obtain ⟨s1, s2, s3⟩ := split_line hs (by rw [hx]; simp) ts
  obtain ⟨m, e, hm⟩ := line_cons t ts
  have hd : (line (t :: ts) ++ after).drop 1 = x ++ (m ++ after) := by
    rw [e, hx]
    simp
  rw [parseOptions.eq_def, dif_neg s3]
  simp only [s1, s2, hd, strtof_num k conv hn (ends_of hm ha)]
  rw [hx]
  by_cases hv : o.1 ∈ valid
  · simp only [hv, not_true, if_false]
    cases setOption k o.1 o.2 c <;> rfl
  · simp only [hv, not_false_iff, if_true]

private theorem parse_nil (valid : List Char) (c : Cmd α) : parseOptions k conv after valid [] c = some c := by
  rw [parseOptions.eq_def]
  simp

private theorem parse_good (ha : Ends after) (valid : List Char)
    (hv : valid ⊆ ['p', 'd', 'i', 's', 'f', 't', 'a', 'v', 'o', 'c', 'b']) :
    ∀ (ts : List (List Char)) (os : List (Char × α)), Options conv ts os → ∀ c : Cmd α,
    parseOptions k conv after valid (line ts) c =
      if (∀ o ∈ os, o.1 ∈ valid) then some (withOptions k os c) else none
  | [], [], _, c => by
    simp [line, parse_nil, withOptions_nil]
  | t :: ts, o :: os, h, c => by
    obtain ⟨⟨x, hx, ho, hn⟩, h⟩ := h
    rw [parse_step k conv ha valid hx ho hn]
    by_cases hm : o.1 ∈ valid
    · obtain ⟨c', e1, e2⟩ := setOption_given k os o.1 o.2 c (hv hm)
      rw [if_neg (by simpa using hm), e1, Option.bind_some, parse_good ha valid hv ts os h c', e2]
      by_cases ha : ∀ o ∈ os, o.1 ∈ valid
      · rw [if_pos ha, if_pos]
        intro p hp
        rcases List.mem_cons.1 hp with rfl | hp
        · exact hm
        · exact ha p hp
      · rw [if_neg ha, if_neg]
        exact fun h => ha fun p hp => h p (by simp [hp])
    · rw [if_pos hm, if_neg]
      exact fun h => hm (h o (by simp))
  | [], _ :: _, h, _ => h.elim
  | _ :: _, [], h, _ => h.elim

private theorem handle_line {w : List Char} {kind : Kind} (hw : (w, kind) ∈ words) (ts : List (List Char)) :
    handle k conv after (line (w :: ts)) = some (body k conv after kind (line ts)) := by
  have hall : ∀ p ∈ words, (∀ c ∈ p.1, c ≠ ' ') ∧ p.1 ≠ [] ∧ words.lookup p.1 = some p.2 := by decide +kernel
  obtain ⟨h1, h2, h3⟩ := hall _ hw
  obtain ⟨s1, s2, s3⟩ := split_line h1 h2 ts
  unfold handle next
  rw [if_neg s3]
  simp only [Option.map_some, Option.getD_some]
  rw [s1, s2]
  simp only at h3
  rw [h3]
  rfl

/-- **C114, the modes with values.** Every well-formed command has exactly the meaning that is documented. -/
theorem C114_values (ha : Ends after) {t1 t2 t3 : List Char} {x y z : α} (h1 : Num conv t1 x) (h2 : Num conv t2 y)
    (h3 : Num conv t3 z) :
    handle k conv after (line [['s', 't', 'o', 'p']]) = some (.ok, [.command { base k with mode := .stopped }]) ∧
    handle k conv after (line [['b', 'r', 'a', 'k', 'e']]) = some (.ok, [.command { base k with mode := .brake }]) ∧
    handle k conv after (line [['r', 'a', 'w'], t1, t2, t3]) =
      some (.ok, [.command { base k with mode := .pwm, pwm := (x, y, z) }]) ∧
    handle k conv after (line [['p', 'w', 'm'], t1, t2]) =
      some (.ok, [.command { base k with mode := .voltageFoc, theta := x, voltage := y }]) ∧
    handle k conv after (line [['p', 'w', 'm'], t1, t2, t3]) =
      some (.ok, [.command { base k with mode := .voltageFoc, theta := x, voltage := y, thetaRate := z }]) ∧
    handle k conv after (line [['v'], t1, t2, t3]) =
      some (.ok, [.command { base k with mode := .voltage, phaseV := (x, y, z) }]) ∧
    handle k conv after (line [['v', 'd', 'q'], t1, t2]) =
      some (.ok, [.command { base k with mode := .voltageDq, dV := x, qV := y }]) ∧
    handle k conv after (line [['d', 'q'], t1, t2]) =
      some (.ok, [.command { base k with mode := .current, iD := x, iQ := y }]) ∧
    handle k conv after (line [['e', 'x', 'a', 'c', 't'], t1]) = some (.ok, [.exact x]) ∧
    handle k conv after (line [['n', 'e', 'a', 'r', 'e', 's', 't'], t1]) = some (.ok, [.nearest x]) ∧
    handle k conv after (line [['r', 'e', 'q', '-', 'r', 'e', 'i', 'n', 'd', 'e', 'x']]) = some (.ok, [.reindex]) ∧
    handle k conv after (line [['r', 'e', 'c', 'a', 'p', 't', 'u', 'r', 'e']]) = some (.ok, [.recapture]) := by
  have n : line [] = [] := rfl
  refine ⟨?_, ?_, ?_, ?_, ?_, ?_, ?_, ?_, ?_, ?_, ?_, ?_⟩
  · rw [handle_line k conv (kind := .stop) (by decide)]; rfl
  · rw [handle_line k conv (kind := .brake) (by decide)]; rfl
  · rw [handle_line k conv (kind := .raw) (by decide)]
    simp only [body, take_line k conv ha h1, take_line k conv ha h2, take_line k conv ha h3]
  · rw [handle_line k conv (kind := .pwm) (by decide)]
    simp only [body, take_line k conv ha h1, take_line k conv ha h2, n, take_nil]
    rfl
  · rw [handle_line k conv (kind := .pwm) (by decide)]
    simp only [body, take_line k conv ha h1, take_line k conv ha h2, take_line k conv ha h3]
    rfl
  · rw [handle_line k conv (kind := .v) (by decide)]
    simp only [body, take_line k conv ha h1, take_line k conv ha h2, take_line k conv ha h3]
  · rw [handle_line k conv (kind := .vdq) (by decide)]
    simp only [body, take_line k conv ha h1, take_line k conv ha h2]
  · rw [handle_line k conv (kind := .dq) (by decide)]
    simp only [body, take_line k conv ha h1, take_line k conv ha h2]
  · rw [handle_line k conv (kind := .exact) (by decide)]
    simp only [body, take_line k conv ha h1]
  · rw [handle_line k conv (kind := .nearest) (by decide)]
    simp only [body, take_line k conv ha h1]
    rfl
  · rw [handle_line k conv (kind := .reindex) (by decide)]; rfl
  · rw [handle_line k conv (kind := .recapture) (by decide)]; rfl

/-- **C114, old words.** `d index` and `d rezero` are the same as `d exact` and `d nearest`. -/
theorem C114_old_words (ts : List (List Char)) :
    handle k conv after (line (['i', 'n', 'd', 'e', 'x'] :: ts)) = handle k conv after (line (['e', 'x', 'a', 'c', 't'] :: ts)) ∧
    handle k conv after (line (['r', 'e', 'z', 'e', 'r', 'o'] :: ts)) =
      handle k conv after (line (['n', 'e', 'a', 'r', 'e', 's', 't'] :: ts)) := by
  constructor
  · rw [handle_line k conv (kind := .exact) (by decide), handle_line k conv (kind := .exact) (by decide)]
  · rw [handle_line k conv (kind := .nearest) (by decide), handle_line k conv (kind := .nearest) (by decide)]

/-- **C114, motion.** `d pos`, `d tmt` and `d zero` command position, velocity and torque, without a timeout unless one is
given; each option has its documented meaning, the last one of a letter counts, and with any other letter the command is refused. -/
theorem C114_motion (ha : Ends after) {t1 t2 t3 : List Char} {x y z : α} (h1 : Num conv t1 x) (h2 : Num conv t2 y)
    (h3 : Num conv t3 z) {ts : List (List Char)} {os : List (Char × α)} (ho : Options conv ts os) :
    ∀ w mode, (w, mode) ∈ [(['p', 'o', 's'], Mode.position), (['t', 'm', 't'], .positionTimeout),
      (['z', 'e', 'r', 'o'], .zeroVelocity)] →
    handle k conv after (line (w :: t1 :: t2 :: t3 :: ts)) = some
      (if ∀ o ∈ os, o.1 ∈ ['p', 'd', 'i', 's', 'f', 't', 'v', 'a', 'o', 'c', 'b'] then
        (.ok, [.command (withOptions k os { base k with
          mode := mode, position := x, velocity := y, maxTorque := z, timeout := k.nan })])
      else (.err "ERR unknown option", [])) := by
  have key : ∀ mode, motion k conv after mode (line (t1 :: t2 :: t3 :: ts)) =
      (if ∀ o ∈ os, o.1 ∈ ['p', 'd', 'i', 's', 'f', 't', 'v', 'a', 'o', 'c', 'b'] then
        (.ok, [.command (withOptions k os { base k with
          mode := mode, position := x, velocity := y, maxTorque := z, timeout := k.nan })])
      else (.err "ERR unknown option", [])) := by
    intro mode
    have hc : (∀ o ∈ os, o.1 ∈ ['p', 'd', 'i', 's', 'f', 't', 'v', 'a', 'o', 'c', 'b']) ↔
        (∀ o ∈ os, o.1 ∈ ['p', 'd', 'i', 's', 'f', 't', 'a', 'v', 'o', 'c', 'b']) := by
      refine forall₂_congr fun o _ => ?_
      simp only [List.mem_cons]
      tauto
    simp only [motion, take_line k conv ha h1, take_line k conv ha h2, take_line k conv ha h3,
      parse_good k conv ha _ (List.Subset.refl _) ts os ho, hc]
    by_cases h : ∀ o ∈ os, o.1 ∈ ['p', 'd', 'i', 's', 'f', 't', 'a', 'v', 'o', 'c', 'b']
    · rw [if_pos h, if_pos h]
      rfl
    · rw [if_neg h, if_neg h]
  intro w mode hw
  simp only [List.mem_cons, Prod.mk.injEq, List.not_mem_nil, or_false] at hw
  rcases hw with ⟨rfl, rfl⟩ | ⟨rfl, rfl⟩ | ⟨rfl, rfl⟩
  · rw [handle_line k conv (kind := .pos) (by decide)]
    exact congrArg some (key _)
  · rw [handle_line k conv (kind := .tmt) (by decide)]
    exact congrArg some (key _)
  · rw [handle_line k conv (kind := .zero) (by decide)]
    exact congrArg some (key _)

/-- **C114, defaults.** Without options `d pos` has the scales 1, no feedforward, no stop position, the configured limits, no
override, the configured bounds and no timeout. -/
theorem C114_defaults (ha : Ends after) {t1 t2 t3 : List Char} {x y z : α} (h1 : Num conv t1 x) (h2 : Num conv t2 y)
    (h3 : Num conv t3 z) :
    ∃ c, handle k conv after (line [['p', 'o', 's'], t1, t2, t3]) = some (.ok, [.command c]) ∧
      [c.kp, c.kd, c.ilimit] = [k.one, k.one, k.one] ∧ [c.feedforward, c.boundsMin, c.boundsMax] = [k.zero, k.zero, k.zero] ∧
      [c.stop, c.velocityLimit, c.accelLimit, c.fixedVoltage, c.fixedCurrent, c.timeout] =
        [k.nan, k.nan, k.nan, k.nan, k.nan, k.nan] ∧
      c.ignoreBounds = false ∧ c.mode = .position ∧ [c.position, c.velocity, c.maxTorque] = [x, y, z] := by
  have h := C114_motion k conv ha h1 h2 h3 (ts := []) (os := []) trivial ['p', 'o', 's'] .position (by simp)
  rw [if_pos (by simp)] at h
  exact ⟨_, h, rfl, rfl, rfl, rfl, rfl, rfl⟩

/-- **C114, `d within`** likewise, with the options p d i t f b. -/
theorem C114_within_partial (ha : Ends after) {t1 t2 t3 : List Char} {x y z : α} (h1 : Num conv t1 x) (h2 : Num conv t2 y)
    (h3 : Num conv t3 z) {ts : List (List Char)} {os : List (Char × α)} (ho : Options conv ts os) :
    handle k conv after (line (['w', 'i', 't', 'h', 'i', 'n'] :: t1 :: t2 :: t3 :: ts)) = some
      (if ∀ o ∈ os, o.1 ∈ ['p', 'd', 'i', 't', 'f', 'b'] then
        (.ok, [.command (withOptions k os { base k with
          mode := .stayWithin, boundsMin := x, boundsMax := y, maxTorque := z, timeout := k.nan })])
      else (.err "ERR unknown option", [])) := by
  rw [handle_line k conv (kind := .within) (by decide)]
  simp only [body, take_line k conv ha h1, take_line k conv ha h2, take_line k conv ha h3,
    parse_good k conv ha ['p', 'd', 'i', 't', 'f', 'b'] (by decide) ts os ho]
  by_cases h : ∀ o ∈ os, o.1 ∈ ['p', 'd', 'i', 't', 'f', 'b']
  · rw [if_pos h, if_pos h]
    rfl
  · rw [if_neg h, if_neg h]

/-- **C114, `d ind`** measures with a period of 1 to 127. -/
theorem C114_ind_partial (ha : Ends after) {t1 t2 : List Char} {x y : α} (h1 : Num conv t1 x) (h2 : Num conv t2 y)
    (hp : 0 < k.toInt y ∧ k.toInt y ≤ 127) :
    handle k conv after (line [['i', 'n', 'd'], t1, t2]) =
      some (.ok, [.command { base k with mode := .measureInductance, dV := x, period := k.toInt y }]) := by
  have e : int8 (k.toInt y) = k.toInt y := by
    unfold int8
    omega
  rw [handle_line k conv (kind := .ind) (by decide)]
  have n : line [] = [] := rfl
  simp only [body, take_line k conv ha h1, take_line k conv ha h2, n, parse_nil, e]
  rw [if_neg (by omega)]

/-- **C114, missing values.** With too few of them a command is refused. -/
theorem C114_missing (ha : Ends after) {t1 t2 : List Char} {x y : α} (h1 : Num conv t1 x) (h2 : Num conv t2 y) :
    (∀ w kind, (w, kind) ∈ words → kind ∈ [Kind.raw, .v, .pos, .tmt, .zero, .within] → ∀ l ∈ [[], [t1], [t1, t2]],
      ∃ e, handle k conv after (line (w :: l)) = some (.err e, [])) ∧
    (∀ w kind, (w, kind) ∈ words → kind ∈ [Kind.pwm, .vdq, .dq, .ind] → ∀ l ∈ [[], [t1]],
      ∃ e, handle k conv after (line (w :: l)) = some (.err e, [])) ∧
    (∀ w, (w, Kind.exact) ∈ words → ∃ e, handle k conv after (line [w]) = some (.err e, [])) := by
  have n : line [] = [] := rfl
  refine ⟨?_, ?_, ?_⟩
  · intro w kind hw hk l hl
    rw [handle_line k conv hw]
    simp only [List.mem_cons, List.not_mem_nil, or_false] at hk hl
    rcases hk with rfl | rfl | rfl | rfl | rfl | rfl <;> rcases hl with rfl | rfl | rfl <;>
      simp only [body, motion, take_line k conv ha h1, take_line k conv ha h2, n, take_nil] <;> exact ⟨_, rfl⟩
  · intro w kind hw hk l hl
    rw [handle_line k conv hw]
    simp only [List.mem_cons, List.not_mem_nil, or_false] at hk hl
    rcases hk with rfl | rfl | rfl | rfl <;> rcases hl with rfl | rfl <;>
      simp only [body, take_line k conv ha h1, n, take_nil] <;> exact ⟨_, rfl⟩
  · intro w hw
    rw [handle_line k conv hw]
    simp only [body, n, take_nil]
    exact ⟨_, rfl⟩

/-- **C114, refused commands** have no effect, accepted ones exactly one, whatever the text is. -/
theorem C114_refused (msg : List Char) (r : Reply) (es : List (Effect α)) (h : handle k conv after msg = some (r, es)) :
    (r = .ok → es.length = 1) ∧ (r ≠ .ok → es = []) := by
  have key : ∀ kind l, ((body k conv after kind l).1 = .ok → (body k conv after kind l).2.length = 1) ∧
      ((body k conv after kind l).1 ≠ .ok → (body k conv after kind l).2 = []) := by
    intro kind l
    cases kind <;> simp only [body, motion] <;> repeat' split
    all_goals simp
  unfold handle at h
  obtain ⟨kind, -, h⟩ := Option.map_eq_some_iff.1 h
  have := key kind (next after msg).2
  rw [h] at this
  exact this

end

/-! ## A reader of numbers, to show that the hypotheses can be met -/

/-- digits only. -/
def digits (l : List Char) : Option (ℤ × List Char) :=
  if l.takeWhile Char.isDigit = [] then none
  else some (((l.takeWhile Char.isDigit).foldl (fun n c => 10 * n + (c.toNat - 48 : ℕ)) 0 : ℕ), l.dropWhile Char.isDigit)

def ints : Consts ℤ := ⟨0, 1, 100, -1, fun n => decide (n ≠ 0), id⟩

private theorem digits_num {x : List Char} (h0 : x ≠ []) (h : ∀ c ∈ x, c.isDigit = true ∧ isSpace c = false) :
    Num digits x ((x.foldl (fun n c => 10 * n + (c.toNat - 48 : ℕ)) 0 : ℕ) : ℤ) := by
  refine ⟨h0, fun c hc => (h c hc).2, ?_⟩
  intro m hm
  have hd : ∀ c ∈ x, c.isDigit = true := fun c hc => (h c hc).1
  have hs : ∀ c, isSpace c = true → c.isDigit = false := by
    intro c hc
    simp only [isSpace, Bool.or_eq_true, decide_eq_true_eq] at hc
    rcases hc with ((((rfl | rfl) | rfl) | rfl) | rfl) | rfl <;> decide
  have h1 : (x ++ m).takeWhile Char.isDigit = x := by
    rw [List.takeWhile_append_of_pos hd]
    rcases hm with rfl | ⟨c, t, rfl, hc⟩
    · simp
    · simp [hs c hc]
  have h2 : (x ++ m).dropWhile Char.isDigit = m := by
    rw [List.dropWhile_append_of_pos hd]
    rcases hm with rfl | ⟨c, t, rfl, hc⟩
    · simp
    · simp [hs c hc]
  unfold digits
  rw [h1, h2, if_neg h0]

/-- the hypotheses of the theorems above: `d pos 1 2 35 p7`. -/
example : Num digits ['1'] 1 ∧ Num digits ['2'] 2 ∧ Num digits ['3', '5'] 35 ∧ Options digits [['p', '7']] [('p', 7)] ∧
    Ends ['\n'] :=
  ⟨digits_num (x := ['1']) (by simp) (by decide), digits_num (x := ['2']) (by simp) (by decide),
    digits_num (x := ['3', '5']) (by simp) (by decide),
    ⟨⟨['7'], rfl, by decide, digits_num (x := ['7']) (by simp) (by decide)⟩, trivial⟩, .inr ⟨'\n', [], rfl, by decide⟩⟩

/-! ## What does not hold -/

section
variable (k : Consts α) (conv : List Char → Option (α × List Char)) {after : List Char}

/-- **C114 is violated by two spaces**: `d dq  <x> <y>` is accepted and commands x for both currents. -/
theorem C114_spaces_refuted (ha : Ends after) {t1 t2 : List Char} {x y : α} (h1 : Num conv t1 x) (_h2 : Num conv t2 y) :
    handle k conv after (line [['d', 'q'], [], t1, t2]) = some (.ok, [.command { base k with mode := .current, iD := x, iQ := x }]) := by
  rw [handle_line k conv (kind := .dq) (by decide)]
  have e0 : line [[], t1, t2] = ' ' :: line [t1, t2] := by simp [line]
  have e1 : take k conv after (line [[], t1, t2]) = (some x, line [t1, t2]) := by
    obtain ⟨m, e, hm⟩ := line_cons t1 [t2]
    have hs : strtof k conv (' ' :: (line [t1, t2] ++ after)) = strtof k conv (line [t1, t2] ++ after) := by
      have hv := strtof_num k conv h1 (ends_of hm ha)
      rw [e, List.append_assoc, hv]
      unfold strtof at hv ⊢
      have d : List.dropWhile isSpace (' ' :: (t1 ++ (m ++ after))) = List.dropWhile isSpace (t1 ++ (m ++ after)) := by
        rw [List.dropWhile_cons, if_pos (by decide)]
      have d2 : List.dropWhile isSpace (t1 ++ (m ++ after)) = t1 ++ (m ++ after) := by
        cases t1 with
        | nil => exact absurd rfl h1.1
        | cons c r => simp [h1.2.1 c (by simp)]
      rw [d2, h1.2.2 _ (ends_of hm ha)] at hv
      rw [d, d2, h1.2.2 _ (ends_of hm ha)]
      exact hv
    unfold take next
    rw [e0]
    simp only [List.cons_ne_nil, if_false, Option.bind_some, List.cons_append]
    rw [hs, e, List.append_assoc, strtof_num k conv h1 (ends_of hm ha)]
    simp
  simp only [body, e1, take_line k conv ha h1]

/-- **C114 is violated by an option without a value**: it is accepted as 0, here the scale of kp. -/
theorem C114_empty_option_refuted (ha : Ends after) {t1 t2 t3 x5 : List Char} {x y z v : α} (h1 : Num conv t1 x) (h2 : Num conv t2 y)
    (h3 : Num conv t3 z) (h5 : Num conv x5 v) (hs : ∀ l, conv ('s' :: l) = none) :
    handle k conv after (line [['p', 'o', 's'], t1, t2, t3, ['p'], 's' :: x5]) = some (.ok, [.command { base k with
      mode := .position, position := x, velocity := y, maxTorque := z, timeout := k.nan, kp := k.zero, stop := v }]) := by
  rw [handle_line k conv (kind := .pos) (by decide)]
  have hp : ∀ valid c, 'p' ∈ valid → 's' ∈ valid → parseOptions k conv after valid (line [['p'], 's' :: x5]) c =
      some { c with kp := k.zero, stop := v } := by
    intro valid c hv1 hv2
    have e : line [['p'], 's' :: x5] = 'p' :: ' ' :: 's' :: x5 := by simp [line]
    have hz : strtof k conv (' ' :: 's' :: (x5 ++ after)) = some k.zero := by
      unfold strtof
      have d : List.dropWhile isSpace (' ' :: 's' :: (x5 ++ after)) = 's' :: (x5 ++ after) := by
        rw [List.dropWhile_cons, if_pos (by decide), List.dropWhile_cons, if_neg (by decide)]
      rw [d, hs]
      simp only
      rw [if_pos (by decide)]
    rw [parseOptions.eq_def, e]
    simp only [List.cons_ne_nil, dif_neg, not_false_iff]
    have tw : List.takeWhile (fun c => decide (c ≠ ' ')) ('p' :: ' ' :: 's' :: x5) = ['p'] := by simp
    have dw : (List.dropWhile (fun c => decide (c ≠ ' ')) ('p' :: ' ' :: 's' :: x5)).drop 1 = line ['s' :: x5] := by simp [line]
    rw [tw, dw]
    simp only [List.cons_append, List.drop_succ_cons, List.drop_zero, hz, hv1, not_true, if_false, setOption]
    rw [parse_step k conv ha valid (o := ('s', v)) (x := x5) rfl (show isSpace 's' = false by decide) h5, if_neg (by simpa using hv2)]
    simp only [setOption, Option.bind_some]
    exact parse_nil k conv valid _
  simp only [body, motion, take_line k conv ha h1, take_line k conv ha h2, take_line k conv ha h3]
  rw [hp _ _ (by decide) (by decide)]

/-- **C114 is violated by `d within`**, which refuses the options `v` and `a` that are documented for it. -/
theorem C114_within_refuted (ha : Ends after) {t1 t2 t3 x4 : List Char} {x y z v : α} (h1 : Num conv t1 x) (h2 : Num conv t2 y)
    (h3 : Num conv t3 z) (h4 : Num conv x4 v) : ∀ o ∈ ['v', 'a'],
    handle k conv after (line [['w', 'i', 't', 'h', 'i', 'n'], t1, t2, t3, o :: x4]) = some (.err "ERR unknown option", []) := by
  intro o ho
  have hs : isSpace o = false := by
    revert o
    decide
  rw [C114_within_partial k conv ha h1 h2 h3 (ts := [o :: x4]) (os := [(o, v)]) ⟨⟨x4, rfl, hs, h4⟩, trivial⟩, if_neg]
  intro h
  have hm : o ∈ ['p', 'd', 'i', 't', 'f', 'b'] := h (o, v) (by simp)
  have hall : ∀ o ∈ ['v', 'a'], o ∉ ['p', 'd', 'i', 't', 'f', 'b'] := by decide
  exact hall o ho hm

/-- **C114 is violated by values that are no numbers** where one is optional: the position is set to 0, the rate is taken as 0. -/
theorem C114_malformed_refuted (ha : Ends after) {t1 t2 : List Char} {x y : α} (h1 : Num conv t1 x) (h2 : Num conv t2 y)
    (hz : ∀ l, conv ('z' :: l) = none) :
    handle k conv after (line [['n', 'e', 'a', 'r', 'e', 's', 't'], ['z']]) = some (.ok, [.nearest k.zero]) ∧
    handle k conv after (line [['p', 'w', 'm'], t1, t2, ['z']]) =
      some (.ok, [.command { base k with mode := .voltageFoc, theta := x, voltage := y }]) := by
  have e : (take k conv after (line [['z']])).1 = none := by
    simp only [take, next, line, List.cons_ne_nil, if_false, Option.bind_some, strtof, List.cons_append]
    have d : List.dropWhile isSpace ('z' :: ([] ++ after)) = 'z' :: ([] ++ after) := by
      rw [List.dropWhile_cons, if_neg (by decide)]
    rw [d, hz]
    simp only
    rw [if_neg (by decide)]
  constructor
  · rw [handle_line k conv (kind := .nearest) (by decide)]
    simp only [body, e]
    rfl
  · rw [handle_line k conv (kind := .pwm) (by decide)]
    simp only [body, take_line k conv ha h1, take_line k conv ha h2, e]
    rfl

/-- **C114 is violated by `d ind`**: a period of 257 is accepted as 1. -/
theorem C114_ind_refuted (ha : Ends after) {t1 t2 : List Char} {x y : α} (h1 : Num conv t1 x) (h2 : Num conv t2 y)
    (hp : k.toInt y = 257) :
    handle k conv after (line [['i', 'n', 'd'], t1, t2]) =
      some (.ok, [.command { base k with mode := .measureInductance, dV := x, period := 1 }]) := by
  have e : int8 (k.toInt y) = 1 := by
    rw [hp]
    decide
  rw [handle_line k conv (kind := .ind) (by decide)]
  have n : line [] = [] := rfl
  simp only [body, take_line k conv ha h1, take_line k conv ha h2, n, parse_nil, e]
  rfl

/-- the hypotheses of the last theorems. -/
example : Num digits ['2', '5', '7'] 257 ∧ ints.toInt 257 = 257 ∧ (∀ l, digits ('s' :: l) = none) ∧ (∀ l, digits ('z' :: l) = none) := by
  refine ⟨digits_num (x := ['2', '5', '7']) (by simp) (by decide), rfl, ?_, ?_⟩ <;>
  · intro l
    simp [digits, Char.isDigit]

end

end Verif.Fw.DiagCommands
