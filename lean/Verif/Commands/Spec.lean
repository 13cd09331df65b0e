import Verif.Commands.Model
import Verif.Multiplex.Spec

/-!
# Specification of the commands and replies

From docs/reference.md and the wording of the properties.  The argument and
setting structures of the model are used as vocabulary; none of the functions
that build frames is.
-/

namespace Verif.Commands.Spec

open Verif Verif.Float Verif.Multiplex Verif.Multiplex.Spec Verif.Commands

/-- docs/reference.md:507-575, value of one LSB. -/
def lsb : Kind → Res → ℚ
  | .current, .int8 => 1 | .current, .int16 => 1/10 | .current, .int32 => 1/1000
  | .torque, .int8 => 1/2 | .torque, .int16 => 1/100 | .torque, .int32 => 1/1000
  | .voltage, .int8 => 1/2 | .voltage, .int16 => 1/10 | .voltage, .int32 => 1/1000
  | .temperature, .int8 => 1 | .temperature, .int16 => 1/10 | .temperature, .int32 => 1/1000
  | .time, .int8 => 1/100 | .time, .int16 => 1/1000 | .time, .int32 => 1/1000000
  | .position, .int8 => 1/100 | .position, .int16 => 1/10000 | .position, .int32 => 1/100000
  | .velocity, .int8 => 1/10 | .velocity, .int16 => 1/4000 | .velocity, .int32 => 1/100000
  | .accel, .int8 => 1/20 | .accel, .int16 => 1/1000 | .accel, .int32 => 1/100000
  | .pwm, .int8 => 1/127 | .pwm, .int16 => 1/32767 | .pwm, .int32 => 1/2147483647
  | .power, .int8 => 10 | .power, .int16 => 1/20 | .power, .int32 => 1/10000
  | _, .f32 => 1

/-- The double nearest to the documented LSB. -/
def step (k : Kind) (r : Res) : ℚ := b64.roundQ (lsb k r)

/-- Largest magnitude of an integer register value (the most negative number
is the NaN marker). -/
def top : Res → Int
  | .int8 => 127 | .int16 => 32767 | .int32 => 2147483647 | .f32 => 0

/-- The integer `n` represents `x`: a number of steps within less than one
step of `x` and with the sign of `x`, limited to the range, and the most
negative integer exactly for NaN and infinities. -/
def CarriesInt (k : Kind) (r : Res) (n : Int) : Fl → Prop
  | .fin v =>
    (|v| ≤ top r * step k r → |v - n * step k r| < step k r) ∧
    (0 ≤ v → 0 ≤ n) ∧ (v ≤ 0 → n ≤ 0) ∧
    (top r * step k r ≤ v → n = top r) ∧ (v ≤ -(top r * step k r) → n = -top r) ∧
    -top r ≤ n ∧ n ≤ top r
  | .nan => n = -top r - 1
  | .inf _ => n = -top r - 1

/-- The nearest single. -/
def single : Fl → Fl
  | .fin v => .fin (b32.roundQ v)
  | x => x

/-- `b` represents the number `x` in a register of kind `k` at resolution
`r`. -/
def Carries (k : Kind) (r : Res) (x : Fl) (b : Bytes) : Prop :=
  b.length = r.size ∧
  match r with
  | .f32 => unpack32 (leNat b) = single x
  | r => CarriesInt k r (toSigned r.size (leNat b)) x

/-- A float that is not a double cannot be an argument. -/
def IsDouble : Fl → Prop
  | .fin q => b64.round q = .fin q
  | _ => True

/-- One documented command parameter: its register, the family of its scale,
the configured resolution and the caller's argument. -/
structure Param where
  register : Nat
  kind : Kind
  res : Option Res
  value : Option Fl

/-- A supplied parameter that is to be sent. -/
structure Sent where
  register : Nat
  kind : Kind
  res : Res
  value : Fl

def Param.sent (p : Param) : Option Sent :=
  match p.res, p.value with
  | some r, some x => some ⟨p.register, p.kind, r, x⟩
  | _, _ => none

/-- The value does not fit in a single. -/
def Sent.TooLarge (s : Sent) : Prop :=
  s.res = .f32 ∧ ∃ v, s.value = .fin v ∧ pow2 128 ≤ |b32.roundQ v|

/-- The accesses are exactly one write for each parameter sent. -/
def Writes (ps : List Param) (l : List Access) : Prop :=
  List.Forall₂ (fun (s : Sent) a => ∃ b, a = .write s.register s.res b ∧ Carries s.kind s.res s.value b)
    (ps.filterMap Param.sent) l

def Doubles (ps : List Param) : Prop := ∀ p ∈ ps, ∀ x, p.value = some x → IsDouble x

/-- Some parameter cannot be represented. -/
def SomeTooLarge (ps : List Param) : Prop := ∃ s ∈ ps.filterMap Param.sent, s.TooLarge

/-- docs/reference.md:432 ff., registers 0x020-0x02b. -/
def positionParams (pr : PositionResolution) (a : PositionArgs) : List Param :=
  [ ⟨0x020, .position, pr.position, a.position⟩,
    ⟨0x021, .velocity, pr.velocity, a.velocity⟩,
    ⟨0x022, .torque, pr.feedforward_torque, a.feedforward_torque⟩,
    ⟨0x023, .pwm, pr.kp_scale, a.kp_scale⟩,
    ⟨0x024, .pwm, pr.kd_scale, a.kd_scale⟩,
    ⟨0x025, .torque, pr.maximum_torque, a.maximum_torque⟩,
    ⟨0x026, .position, pr.stop_position, a.stop_position⟩,
    ⟨0x027, .time, pr.watchdog_timeout, a.watchdog_timeout⟩,
    ⟨0x028, .velocity, pr.velocity_limit, a.velocity_limit⟩,
    ⟨0x029, .accel, pr.accel_limit, a.accel_limit⟩,
    ⟨0x02a, .voltage, pr.fixed_voltage_override, a.fixed_voltage_override⟩,
    ⟨0x02b, .pwm, pr.ilimit_scale, a.ilimit_scale⟩ ]

/-- Registers 0x040-0x047. -/
def withinParams (pr : PositionResolution) (a : WithinArgs) : List Param :=
  [ ⟨0x040, .position, pr.position, a.lower_bound⟩,
    ⟨0x041, .position, pr.position, a.upper_bound⟩,
    ⟨0x042, .torque, pr.feedforward_torque, a.feedforward_torque⟩,
    ⟨0x043, .pwm, pr.kp_scale, a.kp_scale⟩,
    ⟨0x044, .pwm, pr.kd_scale, a.kd_scale⟩,
    ⟨0x045, .torque, pr.maximum_torque, a.maximum_torque⟩,
    ⟨0x046, .time, pr.watchdog_timeout, a.watchdog_timeout⟩,
    ⟨0x047, .pwm, pr.ilimit_scale, a.ilimit_scale⟩ ]

/-- An angle in radians expressed in units of pi, in double arithmetic. -/
def inPi (x : Fl) : Fl :=
  match x with
  | .fin q => .fin (b64.roundQ (q / mathPi))
  | x => x

/-- Registers 0x018, 0x019, 0x01e; a rate of zero is the default and is not
sent. -/
def vfocParams (cr : VFOCResolution) (a : VFOCArgs) : List Param :=
  [ ⟨0x018, .pwm, cr.theta, a.theta.map inPi⟩,
    ⟨0x019, .voltage, cr.voltage, a.voltage⟩,
    ⟨0x01e, .velocity, cr.theta_rate,
      if a.theta_rate = some (.fin 0) then none else a.theta_rate.map inPi⟩ ]

/-- Registers 0x01c (Q) and 0x01d (D). -/
def currentParams (cr : CurrentResolution) (d_A q_A : Option Fl) : List Param :=
  [ ⟨0x01c, .current, cr.q_A, q_A⟩, ⟨0x01d, .current, cr.d_A, d_A⟩ ]

/-- Registers from 0x076: ten outputs. -/
def auxPwmParams (pr : PwmResolution) (args : List (Option Fl)) : List Param :=
  (pr.aux.zip args).zipIdx.map fun x => ⟨0x076 + x.2, .pwm, x.1.1, x.1.2⟩

/-! ## Queries -/

/-- The finer of two resolutions; IGNORE is the coarsest. -/
def finer (a b : Option Res) : Option Res :=
  match a, b with
  | none, b => b
  | a, none => a
  | some .f32, _ => some .f32
  | _, some .f32 => some .f32
  | some .int32, _ => some .int32
  | _, some .int32 => some .int32
  | some .int16, _ => some .int16
  | _, some .int16 => some .int16
  | some .int8, some .int8 => some .int8

/-- The standard registers with their documented numbers. -/
def standard (qr : QueryResolution) : List (Nat × Res) :=
  [ ((0x000 : Nat), qr.mode), (0x001, qr.position), (0x002, qr.velocity), (0x003, qr.torque),
    (0x004, qr.q_current), (0x005, qr.d_current), (0x006, qr.abs_position), (0x007, qr.power),
    (0x00a, qr.motor_temperature), (0x00b, qr.trajectory_complete),
    (0x00c, finer qr.rezero_state qr.home_state),
    (0x00d, qr.voltage), (0x00e, qr.temperature), (0x00f, qr.fault),
    (0x05e, qr.aux1_gpio), (0x05f, qr.aux2_gpio) ].filterMap fun x => x.2.map (x.1, ·)

/-- `l` lists exactly the registers of the mapping that are not ignored,
in increasing order. -/
def Fields (d : List (Nat × Option Res)) (l : List (Nat × Res)) : Prop :=
  l.Pairwise (fun x y => x.1 < y.1) ∧ ∀ reg r, (reg, r) ∈ l ↔ (reg, some r) ∈ d

/-- A Python dictionary of registers that the protocol can express: register
numbers are varuints, and no 128 consecutive registers are at the same
resolution. -/
structure DictOk (d : List (Nat × Option Res)) : Prop where
  keys : (d.map Prod.fst).Nodup
  range : ∀ e ∈ d, e.1 < 2 ^ 35
  runs : ¬ ∃ start r, ∀ i < 128, (start + i, some r) ∈ d

/-- What a query with this setting asks for. -/
def Asks (qr : QueryResolution) (l : List (Nat × Res)) : Prop :=
  ∃ ex, Fields qr.extra ex ∧ l = standard qr ++ ex

/-- The query part of a command: the override if there is one, otherwise the
default setting when a query is wanted. -/
def queryPart (c : Controller) (query : Bool) (override : Option QueryResolution) :
    Option QueryResolution :=
  match override with
  | some q => some q
  | none => if query then some c.query_resolution else none

/-- The reads at the end of a command. -/
def Reads (q : Option QueryResolution) (l : List Access) : Prop :=
  match q with
  | none => l = []
  | some qr => ∃ regs, Asks qr regs ∧ l = regs.map fun x => .read x.1 x.2

/-- A finished command: addressed to the controller, decodes to the given
writes followed by the requested reads, and the expected reply size is the
size of the controller's answer. -/
def Delivers (c : Controller) (query : Bool) (override : Option QueryResolution)
    (cmd : Command) (writes : List Access) : Prop :=
  cmd.destination = c.id ∧ cmd.source = 0 ∧
  cmd.replyRequired = (queryPart c query override).isSome ∧
  (∃ reads, Reads (queryPart c query override) reads ∧
    accesses cmd.data = some (writes ++ reads)) ∧
  ∀ regs : Nat → Res → Bytes, (∀ reg r, (regs reg r).length = r.size) →
    (answer regs cmd.data).map List.length = some cmd.expectedReplySize

/-- The settings that a query may use. -/
def QueryOk (c : Controller) (override : Option QueryResolution) : Prop :=
  DictOk c.query_resolution.extra ∧ ∀ q, override = some q → DictOk q.extra

/-- The result of a command builder that is asked to write `first` and then
the parameters `ps`: `OverflowError` if some parameter does not fit in a
single, otherwise a command that delivers exactly this. -/
def Realizes (c : Controller) (query : Bool) (override : Option QueryResolution)
    (result : Except Err Command) (first : List Access) (ps : List Param) : Prop :=
  (SomeTooLarge ps ∧ result = .error .overflowError) ∨
  (¬ SomeTooLarge ps ∧ ∃ cmd ws, result = .ok cmd ∧ Writes ps ws ∧
    Delivers c query override cmd (first ++ ws))

/-- The mode write that begins a command. -/
def setMode (mode : UInt8) : List Access := [.write 0x000 .int8 [mode]]

end Verif.Commands.Spec
