import Verif.Cxx.Model
import Verif.Commands.Spec

/-!
# What it means that both client libraries produce the same frames

A command of the Python library leaves a parameter out when its argument is
`None`; the C++ library does when the resolution in the format is `kIgnore`.
-/

namespace Verif.Cxx.Spec

open Verif Verif.Float Verif.Multiplex Verif.Commands Verif.Commands.Spec Verif.Cxx

/-- The C++ frame with the content of a Python command. -/
def asFrame (c : Command) : Frame := ⟨c.destination, c.replyRequired, c.expectedReplySize, c.data⟩

/-- Each library gives a frame exactly when the other does, and it is the same
one: destination, reply request, expected reply size and bytes.  A Python
command of more than 64 bytes is no CAN-FD frame. -/
def SameFrame (py : Except Err Command) (cx : Except Halt Frame) : Prop :=
  ∀ f, cx = .ok f ↔ ∃ c, py = .ok c ∧ c.data.length ≤ 64 ∧ f = asFrame c

/-- One parameter: left out in both, or the same value at the same
resolution. -/
def Given (fmt : Option Res) (val : Fl) (res : Option Res) (arg : Option Fl) : Prop :=
  (arg = none ∧ fmt = none) ∨ (arg = some val ∧ fmt = res)

/-- A number that both libraries can send: a double, and not too large for a
`float` if it is sent as one. -/
def Sendable (fmt : Option Res) (val : Fl) : Prop :=
  IsDouble val ∧ (fmt = some .f32 → ∀ v, val = .fin v → |b32.roundQ v| < pow2 128)

def SameParam (fmt : Option Res) (val : Fl) (res : Option Res) (arg : Option Fl) : Prop :=
  Given fmt val res arg ∧ Sendable fmt val

structure SamePosition (x : PositionFormat) (v : PositionCommand) (pr : PositionResolution)
    (a : PositionArgs) : Prop where
  position : SameParam x.position v.position pr.position a.position
  velocity : SameParam x.velocity v.velocity pr.velocity a.velocity
  feedforward_torque : SameParam x.feedforward_torque v.feedforward_torque pr.feedforward_torque
    a.feedforward_torque
  kp_scale : SameParam x.kp_scale v.kp_scale pr.kp_scale a.kp_scale
  kd_scale : SameParam x.kd_scale v.kd_scale pr.kd_scale a.kd_scale
  maximum_torque : SameParam x.maximum_torque v.maximum_torque pr.maximum_torque a.maximum_torque
  stop_position : SameParam x.stop_position v.stop_position pr.stop_position a.stop_position
  watchdog_timeout : SameParam x.watchdog_timeout v.watchdog_timeout pr.watchdog_timeout
    a.watchdog_timeout
  velocity_limit : SameParam x.velocity_limit v.velocity_limit pr.velocity_limit a.velocity_limit
  accel_limit : SameParam x.accel_limit v.accel_limit pr.accel_limit a.accel_limit
  fixed_voltage_override : SameParam x.fixed_voltage_override v.fixed_voltage_override
    pr.fixed_voltage_override a.fixed_voltage_override
  ilimit_scale : SameParam x.ilimit_scale v.ilimit_scale pr.ilimit_scale a.ilimit_scale

structure SameVfoc (x : VFOCFormat) (v : VFOCCommand) (cr : VFOCResolution) (a : VFOCArgs) :
    Prop where
  theta : SameParam x.theta_rad v.theta_rad cr.theta a.theta
  voltage : SameParam x.voltage v.voltage cr.voltage a.voltage
  theta_rate : SameParam x.theta_rad_rate v.theta_rad_rate cr.theta_rate a.theta_rate

/-- The Python library uses the position resolutions for this command. -/
structure SameWithin (x : WithinFormat) (v : WithinCommand) (pr : PositionResolution)
    (a : WithinArgs) : Prop where
  lower_bound : SameParam x.lower_bound v.lower_bound pr.position a.lower_bound
  upper_bound : SameParam x.upper_bound v.upper_bound pr.position a.upper_bound
  feedforward_torque : SameParam x.feedforward_torque v.feedforward_torque pr.feedforward_torque
    a.feedforward_torque
  kp_scale : SameParam x.kp_scale v.kp_scale pr.kp_scale a.kp_scale
  kd_scale : SameParam x.kd_scale v.kd_scale pr.kd_scale a.kd_scale
  maximum_torque : SameParam x.maximum_torque v.maximum_torque pr.maximum_torque a.maximum_torque
  watchdog_timeout : SameParam x.watchdog_timeout v.watchdog_timeout pr.watchdog_timeout
    a.watchdog_timeout
  ilimit_scale : SameParam x.ilimit_scale v.ilimit_scale pr.ilimit_scale a.ilimit_scale

/-- The extra registers of a query: the C++ array is sorted, holds at most 16
entries, register numbers are below the marker 32767, and all are within a
window of 512 registers (moteus_protocol.h:418-423). -/
structure SameExtra (l d : List (Nat × Option Res)) : Prop where
  same : l.Perm d
  sorted : l.Pairwise (fun x y => x.1 < y.1)
  size : l.length ≤ 16
  range : ∀ e ∈ l, e.1 < 32767
  window : ∀ a ∈ l, ∀ b ∈ l, a.1 < b.1 + 512

/-- The same query; `rezero_state`, the old name of `home_state`, does not
exist in C++ and is not used. -/
structure SameQuery (f : QueryFormat) (q : QueryResolution) : Prop where
  mode : f.mode = q.mode
  position : f.position = q.position
  velocity : f.velocity = q.velocity
  torque : f.torque = q.torque
  q_current : f.q_current = q.q_current
  d_current : f.d_current = q.d_current
  abs_position : f.abs_position = q.abs_position
  power : f.power = q.power
  motor_temperature : f.motor_temperature = q.motor_temperature
  trajectory_complete : f.trajectory_complete = q.trajectory_complete
  home_state : f.home_state = q.home_state
  rezero_state : q.rezero_state = none
  voltage : f.voltage = q.voltage
  temperature : f.temperature = q.temperature
  fault : f.fault = q.fault
  aux1_gpio : f.aux1_gpio = q.aux1_gpio
  aux2_gpio : f.aux2_gpio = q.aux2_gpio
  extra : SameExtra f.extra q.extra

/-- Controllers with the same settings.  Whether a command without an override
asks for a reply is an argument in Python and an option in C++. -/
structure SameController (cx : Cxx.Controller) (py : Commands.Controller) (query : Bool) : Prop where
  cxx : Cxx.Controller.make cx.options = .ok cx
  python : py.Constructed
  id : cx.options.id = py.id
  query_format : SameQuery cx.options.query_format py.query_resolution
  default_query : cx.options.default_query = query

/-- No override in both, or the same one. -/
def SameOverride : Option QueryFormat → Option QueryResolution → Prop
  | none, none => True
  | some f, some q => SameQuery f q
  | _, _ => False

end Verif.Cxx.Spec
