import Verif.Multiplex.Model
import Verif.Float.Single

/-!
# Model of the command builders of lib/python/moteus/moteus.py

Python floats are `Fl`; a keyword argument that may be `None` is an
`Option`.  A resolution attribute is `Option Res`, `none` being IGNORE.
Python integers given where a float is expected are outside of the model.
-/

namespace Verif.Commands

open Verif Verif.Float Verif.Multiplex

/-! ## Scales -/

/-- The families of scales of moteus.py:384-453. -/
inductive Kind
  | position | velocity | accel | torque | pwm | voltage | temperature | time | current | power
deriving DecidableEq, Repr

/-- moteus.py:420-453 `Writer.write_*` (and the same numbers in
moteus.py:384-417 `Parser.read_*`).  Each Python literal (or quotient) is the
double nearest to the rational given here. -/
def Kind.nominal : Kind → Res → ℚ
  | .position, .int8 => 1/100 | .position, .int16 => 1/10000 | .position, .int32 => 1/100000
  | .velocity, .int8 => 1/10 | .velocity, .int16 => 25/100000 | .velocity, .int32 => 1/100000
  | .accel, .int8 => 5/100 | .accel, .int16 => 1/1000 | .accel, .int32 => 1/100000
  | .torque, .int8 => 5/10 | .torque, .int16 => 1/100 | .torque, .int32 => 1/1000
  | .pwm, .int8 => 1/127 | .pwm, .int16 => 1/32767 | .pwm, .int32 => 1/2147483647
  | .voltage, .int8 => 5/10 | .voltage, .int16 => 1/10 | .voltage, .int32 => 1/1000
  | .temperature, .int8 => 1 | .temperature, .int16 => 1/10 | .temperature, .int32 => 1/1000
  | .time, .int8 => 1/100 | .time, .int16 => 1/1000 | .time, .int32 => 1/1000000
  | .current, .int8 => 1 | .current, .int16 => 1/10 | .current, .int32 => 1/1000
  | .power, .int8 => 10 | .power, .int16 => 5/100 | .power, .int32 => 1/10000
  | _, .f32 => 1

/-- The scale as a Python float. -/
def Kind.scale (k : Kind) (r : Res) : ℚ := b64.roundQ (k.nominal r)

/-- multiplex.py:336-338 `write_f32`. -/
def writeF32 (x : Fl) : Except Err Bytes :=
  match pack32 x with
  | none => .error .overflowError
  | some bits => .ok (leBytes 4 bits)

/-- multiplex.py:351-353 `write_mapped` with the scales of `k`; `value = none`
is Python `None` and `r = none` is IGNORE.  `scales[resolution]` is evaluated
before the value is looked at. -/
def writeMapped (k : Kind) (value : Option Fl) (r : Option Res) : Except Err Bytes :=
  match r with
  | none => .error .indexError
  | some r =>
    match value with
    | none => .error .typeError
    | some x =>
      match r with
      | .f32 => writeF32 (saturateF32 x)
      | r => writeMappedInt x (k.scale r) r

/-! ## Commands and queries -/

/-- command.py `Command` as filled in by moteus.py:749-759 (the parse
function and the CAN prefix are left out here). -/
structure Command where
  destination : Nat
  source : Nat
  replyRequired : Bool
  expectedReplySize : Nat
  data : Bytes
deriving DecidableEq

/-- moteus.py:318-342 `QueryResolution` -/
structure QueryResolution where
  mode : Option Res
  position : Option Res
  velocity : Option Res
  torque : Option Res
  q_current : Option Res
  d_current : Option Res
  abs_position : Option Res
  power : Option Res
  motor_temperature : Option Res
  trajectory_complete : Option Res
  rezero_state : Option Res
  home_state : Option Res
  voltage : Option Res
  temperature : Option Res
  fault : Option Res
  aux1_gpio : Option Res
  aux2_gpio : Option Res
  extra : List (Nat × Option Res)
deriving DecidableEq

/-- The class attributes, moteus.py:319-341. -/
def QueryResolution.default : QueryResolution where
  mode := some .int8
  position := some .f32
  velocity := some .f32
  torque := some .f32
  q_current := none
  d_current := none
  abs_position := none
  power := none
  motor_temperature := none
  trajectory_complete := none
  rezero_state := none
  home_state := none
  voltage := some .int8
  temperature := some .int8
  fault := some .int8
  aux1_gpio := none
  aux2_gpio := none
  extra := []

/-- moteus.py:310-315 `_merge_resolutions` -/
def mergeResolutions (a b : Option Res) : Option Res :=
  match a, b with
  | none, b => b
  | a, none => a
  | some a, some b => if a.id < b.id then some b else some a

/-- `d.get(i, mp.IGNORE)` -/
def getD (d : List (Nat × Option Res)) (i : Nat) : Option Res :=
  match d.find? (fun e => e.1 = i) with
  | some e => e.2
  | none => none

/-- `[d.get(i, mp.IGNORE) for i in range(min_val, max_val + 1)]` with the
smallest and largest key, moteus.py:727-733 and 785-789. -/
def dictRange (d : List (Nat × Option Res)) : Option (Nat × List (Option Res)) :=
  match d.map Prod.fst with
  | [] => none
  | k :: ks =>
    let lo := ks.foldl min k
    let hi := ks.foldl max k
    some (lo, (List.range (hi + 1 - lo)).map fun i => getD d (lo + i))

/-- One combiner of a query: `for i in range(c.size()): c.maybe_write()`. -/
def queryBlock (buf : Bytes) (start : Nat) (rs : List (Option Res)) : Except Err (Bytes × Nat) := do
  let c ← (WriteCombiner.init buf 0x10 start rs).runQuery
  pure (c.buf, c.replySize)

/-- moteus.py:680-737 `_make_query_data`: the bytes and the reply size. -/
def makeQueryData (qr : QueryResolution) : Except Err (Bytes × Nat) := do
  let (buf, s1) ← queryBlock [] 0x000 [qr.mode, qr.position, qr.velocity, qr.torque,
    qr.q_current, qr.d_current, qr.abs_position, qr.power]
  let (buf, s2) ← queryBlock buf 0x00a [qr.motor_temperature, qr.trajectory_complete,
    mergeResolutions qr.rezero_state qr.home_state, qr.voltage, qr.temperature, qr.fault]
  let (buf, s3) ← queryBlock buf 0x05e [qr.aux1_gpio, qr.aux2_gpio]
  match dictRange qr.extra with
  | none => pure (buf, s1 + s2 + s3)
  | some (lo, rs) => do
    let (buf, s4) ← queryBlock buf lo rs
    pure (buf, s1 + s2 + s3 + s4)

/-- moteus.py:345-357 `PositionResolution` -/
structure PositionResolution where
  position : Option Res
  velocity : Option Res
  feedforward_torque : Option Res
  kp_scale : Option Res
  kd_scale : Option Res
  maximum_torque : Option Res
  stop_position : Option Res
  watchdog_timeout : Option Res
  velocity_limit : Option Res
  accel_limit : Option Res
  fixed_voltage_override : Option Res
  ilimit_scale : Option Res

/-- moteus.py:360-363 -/
structure VFOCResolution where
  theta : Option Res
  voltage : Option Res
  theta_rate : Option Res

/-- moteus.py:366-368 -/
structure CurrentResolution where
  d_A : Option Res
  q_A : Option Res

/-- moteus.py:371-381; the ten outputs in order aux1_pwm1..5, aux2_pwm1..5. -/
structure PwmResolution where
  aux : List (Option Res)
  ten : aux.length = 10

/-- moteus.py:633-665 `Controller`.  `queryData` and `queryReplySize` are
computed by the constructor (moteus.py:665). -/
structure Controller where
  id : Nat
  query_resolution : QueryResolution
  position_resolution : PositionResolution
  vfoc_resolution : VFOCResolution
  current_resolution : CurrentResolution
  pwm_resolution : PwmResolution
  queryData : Bytes
  queryReplySize : Nat

/-- The last step of `Controller.__init__`, moteus.py:664-665. -/
def Controller.Constructed (c : Controller) : Prop :=
  makeQueryData c.query_resolution = .ok (c.queryData, c.queryReplySize)

/-- moteus.py:749-759 `_make_command` -/
def Controller.makeCommand (c : Controller) (query : Bool) (override : Option QueryResolution)
    (source : Nat := 0) : Command where
  destination := c.id
  source := source
  replyRequired := query || override.isSome
  expectedReplySize := if query then c.queryReplySize else 0
  data := []

/-- moteus.py:739-747 `_format_query` and the final assignment of
`result.data`; `buf` is the content of the command so far. -/
def Controller.formatQuery (c : Controller) (query : Bool) (override : Option QueryResolution)
    (buf : Bytes) (result : Command) : Except Err Command :=
  match override with
  | some qr => do
    let (q, size) ← makeQueryData qr
    pure { result with data := buf ++ q, expectedReplySize := size }
  | none =>
    if query then
      pure { result with data := buf ++ c.queryData, expectedReplySize := c.queryReplySize }
    else pure { result with data := buf }

/-- moteus.py:761-770 `make_query` -/
def Controller.makeQuery (c : Controller) (override : Option QueryResolution) : Except Err Command :=
  let result := c.makeCommand true override
  match override with
  | some qr => do
    let (q, size) ← makeQueryData qr
    pure { result with data := q, expectedReplySize := size }
  | none => pure { result with data := c.queryData, expectedReplySize := c.queryReplySize }

/-- moteus.py:775-796 `make_custom_query`; `min()` of an empty dictionary
raises `ValueError`. -/
def Controller.makeCustomQuery (c : Controller) (fields : List (Nat × Option Res)) :
    Except Err Command :=
  match dictRange fields with
  | none => .error .valueError
  | some (lo, rs) => do
    let (buf, size) ← queryBlock [] lo rs
    pure { c.makeCommand true none with data := buf, expectedReplySize := size }

/-- The three `write_int8` calls that select the mode, e.g.
moteus.py:972-974. -/
def modeWrite (mode : Nat) : Except Err Bytes := do
  let a ← writeInt8 (0x00 ||| 0x01)
  let b ← writeInt8 0x000
  let m ← writeInt8 mode
  pure (a ++ b ++ m)

/-- `x if value is not None else mp.IGNORE` -/
def sel (r : Option Res) (value : Option Fl) : Option Res :=
  if value.isSome then r else none

/-- moteus.py:801-818 `make_stop` -/
def Controller.makeStop (c : Controller) (query : Bool) (override : Option QueryResolution) :
    Except Err Command := do
  let result := c.makeCommand query override
  let buf ← modeWrite 0
  c.formatQuery query override buf result

/-- moteus.py:1216-1230 `make_brake` -/
def Controller.makeBrake (c : Controller) (query : Bool) (override : Option QueryResolution) :
    Except Err Command := do
  let result := c.makeCommand query override
  let buf ← modeWrite 15
  c.formatQuery query override buf result

/-- moteus.py:823-847 `make_set_output` with `cmd` one of 0x130, 0x131. -/
def Controller.makeSetOutput (c : Controller) (position : Fl) (cmd : Nat)
    (query : Bool) (override : Option QueryResolution) : Except Err Command := do
  let result := c.makeCommand query override
  let a ← writeInt8 (0x0c ||| 0x01)
  let v ← writeF32 position
  c.formatQuery query override (a ++ writeVaruint cmd ++ v) result

/-- moteus.py:849-856 `make_set_output_nearest` -/
def Controller.makeSetOutputNearest (c : Controller) (position : Fl)
    (query : Bool) (override : Option QueryResolution) : Except Err Command :=
  c.makeSetOutput position 0x130 query override

/-- moteus.py:858-865 `make_set_output_exact` -/
def Controller.makeSetOutputExact (c : Controller) (position : Fl)
    (query : Bool) (override : Option QueryResolution) : Except Err Command :=
  c.makeSetOutput position 0x131 query override

/-- moteus.py:879-886 `make_rezero` -/
def Controller.makeRezero (c : Controller) (rezero : Fl)
    (query : Bool) (override : Option QueryResolution) : Except Err Command :=
  c.makeSetOutput rezero 0x130 query override

/-- moteus.py:891-904 `make_require_reindex`: no query is appended, but the
command announces a reply when one is asked for. -/
def Controller.makeRequireReindex (c : Controller) (query : Bool)
    (override : Option QueryResolution) : Except Err Command := do
  let result := c.makeCommand query override
  let a ← writeInt8 (0x00 ||| 0x01)
  let v ← writeInt8 1
  pure { result with data := a ++ writeVaruint 0x132 ++ v }

/-- moteus.py:910-923 `make_recapture_position_velocity` -/
def Controller.makeRecapture (c : Controller) (query : Bool)
    (override : Option QueryResolution) : Except Err Command := do
  let result := c.makeCommand query override
  let a ← writeInt8 (0x00 ||| 0x01)
  let v ← writeInt8 1
  pure { result with data := a ++ writeVaruint 0x133 ++ v }

/-- Keyword arguments of `make_position`, moteus.py:931-946. -/
structure PositionArgs where
  position : Option Fl := none
  velocity : Option Fl := none
  feedforward_torque : Option Fl := none
  kp_scale : Option Fl := none
  kd_scale : Option Fl := none
  maximum_torque : Option Fl := none
  stop_position : Option Fl := none
  watchdog_timeout : Option Fl := none
  velocity_limit : Option Fl := none
  accel_limit : Option Fl := none
  fixed_voltage_override : Option Fl := none
  ilimit_scale : Option Fl := none

/-- moteus.py:953-967, the list `resolutions`. -/
def positionResolutions (pr : PositionResolution) (a : PositionArgs) : List (Option Res) :=
  [ sel pr.position a.position,
    sel pr.velocity a.velocity,
    sel pr.feedforward_torque a.feedforward_torque,
    sel pr.kp_scale a.kp_scale,
    sel pr.kd_scale a.kd_scale,
    sel pr.maximum_torque a.maximum_torque,
    sel pr.stop_position a.stop_position,
    sel pr.watchdog_timeout a.watchdog_timeout,
    sel pr.velocity_limit a.velocity_limit,
    sel pr.accel_limit a.accel_limit,
    sel pr.fixed_voltage_override a.fixed_voltage_override,
    sel pr.ilimit_scale a.ilimit_scale ]

/-- moteus.py:979-1002, the guarded writes. -/
def positionWrites (pr : PositionResolution) (a : PositionArgs) : List (Except Err Bytes) :=
  [ writeMapped .position a.position pr.position,
    writeMapped .velocity a.velocity pr.velocity,
    writeMapped .torque a.feedforward_torque pr.feedforward_torque,
    writeMapped .pwm a.kp_scale pr.kp_scale,
    writeMapped .pwm a.kd_scale pr.kd_scale,
    writeMapped .torque a.maximum_torque pr.maximum_torque,
    writeMapped .position a.stop_position pr.stop_position,
    writeMapped .time a.watchdog_timeout pr.watchdog_timeout,
    writeMapped .velocity a.velocity_limit pr.velocity_limit,
    writeMapped .accel a.accel_limit pr.accel_limit,
    writeMapped .voltage a.fixed_voltage_override pr.fixed_voltage_override,
    writeMapped .voltage a.ilimit_scale pr.ilimit_scale ]

/-- moteus.py:931-1008 `make_position` -/
def Controller.makePosition (c : Controller) (a : PositionArgs) (query : Bool)
    (override : Option QueryResolution) : Except Err Command := do
  let result := c.makeCommand query override
  let pr := c.position_resolution
  let buf ← modeWrite 10
  let w ← (WriteCombiner.init buf 0x00 0x020 (positionResolutions pr a)).run (positionWrites pr a)
  c.formatQuery query override w.buf result

/-- Keyword arguments of `make_vfoc`, moteus.py:1046-1053. -/
structure VFOCArgs where
  theta : Option Fl
  voltage : Option Fl
  theta_rate : Option Fl := some (.fin 0)

/-- `math.pi` as a double. -/
def mathPi : ℚ := 884279719003555 / 281474976710656

/-- Python float division by `math.pi`; `None` raises `TypeError`, which the
callers below only reach for a value that is not `None`. -/
def divPi : Option Fl → Option Fl
  | none => none
  | some .nan => some .nan
  | some (.inf n) => some (.inf n)
  | some (.fin q) => some (divF q mathPi)

/-- moteus.py:1060-1068 -/
def vfocResolutions (cr : VFOCResolution) (a : VFOCArgs) : List (Option Res) :=
  [ sel cr.theta a.theta,
    sel cr.voltage a.voltage,
    none, none, none, none,
    if a.theta_rate ≠ some (.fin 0) ∧ a.theta_rate.isSome then cr.theta_rate else none ]

/-- moteus.py:1079-1092 -/
def vfocWrites (cr : VFOCResolution) (a : VFOCArgs) : List (Except Err Bytes) :=
  [ writeMapped .pwm (divPi a.theta) cr.theta,
    writeMapped .voltage a.voltage cr.voltage,
    .error .assertionError, .error .assertionError, .error .assertionError, .error .assertionError,
    writeMapped .velocity (divPi a.theta_rate) cr.theta_rate ]

/-- moteus.py:1046-1097 `make_vfoc` -/
def Controller.makeVfoc (c : Controller) (a : VFOCArgs) (query : Bool)
    (override : Option QueryResolution) : Except Err Command := do
  let result := c.makeCommand query override
  let cr := c.vfoc_resolution
  let buf ← modeWrite 7
  let w ← (WriteCombiner.init buf 0x00 0x018 (vfocResolutions cr a)).run (vfocWrites cr a)
  c.formatQuery query override w.buf result

/-- moteus.py:1102-1142 `make_current`: note that the resolutions are listed
d first while the values are written q first. -/
def Controller.makeCurrent (c : Controller) (d_A q_A : Option Fl) (query : Bool)
    (override : Option QueryResolution) : Except Err Command := do
  let result := c.makeCommand query override
  let cr := c.current_resolution
  let buf ← modeWrite 9
  let w ← (WriteCombiner.init buf 0x00 0x01c [sel cr.d_A d_A, sel cr.q_A q_A]).run
    [writeMapped .current q_A cr.q_A, writeMapped .current d_A cr.d_A]
  c.formatQuery query override w.buf result

/-- Keyword arguments of `make_stay_within`, moteus.py:1147-1160. -/
structure WithinArgs where
  lower_bound : Option Fl := none
  upper_bound : Option Fl := none
  feedforward_torque : Option Fl := none
  kp_scale : Option Fl := none
  kd_scale : Option Fl := none
  maximum_torque : Option Fl := none
  stop_position : Option Fl := none
  watchdog_timeout : Option Fl := none
  ilimit_scale : Option Fl := none

/-- moteus.py:1167-1177 -/
def withinResolutions (pr : PositionResolution) (a : WithinArgs) : List (Option Res) :=
  [ sel pr.position a.lower_bound,
    sel pr.position a.upper_bound,
    sel pr.feedforward_torque a.feedforward_torque,
    sel pr.kp_scale a.kp_scale,
    sel pr.kd_scale a.kd_scale,
    sel pr.maximum_torque a.maximum_torque,
    sel pr.watchdog_timeout a.watchdog_timeout,
    sel pr.ilimit_scale a.ilimit_scale ]

/-- moteus.py:1190-1205 -/
def withinWrites (pr : PositionResolution) (a : WithinArgs) : List (Except Err Bytes) :=
  [ writeMapped .position a.lower_bound pr.position,
    writeMapped .position a.upper_bound pr.position,
    writeMapped .torque a.feedforward_torque pr.feedforward_torque,
    writeMapped .pwm a.kp_scale pr.kp_scale,
    writeMapped .pwm a.kd_scale pr.kd_scale,
    writeMapped .torque a.maximum_torque pr.maximum_torque,
    writeMapped .time a.watchdog_timeout pr.watchdog_timeout,
    writeMapped .pwm a.ilimit_scale pr.ilimit_scale ]

/-- moteus.py:1147-1211 `make_stay_within`; `stop_position` is accepted and
not used. -/
def Controller.makeStayWithin (c : Controller) (a : WithinArgs) (query : Bool)
    (override : Option QueryResolution) : Except Err Command := do
  let result := c.makeCommand query override
  let pr := c.position_resolution
  let buf ← modeWrite 13
  let w ← (WriteCombiner.init buf 0x00 0x040 (withinResolutions pr a)).run (withinWrites pr a)
  c.formatQuery query override w.buf result

/-- `write_int8` of an optional Python integer. -/
def writeInt8Opt : Option Int → Except Err Bytes
  | none => .error .structError
  | some v => packInt .int8 v

/-- moteus.py:1235-1264 `make_write_gpio` -/
def Controller.makeWriteGpio (c : Controller) (aux1 aux2 : Option Int) (query : Bool)
    (override : Option QueryResolution) : Except Err Command := do
  let result := c.makeCommand query override
  let w ← (WriteCombiner.init [] 0x00 0x05c
      [if aux1.isSome then some .int8 else none, if aux2.isSome then some .int8 else none]).run
    [writeInt8Opt aux1, writeInt8Opt aux2]
  c.formatQuery query override w.buf result

/-- moteus.py:1269-1287 `make_read_gpio` -/
def Controller.makeReadGpio (c : Controller) : Except Err Command := do
  let (buf, _) ← queryBlock [] 0x05e [some .int8, some .int8]
  pure { c.makeCommand true none with data := buf }

/-- moteus.py:1342-1352 `make_set_trim` -/
def Controller.makeSetTrim (c : Controller) (trim : Int) : Except Err Command := do
  let a ← writeInt8 (0x08 ||| 0x01)
  let v ← packInt .int32 trim
  pure { c.makeCommand false none with data := a ++ writeVaruint 0x071 ++ v }

/-- moteus.py:1357-1416 `make_aux_pwm`; the ten keyword arguments in order. -/
def Controller.makeAuxPwm (c : Controller) (args : List (Option Fl)) (query : Bool)
    (override : Option QueryResolution) : Except Err Command := do
  let result := c.makeCommand query override
  let pr := c.pwm_resolution.aux
  let w ← (WriteCombiner.init [] 0x00 0x076 ((pr.zip args).map fun x => sel x.1 x.2)).run
    ((pr.zip args).map fun x => writeMapped .pwm x.2 x.1)
  c.formatQuery query override w.buf result

/-! ## Replies -/

/-- A Python number found in a parsed reply. -/
inductive Val
  | int (n : Int)
  | float (x : Fl)
deriving DecidableEq

/-- How moteus.py:456-550 `parse_register` reads a register. -/
inductive RegKind
  | integer            -- `read_int`
  | mapped (k : Kind)  -- `read_position`, ...
  | raw                -- `read`
deriving DecidableEq

/-- moteus.py:456-550 `parse_register`, the chain of comparisons. -/
def regKind (register : Nat) : RegKind :=
  if register = 0x000 then .integer
  else if register = 0x001 then .mapped .position
  else if register = 0x002 then .mapped .velocity
  else if register = 0x003 then .mapped .torque
  else if register = 0x004 then .mapped .current
  else if register = 0x005 then .mapped .current
  else if register = 0x006 then .mapped .position
  else if register = 0x007 then .mapped .power
  else if register = 0x00b then .integer
  else if register = 0x00c then .integer
  else if register = 0x00d then .mapped .voltage
  else if register = 0x00a then .mapped .temperature
  else if register = 0x00e then .mapped .temperature
  else if register = 0x00f then .integer
  else if register = 0x030 then .mapped .torque
  else if register = 0x031 then .mapped .torque
  else if register = 0x032 then .mapped .torque
  else if register = 0x033 then .mapped .torque
  else if register = 0x034 then .mapped .torque
  else if register = 0x038 then .mapped .position
  else if register = 0x039 then .mapped .velocity
  else if register = 0x03a then .mapped .torque
  else if register = 0x03b then .mapped .position
  else if register = 0x03c then .mapped .velocity
  else if register = 0x03d then .mapped .torque
  else if register = 0x050 then .mapped .position
  else if register = 0x051 then .mapped .velocity
  else if register = 0x052 then .mapped .position
  else if register = 0x053 then .mapped .velocity
  else if register = 0x054 then .mapped .position
  else if register = 0x055 then .mapped .velocity
  else if register = 0x058 then .integer
  else if register = 0x05c then .integer
  else if register = 0x05d then .integer
  else if register = 0x05e then .integer
  else if register = 0x05f then .integer
  else if register = 0x060 ∨ register = 0x061 ∨ register = 0x062 ∨ register = 0x063 ∨
      register = 0x064 ∨ register = 0x068 ∨ register = 0x069 ∨ register = 0x06a ∨
      register = 0x06b ∨ register = 0x06c then .mapped .pwm
  else if register = 0x070 then .integer
  else if register = 0x071 then .integer
  else if 0x076 ≤ register ∧ register ≤ 0x07f then .mapped .pwm
  else .raw

/-- `struct.unpack` of one value, multiplex.py:209. -/
def unpackVal (r : Res) (b : Bytes) : Val :=
  match r with
  | .f32 => .float (unpack32 (leNat b))
  | r => .int (unpackInt r b)

/-- Python `int(x)`. -/
def pyInt : Val → Except Err Val
  | .int n => .ok (.int n)
  | .float .nan => .error .valueError
  | .float (.inf _) => .error .overflowError
  | .float (.fin q) => .ok (.int (truncQ q))

/-- multiplex.py:225-231 `read_mapped` on the raw bytes; the float case
multiplies by 1.0. -/
def readMapped (k : Kind) (r : Res) (b : Bytes) : Val :=
  match r with
  | .f32 => .float (unpack32 (leNat b))
  | r => .float (unscaleInt (unpackInt r b) r (k.scale r))

/-- moteus.py:456-550 `parse_register` applied to the bytes of the value. -/
def parseRegister (register : Nat) (r : Res) (b : Bytes) : Except Err Val :=
  match regKind register with
  | .integer => pyInt (unpackVal r b)
  | .mapped k => .ok (readMapped k r b)
  | .raw => .ok (unpackVal r b)

/-- `result[register] = value` on a Python dictionary. -/
def dictSet (d : List (Nat × Val)) (reg : Nat) (v : Val) : List (Nat × Val) :=
  if d.any (fun e => e.1 = reg) then d.map (fun e => if e.1 = reg then (reg, v) else e)
  else d ++ [(reg, v)]

/-- moteus.py:553-563 `parse_reply`, the loop from a given parser state. -/
def parseReplyLoop : Nat → RegisterParser → List (Nat × Val) → Option (Except Err (List (Nat × Val)))
  | 0, _, _ => none
  | fuel + 1, p, result =>
    match p.next with
    | (none, _) => some (.ok result)
    | (some (reg, res), p) =>
      match p.read res with
      | .error e => some (.error e)
      | .ok (b, p) =>
        match parseRegister reg res b with
        | .error e => some (.error e)
        | .ok v => parseReplyLoop fuel p (dictSet result reg v)

/-- moteus.py:553-563 `parse_reply`; `none` would be an endless loop. -/
def parseReply (data : Bytes) : Option (Except Err (List (Nat × Val))) :=
  parseReplyLoop (data.length + 1) (RegisterParser.init data) []

end Verif.Commands
