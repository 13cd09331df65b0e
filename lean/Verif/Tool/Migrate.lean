import Verif.Float.Ieee
import Mathlib.Tactic.Ring

/-!
# Configuration migration: model

Model of `FirmwareUpgrade` (lib/python/moteus/moteus_tool.py:87-504).

Simplifications:
* a configuration is a list of settings; the splitting of the text into lines
  and keys (105-106, 503-504) and the decimal text of a float are not modelled;
* a key is the list of its dot separated components, with indices as numbers;
* a value is the number its text denotes together with its kind: text of an
  integer (accepted by `int` and `float`), text of another float (accepted by
  `float` only), or any other text;
* the sign of a zero is not represented;
* the loop of `_wrap_neg_pi_to_pi` is a parameter, see `Verif.Calib.Angles`;
* messages are not modelled.
-/

namespace Verif.Tool

open Verif.Float

inductive Comp
  | n (name : String)
  | i (index : Nat)
deriving DecidableEq, Repr

abbrev Key := List Comp

inductive Val
  | int (n : Int)
  | flt (x : Fl)
  | text (s : String)
deriving DecidableEq

abbrev Items := List (Key × Val)

inductive MErr
  | keyError | valueError | typeError | attributeError | zeroDivision | overflow | endless
deriving DecidableEq, Repr

abbrev M := Except MErr

/-! ## Python dictionaries -/

def get (d : Items) (k : Key) : Option Val := d.lookup k

def set (d : Items) (k : Key) (v : Val) : Items :=
  if (get d k).isSome then d.map fun e => if e.1 = k then (k, v) else e else d ++ [(k, v)]

/-- Removes a key. -/
def drop (d : Items) (k : Key) : Items := d.filter fun e => decide (e.1 ≠ k)

/-- `items[key]` -/
def need (d : Items) (k : Key) : M Val :=
  match get d k with
  | some v => .ok v
  | none => .error .keyError

/-- `items.pop(key)` -/
def pop (d : Items) (k : Key) : M (Val × Items) := do
  let v ← need d k
  pure (v, drop d k)

def has (d : Items) (k : Key) : Bool := (get d k).isSome

/-! ## Numbers -/

/-- Rounding of a float operation and `_wrap_neg_pi_to_pi` (`none` if it does
not terminate). -/
structure Arith where
  rnd : ℚ → Fl
  wrap : Fl → Option Fl

variable (A : Arith)

/-- `float(text)` -/
def toFloat : Val → M Fl
  | .int n => .ok (A.rnd n)
  | .flt x => .ok x
  | .text _ => .error .valueError

/-- `int(text)` -/
def toInt : Val → M Int
  | .int n => .ok n
  | _ => .error .valueError

/-- `float(items.get(key, default))` -/
def floatOr (d : Items) (k : Key) (default : Fl) : M Fl :=
  match get d k with
  | some v => toFloat A v
  | none => .ok default

/-- `int(items.get(key, default))` -/
def intOr (d : Items) (k : Key) (default : Int) : M Int :=
  match get d k with
  | some v => toInt v
  | none => .ok default

/-- `float(items.get(key))` -/
def floatGet (d : Items) (k : Key) : M Fl :=
  match get d k with
  | some v => toFloat A v
  | none => .error .typeError

def Fl.neg : Fl → Fl
  | .fin q => .fin (-q)
  | .inf s => .inf (!s)
  | .nan => .nan

def fadd : Fl → Fl → Fl
  | .fin a, .fin b => A.rnd (a + b)
  | .nan, _ => .nan
  | _, .nan => .nan
  | .inf s, .inf t => if s = t then .inf s else .nan
  | .inf s, .fin _ => .inf s
  | .fin _, .inf t => .inf t

def fsub (a b : Fl) : Fl := fadd A a (Fl.neg b)

def fmul : Fl → Fl → Fl
  | .fin a, .fin b => A.rnd (a * b)
  | .nan, _ => .nan
  | _, .nan => .nan
  | .inf s, .inf t => .inf (xor s t)
  | .inf s, .fin b => if b = 0 then .nan else .inf (xor s (decide (b < 0)))
  | .fin a, .inf t => if a = 0 then .nan else .inf (xor (decide (a < 0)) t)

def fdiv : Fl → Fl → M Fl
  | _, .fin 0 => .error .zeroDivision
  | .fin a, .fin b => .ok (A.rnd (a / b))
  | .nan, _ => .ok .nan
  | _, .nan => .ok .nan
  | .inf _, .inf _ => .ok .nan
  | .inf s, .fin b => .ok (.inf (xor s (decide (b < 0))))
  | .fin _, .inf _ => .ok (.fin 0)

/-- `a == b` -/
def feq : Fl → Fl → Bool
  | .fin a, .fin b => decide (a = b)
  | .inf s, .inf t => decide (s = t)
  | _, _ => false

/-- `a > b` -/
def fgt : Fl → Fl → Bool
  | .fin a, .fin b => decide (a > b)
  | .inf s, .inf t => !s && t
  | .inf s, .fin _ => !s
  | .fin _, .inf t => t
  | _, _ => false

def fabs : Fl → Fl
  | .fin a => .fin |a|
  | .inf _ => .inf false
  | .nan => .nan

/-- `int(x)` of a float. -/
def ftrunc : Fl → M Int
  | .fin q => .ok (if 0 ≤ q then ⌊q⌋ else ⌈q⌉)
  | .inf _ => .error .overflow
  | .nan => .error .valueError

def isFinite : Fl → Bool
  | .fin _ => true
  | _ => false

/-! ## Keys -/

def kKv : Key := [.n "motor", .n "Kv"]
def kVPerHz : Key := [.n "motor", .n "v_per_hz"]
def kMaxPower : Key := [.n "servo", .n "max_power_W"]
def kPwmRate : Key := [.n "servo", .n "pwm_rate_hz"]
def kEnableTemp : Key := [.n "servo", .n "enable_motor_temperature"]
def kThermistor : Key := [.n "servo", .n "motor_thermistor_ohm"]
def kAuxPwm (aux : String) : Key := [.n aux, .n "pwm_period_us"]
def kSource (s : Nat) (name : String) : Key := [.n "motor_position", .n "sources", .i s, .n name]
def kComp (s i : Nat) : Key :=
  [.n "motor_position", .n "sources", .i s, .n "compensation_table", .i i]
def kBemf : Key := [.n "servo", .n "bemf_feedforward"]
def kOutput (name : String) : Key := [.n "motor_position", .n "output", .n name]
def kDevice (aux : String) (d : Nat) (name : String) : Key :=
  [.n aux, .n "i2c", .n "devices", .i d, .n name]
def kSpiMode : Key := [.n "aux1", .n "spi", .n "mode"]
def kCommutation : Key := [.n "motor_position", .n "commutation_source"]
def kRatio : Key := [.n "motor_position", .n "rotor_to_output_ratio"]
def kInvert : Key := [.n "motor", .n "invert"]
def kPositionOffset : Key := [.n "motor", .n "position_offset"]
def kUnwrappedScale : Key := [.n "motor", .n "unwrapped_position_scale"]
def kCompMag : Key := [.n "servo", .n "pwm_comp_mag"]
def kCompOff : Key := [.n "servo", .n "pwm_comp_off"]
def kPwmScale : Key := [.n "servo", .n "pwm_scale"]
def kPhaseInvert : Key := [.n "motor", .n "phase_invert"]
def kPoles : Key := [.n "motor", .n "poles"]
def kFeedforward : Key := [.n "servo", .n "feedforward_scale"]
def kAbs (name : String) : Key := [.n "abs_port", .n name]
def kI2c (name : String) : Key := [.n "aux2", .n "i2c", .n name]
def kPin (aux : String) (p : Nat) (name : String) : Key := [.n aux, .n "pins", .i p, .n name]
def kRezero : Key := [.n "servo", .n "rezero_from_abs"]
def kEncoderMode : Key := [.n "encoder", .n "mode"]
def kVelFilter : Key := [.n "servo", .n "velocity_filter_length"]
def kEncFilter (name : String) : Key := [.n "servo", .n "encoder_filter", .n name]
def kOffset (i : Nat) : Key := [.n "motor", .n "offset", .i i]

/-! ## Downgrades -/

/-- moteus_tool.py:121-125, 487-491: the board default, a KeyError for an
unknown family. -/
def boardDefault (family : Int) : M ℚ :=
  if family = 0 ∨ family = 1 then .ok 450 else if family = 2 then .ok 100 else .error .keyError

/-- `V_PER_HZ_FUDGE_010a * 0.5 * 60`, moteus_tool.py:85, 111, 478 -/
def fudge : Fl := fmul A (fmul A (A.rnd (109 / 100)) (.fin (1 / 2))) (.fin 60)

/-- moteus_tool.py:108-135 -/
def down010a (family : Int) (d : Items) : M Items := do
  let (v, d) ← pop d kKv
  let kv ← toFloat A v
  let w ← if feq kv (.fin 0) then pure (Val.int 0) else Val.flt <$> fdiv A (fudge A) kv
  let d := set d kVPerHz w
  if has d kMaxPower then do
    let p ← floatGet A d kMaxPower
    if !isFinite p then do
      let b ← boardDefault family
      pure (set d kMaxPower (.flt (.fin b)))
    else do
      let pwm ← floatGet A d kPwmRate
      let r ← fdiv A (.fin 40000) pwm
      pure (set d kMaxPower (.flt (fmul A p r)))
  else pure d

/-- moteus_tool.py:159-172: one source. -/
def downComp (s : Nat) (d : Items) : M Items := do
  let c ← floatOr A d (kSource s "compensation_scale") (.fin 0)
  let d := drop d (kSource s "compensation_scale")
  let scale ← fdiv A c (.fin 127)
  let bins ← (List.range 256).mapM fun i => do
    let x ← floatGet A d (kComp s i)
    pure (fmul A x scale)
  let d := (List.range 256).foldl (fun d i => drop d (kComp s i)) d
  pure ((List.range 32).foldl
    (fun d i => set d (kComp s i) (.flt (bins.getD (i * 8) .nan))) d)

/-- moteus_tool.py:141-142: a thermistor that older firmware does not support. -/
def thermistorOff (d : Items) : M Bool := do
  let en ← intOr d kEnableTemp 0
  if en ≠ 0 then do
    let t ← floatOr A d kThermistor (.fin 0)
    let t ← ftrunc t
    pure (decide (t ≠ 47000))
  else pure false

/-- moteus_tool.py:138-172 -/
def down0109 (d : Items) : M Items := do
  let off ← thermistorOff A d
  let d := if off then set d kEnableTemp (.int 0) else d
  let (_, d) ← pop d kThermistor
  let (_, d) ← pop d (kAuxPwm "aux1")
  let (_, d) ← pop d (kAuxPwm "aux2")
  if has d (kComp 0 0) then do
    let d ← downComp A 0 d
    let d ← downComp A 1 d
    downComp A 2 d
  else pure d

/-- moteus_tool.py:174-177 -/
def down0108 (d : Items) : M Items := do
  let x ← floatOr A d kBemf (.fin 0)
  pure (if feq x (.fin 0) then set d kBemf (.flt (.fin 1)) else d)

/-- moteus_tool.py:179-184 -/
def down0107 (d : Items) : M Items := do
  let v ← need d (kOutput "sign")
  let n ← toInt v
  pure (if n ≠ 1 then set d (kOutput "sign") (.int 1) else d)

/-- moteus_tool.py:190-195: one device. -/
def downPoll (aux : String) (dev : Nat) (d : Items) : M Items := do
  let (v, d) ← pop d (kDevice aux dev "poll_rate_us")
  let n ← toInt v
  pure (set d (kDevice aux dev "poll_ms") (.int (max 1 (n / 1000))))

/-- The devices in the order of the loops, moteus_tool.py:188-189, 389-390. -/
def devices : List (String × Nat) :=
  [("aux1", 0), ("aux1", 1), ("aux1", 2), ("aux2", 0), ("aux2", 1), ("aux2", 2)]

/-- moteus_tool.py:186-196 -/
def down0106 (d : Items) : M Items :=
  devices.foldlM (fun d x => downPoll x.1 x.2 d) d

/-- `a or b or …`, evaluated from the left. -/
def orM : List (M Bool) → M Bool
  | [] => .ok false
  | x :: xs => do
    let b ← x
    if b then pure true else orM xs

def intIsNot (d : Items) (k : Key) (n : Int) : M Bool := do
  let v ← need d k
  let m ← toInt v
  pure (decide (m ≠ n))

/-- moteus_tool.py:221-229: settings that do not exist before 0x0105. -/
def isNew0105 : Key → Bool
  | .n a :: .n b :: rest =>
    a == "motor_position" || a == "aux1" || a == "aux2" || a == "icpz1" || a == "icpz2" ||
    (a == "motor" && "cogging_dq".toList.isPrefixOf b.toList) ||
    (a == "servo" && "current_feedforward".toList.isPrefixOf b.toList)
  | .n a :: _ :: _ =>
    a == "motor_position" || a == "aux1" || a == "aux2" || a == "icpz1" || a == "icpz2"
  | _ => false

/-- moteus_tool.py:198-229 -/
def down0105 (d : Items) : M Items := do
  let bad ← orM [
    intIsNot d kSpiMode 0,
    intIsNot d (kSource 0 "type") 1,
    intIsNot d kCommutation 0,
    intIsNot d (kOutput "source") 0,
    intIsNot d (kOutput "reference_source") (-1),
    (do let v ← need d (kSource 0 "offset")
        let x ← toFloat A v
        pure (!feq x (.fin 0))),
    intIsNot d (kOutput "sign") 1]
  let d ← if bad then pure d
    else do
      let (v, d) ← pop d (kSource 0 "sign")
      let s ← toInt v
      let d := set d kInvert (if s = -1 then .int 1 else .int 0)
      let v ← need d (kOutput "offset")
      let offset ← toFloat A v
      let v ← need d kRatio
      let scale ← toFloat A v
      let q ← fdiv A offset scale
      let n ← ftrunc (fmul A q (.fin 65536))
      let d := set d kPositionOffset (.int n)
      let (v, d) ← pop d kRatio
      pure (set d kUnwrappedScale v)
  pure (d.filter fun e => !isNew0105 e.1)

/-- moteus_tool.py:231-237 -/
def down0104 (d : Items) : M Items := do
  let a ← floatOr A d kCompMag (.fin 0)
  let both ← if feq a (A.rnd (5 / 1000)) then do
      let b ← floatOr A d kCompOff (.fin 0)
      pure (feq b (A.rnd (55 / 1000)))
    else pure false
  pure (if both then
      let d := set d kCompOff (.flt (A.rnd (48 / 1000)))
      let d := set d kCompMag (.flt (A.rnd (11 / 1000)))
      set d kPwmScale (.flt (A.rnd (115 / 100)))
    else d)

/-- moteus_tool.py:239-249 -/
def down0103 (d : Items) : M Items := do
  let a ← floatOr A d kPwmScale (.fin 0)
  let both ← if feq a (A.rnd (115 / 100)) then do
      let b ← floatOr A d kCompOff (.fin 0)
      pure (feq b (A.rnd (48 / 1000)))
    else pure false
  let d := if both then
      let d := set d kCompOff (.flt (A.rnd (48 / 1000)))
      set d kCompMag (.flt (A.rnd (3 / 1000)))
    else d
  let v ← need d kPhaseInvert
  let n ← toInt v
  pure (if n ≠ 0 then set d kPoles (.int 0) else d)

/-- moteus_tool.py:251-256 -/
def down0101 (d : Items) : M Items := do
  let v ← need d kFeedforward
  let x ← toFloat A v
  pure (if feq x (.fin (1 / 2)) then set d kFeedforward (.flt (.fin 1)) else d)

/-! ## Upgrades -/

/-- moteus_tool.py:272-280 -/
def up0101 (d : Items) : M Items := do
  let v ← need d kFeedforward
  let x ← toFloat A v
  pure (if feq x (.fin 1) then set d kFeedforward (.flt (.fin (1 / 2)))
    else set d kFeedforward (.flt (.fin 0)))

/-- moteus_tool.py:282-287 -/
def up0103 (d : Items) : M Items := do
  let a ← floatOr A d kCompMag (.fin 0)
  pure (if feq a (A.rnd (3 / 1000)) then
      let d := set d kPwmScale (.flt (A.rnd (115 / 100)))
      let d := set d kCompOff (.flt (A.rnd (48 / 1000)))
      set d kCompMag (.flt (A.rnd (11 / 1000)))
    else d)

/-- moteus_tool.py:289-295 -/
def up0104 (d : Items) : M Items := do
  let a ← floatOr A d kCompMag (.fin 0)
  let both ← if feq a (A.rnd (11 / 1000)) then do
      let b ← floatOr A d kCompOff (.fin 0)
      pure (feq b (A.rnd (48 / 1000)))
    else pure false
  pure (if both then
      let d := set d kCompOff (.flt (A.rnd (55 / 1000)))
      let d := set d kCompMag (.flt (A.rnd (5 / 1000)))
      set d kPwmScale (.flt (.fin 1))
    else d)

/-- moteus_tool.py:333-334 -/
def isAbsPort : Key → Bool
  | .n a :: _ :: _ => a == "abs_port"
  | _ => false

/-- moteus_tool.py:305-312: the device on the I2C bus. -/
def auxDevice (mode : Int) (d : Items) : M Items :=
  if mode ≠ 0 then do
    let v ← need d (kAbs "mode")
    let d := set d (kDevice "aux2" 0 "type") v
    let v ← need d (kAbs "encoder_i2c_address")
    let d := set d (kDevice "aux2" 0 "address") v
    let v ← need d (kAbs "encoder_poll_ms")
    let d := set d (kDevice "aux2" 0 "poll_ms") v
    let d := set d (kPin "aux2" 0 "mode") (.int 13)
    let d := set d (kPin "aux2" 1 "mode") (.int 13)
    let d := set d (kPin "aux2" 0 "pull") (.int 1)
    pure (set d (kPin "aux2" 1 "pull") (.int 1))
  else pure d

/-- moteus_tool.py:313-330: the second source. -/
def auxSource (mode rezero : Int) (d : Items) : M Items :=
  if rezero ≠ 0 then do
    let d := set d (kSource 1 "type") (.int 7)
    let d := set d (kSource 1 "aux_number") (.int 2)
    let d := set d (kSource 1 "i2c_device") (.int 0)
    let v ← need d (kAbs "position_offset")
    let d := set d (kSource 1 "offset") v
    let d := set d (kSource 1 "reference") (.int 1)
    let d := set d (kSource 1 "pll_filter_hz") (.int 10)
    let d := set d (kSource 1 "cpr") (if mode = 1 then .int 65536 else .int 16384)
    let v ← need d (kAbs "position_scale")
    let x ← toFloat A v
    let d := if feq x (.fin (-1)) then set d (kSource 1 "sign") (.int (-1)) else d
    pure (set d (kOutput "reference_source") (.int 1))
  else pure d

/-- moteus_tool.py:302-335: the auxiliary encoder. -/
def upAbs (d : Items) : M Items :=
  if has d (kAbs "i2c_mode") then do
    let v ← need d (kAbs "i2c_hz")
    let d := set d (kI2c "i2c_hz") v
    let v ← need d (kAbs "i2c_mode")
    let d := set d (kI2c "i2c_mode") v
    let v ← need d (kAbs "mode")
    let mode ← toInt v
    let d ← auxDevice mode d
    let rezero ← intOr d kRezero 0
    let d ← auxSource A mode rezero d
    let d := d.filter fun e => !isAbsPort e.1
    let (_, d) ← pop d kRezero
    pure d
  else pure d

/-- moteus_tool.py:337-349: the external encoder. -/
def upEncoder (d : Items) : M Items :=
  if has d kEncoderMode then do
    let n ← intOr d kEncoderMode 0
    let d := if n ≠ 0 then
        let d := set d kSpiMode (.int 2)
        let d := set d (kPin "aux1" 0 "mode") (.int 2)
        let d := set d (kPin "aux1" 1 "mode") (.int 1)
        let d := set d (kPin "aux1" 2 "mode") (.int 1)
        set d (kPin "aux1" 3 "mode") (.int 1)
      else d
    let (_, d) ← pop d kEncoderMode
    pure d
  else pure d

/-- moteus_tool.py:351-356: position offset, direction and ratio. -/
def upOffset (d : Items) : M Items := do
  let (v, d) ← pop d kPositionOffset
  let offset ← toFloat A v
  let v ← need d kUnwrappedScale
  let scale ← toFloat A v
  let q ← fdiv A offset (.fin 65536)
  let d := set d (kOutput "offset") (.flt (fmul A q scale))
  let inv ← intOr d kInvert 0
  let d := drop d kInvert
  let d := set d (kSource 0 "sign") (if inv ≠ 0 then .int (-1) else .int 1)
  let (v, d) ← pop d kUnwrappedScale
  pure (set d kRatio v)

/-- moteus_tool.py:358-373: filters.  `2 * math.pi` is a constant. -/
def upFilter (twoPi : ℚ) (d : Items) : M Items := do
  let d := if has d kVelFilter then drop d kVelFilter else d
  if has d (kEncFilter "kp") then do
    let (v, d) ← pop d (kEncFilter "kp")
    let kp ← toFloat A v
    let (v, d) ← pop d (kEncFilter "ki")
    let _ ← toFloat A v
    let (v, d) ← pop d (kEncFilter "enabled")
    let en ← toInt v
    let hz ← if en = 0 then pure (Val.int 0) else do
        let w ← fdiv A kp (.fin 2)
        Val.flt <$> fdiv A w (.fin twoPi)
    let d := set d (kSource 0 "pll_filter_hz") hz
    let (v, d) ← pop d (kEncFilter "debug_override")
    let o ← toInt v
    pure (if o ≥ 0 then set d (kSource 0 "debug_override") (.int o) else d)
  else pure d

/-- moteus_tool.py:375-383: default PWM rate. -/
def upPwmRate (d : Items) : M Items :=
  match get d kPwmRate with
  | some v => do
    let n ← toInt v
    pure (if n = 40000 then set d kPwmRate (.int 30000) else d)
  | none => pure d

/-- `2 * math.pi` -/
def twoPi : ℚ := 884279719003555 / 140737488355328

/-- moteus_tool.py:297-385 -/
def up0105 (d : Items) : M Items := do
  let d ← upAbs A d
  let d ← upEncoder d
  let d ← upOffset A d
  let d ← upFilter A twoPi d
  upPwmRate d

/-- moteus_tool.py:391-399: one device. -/
def upPoll (aux : String) (dev : Nat) (d : Items) : M Items :=
  if !has d (kDevice aux dev "poll_rate_us") then pure d
  else do
    let (v, d) ← pop d (kDevice aux dev "poll_ms")
    let n ← toInt v
    pure (set d (kDevice aux dev "poll_rate_us") (.int (n * 1000)))

/-- moteus_tool.py:387-400 -/
def up0106 (d : Items) : M Items :=
  devices.foldlM (fun d x => upPoll x.1 x.2 d) d

/-- moteus_tool.py:402-408: nothing is changed. -/
def up0107 (d : Items) : M Items := do
  let _ ← intOr d (kOutput "sign") 1
  pure d

/-- moteus_tool.py:410-413 -/
def up0108 (d : Items) : M Items := do
  let x ← floatOr A d kBemf (.fin 1)
  pure (if feq x (.fin 1) then set d kBemf (.flt (.fin 0)) else d)

/-- moteus_tool.py:417-424: the offsets present, from index `i`. -/
def readOffsets (d : Items) : Nat → Nat → M (List Fl)
  | 0, _ => .ok []
  | fuel + 1, i =>
    match get d (kOffset i) with
    | none => .ok []
    | some v => do
      let x ← toFloat A v
      let xs ← readOffsets d fuel (i + 1)
      pure (x :: xs)

def wrapM (x : Fl) : M Fl :=
  match A.wrap x with
  | some y => .ok y
  | none => .error .endless

/-- moteus_tool.py:429-432: the rest of the list, after `last`. -/
def unwrapOffsets (last : Fl) : List Fl → M (List Fl)
  | [] => .ok []
  | x :: xs => do
    let w ← wrapM A (fsub A x last)
    let y := fadd A last w
    let ys ← unwrapOffsets y xs
    pure (y :: ys)

/-- moteus_tool.py:426-435: unwrapped and re-centred. -/
def fixOffsets (old : List Fl) : M (List Fl) := do
  let offsets ← match old with
    | [] => pure []
    | x :: xs => do
      let ys ← unwrapOffsets A x xs
      pure (x :: ys)
  let mean ← fdiv A (offsets.foldl (fadd A) (.fin 0)) (A.rnd offsets.length)
  let w ← wrapM A mean
  let delta := fsub A mean w
  pure (offsets.map fun x => fsub A x delta)

/-- moteus_tool.py:415-442 -/
def up0109a (d : Items) : M Items := do
  let old ← readOffsets A d (d.length + 1) 0
  let offsets ← fixOffsets A old
  pure (if (offsets.zip old).any fun p => fgt (fabs (fsub A p.1 p.2)) (A.rnd (1 / 100)) then
      (offsets.zipIdx).foldl (fun d p => set d (kOffset p.2) (.flt p.1)) d
    else d)

/-- moteus_tool.py:62-71 `lerp` at `i / 256` of 32 bins; index and fraction
are exact. -/
def lerp (bins : List Fl) (i : Nat) : Fl :=
  let left := bins.getD (i / 8) .nan
  let right := bins.getD ((i / 8 + 1) % 32) .nan
  let fraction : ℚ := (i % 8 : Nat) / 8
  fadd A (fmul A left (.fin (1 - fraction))) (fmul A right (.fin fraction))

/-- Python's `max` of a list of floats that starts with `x`. -/
def fmax (x : Fl) : List Fl → Fl
  | [] => x
  | y :: ys => fmax (if fgt y x then y else x) ys

/-- moteus_tool.py:460: one bin, `None` has no `decode`. -/
def readBin (d : Items) (s i : Nat) : M Fl :=
  match get d (kComp s i) with
  | some v => toFloat A v
  | none => .error .attributeError

/-- moteus_tool.py:461-473: one source. -/
def upComp (s : Nat) (d : Items) : M Items := do
  let bins ← (List.range 32).mapM (readBin A d s)
  let scale := fmax (fabs (bins.headD .nan)) ((bins.drop 1).map fabs)
  let values ← (List.range 256).mapM fun i =>
    if !feq scale (.fin 0) then do
      let q ← fdiv A (fmul A (.fin 127) (lerp A bins i)) scale
      ftrunc q
    else pure 0
  let d := values.zipIdx.foldl (fun d p => set d (kComp s p.2) (.int p.1)) d
  pure (set d (kSource s "compensation_scale") (.flt scale))

/-- moteus_tool.py:444-473 -/
def up0109b (d : Items) : M Items := do
  let en ← intOr d kEnableTemp 0
  let d := if en ≠ 0 then set d kThermistor (.int 47000) else d
  if has d (kComp 0 0) then do
    let d ← upComp A 0 d
    let d ← upComp A 1 d
    upComp A 2 d
  else pure d

/-- moteus_tool.py:475-501 -/
def up010a (family : Int) (d : Items) : M Items := do
  let (v, d) ← pop d kVPerHz
  let vph ← toFloat A v
  let w ← if feq vph (.fin 0) then pure (Val.int 0) else Val.flt <$> fdiv A (fudge A) vph
  let d := set d kKv w
  if has d kMaxPower then do
    let b ← boardDefault family
    let p ← floatGet A d kMaxPower
    if feq p (.fin b) then pure (set d kMaxPower (.flt .nan))
    else do
      let pwm ← floatOr A d kPwmRate (.fin 40000)
      let r ← fdiv A pwm (.fin 40000)
      pure (set d kMaxPower (.flt (fmul A p r)))
  else pure d

/-- Runs a step if the condition holds. -/
def onlyIf (c : Bool) (f : Items → M Items) (d : Items) : M Items := if c then f d else pure d

/-- moteus_tool.py:104-504 `fix_config`, from the items to the items. -/
def migrate (old new : Nat) (family : Int) (d : Items) : M Items := do
  let d ← onlyIf (decide (new ≤ 0x0109 ∧ old ≥ 0x010a)) (down010a A family) d
  let d ← onlyIf (decide (new ≤ 0x0108 ∧ old ≥ 0x0109)) (down0109 A) d
  let d ← onlyIf (decide (new ≤ 0x0107 ∧ old ≥ 0x0108)) (down0108 A) d
  let d ← onlyIf (decide (new ≤ 0x0106 ∧ old ≥ 0x0107)) down0107 d
  let d ← onlyIf (decide (new ≤ 0x0105 ∧ old ≥ 0x0106)) down0106 d
  let d ← onlyIf (decide (new ≤ 0x0104 ∧ old ≥ 0x0105)) (down0105 A) d
  let d ← onlyIf (decide (new ≤ 0x0103 ∧ old ≥ 0x0104)) (down0104 A) d
  let d ← onlyIf (decide (new ≤ 0x0102 ∧ old ≥ 0x0103)) (down0103 A) d
  let d ← onlyIf (decide (new ≤ 0x0100 ∧ old = 0x0101)) (down0101 A) d
  let d ← onlyIf (decide (new = 0x0101 ∧ old ≤ 0x0100)) (up0101 A) d
  let d ← onlyIf (decide (new ≥ 0x0103 ∧ old ≤ 0x0102)) (up0103 A) d
  let d ← onlyIf (decide (new ≥ 0x0104 ∧ old ≤ 0x0103)) (up0104 A) d
  let d ← onlyIf (decide (new ≥ 0x0105 ∧ old ≤ 0x0104)) (up0105 A) d
  let d ← onlyIf (decide (new ≥ 0x0106 ∧ old ≤ 0x0105)) up0106 d
  let d ← onlyIf (decide (new ≥ 0x0107 ∧ old ≤ 0x0106)) up0107 d
  let d ← onlyIf (decide (new ≥ 0x0108 ∧ old ≤ 0x0107)) (up0108 A) d
  let d ← onlyIf (decide (new ≥ 0x0109 ∧ old ≤ 0x0108)) (up0109a A) d
  let d ← onlyIf (decide (new ≥ 0x0109 ∧ old ≤ 0x0108)) (up0109b A) d
  onlyIf (decide (new ≥ 0x010a ∧ old ≤ 0x0109)) (up010a A family) d

end Verif.Tool
