import Mathlib.Data.List.Basic
import Mathlib.Data.List.FinRange
import Mathlib.Data.Fintype.Basic
import Mathlib.Data.Fintype.Pi

/-!
# The auxiliary ports: configuration and sampling

Model of `AuxPort` in fw/aux_port.h (`HandleConfigUpdate` 778-1256,
`AddSampleType` 1258-1275, `ISR_MaybeStartSample` 116-140,
`ISR_MaybeFinishSample` 142-244, `ISR_EndAnalogSample` 279-310,
`PollMillisecond` 312-358, `WriteDigitalOut` 388-394, `debug_uart` 401-406),
of the pin searches of fw/aux_mbed.h (`Stm32Quadrature` 88-194, `Stm32Index`
294-330, `Stm32PwmTimerSet` 409-444, `FindSpiOption` 513-585,
`FindUartOption` 587-640), and of the hardware tables of
fw/moteus_controller.cc:361-445.

An object of the C++ code that lives in a `std::optional` is a Boolean here:
whether it exists.  The use of an object that does not exist, a failed
`MJ_ASSERT`, `mbed_die` and a loop that runs off an array all give `none`.
The alternate function tables of mbed are not part of the repository; they are
an arbitrary function.
-/

namespace Verif.Fw.Aux

/-- fw/aux_common.h:314-335, `Pin::Mode`; a stored number that is none of
these is `other`. -/
inductive PinMode
  | nc | spi | spiCs | uart | quadSw | quadHw | hall | index | sine | cosine
  | step | dir | rcPwm | i2c | dIn | dOut | aIn | pwmOut | other
  deriving DecidableEq, Repr

/-- fw/aux_common.h:339-344, `Pin::Pull`. -/
inductive Pull | none | up | down | openDrain
  deriving DecidableEq, Repr

/-- fw/aux_common.h:27-36, `Spi::Config::Mode`. -/
inductive SpiMode | onboard | disabled | as5047 | icPz | ma732 | ma600 | numModes | other
  deriving DecidableEq, Repr

/-- fw/aux_common.h:84-92, `UartEncoder::Config::Mode`. -/
inductive UartMode | disabled | aksim2 | tunnel | debug | cuiAmt21 | other
  deriving DecidableEq, Repr

/-- fw/aux_common.h:383-399, `AuxError`. -/
inductive Err
  | none | spiPin | i2cPin | hallPin | quadPin | indexPin | adcPin | sineCosinePin
  | uartPin | pwmPin | maConfig
  deriving DecidableEq, Repr

/-- fw/aux_port.h:412-429, `SampleType`. -/
inductive ST
  | none | as5047 | ma732 | icPz | gpio | hall | quad | index | aksim2 | cuiAmt21 | i2c
  deriving DecidableEq, Repr

structure PinCfg where
  mode : PinMode := .nc
  pull : Pull := .none
  deriving DecidableEq

/-- The part of `AuxConfig` (fw/aux_common.h:354-381) that decides what the
port does. -/
structure Cfg where
  /-- the `type` of each I2C device, 0 is `kNone` -/
  devices : List Nat := [0, 0, 0]
  pullup : Bool := false
  spi : SpiMode := .onboard
  uart : UartMode := .disabled
  rs422 : Bool := false
  quad : Bool := false
  hall : Bool := false
  polarity : Nat := 0
  index : Bool := false
  sc : Bool := false
  pins : Fin 5 → PinCfg := fun _ => {}

/-- fw/aux_mbed.h:28-37, `AuxPinConfig`; the filler rows `{-1, NC}` are left
out. -/
structure Row where
  number : Fin 5
  mbed : Nat
  adc : Option (Nat × Nat) := none
  i2c : Option Nat := none
  spi : Option Nat := none
  uart : Option Nat := none
  timer : Option Nat := none

/-- fw/aux_mbed.h:39-48, `AuxHardwareConfig`, with the constructor argument
`spi_default` (fw/aux_port.h:72-82). -/
structure Hw where
  rows : List Row
  i2cPullup : Bool := false
  rs422 : Bool := false
  onboardSpi : Bool := false

inductive Role | scl | sda | mosi | miso | sclk | tx | rx
  deriving DecidableEq

/-- `pinmap_find_peripheral(pin | alt, map)`: which peripheral, if any, the
pin with this alternate function belongs to (mbed, not in the repository). -/
abbrev PinMap := Role → Nat → Nat → Option Nat

/-- Results of the three possible calls of `Stm32GpioInterruptIn::Make`
during one configuration: first and second quadrature pin, index pin. -/
structure Mk where
  a : Bool := true
  b : Bool := true
  i : Bool := true

/-- State of the port.  `upd` is the local variable `updated_any_isr`;
`line` is the level that the port drives on a digital output. -/
structure St where
  cfg : Cfg := {}
  error : Err := .none
  epoch : Nat := 0
  anyIsr : Bool := false
  upd : Bool := false
  i2c : Bool := false
  as5047Opt : Bool := false
  as5047 : Bool := false
  ma732Opt : Bool := false
  ma732 : Bool := false
  icPz : Bool := false
  /-- `digital_inputs_` -/
  dIn : Fin 5 → Bool := fun _ => false
  /-- `digital_outputs_` -/
  dOut : Fin 5 → Bool := fun _ => false
  /-- `pwm_` -/
  pwm : Fin 5 → Bool := fun _ => false
  /-- `pwm_timer_set_.timers_` -/
  timers : List Nat := []
  halls : Nat := 0
  /-- `quad_`, with its hardware timer -/
  quad : Option (Option Nat) := none
  index : Bool := false
  uart : Bool := false
  aksim2 : Bool := false
  cuiAmt21 : Bool := false
  tunnel : Bool := false
  start : List ST := List.replicate 11 .none
  fin : List ST := List.replicate 11 .none
  anyAdc : Bool := false
  adcOn : Fin 5 → Bool := fun _ => false
  /-- `adc_info_.config` -/
  adc : Fin 5 → Option (Nat × Nat) := fun _ => none
  sine : Option (Fin 5) := none
  cosine : Option (Fin 5) := none
  /-- `status_.gpio_bit_active` -/
  gpioBits : Fin 5 → Bool := fun _ => false
  /-- `status_.pins` -/
  pins : Fin 5 → Bool := fun _ => false
  line : Fin 5 → Bool := fun _ => false

/-- How a part of `HandleConfigUpdate` ends: it goes on, it returns, or the
controller stops. -/
inductive Flow
  | go (s : St)
  | ret (s : St)
  | die

namespace Flow
def bind : Flow → (St → Flow) → Flow
  | go s, f => f s
  | ret s, _ => ret s
  | die, _ => die

/-- The state that the port is left in, if the controller still runs. -/
def st : Flow → Option St
  | go s => some s
  | ret s => some s
  | die => Option.none

end Flow

/-! ## The parts of `HandleConfigUpdate` -/

/-- aux_port.h:779-859: everything is put back.  `stream_write_outstanding_`
and the electrical lines of outputs that are taken away are not modelled. -/
def reset (c : Cfg) (s : St) : St :=
  { cfg := c, epoch := (s.epoch + 1) % 256 }

/-- The alternates tried in every search, `{0, 0x100, ... 0x400}`. -/
def alts : List Nat := [0, 1, 2, 3, 4]

/-- aux_port.h:885-894, the loop over the alternates of one row. -/
def i2cAlt (pm : PinMap) (mbed p : Nat) : Option (Bool × (Nat × Nat)) :=
  alts.findSome? fun alt =>
    if pm .scl mbed alt = some p then some (true, (mbed, alt))
    else if pm .sda mbed alt = some p then some (false, (mbed, alt))
    else none

/-- aux_port.h:874-897: the pins for SCL and SDA, later matches replace
earlier ones. -/
def i2cPins (hw : Hw) (pm : PinMap) (c : Cfg) : Option (Nat × Nat) × Option (Nat × Nat) :=
  (List.finRange 5).foldl (init := (none, none)) fun acc i =>
    if (c.pins i).mode = .i2c then
      hw.rows.foldl (init := acc) fun acc r =>
        if r.number = i then
          match r.i2c with
          | none => acc
          | some p =>
            match i2cAlt pm r.mbed p with
            | some (true, x) => (some x, acc.2)
            | some (false, x) => (acc.1, some x)
            | none => acc
        else acc
    else acc

/-- aux_port.h:863-871. -/
def anyI2c (c : Cfg) : Bool := c.devices.any (· ≠ 0)

/-- aux_port.h:873-925. -/
def i2cSec (hw : Hw) (pm : PinMap) (s : St) : Flow :=
  if anyI2c s.cfg then
    match i2cPins hw pm s.cfg with
    | (some _, some _) =>
      if s.cfg.pullup ∧ hw.i2cPullup = false then .ret { s with error := .i2cPin }
      else .go { s with i2c := true, upd := true }
    | _ => .ret { s with error := .i2cPin }
  else .go s

/-- aux_mbed.h:50-56, `SpiPinOption`. -/
structure SpiOpt where
  spi : Option Nat := none
  sck : Option (Nat × Nat) := none
  miso : Option (Nat × Nat) := none
  mosi : Option (Nat × Nat) := none
  cs : Option Nat := none

/-- aux_mbed.h:548-565, the loop over the alternates of one row.  The third
comparison looks at the pin without its alternate. -/
def spiAlt (pm : PinMap) (o : SpiOpt) (mbed p : Nat) : Option SpiOpt :=
  alts.findSome? fun alt =>
    if pm .mosi mbed alt = some p then some { o with mosi := some (mbed, alt) }
    else if pm .miso mbed alt = some p then some { o with miso := some (mbed, alt) }
    else if pm .sclk mbed 0 = some p then some { o with sck := some (mbed, alt) }
    else none

/-- aux_mbed.h:536-567, the loop over the rows for one pin: `none` is
`return {}`, the Boolean is `found`. -/
def spiRows (pm : PinMap) (i : Fin 5) : List Row → SpiOpt → Option (SpiOpt × Bool)
  | [], o => some (o, false)
  | r :: rs, o =>
    if r.number = i then
      match r.spi with
      | none => spiRows pm i rs o
      | some p =>
        if o.spi ≠ none ∧ o.spi ≠ some p then none
        else
          match spiAlt pm { o with spi := some p } r.mbed p with
          | some o' => some (o', true)
          | none => spiRows pm i rs { o with spi := some p }
    else spiRows pm i rs o

/-- aux_mbed.h:521-572, one pin. -/
def spiPin (hw : Hw) (pm : PinMap) (needCs : Bool) (c : Cfg) (i : Fin 5) (o : SpiOpt) :
    Option SpiOpt :=
  if (c.pins i).mode = .spiCs then
    some { o with cs := (hw.rows.find? (·.number = i)).map (·.mbed) }
  else if (c.pins i).mode = .spi ∨ (needCs = false ∧ (c.pins i).mode = .nc) then
    match spiRows pm i hw.rows o with
    | none => none
    | some (o', found) => if (c.pins i).mode = .spi ∧ found = false then none else some o'
  else some o

/-- aux_mbed.h:513-585, `FindSpiOption`. -/
def findSpi (hw : Hw) (pm : PinMap) (needCs : Bool) (c : Cfg) : Option SpiOpt :=
  match (List.finRange 5).foldlM (fun o i => spiPin hw pm needCs c i o) {} with
  | none => none
  | some o =>
    if needCs ∧ o.cs = none then none
    else if o.miso ≠ none ∧ o.mosi ≠ none ∧ o.sck ≠ none then some o
    else none

/-- aux_port.h:961-1013: what the SPI mode prepares. -/
def spiUse (s : St) : Flow :=
  match s.cfg.spi with
  | .as5047 | .onboard => .go { s with as5047Opt := true, upd := true }
  | .icPz => .go { s with icPz := true, upd := true }
  | .ma732 | .ma600 => .go { s with ma732Opt := true, upd := true }
  | .disabled | .numModes => .die
  | .other => .go { s with upd := true }

/-- aux_port.h:927-1014. -/
def spiSec (hw : Hw) (pm : PinMap) (s : St) : Flow :=
  if s.cfg.spi = .onboard ∧ hw.onboardSpi = false then .ret { s with error := .spiPin }
  else if s.cfg.spi = .disabled then .go s
  else if (findSpi hw pm (s.cfg.spi ≠ .onboard) s.cfg).isSome then spiUse s
  else .ret { s with error := .spiPin }

/-- The first row of a pin number. -/
def firstRow (hw : Hw) (i : Fin 5) : Option Row := hw.rows.find? (·.number = i)

/-- The pins that have one of the given modes, in order. -/
def pinsOf (c : Cfg) (p : PinMode → Bool) : List (Fin 5) :=
  (List.finRange 5).filter fun i => p (c.pins i).mode

/-- aux_port.h:1016-1044.  A wrong number of hall pins sets the error and goes
on; a hall pin that the port does not have stops the controller.  `halls` is
the number of the objects `halla_`, `hallb_`, `hallc_` that exist. -/
def hallSec (hw : Hw) (s : St) : Flow :=
  if s.cfg.hall then
    let hs := pinsOf s.cfg (· = .hall)
    let s := if hs.length ≠ 3 then { s with error := .hallPin } else s
    if hs.all fun i => (firstRow hw i).isSome then
      .go { s with halls := min 3 hs.length, upd := true }
    else .die
  else .go s

/-- aux_mbed.h:97-130: the rows and kinds of the quadrature pins that exist. -/
def quadPins (hw : Hw) (c : Cfg) : List (Row × PinMode) :=
  (pinsOf c fun m => m = .quadSw ∨ m = .quadHw).filterMap fun i =>
    (firstRow hw i).map fun r => (r, (c.pins i).mode)

/-- aux_mbed.h:91-188, the constructor of `Stm32Quadrature`: its hardware
timer, or `none` for `kQuadPinError`. -/
def quadMake (hw : Hw) (mk : Mk) (c : Cfg) : Option (Option Nat) :=
  match quadPins hw c with
  | [(ra, ma), (rb, mb)] =>
    if ma ≠ mb then none
    else if ma = .quadSw then if mk.a ∧ mk.b then some none else none
    else if ra.timer ≠ rb.timer ∨ ra.timer = none then none
    else some ra.timer
  | _ => none

/-- aux_port.h:1046-1055. -/
def quadSec (hw : Hw) (mk : Mk) (s : St) : Flow :=
  if s.cfg.quad then
    match quadMake hw mk s.cfg with
    | some t => .go { s with quad := some t, upd := true }
    | none => .go { s with error := .quadPin }
  else .go s

/-- aux_mbed.h:300-329: the loop over the index pins; `have_` is whether
`index_` is set, `false` is `kIndexPinError`. -/
def indexLoop (hw : Hw) (mk : Mk) : List (Fin 5) → Bool → Bool
  | [], have_ => have_
  | i :: is, have_ =>
    if have_ then false
    else match firstRow hw i with
      | none => indexLoop hw mk is have_
      | some _ => if mk.i then indexLoop hw mk is true else false

/-- aux_port.h:1057-1065. -/
def indexSec (hw : Hw) (mk : Mk) (s : St) : Flow :=
  if s.cfg.index then
    if indexLoop hw mk (pinsOf s.cfg (· = .index)) false then
      .go { s with index := true, upd := true }
    else .go { s with error := .indexPin }
  else .go s

/-- aux_port.h:1067-1091. -/
def scSec (s : St) : Flow :=
  if s.cfg.sc then
    match pinsOf s.cfg (· = .sine), pinsOf s.cfg (· = .cosine) with
    | [a], [b] => .go { s with sine := some a, cosine := some b, upd := true }
    | _, _ => .ret { s with error := .sineCosinePin }
  else .go s

/-- aux_mbed.h:58-62, `UartPinOption`. -/
structure UartOpt where
  uart : Option Nat := none
  tx : Option (Nat × Nat) := none
  rx : Option (Nat × Nat) := none

/-- aux_mbed.h:614-625: the loop over the alternates; `none` is `return {}`.
The alternate of the RX pin is dropped. -/
def uartAlt (pm : PinMap) (mbed p : Nat) : List Nat → UartOpt → Option UartOpt
  | [], o => some o
  | alt :: as, o =>
    if pm .tx mbed alt = some p then
      if o.tx ≠ none then none else some { o with tx := some (mbed, alt) }
    else if pm .rx mbed alt = some p then
      if o.rx ≠ none then none else some { o with rx := some (mbed, 0) }
    else uartAlt pm mbed p as o

/-- aux_mbed.h:592-627, one pin. -/
def uartPin (hw : Hw) (pm : PinMap) (c : Cfg) (i : Fin 5) (o : UartOpt) : Option UartOpt :=
  if (c.pins i).mode = .uart then
    match hw.rows.find? fun r => r.number = i ∧ r.uart.isSome with
    | none => none
    | some r =>
      match r.uart with
      | none => none
      | some p =>
        if o.uart ≠ none ∧ o.uart ≠ some p then none
        else uartAlt pm r.mbed p alts { o with uart := some p }
  else some o

/-- aux_mbed.h:587-640, `FindUartOption`. -/
def findUart (hw : Hw) (pm : PinMap) (c : Cfg) : Option UartOpt :=
  match (List.finRange 5).foldlM (fun o i => uartPin hw pm c i o) {} with
  | none => none
  | some o => if o.uart ≠ none ∧ o.tx ≠ none ∧ o.rx ≠ none then some o else none

/-- aux_port.h:1120-1148: what is made for the UART mode. -/
def uartUse (s : St) : Flow :=
  match s.cfg.uart with
  | .disabled => .die
  | .aksim2 => .go { s with aksim2 := true, upd := true }
  | .tunnel => .go { s with tunnel := true, upd := true }
  | .debug => .go { s with upd := true }
  | .cuiAmt21 => .go { s with cuiAmt21 := true, upd := true }
  | .other => .ret { s with error := .uartPin }

/-- aux_port.h:1093-1149. -/
def uartSec (hw : Hw) (pm : PinMap) (s : St) : Flow :=
  if s.cfg.uart = .disabled then .go s
  else if (findUart hw pm s.cfg).isNone then .ret { s with error := .uartPin }
  else if s.cfg.rs422 ∧ hw.rs422 = false then .ret { s with error := .uartPin }
  else uartUse { s with uart := true }

/-- aux_port.h:1172-1186: the timer of a PWM pin. -/
def pwmTimer (hw : Hw) (s : St) (i : Fin 5) : Option Nat :=
  hw.rows.findSome? fun r =>
    if r.number = i then
      match r.timer with
      | none => none
      | some t => if s.quad = some (some t) then none else some t
    else none

/-- aux_mbed.h:420-431, `Stm32PwmTimerSet::get`: `none` is the failed
assertion. -/
def timerGet (ts : List Nat) (t : Nat) : Option (List Nat) :=
  if t ∈ ts then some ts else if ts.length < 2 then some (ts ++ [t]) else none

/-- aux_port.h:1171-1196, a PWM output. -/
def pwmSec (hw : Hw) (i : Fin 5) (s : St) : Flow :=
  match pwmTimer hw s i with
  | none => .ret { s with error := .pwmPin }
  | some t =>
    match timerGet s.timers t with
    | none => .die
    | some ts =>
      .go { s with
        timers := ts
        gpioBits := Function.update s.gpioBits i true
        pwm := Function.update s.pwm i true
        upd := true }

/-- aux_port.h:1197-1237, an analog input. -/
def adcSec (hw : Hw) (i : Fin 5) (s : St) : Flow :=
  let s := { s with anyAdc := true, adcOn := Function.update s.adcOn i true }
  match hw.rows.find? fun r => r.number = i ∧ r.adc.isSome with
  | none => .ret { s with error := .adcPin }
  | some r =>
    let s := { s with adc := Function.update s.adc i r.adc }
    match (s.cfg.pins i).pull with
    | .up | .openDrain => .ret { s with error := .adcPin }
    | .none | .down => .go { s with upd := true }

/-- aux_port.h:1161-1170, digital input and output.  The second argument of
the constructor of `DigitalOut` is the level that is driven first. -/
def pinSec (hw : Hw) (i : Fin 5) (s : St) : Flow :=
  match (s.cfg.pins i).mode with
  | .dIn =>
    .go { s with
      gpioBits := Function.update s.gpioBits i true
      dIn := Function.update s.dIn i true
      upd := true }
  | .dOut =>
    .go { s with
      gpioBits := Function.update s.gpioBits i true
      dOut := Function.update s.dOut i true
      line := Function.update s.line i (decide ((s.cfg.pins i).pull ≠ .none))
      upd := true }
  | .pwmOut => pwmSec hw i s
  | .aIn | .sine | .cosine => adcSec hw i s
  | _ => .go s

/-- aux_port.h:1151-1239, the loop over the pins. -/
def pinsSec (hw : Hw) : List (Fin 5) → St → Flow
  | [], s => .go s
  | i :: is, s => (pinSec hw i s).bind (pinsSec hw is)

/-- aux_port.h:1258-1275: the first free entry takes the type; without a free
entry the loop leaves the array. -/
def put (t : ST) : List ST → Option (List ST)
  | [] => none
  | x :: xs => if x = .none then some (t :: xs) else (put t xs).map (x :: ·)

/-- `AddSampleType(t, false, true)` if wanted. -/
def addFin (b : Bool) (t : ST) (s : St) : Flow :=
  if b then
    match put t s.fin with
    | none => .die
    | some l => .go { s with fin := l }
  else .go s

/-- `AddSampleType(t, true, true)` if wanted. -/
def addBoth (b : Bool) (t : ST) (s : St) : Flow :=
  if b then
    match put t s.start with
    | none => .die
    | some l => addFin true t { s with start := l }
  else .go s

/-- aux_port.h:1241-1255. -/
def lastSec (s : St) : Flow :=
  (addBoth s.icPz .icPz s).bind fun s =>
  (addFin (decide (∃ i, s.gpioBits i = true)) .gpio s).bind fun s =>
  (addFin s.cfg.hall .hall s).bind fun s =>
  (addFin s.quad.isSome .quad s).bind fun s =>
  (addFin s.index .index s).bind fun s =>
  (addFin s.aksim2 .aksim2 s).bind fun s =>
  (addFin s.cuiAmt21 .cuiAmt21 s).bind fun s =>
  (addFin s.i2c .i2c s).bind fun s =>
  .go { s with anyIsr := s.upd }

/-- aux_port.h:778-1256, `HandleConfigUpdate` after `config_` was set to `c`. -/
def handle (hw : Hw) (pm : PinMap) (mk : Mk) (c : Cfg) (s : St) : Flow :=
  (i2cSec hw pm (reset c s)).bind fun s =>
  (spiSec hw pm s).bind fun s =>
  (hallSec hw s).bind fun s =>
  (quadSec hw mk s).bind fun s =>
  (indexSec hw mk s).bind fun s =>
  (scSec s).bind fun s =>
  (uartSec hw pm s).bind fun s =>
  (pinsSec hw (List.finRange 5) s).bind lastSec

/-! ## Polling and interrupts -/

/-- aux_port.h:313-332: the AS5047 is started once 10 ms have passed. -/
def startAs (ms : Nat) (s : St) : Option St :=
  if s.as5047 = false ∧ s.as5047Opt ∧ 10 < ms then
    (addBoth true .as5047 { s with error := .none, as5047 := true }).st
  else some s

/-- aux_port.h:334-353: the MA732 or MA600; `maErr` is `ma732_->error()`. -/
def startMa (ms : Nat) (maErr : Bool) (s : St) : Option St :=
  if s.ma732 = false ∧ s.ma732Opt ∧ 10 < ms then
    if maErr then some { s with error := .maConfig, ma732 := true }
    else (addBoth true .ma732 { s with error := .none, ma732 := true }).st
  else some s

/-- aux_port.h:312-358, `PollMillisecond`. -/
def pollMs (ms : Nat) (maErr : Bool) (s : St) : Option St :=
  (startAs ms s).bind (startMa ms maErr)

/-- The entries of a list of sample types that an interrupt visits: up to the
first `kNone`; without one the loop leaves the array. -/
def scan : List ST → Option (List ST)
  | [] => none
  | x :: xs => if x = .none then some [] else (scan xs).map (x :: ·)

/-- aux_port.h:119-131: whether the object that a start of sampling uses is
there. -/
def canStart (s : St) : ST → Bool
  | .as5047 => s.as5047
  | .ma732 => s.ma732
  | .icPz => s.icPz
  | _ => true

/-- aux_port.h:116-140, `ISR_MaybeStartSample`: the types that were started. -/
def isrStart (s : St) : Option (List ST) :=
  match scan s.start with
  | none => none
  | some l => if l.all (canStart s) then some l else none

/-- aux_port.h:174-182: whether the object of pin `i` is there. -/
def canPin (s : St) (i : Fin 5) : Bool :=
  match (s.cfg.pins i).mode with
  | .dIn => s.dIn i
  | .dOut => s.dOut i
  | .pwmOut => s.pwm i
  | _ => true

/-- aux_port.h:146-240: whether the objects and table entries that a sample
of this type uses are there.  The three bits of the sensor are at most 7, so
the hall table is left exactly by a polarity above 7. -/
def canFinish (s : St) : ST → Bool
  | .as5047 => s.as5047
  | .ma732 => s.ma732
  | .icPz => s.icPz
  | .gpio => decide (∀ i, canPin s i = true)
  | .hall => decide (s.halls = 3) && decide (s.cfg.polarity < 8)
  | .quad => s.quad.isSome
  | .index => s.index
  | .aksim2 => s.aksim2
  | .cuiAmt21 => s.cuiAmt21
  | .i2c => s.i2c
  | .none => true

/-- aux_port.h:173-184: digital inputs are read, outputs are driven. -/
def gpio (input : Fin 5 → Bool) (s : St) : St :=
  { s with
    pins := fun i => if (s.cfg.pins i).mode = .dIn then input i else s.pins i
    line := fun i => if (s.cfg.pins i).mode = .dOut then s.pins i else s.line i }

/-- aux_port.h:142-244, `ISR_MaybeFinishSample`: the types that were sampled. -/
def isrFinish (input : Fin 5 → Bool) (s : St) : Option (St × List ST) :=
  if s.anyIsr then
    match scan s.fin with
    | none => none
    | some l =>
      if l.all (canFinish s) then some (if ST.gpio ∈ l then gpio input s else s, l)
      else none
  else some (s, [])

/-- aux_port.h:279-310, `ISR_EndAnalogSample`: the positions of the values of
sine and cosine must be known. -/
def isrAnalog (s : St) : Option Unit :=
  if s.anyAdc ∧ s.cfg.sc then
    if s.sine.isSome ∧ s.cosine.isSome then some () else none
  else some ()

/-- One control cycle (fw/bldc_servo.cc calls the three in this order): what
was started, what was sampled. -/
def cycle (input : Fin 5 → Bool) (s : St) : Option (St × List ST × List ST) :=
  match isrStart s with
  | none => none
  | some l =>
    match isrFinish input s with
    | none => none
    | some (s', l') =>
      match isrAnalog s' with
      | none => none
      | some () => some (s', l, l')

/-- aux_port.h:388-394, `WriteDigitalOut`. -/
def writeOut (v : Nat) (s : St) : St :=
  { s with pins := fun i => if (s.cfg.pins i).mode = .dOut then v.testBit i else s.pins i }

/-- aux_port.h:401-406, `debug_uart`: whether there is a debug output; `none`
is the use of a missing object. -/
def debugUart (s : St) : Option Bool :=
  if s.cfg.uart = .debug then if s.uart then some true else none else some false

/-- What happens to a port. -/
inductive Op
  /-- a value of the configuration was changed and the port was told -/
  | update (c : Cfg) (mk : Mk)
  | poll (ms : Nat) (maErr : Bool)
  | cycle (input : Fin 5 → Bool)
  | out (v : Nat)

def step (hw : Hw) (pm : PinMap) (s : St) : Op → Option St
  | .update c mk => (handle hw pm mk c s).st
  | .poll ms e => pollMs ms e s
  | .cycle input => (cycle input s).map (·.1)
  | .out v => some (writeOut v s)

def run (hw : Hw) (pm : PinMap) : St → List Op → Option St
  | s, [] => some s
  | s, o :: os => (step hw pm s o).bind fun s' => run hw pm s' os

/-! ## The boards (fw/moteus_controller.cc:361-445)

Pins of mbed are numbered port times 16 plus pin; `I2C1`, `SPI1`, ... are the
numbers 1, 2, ...; `TIM2` is 2. -/

def aux1Family0 : Hw where
  onboardSpi := true
  rows := [
    { number := 0, mbed := 0x2d },
    { number := 1, mbed := 0x1d, adc := some (2, 5), spi := some 2 },
    { number := 2, mbed := 0x1e, adc := some (0, 5), spi := some 2 },
    { number := 3, mbed := 0x1f, adc := some (1, 15), spi := some 2 }]

def aux1Family12 (family1 : Bool) : Hw where
  onboardSpi := true
  i2cPullup := family1
  rs422 := family1
  rows := [
    { number := 0, mbed := 0x05, spi := some 1, timer := some 2 },
    { number := 0, mbed := 0x1e, adc := some (0, 5) },
    { number := 1, mbed := 0x14, spi := some 1, uart := some 2, timer := some 3 },
    { number := 2, mbed := 0x07, adc := some (1, 4), spi := some 1, timer := some 3 },
    { number := 3, mbed := 0x0f, i2c := some 1, uart := some 2, timer := some 2 },
    { number := 4, mbed := 0x13, uart := some 2, timer := some 2 },
    { number := 4, mbed := 0x19, i2c := some 1 }]

def aux2Family0 : Hw where
  rows := [
    { number := 0, mbed := 0x18, i2c := some 1, uart := some 3 },
    { number := 1, mbed := 0x19, i2c := some 1, uart := some 3 },
    { number := 2, mbed := 0x2e },
    { number := 3, mbed := 0x2f }]

def aux2Family12 : Hw where
  i2cPullup := true
  rows := [
    { number := 0, mbed := 0x51, adc := some (1, 10), spi := some 2 },
    { number := 1, mbed := 0x0a, spi := some 2, uart := some 1 },
    { number := 1, mbed := 0x50, adc := some (0, 10), i2c := some 2 },
    { number := 2, mbed := 0x0b, spi := some 2, timer := some 4 },
    { number := 2, mbed := 0x24, adc := some (1, 5), i2c := some 2, uart := some 1 },
    { number := 3, mbed := 0x17, uart := some 1, timer := some 4 }]

/-- The ports of all boards. -/
def boards : List Hw :=
  [aux1Family0, aux1Family12 true, aux1Family12 false, aux2Family0, aux2Family12]

end Verif.Fw.Aux
