import Verif.Session.Prog
import Mathlib.Data.List.DropRight

/-!
# The other actions of `moteus_tool.py`

The actions besides `--calibrate`, as programs in the sense of `Verif.Session.Prog`: what goes
over the wire are lines of text, and the controller may answer anything.  A line is a list of
characters; bytes are the characters below 256 (`latin1`).

Left out: what is only printed, waiting times, `do_console`.

Properties C89 and C90.
-/

namespace Verif.Session.Act

/-- A line of text. -/
abbrev Line := List Char

/-- Python exceptions, as far as they are told apart. -/
inductive Exn
  | command | runtime | encode | key | other
  deriving DecidableEq

/-- How a command was answered; `lost`: the exchange ended with any other exception. -/
inductive Reply
  | ok (text : Line) | err | lost
  deriving DecidableEq

/-- What goes over the wire. -/
inductive Ev
  /-- `command(line)` -/
  | sent (line : Line) (reply : Reply)
  /-- `write_message(line)`: no reply is read. -/
  | wrote (line : Line)
  /-- `command(line, allow_any_response=True)`; `none`: an exception. -/
  | asked (line : Line) (answer : Option Line)
  /-- `read_data(channel)` with what was received; `none`: an exception. -/
  | data (channel : Line) (value : Option Line)
  /-- `readline()`, `flush_read()` -/
  | listened
  deriving DecidableEq

/-- Programs. -/
abbrev P (α : Type) := M Exn Ev α

/-! ## The text functions of Python -/

/-- Whitespace of `bytes.rstrip`. -/
def bytesSpace (c : Char) : Bool :=
  c = ' ' || c = '\t' || c = '\n' || c = '\r' || c.toNat = 11 || c.toNat = 12

/-- Whitespace of `str.rstrip`: `str.isspace`. -/
def strSpace (c : Char) : Bool :=
  bytesSpace c || (28 ≤ c.toNat && c.toNat ≤ 31) || c.toNat = 0x85 || c.toNat = 0xa0 ||
  c.toNat = 0x1680 || (0x2000 ≤ c.toNat && c.toNat ≤ 0x200a) || c.toNat = 0x2028 ||
  c.toNat = 0x2029 || c.toNat = 0x202f || c.toNat = 0x205f || c.toNat = 0x3000

/-- `rstrip()` -/
def rstrip (space : Char → Bool) (l : Line) : Line := l.rdropWhile space

/-- `readlines()` of a file: each line with its newline. -/
def readlines : List Char → List Line
  | [] => []
  | c :: cs =>
    if c = '\n' then ['\n'] :: readlines cs
    else match readlines cs with
      | [] => [[c]]
      | l :: ls => (c :: l) :: ls

/-- `split(b'\n')` -/
def split : List Char → List Line
  | [] => [[]]
  | c :: cs =>
    if c = '\n' then [] :: split cs
    else match split cs with
      | [] => [[c]]
      | l :: ls => (c :: l) :: ls

/-- The newlines of a file opened in text mode. -/
def universal : List Char → List Char
  | [] => []
  | '\r' :: '\n' :: cs => '\n' :: universal cs
  | '\r' :: cs => '\n' :: universal cs
  | c :: cs => c :: universal cs

/-- A text literal. -/
def txt (s : String) : Line := s.toList

/-! ## Exchanges -/

/-- lib/python/moteus/moteus_tool.py:732-735 and moteus.py:1525-1542. -/
def command (l : Line) : P Line := fun t r =>
  (∃ text, t = [.sent l (.ok text)] ∧ r = .ok text) ∨
  (t = [.sent l .err] ∧ r = .raised .command) ∨
  (t = [.sent l .lost] ∧ r = .raised .other)

/-- moteus_tool.py:737-740. -/
def writeMessage (l : Line) : P Unit := fun t r =>
  t = [.wrote l] ∧ (r = .ok () ∨ r = .raised .other)

/-- `command(…, allow_any_response=True)` -/
def ask (l : Line) : P Line := fun t r =>
  (∃ text, t = [.asked l (some text)] ∧ r = .ok text) ∨
  (t = [.asked l none] ∧ r = .raised .other)

/-- `readline()`, `flush_read()` -/
def listen : P Unit := fun t r => t = [.listened] ∧ (r = .ok () ∨ r = .raised .other)

/-- moteus.py:1558-1583 `read_data`; what was received is given as text. -/
def readData (channel : Line) : P Line := fun t r =>
  (∃ a, t = [.data channel (some a)] ∧ r = .ok a) ∨
  (t = [.data channel none] ∧ ∃ e, r = .raised e)

/-- A computation without exchange that may raise. -/
def orRaise {α : Type} (e : Exn) : Option α → P α
  | some a => pure a
  | none => M.raise e

/-! ## Configuration -/

/-- The body of the loop of `write_config_stream` and of `do_restore_config`: the line if it was
refused. -/
def setting (l : Line) : P (List Line) :=
  M.Catch (do let _ ← command l; pure [])
    (fun e => if e = .command then pure [l] else M.raise e)

/-- The loop (moteus_tool.py:845-858): the lines that were refused. -/
def settings : List Line → P (List Line)
  | [] => pure []
  | line :: rest => do
    let l := rstrip bytesSpace line
    let e ← if l = [] then pure [] else setting l
    let es ← settings rest
    pure (e ++ es)

/-- moteus_tool.py:840-865 `write_config_stream`; the result is what is printed. -/
def writeConfigStream (content : List Char) : P (List Line) := settings (readlines content)

/-- moteus_tool.py:971-984 `restore_config`. -/
def restoreConfig (old : List Char) : P (List Line) := do
  let lines := (split old).filter fun l => !l.all bytesSpace
  let new := lines.flatMap fun l => txt "conf set " ++ l ++ ['\n']
  let errors ← writeConfigStream new
  let _ ← command (txt "conf write")
  writeMessage (txt "d reset")
  pure errors

/-- The line of a file without comment (moteus_tool.py:817-819). -/
def uncomment (l : Line) : Line := rstrip strSpace (l.takeWhile (· ≠ '#'))

/-- One line of the loop of `do_restore_config` (moteus_tool.py:819-826). -/
def restoring1 (l : Line) : P (List Line) :=
  if l = [] then pure []
  else if l.any (fun c => 256 ≤ c.toNat) then M.raise .encode
  else M.Catch (do let _ ← command (txt "conf set " ++ l); pure [])
    (fun e => if e = .command then pure [l] else M.raise e)

/-- The loop of `do_restore_config` (moteus_tool.py:816-826). -/
def restoring : List Line → P (List Line)
  | [] => pure []
  | line :: rest => do
    let e ← restoring1 (uncomment line)
    let es ← restoring rest
    pure (e ++ es)

/-- moteus_tool.py:812-834 `do_restore_config`. -/
def doRestoreConfig (content : List Char) : P (List Line) := do
  let errors ← restoring (readlines (universal content))
  let _ ← command (txt "conf write")
  pure errors

/-- moteus_tool.py:2132 `--dump-config`: what is printed. -/
def dumpConfig : P (List Char) := do
  let l ← command (txt "conf enumerate")
  pure (l ++ ['\n'])

/-! ## Firmware -/

/-- The lines that `write_flash` sends (their content is C21): writes with the padding at the end,
then reads with the check of the answer. -/
structure Image where
  writes : List Line
  reads : List (Line × (Line → Bool))

/-- The loop of writes (moteus_tool.py:930-947). -/
def writes : List Line → P Unit
  | [] => pure ()
  | l :: ls => do let _ ← command l; writes ls

/-- The loop of reads (moteus_tool.py:949-960). -/
def reads : List (Line × (Line → Bool)) → P Unit
  | [] => pure ()
  | (l, check) :: ls => do
    let a ← ask l
    if check a then reads ls else M.raise .runtime

/-- The options that `do_flash` looks at. -/
structure FlashArgs where
  bootloaderActive : Bool
  noRestore : Bool

/-- moteus_tool.py:867-920 `do_flash` after the file was read.  `upgrade old` is
`FirmwareUpgrade(old, new, family)`, where `none` is an exception; `old = none`: not read. -/
def doFlash (args : FlashArgs) (upgrade : Option Line → Option (List Char → Option (List Char)))
    (image : Image) : P Unit := do
  let old ← if args.bootloaderActive then pure none else
    (do let v ← readData (txt "firmware"); pure (some v))
  let fix ← orRaise .runtime (upgrade old)
  let saved ← if !args.bootloaderActive && !args.noRestore then command (txt "conf enumerate")
    else pure []
  writeMessage (txt "d flash")
  listen
  let _ ← command (txt "unlock")
  writes image.writes
  reads image.reads
  let _ ← command (txt "lock")
  writeMessage (txt "reset")
  if !args.bootloaderActive && !args.noRestore then
    let new ← orRaise .other (fix saved)
    let _ ← restoreConfig new
    pure ()
  else pure ()

/-! ## Offsets -/

/-- moteus_tool.py:797-810 `do_set_offset`; `value` as it is printed, `isZero`: it is 0.
`stats` gives mode and text of the negated raw position of a `servo_stats`. -/
def doSetOffset (stats : Line → Nat × Line) (value : Line) (isZero : Bool) : P Unit := do
  M.Catch (do let _ ← command (txt "d cfg-set-output " ++ value); pure ())
    (fun e => if e = .command then do
        if isZero then do
          let s ← readData (txt "servo_stats")
          if (stats s).1 = 1 then M.raise .runtime else do
          let _ ← command (txt "conf set motor.position_offset " ++ (stats s).2)
          pure ()
        else M.raise .runtime
      else M.raise e)
  let _ ← command (txt "conf write")
  let _ ← command (txt "d rezero " ++ value)
  pure ()

/-! ## Restoring a calibration -/

/-- What is read from the report; `none` where the entry is missing. -/
structure Report where
  serial : Option Line
  poles : Option Line
  invert : Option Bool
  phaseInvert : Option Bool
  offsets : Option (List Line)
  resistance : Option Line
  vPerHz : Option Line
  kv : Option Line
  kp : Option Line
  ki : Option Line
  encKp : Option Line
  encKi : Option Line
  encHz : Option Line

/-- moteus_tool.py:756-763 `is_config_supported`. -/
def supported (name : Line) : P Bool := do
  let a ← ask (txt "conf get " ++ name)
  if a.take 3 = txt "ERR" then
    if decide (txt "error reading" <:+: a) || decide (txt "unknown group" <:+: a) then pure false
    else M.raise .runtime
  else pure true

/-- `conf set name value`. -/
def set (name value : Line) : P Unit := do
  let _ ← command (txt "conf set " ++ name ++ [' '] ++ value)
  pure ()

/-- The loop over the offsets (moteus_tool.py:2014-2015). -/
def setOffsets : Nat → List Line → P Unit
  | _, [] => pure ()
  | i, v :: vs => do set (txt "motor.offset." ++ txt (toString i)) v; setOffsets (i + 1) vs

/-- Present and not zero, as Python's `if x`; the text of 0 is given. -/
def truthy : Option Line → Bool
  | none => false
  | some v => v ≠ txt "0" && v ≠ txt "0.0" && v ≠ txt "-0.0"

/-- `if truthy(v): conf set name v` -/
def setIf (name : Line) (v : Option Line) : P Unit :=
  if truthy v then set name (v.getD []) else pure ()

/-- `if v is not None: conf set name v` -/
def setSome (name : Line) : Option Line → P Unit
  | some v => set name v
  | none => pure ()

/-- A computation without exchange that may fail. -/
def perhaps : P Unit := fun t x => t = [] ∧ (x = .ok () ∨ ∃ e, x = .raised e)

/-- The direction (moteus_tool.py:2004-2008). -/
def restoreSign (r : Report) : P Unit := do
  let b ← supported (txt "motor_position.sources.0.sign")
  if b then do
    let invert ← orRaise .key r.invert
    set (txt "motor_position.sources.0.sign") (txt (if invert then "-1" else "1"))
  else do
    let invert ← orRaise .key r.invert
    set (txt "motor.invert") (txt (if invert then "1" else "0"))

/-- The order of the phases (moteus_tool.py:2009-2012). -/
def restorePhase (r : Report) : P Unit := do
  let b ← supported (txt "motor.phase_invert")
  if b then
    set (txt "motor.phase_invert") (txt (if r.phaseInvert.getD false then "1" else "0"))
  else pure ()

/-- The constant of the motor, under its old name if necessary (moteus_tool.py:2017-2020). -/
def restoreConstant (r : Report) : P Unit := do
  let b ← supported (txt "motor.v_per_hz")
  if b then do
    let v ← orRaise .key r.vPerHz
    set (txt "motor.v_per_hz") v
  else do
    let b ← supported (txt "motor.Kv")
    if b then do
      let v ← orRaise .key r.kv
      set (txt "motor.Kv") v
    else pure ()

/-- The filter under its old name (moteus_tool.py:2037-2041). -/
def restoreOldFilter (r : Report) : P Unit := do
  let b ← supported (txt "servo.encoder_filter.kp")
  if b then do
    setIf (txt "servo.encoder_filter.kp") r.encKp
    setIf (txt "servo.encoder_filter.ki") r.encKi
  else pure ()

/-- The filter of the encoder (moteus_tool.py:2028-2041). -/
def restoreFilter (r : Report) : P Unit :=
  if truthy r.encHz then do
    let b ← supported (txt "motor_position.sources.0.pll_filter_hz")
    if b then set (txt "motor_position.sources.0.pll_filter_hz") (r.encHz.getD [])
    else restoreOldFilter r
  else restoreOldFilter r

/-- What is set and stored (moteus_tool.py:1998-2043). -/
def restoreValues (r : Report) : P Unit := do
  let poles ← orRaise .key r.poles
  set (txt "motor.poles") poles
  restoreSign r
  restorePhase r
  let offsets ← orRaise .key r.offsets
  setOffsets 0 offsets
  let resistance ← orRaise .key r.resistance
  set (txt "motor.resistance_ohm") resistance
  restoreConstant r
  setSome (txt "servo.pid_dq.kp") r.kp
  setSome (txt "servo.pid_dq.ki") r.ki
  restoreFilter r
  let _ ← command (txt "conf write")
  pure ()

/-- moteus_tool.py:766-774 `read_uuid`; what it returns is not used here. -/
def readUuid : P Unit :=
  M.Catch (do let _ ← command (txt "conf enumerate uuid"); perhaps)
    (fun e => if e = .command then perhaps else M.raise e)

/-- moteus_tool.py:1987-2045 `do_restore_calibration`; `serialOf` is the serial number in
the data of the channel "firmware". -/
def doRestoreCalibration (serialOf : Line → Line) (r : Report) : P Unit := do
  let firmware ← readData (txt "firmware")
  let _ ← readData (txt "git")
  readUuid
  let expected ← orRaise .key r.serial
  -- the message of the error uses an entry that does not exist
  if serialOf firmware ≠ expected then M.raise .key else restoreValues r

/-! ## Targets and actions -/

/-- What goes over the bus: a search for a controller with prefix and identifier, or an exchange
with a target. -/
inductive Bus
  | probe (canPrefix id : Nat) (found : Bool)
  | on (target : Nat) (e : Ev)
  deriving DecidableEq

/-- The options that choose what is done. -/
structure Args where
  canPrefix : Nat := 0
  telStop : Bool := false
  noTelStop : Bool := false
  console : Bool := false
  stop : Bool := false
  dumpConfig : Bool := false
  info : Bool := false
  zeroOffset : Bool := false
  /-- the number and its text -/
  setOffset : Option (Rat × Line) := none
  restoreConfig : Bool := false
  writeConfig : Bool := false
  flash : Bool := false
  bootloaderActive : Bool := false
  calibrate : Bool := false
  restoreCal : Bool := false

/-- moteus_tool.py:2090-2105 `default_tel_stop`. -/
def defaultTelStop (a : Args) : Bool :=
  if a.console then false
  else if a.flash && a.bootloaderActive then false
  else if a.stop then false
  else true

/-- moteus_tool.py:2110-2114. -/
def telStops (a : Args) : Bool :=
  if a.noTelStop then false else if a.telStop then true else defaultTelStop a

/-- What the actions that are modelled elsewhere do. -/
structure Others where
  stats : Line → Nat × Line
  console : P Unit
  info : P Unit
  restoreConfig : P Unit
  writeConfig : P Unit
  flash : P Unit
  calibrate : P Unit
  restoreCal : P Unit

/-- moteus_tool.py:2107-2146 `run_action`. -/
def runAction (a : Args) (o : Others) : P Unit := do
  if telStops a then do
    writeMessage (txt "tel stop")
    listen
  else pure ()
  if a.console then o.console
  else if a.stop then do let _ ← command (txt "d stop"); pure ()
  else if a.dumpConfig then do let _ ← dumpConfig; pure ()
  else if a.info then o.info
  else if a.zeroOffset then doSetOffset o.stats (txt "0.0") true
  else match a.setOffset.filter (fun v => v.1 ≠ 0) with
  | some v => doSetOffset o.stats v.2 false
  | none =>
    if a.restoreConfig then o.restoreConfig
    else if a.writeConfig then o.writeConfig
    else if a.flash then o.flash
    else if a.calibrate then o.calibrate
    else if a.restoreCal then o.restoreCal
    else M.raise .runtime

/-- A program that talks to one target. -/
def onTarget {α : Type} (target : Nat) (p : P α) : M Exn Bus α :=
  fun t r => ∃ u, p u r ∧ t = u.map (.on target)

/-- One query of the search (moteus_tool.py:2079-2086); the controller that is asked has no
prefix, whatever the options are. -/
def probe (id : Nat) : M Exn Bus Bool := fun t r =>
  (∃ b, t = [.probe 0 id b] ∧ r = .ok b) ∨ (t = [.probe 0 id false] ∧ r = .raised .other)

/-- The search (moteus_tool.py:2078-2088) over a list of identifiers. -/
def search : List Nat → M Exn Bus (List Nat)
  | [] => pure []
  | i :: is => do
    let b ← probe i
    let rest ← search is
    pure (if b then i :: rest else rest)

/-- moteus_tool.py:2071-2088 `find_targets`. -/
def findTargets (given : List Nat) : M Exn Bus (List Nat) :=
  if given ≠ [] then pure given else search ((List.range 126).map (· + 1))

/-- moteus_tool.py:2066-2069, the loop of `start`. -/
def actOn (act : Nat → P Unit) : List Nat → M Exn Bus Unit
  | [] => pure ()
  | t :: ts => do onTarget t (act t); actOn act ts

/-- moteus_tool.py:2062-2069 `start`. -/
def start (a : Args) (o : Nat → Others) (given : List Nat) : M Exn Bus Unit := do
  let targets ← findTargets given
  actOn (fun t => runAction a (o t)) targets

end Verif.Session.Act
