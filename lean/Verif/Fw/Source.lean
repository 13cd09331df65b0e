import Verif.Fw.Trajectory

/-!
# Position sources of the firmware

Model of the source handling of `MotorPosition` (`fw/motor_position.h`):
`ISR_UpdateSources` for one source, over an arbitrary arithmetic `A` for the
`float` operations.

Simplifications:
* the conversion of a `float` to an integer saturates and maps NaN to zero, as
  the `VCVT` instruction does (out of range it is undefined in C++);
* overflow of an `int32_t` wraps (it is undefined in C++; no stated result
  uses it);
* what the auxiliary port reports is an input (`Reading`).
-/

namespace Verif.Fw

open Verif.Float

/-- An integer as `uint32_t`. -/
def toU32 (n : ℤ) : ℕ := (n % 4294967296).toNat

/-- `float` to `uint32_t` on the Cortex-M4 (`VCVT.U32.F32`). -/
def flToU32 : Fl → ℕ
  | .nan => 0
  | .inf true => 0
  | .inf false => 4294967295
  | .fin q => (max 0 (min 4294967295 (truncQ q))).toNat

/-- `WrapCpr` (`fw/motor_position.h` 390-396) -/
def wrapCpr (A : Ar) (value cpr : Fl) : Fl :=
  let divisor := toI32 (A.div value cpr)
  let mod := A.sub value (A.mul (A.lit divisor) cpr)
  if Fl.ble (.fin 0) mod then mod else A.add mod cpr

/-- `WrapBalancedCpr` (`fw/motor_position.h` 386-388) -/
def wrapBalancedCpr (A : Ar) (value cpr : Fl) : Fl :=
  A.sub (wrapCpr A (A.add value (A.mul (A.lit (3 / 2)) cpr)) cpr) (A.mul (A.lit (1 / 2)) cpr)

/-- `WrapIntCpr` (`fw/motor_position.h` 398-400): `value` is an `int32_t`, the
arithmetic is that of `uint32_t`. -/
def wrapIntCpr (value : ℤ) (cpr : ℕ) : ℕ := toU32 (value + cpr) % cpr

/-- `lerp` (`fw/motor_position.h` 1133-1151) on a table of `n` numbers; a
negative `ratio` (not used) would access the table out of bounds. -/
def lerp (A : Ar) (table : ℕ → Fl) (n : ℕ) (scale ratio : Fl) : Fl :=
  let left := (min ((n : ℤ) - 1) (toI32 (A.mul ratio (A.lit n)))).toNat
  let right := (left + 1) % n
  let fraction := A.mul (A.sub ratio (A.div (A.lit left) (A.lit n))) (A.lit n)
  let leftComp := A.mul (table left) scale
  let rightComp := A.mul (table right) scale
  A.add (A.mul leftComp (A.sub (A.lit 1) fraction)) (A.mul rightComp fraction)

/-- `SourceConfig::Type` (`fw/motor_position.h` 42-54) -/
inductive SourceType
  | none | spi | uart | quadrature | hall | index | sineCosine | i2c | sensorless
deriving DecidableEq

/-- `SourceConfig` (`fw/motor_position.h` 40-90) with the filter constants of
the source (lines 643-650). -/
structure SourceConfig where
  type : SourceType
  incrementalIndex : ℤ
  cpr : ℕ
  offset : Fl
  sign : ℤ
  debugOverride : ℤ
  timeout : Fl
  pllHz : Fl
  table : ℕ → ℤ
  compScale : Fl
  compEnabled : Bool
  kp : Fl
  ki : Fl

/-- `SourceStatus` (`fw/motor_position.h` 172-191) -/
structure SourceStatus where
  activeVelocity : Bool
  activeTheta : Bool
  activeAbsolute : Bool
  raw : ℕ
  sinceUpdate : Fl
  nonce : ℕ
  offsetValue : ℕ
  compensated : Fl
  filtered : Fl
  velocity : Fl
deriving DecidableEq

/-- The state after a configuration change (`fw/motor_position.h` 172-191). -/
def SourceStatus.init : SourceStatus :=
  ⟨false, false, false, 0, .fin 0, 0, 0, .fin 0, .fin 0, .fin 0⟩

/-- What the auxiliary port offers for this source: its error state, whether
the device is active, its value (`count` for hall sensors), its nonce, the
hall bits, and the index pulse of the port named by `incremental_index`. -/
structure Reading where
  error : Bool
  active : Bool
  value : ℕ
  nonce : ℕ
  bits : ℕ
  index : Bool

/-- `ISR_UpdateAbsoluteSource` (`fw/motor_position.h` 1032-1046) -/
def updateAbsolute (nonce : ℕ) (value : ℕ) (offset sign : ℤ) (cpr : ℕ) (s : SourceStatus) :
    SourceStatus × Bool :=
  if nonce = s.nonce then (s, false)
  else ({ s with
    offsetValue := wrapIntCpr (wrapI32 ((wrapI32 value + offset) * sign)) cpr
    nonce := nonce
    activeVelocity := true
    activeTheta := true }, true)

/-- The new count of a hall source (`fw/motor_position.h` 864-877). -/
def hallValue (poles : ℕ) (offset sign : ℤ) (count : ℕ) (s : SourceStatus) : ℕ :=
  let cpr := 6 / 2 * poles
  let current := (((count : ℤ) + offset) * sign + 6).tmod 6
  let old : ℤ := s.offsetValue % 6
  let delta := (current - old + 6 + 6 / 2).tmod 6 - 6 / 2
  toU32 (s.offsetValue + cpr + delta) % cpr

/-- The new count of a quadrature source (`fw/motor_position.h` 892-896). -/
def quadValue (cpr : ℕ) (sign : ℤ) (old new : ℕ) (offsetValue : ℕ) : ℕ :=
  let delta := wrapIntCpr (wrapI32 ((new : ℤ) - old)) cpr
  wrapIntCpr (wrapI32 (offsetValue + delta * sign)) cpr

/-- The result of reading the device. -/
structure Acquired where
  status : SourceStatus
  updated : Bool
  /-- an index pulse set the position of a quadrature source -/
  indexed : Bool

/-- The `switch` of `ISR_UpdateSources` (`fw/motor_position.h` 809-947);
`none` is a failed assertion. -/
def acquire (c : SourceConfig) (poles : ℕ) (r : Reading) (s : SourceStatus) : Option Acquired :=
  match c.type with
  | .spi | .uart | .i2c =>
    if !r.active then some ⟨s, false, false⟩
    else
      let p := updateAbsolute r.nonce r.value (toI32 c.offset) c.sign c.cpr { s with raw := r.value }
      some ⟨{ p.1 with activeAbsolute := true }, p.2, false⟩
  | .sineCosine =>
    if !r.active then some ⟨s, false, false⟩
    else
      let p := updateAbsolute ((s.nonce + 1) % 256) r.value (toI32 c.offset) c.sign c.cpr
        { s with raw := r.value }
      some ⟨{ p.1 with activeAbsolute := true }, p.2, false⟩
  | .hall =>
    if !r.active then some ⟨s, false, false⟩
    else
      let p := updateAbsolute ((s.nonce + 1) % 256)
        (hallValue poles (toI32 c.offset) c.sign r.value s) 0 1 c.cpr { s with raw := r.bits }
      some ⟨{ p.1 with activeAbsolute := false }, p.2, false⟩
  | .quadrature =>
    if !r.active then some ⟨s, false, false⟩
    else
      let s1 := { s with
        raw := r.value
        offsetValue := quadValue c.cpr c.sign s.raw r.value s.offsetValue
        nonce := (s.nonce + 1) % 256
        activeVelocity := true }
      if s.activeTheta = false ∧ 1 ≤ c.incrementalIndex ∧ r.index = true then
        some ⟨{ s1 with offsetValue := flToU32 c.offset, activeTheta := true, activeAbsolute := true },
          true, true⟩
      else some ⟨s1, true, false⟩
  | .index =>
    if !r.active then some ⟨s, false, false⟩
    else if r.index then
      some ⟨{ s with
        offsetValue := flToU32 c.offset
        filtered := .fin (flToU32 c.offset)
        activeTheta := true
        activeAbsolute := true }, false, false⟩
    else some ⟨{ s with activeTheta := false, activeAbsolute := false }, false, false⟩
  | .none | .sensorless => none

/-- The compensated value (`fw/motor_position.h` 949-970). -/
def compensate (A : Ar) (c : SourceConfig) (a : Acquired) : Acquired :=
  let cpr := A.lit c.cpr
  if 0 ≤ c.debugOverride then
    ⟨{ a.status with
      activeTheta := true
      activeVelocity := true
      activeAbsolute := true
      offsetValue := toU32 c.debugOverride
      compensated := A.lit c.debugOverride
      filtered := A.lit c.debugOverride }, true, a.indexed⟩
  else if c.compEnabled then
    { a with status := { a.status with
      compensated := wrapCpr A (A.add (A.lit a.status.offsetValue)
        (A.mul (lerp A (fun i => A.lit (c.table i)) 256 (A.div c.compScale (A.lit 127))
          (A.div (A.lit a.status.offsetValue) cpr)) cpr)) cpr } }
  else { a with status := { a.status with compensated := A.lit a.status.offsetValue } }

/-- The filter step after a new value (`fw/motor_position.h` 982-1017). -/
def track (A : Ar) (c : SourceConfig) (old s : SourceStatus) : SourceStatus :=
  let cpr := A.lit c.cpr
  if old.activeVelocity = false ∧ s.activeVelocity = true then
    { s with filtered := s.compensated, velocity := .fin 0 }
  else if old.activeTheta = false ∧ s.activeTheta = true then
    { s with filtered := s.compensated }
  else if Fl.beq c.pllHz (.fin 0) = false then
    let error := wrapBalancedCpr A (A.sub s.filtered s.compensated).neg cpr
    let filtered := A.add s.filtered (A.mul (A.mul s.sinceUpdate c.kp) error)
    let velocity := A.add s.velocity (A.mul (A.mul s.sinceUpdate c.ki) error)
    let maxVelocity := A.div (A.mul (A.lit (1 / 8)) cpr) s.sinceUpdate
    { s with
      filtered := filtered
      velocity := if Fl.blt maxVelocity velocity then maxVelocity
        else if Fl.blt velocity maxVelocity.neg then maxVelocity.neg else velocity }
  else { s with filtered := s.compensated, velocity := .fin 0 }

/-- The rest of `ISR_UpdateSources` for one source (`fw/motor_position.h`
972-1029). -/
def settle (A : Ar) (c : SourceConfig) (dt : Fl) (old : SourceStatus) (a : Acquired) : SourceStatus :=
  let s := { a.status with sinceUpdate := A.add a.status.sinceUpdate dt }
  if s.activeTheta = false ∧ s.activeVelocity = false then s
  else
    let s := { s with filtered := A.add s.filtered (A.mul dt s.velocity) }
    let s :=
      if a.updated then { track A c old s with sinceUpdate := .fin 0 }
      else if Fl.blt c.timeout s.sinceUpdate then
        { s with activeVelocity := false, activeTheta := false, activeAbsolute := false }
      else s
    { s with filtered := wrapCpr A s.filtered (A.lit c.cpr) }

/-- What the update of one source does. -/
structure SourceStep where
  status : SourceStatus
  /-- the position module has an error now -/
  failed : Bool
  /-- an index pulse moved the source, from this filtered value -/
  indexed : Option Fl

/-- `ISR_UpdateSources` (`fw/motor_position.h` 785-1030) for one source. -/
def updateSource (A : Ar) (c : SourceConfig) (poles : ℕ) (dt : Fl) (r : Reading) (s : SourceStatus) :
    Option SourceStep :=
  if c.type = .none then some ⟨s, false, none⟩
  else if r.error then
    some ⟨{ s with activeTheta := false, activeVelocity := false, activeAbsolute := false }, true, none⟩
  else
    match acquire c poles r s with
    | none => none
    | some a =>
      let a' := compensate A c a
      some ⟨settle A c dt s a', false, if a.indexed then some s.filtered else none⟩

end Verif.Fw
