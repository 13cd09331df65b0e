# Design

Formal model of parts of mjbots/moteus (the pinned commit in /repo) in Lean 4, with Mathlib where it helps.
The properties are in `properties.jsonl`, the status of each with the exact theorem names in `MANIFEST.json`,
and the attempts to break the theorems with wrong programs in `seeded/LOG.jsonl`.

## How the model is built

* Every modelled function is a total Lean function that follows the code branch by branch. The comment of each
  definition cites file and lines. Exceptions, failed assertions and undefined accesses are values
  (`Option`, `Except`).
* Bytes are `UInt8`, byte strings are lists. Words of the bootloader are `BitVec 64`. C integers are integers
  with an explicit wrap where the code can leave the range.
* Floating point (`Verif/Float`): a number is NaN, an infinity or an exact rational (`Fl`). `Ieee.lean` describes
  rounding to binary32 / binary64 (nearest even) on rationals, `Arith.lean` gives the operations over an
  arithmetic `A : Ar`; `Ar.single` is binary32, `Ar.exact` has no rounding. Firmware theorems are proved for every
  arithmetic that satisfies stated laws (`Law`, `Law2`, `Law3`: monotone, odd, fixes representable numbers, error
  bounds) and the laws are proved for both arithmetics.
* Specifications are separate definitions (files named `Spec.lean`, or sections or namespaces called
  "Specification" / `Spec`) that do not call the model functions they are about.
* Interrupts: the servo model splits each main loop call into single memory accesses, so that the control
  interrupt can come between any two of them.
* Naming: `Cnn_...` proves (a part of) property nn. `..._partial` is weaker than the property; its comment and
  the section below say what is missing. `..._refuted` is a proof, with a concrete witness, that the code does not
  satisfy the property (or a tempting reading of it).
* Beside each theorem with hypotheses an `example` shows that a concrete case satisfies them.

## Per property

### C01 Variable-length integers survive the wire (proved)

* Modelled: `write_varuint`, `read_varuint` on byte lists.
* Proof: induction on the value (division by 128), arbitrary bytes before and after; the encoding is also compared with the documented base 128 form. Numbers from 2^35 on are reported as unreadable.
* Theorems in: `Verif/Multiplex/Props.lean`.

### C02 Reading a variable-length integer is safe on arbitrary bytes (proved)

* Modelled: `read_varuint` with arbitrary bytes and offset.
* Proof: case analysis of the five steps; locality as invariance under any change of the bytes that were not consumed.
* Theorems in: `Verif/Multiplex/Props.lean`.

### C03 Finite and non-finite commands are never confused in integer resolutions (proved)

* Modelled: `saturate`, `nanify`, `write_mapped`, `read_mapped`, `struct.pack`.
* Proof: case analysis over NaN, infinities and finite numbers; division is rounded to binary64.
* Theorems in: `Verif/Multiplex/ValueProps.lean`.

### C04 Integer scaling loses less than one step and preserves order (proved)

* Modelled: as C03.
* Proof: monotony, oddness and error bounds over rationals with binary64 rounding of quotient and product.
* Not covered or contradicted by the code: the decoded magnitude can exceed the input by a rounding error, and decoding followed by encoding can lose one count (witnesses).
* Theorems in: `Verif/Multiplex/ValueProps.lean`.

### C05 A register block that is written is parsed back register by register (proved)

* Modelled: `WriteCombiner` and `RegisterParser` as state machines.
* Proof: induction over blocks of equal resolution; the written bytes are also decoded by an independent decoder of the documented protocol (`Multiplex/Spec.lean`).
* Theorems in: `Verif/Multiplex/Props.lean`.

### C06 A query asks for exactly the requested registers (proved)

* Modelled: `WriteCombiner` with the read base command, `QueryParser`.
* Proof: same block induction; order and uniqueness follow from the list of registers.
* Theorems in: `Verif/Multiplex/Props.lean`.

### C07 The announced reply size is the real reply size (proved)

* Modelled: the size bookkeeping of `WriteCombiner`, `_format_query`, `_make_command`.
* Proof: the announced size equals the length of the answer of an independent specification of the server.
* Not covered or contradicted by the code: `make_read_gpio` announces a wrong size (witness).
* Theorems in: `Verif/Multiplex/Props.lean`, `Verif/Commands/Props.lean`.

### C08 Padding a reply does not change its meaning (proved)

* Modelled: `RegisterParser`, `QueryParser`, `parse_reply`.
* Proof: parser lemmas for NOP bytes at block boundaries.
* Not covered or contradicted by the code: the query parser yields a `None` element for trailing padding (witness).
* Theorems in: `Verif/Multiplex/Props.lean`.

### C09 Reply parsing is total and never reads outside of the frame (proved)

* Modelled: `RegisterParser`, `parse_reply` on arbitrary bytes.
* Proof: well founded recursion on the remaining length; invariant: every value comes from a slice of the frame, slices are disjoint and increasing.
* Theorems in: `Verif/Multiplex/Props.lean`.

### C10 parse_reply reports the last value of each register (proved)

* Modelled: `parse_reply`, `parse_register`, dictionary semantics.
* Proof: comparison with a list specification, last occurrence wins; concatenation of well formed replies.
* Theorems in: `Verif/Commands/ReplyProps.lean`.

### C11 A position command reaches the controller as requested (partial)

* Modelled: `make_position` parameter by parameter, `_make_command`.
* Proof: the frame is decoded by the independent decoder and compared with the writes the caller asked for, for every subset of parameters, resolution and value.
* Not covered or contradicted by the code: `ilimit_scale` is sent with the voltage scale instead of the scale factor (witness).
* Theorems in: `Verif/Commands/Props.lean`.

### C12 All other control commands reach the controller as requested (partial)

* Modelled: the other command builders of moteus.py.
* Proof: one theorem per command, as C11.
* Not covered or contradicted by the code: `make_current` swaps the resolutions of d and q and raises with the default resolution; `make_require_reindex` and `make_recapture_position_velocity` ignore `query=True`; GPIO values above 127 raise (witnesses).
* Theorems in: `Verif/Commands/Props.lean`.

### C13 No parameter leaks from one command frame into the next (proved)

* Modelled: `Write`, `StartFrame`, `CompleteFrame`, `Poll` of the register file.
* Proof: the state after any history of frames is related to the last mode write; composed with C11 / C12 so that the arguments of the library call appear in the command of the controller.
* Not covered or contradicted by the code: the default of the maximum torque is 100 Nm, the reference names a setting that does not exist. A frame that arrives in the same pass as another one replaces its command (`C13_second_frame_drops`).
* Theorems in: `Verif/Fw/RegFrames.lean`.

### C14 Query configuration covers what the caller asked for (proved)

* Modelled: `_make_query_data`, `_format_query`, `make_custom_query`, `make_query`.
* Proof: comparison with the list of (register, resolution) pairs, for every setting and set of extra registers.
* Theorems in: `Verif/Commands/Props.lean`.

### C15 Bus identifiers identify sender, receiver and reply flag unambiguously (partial)

* Modelled: identifier arithmetic of both clients, of the controller and of the bootloader; receive filter.
* Proof: arithmetic; composition of encode, reply identifier and decode.
* Not covered or contradicted by the code: neither client sends a non-zero source; the bootloader replies without prefix; standard frames pass the filter of any prefix (witnesses); a controller with the default prefix has no filter (C110).
* Theorems in: `Verif/Can/Props.lean`.

### C16 Hex transport is loss free (proved)

* Modelled: hex text of frames in fdcanusb.py, the C++ transport and the bootloader.
* Proof: induction over bytes; one token per payload; Python's `int(text, 16)` grammar.
* Theorems in: `Verif/Can/Props.lean`.

### C17 Frames are padded to the smallest legal CAN-FD size (partial)

* Modelled: the four `RoundUpDlc` tables and the padding.
* Proof: all sizes by case split, against "smallest legal size".
* Not covered or contradicted by the code: the bootloader pads with zeros instead of NOP (witness). Sizes above 64 are refused.
* Theorems in: `Verif/Can/Props.lean`.

### C18 Diagnostic writes are delivered completely and in order (proved)

* Modelled: `Stream.write`, `drain`, `make_diagnostic_write`.
* Proof: state machine over any list of events; invariant: sent ++ pending = written. Frame size and channel range.
* Theorems in: `Verif/Stream/Props.lean`.

### C19 Diagnostic reads do not depend on how the bytes were split into frames (proved)

* Modelled: `Stream.read`, `readline`, `read_until_OK`, `read_binary_blob`.
* Proof: refinement to a byte stream: the result is a function of the concatenation of the received chunks.
* Not covered or contradicted by the code: the non blocking read depends on the chunks by design; `read(0)` waits for a byte (witnesses).
* Theorems in: `Verif/Stream/Props.lean`.

### C20 Diagnostic data replies are accepted only when intact (proved)

* Modelled: `parse_diagnostic_data`, `make_diagnostic_read`.
* Proof: acceptance is stated outright against an independent description of data frames.
* Theorems in: `Verif/Stream/Props.lean`.

### C21 Firmware upload sends every byte exactly once, in order (proved)

* Modelled: `FlashContext`, `FlashDataBlock`.
* Proof: induction on the remaining bytes; the blocks flatten to the list of (address, byte).
* Not covered or contradicted by the code: an empty section or an empty image gives an invalid block (witnesses).
* Theorems in: `Verif/Flash/Blocks.lean`.

### C22 After a successful upload the flash holds the image (proved)

* Modelled: host upload and verification, and the bootloader: line reading, tokens, `FlashWriter` with its shadow word, erase.
* Proof: refinement of the shadow word machine to a byte map; composition through the text protocol; for any hardware that reports its errors.
* Not covered or contradicted by the code: images that fill the region below the bootloader cannot be uploaded because padding is written behind them; a gap at the start of the last word fails verification; the sector after an image that ends with a sector is erased (witnesses).
* Theorems in: `Verif/Flash/Props.lean`, `Verif/Flash/Gaps.lean`.

### C23 The bootloader never alters itself or locked flash (proved)

* Modelled: `BootloaderServer` on arbitrary frames and command lines.
* Proof: invariant over lists of arbitrary frames: every erase / program action touches valid addresses, and none happens while locked.
* Not covered or contradicted by the code: a write line without data takes the next line as its data (witness; still inside of the allowed region).
* Theorems in: `Verif/Flash/Props.lean`.

### C24 Section addresses are translated to where the bytes will be stored (proved)

* Modelled: `ElfMappings`.
* Proof: arithmetic of the lookup.
* Theorems in: `Verif/Flash/Blocks.lean`.

### C25 Target lists are expanded as written (proved)

* Modelled: `expand_targets` with Python's number grammar.
* Proof: membership, order and uniqueness.
* Not covered or contradicted by the code: an empty field is an error; negative ids cannot be written.
* Theorems in: `Verif/Tool/Targets.lean`.

### C26 Different serial numbers print differently (proved)

* Modelled: `_base64_serial_number`.
* Proof: injectivity of the text of three words.
* Theorems in: `Verif/Tool/Targets.lean`.

### C27 Configuration migration between firmware versions is faithful (partial)

* Modelled: `FirmwareUpgrade` (all version steps in both directions).
* Proof: association lists; a frame property for untouched settings and the identity for every configuration; round trips per setting in exact arithmetic, in doubles where stated.
* Not covered or contradicted by the code: nine settings do not survive (witnesses): power limit, back EMF, output sign, I2C poll rate, feedforward, PWM scale, PWM rate, position offset in doubles, configuration without offsets.
* Theorems in: `Verif/Tool/MigrateProps.lean`, `Verif/Tool/MigrateTrip.lean`, `Verif/Tool/MigrateOffset.lean`, `Verif/Tool/MigrateComp.lean`, `Verif/Tool/MigrateValues.lean`.

### C28 Telemetry decoding inverts telemetry encoding (partial)

* Modelled: reader.py.
* Proof: two relations (`Spec.Enc`, `Spec.Schema`) describe the format; mutual induction over schemas.
* Not covered or contradicted by the code: object flags are replaced by those of the terminating field; signed varints cannot be read; names that collide after escaping are refused; times above 2^53 microseconds are rounded (witnesses).
* Theorems in: `Verif/Telemetry/Props.lean`.

### C29 Telemetry schema parsing is total on arbitrary bytes (partial)

* Modelled: reader.py on arbitrary bytes.
* Proof: a bound on the number of steps by the size of the input; prefix dependence by induction.
* Not covered or contradicted by the code: a short string at the end of the input is accepted, so the result depends on the end of the data (witness).
* Theorems in: `Verif/Telemetry/Total.lean`.

### C30 A fault latches until the host stops the controller (partial)

* Modelled: mode logic of bldc_servo.cc with interrupt and main loop interleaved.
* Proof: invariants over event lists.
* Not covered or contradicted by the code: a refused command overwrites the fault code; the end of the enable sequence overwrites the fault; a fault may have no code (witnesses).
* Theorems in: `Verif/Fw/ServoLatch.lean`.

### C31 No torque without an energised mode (partial)

* Modelled: same, with duty cycle and power stage outputs.
* Proof: transition table of a cycle, invariant over runs.
* Not covered or contradicted by the code: the cooldown drives the motor in stopped mode; a fault raised by a control function leaves the phases driven for one cycle; with an interrupt inside of a main loop call they stay driven through calibration (witnesses). The partial theorems exclude these cases.
* Theorems in: `Verif/Fw/ServoEnergy.lean`, `Verif/Fw/ServoCalib.lean`.

### C32 Leaving stop always goes through current sensor calibration (partial)

* Modelled: same, with the gate driver state and a history.
* Proof: invariant over runs from reset in which main loop calls are atomic.
* Not covered or contradicted by the code: with interrupts inside of a call the motor can be driven with the gate driver disabled or not configured (witnesses).
* Theorems in: `Verif/Fw/ServoCalib.lean`.

### C33 Loss of commands always triggers the watchdog (partial)

* Modelled: the timeout of position modes.
* Proof: invariant; exact arithmetic in full, binary32 with half a unit in the last place taken off the period.
* Not covered or contradicted by the code: a timeout of 2048 s at 30 kHz never expires because the subtraction rounds to the same number; an infinite one neither (witnesses).
* Theorems in: `Verif/Fw/Watchdog.lean`.

### C34 Stop is always obeyed (partial)

* Modelled: same model.
* Proof: every state and interleaving.
* Not covered or contradicted by the code: a fault in the cooldown; mode 16 is accepted and fails an assertion (witnesses).
* Theorems in: `Verif/Fw/ServoStop.lean`, `Verif/Fw/ServoRuns.lean`.

### C35 Position targets respect the configured bounds (partial)

* Modelled: bldc_servo_position.h.
* Proof: invariant over any sequence of commands and cycles, up to the position resolution of 2^-16 turns.
* Not covered or contradicted by the code: a stop position outside of the bounds is applied after them; a positive minimum is truncated toward zero (witnesses).
* Theorems in: `Verif/Fw/TrajBounds.lean`.

### C36 Trajectories obey their velocity and acceleration limits (partial)

* Modelled: same.
* Proof: invariant of the commanded velocity in any arithmetic; acceleration per cycle.
* Not covered or contradicted by the code: five cases exceed the limits (witnesses): completing cycle, position bound, rounding, velocity slip, acceleration above twice the limit per cycle.
* Theorems in: `Verif/Fw/TrajLimits.lean`, `Verif/Fw/TrajOverspeed.lean`.

### C37 A completed trajectory is at its target (partial)

* Modelled: same.
* Proof: velocity equality in any arithmetic; position without limits exactly, otherwise within a stated distance.
* Not covered or contradicted by the code: the position is not exactly the target; in binary32 a small acceleration never changes the velocity (witnesses).
* Theorems in: `Verif/Fw/TrajDone.lean`.

### C38 Multi-turn position follows the encoder exactly (partial)

* Modelled: `ISR_UpdateOutput` and the constants of `HandleConfigUpdate`.
* Proof: a relation between the fixed point state and the true count is kept by every sample; error analysis of the thresholds for cpr up to 2^24 and ratios 1/4096 to 64.
* Not covered or contradicted by the code: the code tracks a quarter of a turn per sample, not half a turn; a gear ratio that is no multiple of 2^-24 drifts (witnesses).
* Theorems in: `Verif/Fw/PositionFollow.lean`, `Verif/Fw/PositionVelocity.lean`.

### C39 Set-output-nearest only moves the position by whole turns (partial)

* Modelled: the nearest position requests.
* Proof: error analysis with relative error kappa per operation; zero for exact arithmetic.
* Not covered or contradicted by the code: position truncated to 2^-16; whole rotor turns only without a reference; request ignored if only the reference is absolute; saturation at 32768 turns (witnesses).
* Theorems in: `Verif/Fw/PositionNearest.lean`.

### C40 PWM commands stay inside of the safe band (partial)

* Modelled: `RateConfig`, `LimitPwm`, `ISR_DoPwmControl`, balanced voltages.
* Proof: order reasoning in any arithmetic; difference of the phases exactly or within 2^-23.
* Not covered or contradicted by the code: NaN passes the limit; 0 V at a bus voltage of 0 V is NaN (witnesses).
* Theorems in: `Verif/Fw/Pwm.lean`.

### C41 PID windup is bounded (partial)

* Modelled: `PID::Apply`, `SimplePI::Apply`.
* Proof: invariants over input lists in any arithmetic with monotone rounding.
* Not covered or contradicted by the code: NaN stays in the integral; a NaN set point switches the rate limit off for a call; `SimplePI` has no integral limit (witnesses).
* Theorems in: `Verif/Fw/Pid.lean`.

### C42 The torque model is a consistent monotone bijection (partial)

* Modelled: `TorqueModel` with the polynomials of math.h, no rounding.
* Proof: monotony of the polynomials on each segment; composition within 0.1 percent; full statement with the exact logarithm.
* Not covered or contradicted by the code: jump at the cutoff; the way back is not monotone and not the exact inverse (witnesses).
* Theorems in: `Verif/Fw/Torque.lean`.

### C43 Clock trim is bounded and reversible (proved)

* Modelled: `ClockManager`.
* Proof: arithmetic over any history.
* Not covered or contradicted by the code: int32 overflow for a configured trim near 2^31 (witness).
* Theorems in: `Verif/Fw/Clock.lean`.

### C44 A frame addressed to another UUID has no effect (proved)

* Modelled: register file with `discard_all`.
* Proof: any history before, any frame, any future; a matching mask is the frame without it.
* Not covered or contradicted by the code: a mask further back in the frame does not undo what was done before it (recorded).
* Theorems in: `Verif/Fw/RegFrames.lean`.

### C45 Commands for several buses reach the right bus exactly once (proved)

* Modelled: `Router.cycle`.
* Proof: lists.
* Not covered or contradicted by the code: `Router.write` and `Router.read` cannot run at this commit and are not part of the property.
* Theorems in: `Verif/Tool/Route.lean`.

### C46 The C++ and Python libraries produce the same frames (partial)

* Modelled: C++ combiner, builders and queries with 8 and 16 bit arithmetic.
* Proof: simulation, builder by builder, for everything both libraries can express.
* Not covered or contradicted by the code: eight differences (witnesses).
* Theorems in: `Verif/Cxx/Props.lean`, `Verif/Cxx/Refuted.lean`.

### C47 Client and controller use the same unit for each register (partial)

* Modelled: all scales of moteus_controller.cc and of the client.
* Proof: full tables, for every value, with binary32 rounding.
* Not covered or contradicted by the code: large negative INT32 values are read as NaN; the client does not scale the command registers that it reads; `ilimit_scale` (witnesses).
* Theorems in: `Verif/Fw/RegUnits.lean`, `Verif/Fw/RegReplies.lean`, `Verif/Fw/RegDirect.lean`.

### C48 Waiting for completion never returns early (proved)

* Modelled: `set_position_wait_complete`.
* Proof: reply histories.
* Theorems in: `Verif/Tool/Route.lean`.

### C49 Bounded text formatting never writes past its buffer (proved)

* Modelled: `StreamWriter`.
* Proof: invariant of the double buffer.
* Not covered or contradicted by the code: the file has no text formatting; the property is read as: bytes stay inside of the buffers, and what is sent is what was written.
* Theorems in: `Verif/Fw/StreamWriter.lean`.

### C50 Calibration angle arithmetic wraps consistently (partial)

* Modelled: wrap helpers of calibrate_encoder.py.
* Proof: integers and rationals exactly; doubles for bounded angles.
* Not covered or contradicted by the code: the loop on doubles does not end for an angle of 2^57 (witness).
* Theorems in: `Verif/Calib/Angles.lean`.

### C51 Serial adapter results do not depend on how the serial data is split (proved)

* Modelled: `Fdcanusb._readline`, `_do_command`.
* Proof: result as a function of the concatenation.
* Theorems in: `Verif/Stream/Props.lean`.

### C52 Replies of a cycle are paired with their commands (proved)

* Modelled: `Fdcanusb.cycle`.
* Proof: induction over the commands.
* Theorems in: `Verif/Stream/Props.lean`.

### C53 Bootloader number buffers are large enough (partial)

* Modelled: number printing of the bootloader.
* Proof: digit counts.
* Not covered or contradicted by the code: the error code needs 9 bytes and the buffer has 5 (witness).
* Theorems in: `Verif/Flash/Props.lean`.

### C54 Calibration resampling is the piecewise linear function (proved)

* Modelled: `_linspace`, `_interpolate`.
* Proof: an independent relation "piecewise linear through these points" with uniqueness; grid also in doubles.
* Not covered or contradicted by the code: unordered input (witness).
* Theorems in: `Verif/Calib/Interp.lean`.

### C55 The circular window average is the mean of the surrounding values (proved)

* Modelled: `_window_average`.
* Proof: mean of the cyclic window over rationals.
* Not covered or contradicted by the code: a window below 2 (witness).
* Theorems in: `Verif/Calib/Interp.lean`.

### C56 Encoder calibration finds direction and pole count (proved)

* Modelled: first part of `calibrate`.
* Proof: telescoping sum of wrapped differences, four inversion cases, quotient rounded to double.
* Not covered or contradicted by the code: the second part (offset table) is not modelled.
* Theorems in: `Verif/Calib/Poles.lean`.

### C57 Hall calibration finds offset and direction (proved)

* Modelled: `calibrate_hall`.
* Proof: induction over rotating sequences, complete state table.
* Theorems in: `Verif/Calib/Poles.lean`.

### C58 Buffered stream writes call back once and in order (partial)

* Modelled: `StreamWriter` with callbacks.
* Proof: invariant over events.
* Not covered or contradicted by the code: a callback that writes three times has its last callback called early; the callback of an empty write waits for a later write (witnesses).
* Theorems in: `Verif/Fw/StreamWriter.lean`.

### C59 Commands without a mode act at once and only as asked (partial)

* Modelled: register file and command builders.
* Proof: as C13 without a mode.
* Not covered or contradicted by the code: clock trim: 32 bits are sent, 8 are kept (witness).
* Theorems in: `Verif/Fw/RegDirect.lean`.

### C60 Bitfield registers report each bit as documented (partial)

* Modelled: `PinsToBits` and the encoder validity register.
* Proof: bit arithmetic over all pins and types.
* Not covered or contradicted by the code: two bits per encoder are used instead of the documented one (witness).
* Theorems in: `Verif/Fw/RegBits.lean`.

### C61 The C++ library never writes beyond the 64 bytes of a frame (partial)

* Modelled: `MakeFrame`, `WriteCanData`.
* Proof: invariant: the size of a frame.
* Not covered or contradicted by the code: the default query is copied behind a nearly full frame without a check (witness).
* Theorems in: `Verif/Cxx/Safety.lean`.

### C62 A C++ frame that reads registers asks for a reply and announces its size (partial)

* Modelled: reply flag and announced size in the C++ library.
* Proof: from C46 and C07 for the mode commands.
* Not covered or contradicted by the code: `MakeGpioRead` and `MakeSchemaVersionQuery` (witnesses).
* Theorems in: `Verif/Cxx/Safety.lean`.

### C63 Absolute encoders report the documented position (partial)

* Modelled: `ISR_UpdateAbsoluteSource`, `WrapIntCpr` with 32 bit arithmetic.
* Proof: integers modulo 2^32 and modulo the counts per revolution.
* Not covered or contradicted by the code: counts per revolution that do not divide 2^32 wrap wrongly for sums below minus one revolution (witness).
* Theorems in: `Verif/Fw/SensorCounts.lean`.

### C64 Quadrature sources count every edge and no more (partial)

* Modelled: `Stm32Quadrature` (interrupt and timer) and the quadrature branch of `ISR_UpdateSources`.
* Proof: the encoder is a function from position to pins; induction over the path, composed over control cycles.
* Not covered or contradicted by the code: the initial pin state is taken as low (witness).
* Theorems in: `Verif/Fw/SensorCounts.lean`.

### C65 Hall sources follow the shaft (partial)

* Modelled: hall sampling of aux_port.h and the hall branch of `ISR_UpdateSources`.
* Proof: the sensors are a function from sector to pins; induction over samples, balanced residues modulo 6.
* Not covered or contradicted by the code: the error counter never counts; impossible states; polarity above 7; offset 6 with sign -1 (witnesses).
* Theorems in: `Verif/Fw/SensorHall.lean`.

### C66 A source is valid exactly while its last sample is recent (partial)

* Modelled: activity flags and `time_since_update`.
* Proof: an equivalence over runs of cycles without news, for any arithmetic; the binary32 clock by induction with a relative error.
* Not covered or contradicted by the code: long timeouts never expire; `active_absolute` returns after a timeout; index sources are dead after the first timeout (proved for every run).
* Theorems in: `Verif/Fw/SensorTimeout.lean`.

### C67 The position filter follows the encoder (partial)

* Modelled: the filter of `ISR_UpdateSources`.
* Proof: a Lyapunov function (`lag`) that every sample reduces by a constant factor, together with the wraps and the velocity limit; binary32 for the unfiltered position.
* Not covered or contradicted by the code: no bandwidth limit for SPI encoders: unstable above w dt = 0.83 (witness for 1).
* Theorems in: `Verif/Fw/Pll.lean`.

### C68 The electrical angle is that of the rotor, and stale angles are not used (partial)

* Modelled: `ISR_UpdateCommutation`, `ISR_UpdateState`, `ISR_Update` of motor_position.h around the sources, filter and output of C63-C67; `WrapZeroToTwoPi`.
* Proof: the angle is compared with an independent description (piecewise linear periodic curve through the 64 table entries plus pole pairs times position) for every arithmetic with relative error; continuity over unwrapped positions. Validity by an invariant over runs of cycles, requests and index commands.
* Not covered or contradicted by the code: with two encoders a commutation source that timed out leaves the angle valid and frozen; after a port error the angle stays valid and current mode keeps driving (witnesses). The comment of the compensation table says its entries apply at the centre of the bins, the code interpolates from the left edge.
* Theorems in: `Verif/Fw/Commutation.lean`, `Verif/Fw/CommutationAngle.lean`.

### C69 Position settings are checked before they are used (partial)

* Modelled: `HandleConfigUpdate` and `IsThetaCapable`: clamps, per type defaults, bandwidth limit, commutation and output checks.
* Proof: equivalence with an independent predicate `Normal`, idempotence, and preservation of choices; linked to C68 by `C69_calibrated`; the direction and the filter constants of the running configuration by `C69_direction`, `C69_filter`.
* Not covered or contradicted by the code: reference source 3 and I2C device 3 read past their arrays; ratio 0, NaN phases, an odd number of poles with an indexed quadrature encoder, cpr 0 and negative poll times are accepted (witnesses).
* Theorems in: `Verif/Fw/PosSettings.lean`.

### C70 A motion ends (partial)

* Modelled: the position mode of the trajectory generator and the position integration.
* Proof: in units of one cycle of acceleration: each direction of motion is a stroke that ends (well-founded induction on distance and velocity), the overshoot after two strokes is smaller than the distance at their start, so the visible distance decreases until it is 0; then the next cycles complete. Above the velocity limit the energy-like sum of distance and stopping distance does not increase until the limit is reached. Exact arithmetic.
* Not covered or contradicted by the code: limit cycles in binary32 for larger accelerations (1054.7 turns/s^2, velocity limit 0.246) and for velocity limits below half a velocity step (witnesses, proved to be periodic).
* Theorems in: `Verif/Fw/TrajCompletes.lean`, `Verif/Fw/TrajOverspeed.lean`, `Verif/Fw/TrajEndless.lean`.

### C71 Slip limits hold in every cycle (proved)

* Modelled: the slip limits of `UpdateCommand`.
* Proof: the cycle with slip limits is compared with the cycle without them; order reasoning over integers, error analysis of one addition for the velocity.
* Not covered or contradicted by the code: the slip is rounded down to 2^-16 turns; position bounds and the stop position are applied after it (witnesses).
* Theorems in: `Verif/Fw/TrajSlip.lean`.

### C72 A calibration leaves the motor without power (partial)

* Modelled: `do_calibrate` and everything it calls (`Session/Tool.lean`) as a nondeterministic program: the controller may answer anything, every command may fail, the clock is arbitrary; floats are an arbitrary type with arbitrary operations. An execution is a list of events (commands with or without acknowledgement, values received).
* Proof: a program logic (`Session/Prog.lean`): rules for sequence, loop, try, finally; `powered` is a function of the events only.
* Not covered or contradicted by the code: a failure while Kv is measured, while the winding resistance is measured or while searching the index leaves the motor driven and the limits NaN (witness).
* Theorems in: `Verif/Session/Stops.lean`, `Verif/Session/Sweep.lean`, `Verif/Session/Run.lean`.

### C73 What a calibration saves (proved)

* Modelled: same.
* Proof: the state of a specification machine (last value sent, last value received before the first change) is an invariant of every part.
* Theorems in: `Verif/Session/Saves.lean`, `Verif/Session/Sweep.lean`.

### C74 Low level and deprecated calibration options (partial)

* Modelled: `calculate_calibration_parameters`, `find_encoder_cal_voltage`.
* Proof: no execution completes (`Fails`); equality of the sets of executions.
* Not covered or contradicted by the code: `--cal-ll-encoder-voltage` and `--cal-power` give a tuple where a number is expected, `--cal-voltage` names a missing attribute, `--cal-speed` is always in conflict with the default of its replacement.
* Theorems in: `Verif/Session/Sweep.lean`.

### C75 The search for the winding resistance (proved)

* Modelled: `calibrate_winding_resistance2` over exact numbers with NaN; commands carry the voltage rounded to three decimals.
* Proof: `Ohmic R`: every current in the events is the last voltage sent divided by R. Invariant of the list of samples; the n-th voltage is 0.01 * 1.1^n.
* Not covered or contradicted by the code: from 48 V on the search can fail an assertion at 20 V; it raises IndexError if the first current is already above 60 % of the last one.
* Theorems in: `Verif/Session/Resist.lean`.

### C76 The fit of a line and the measurement of Kv (proved)

* Modelled: `linear_regression`, `find_speed`, `find_kv_cal_voltage`, `calibrate_kv_rating` over exact numbers with NaN.
* Proof: moments of the points, the difference of two errors is a sum of squares; `Spins s`: every speed in the events is s times the voltage sent last. Invariant of the loops of the two searches; which of the five points are used follows from the rounding error.
* Theorems in: `Verif/Session/Fit.lean`.

### C77 The timing of the I2C bus (partial)

* Modelled: fw/stm32_i2c_timing.h completely (`analog_filter` is not used there), in ℤ with the truncating division and the conversions to `int`; the division by a clock of 0 Hz is a value of its own. Specification: fields of the register and durations as in the reference manual, limits from the I2C specification, all in ℚ with the exact clock period.
* Proof: each field is a quotient rounded down, plus one in the hardware, so the duration exceeds what was asked for; the whole number of picoseconds is a lower bound of the clock period.
* Not covered or contradicted by the code: rise_time_ns and fall_time_ns are never used (`C77_setup_refuted`, `C77_edges_ignored`); the hold time is rounded down (`C77_hold_refuted`). `prescaler << 28` overflows `int` for prescalers of 8 or more (undefined before C++20; modelled modulo 2^32).
* Theorems in: `Verif/Fw/I2cTiming.lean`.

### C78 Encoders on a serial line (partial)

* Modelled: fw/cui_amt21.h, fw/aksim2.h completely, over the bytes that the UART and its DMA deliver; the bytes and their times are arbitrary.
* Proof: invariant over all sequences of calls: an outstanding query was sent by an earlier call, none since, and the buffer holds what arrived since; the parity as exclusive or of bits.
* Not covered or contradicted by the code: an answer that is late by part of its bytes is combined with the next answer (`C78_late_refuted`); with a poll interval of 0 no answer is used (`C78_poll_zero`). The driver of the AksIM-2 has no check of the content.
* Theorems in: `Verif/Fw/UartEncoder.lean`.

### C79 The serial adapter as a stream for coroutines (partial)

* Modelled: lib/python/moteus/aiostream.py: event loop and worker thread as a labelled transition system (`Step`, `WStep`), any number of calls; bytes are positions. An exception of `fd.read` or `fd.write` (which ends the worker thread) is not modelled; `fd.write` writes everything, as that of pyserial does (the code ignores its result). While the handler of `CancelledError` waits for the lock the event loop stands still; the model lets it go on, which only adds executions.
* Proof: invariants of the transition system: a call has one job at most; a ledger of positions as multisets, an equality without late cancellation and an inequality with it; when calls follow each other the data of the last call end where the file was read to.
* Not covered or contradicted by the code: a call cancelled while the worker reads takes its bytes along (`C79_cancel_refuted`); a cancelled `drain` has already taken the data (`C79_drain_refuted`); `C79_overlap_refuted`; `C79_end_refuted`.
* Theorems in: `Verif/Aio/Results.lean`, `Verif/Aio/Write.lean`.

### C80 The iC-PZ encoder (partial)

* Modelled: fw/ic_pz.h: each function of the main loop is a list of operations on what it shares with the interrupt (mode, buffers, DMA), the interrupt can come between any two; answers of the encoder are arbitrary. The commands `ic-rd`, `ic-wr` of fw/aux_port.h. Not modelled: the times of the polls, the bits of the diagnosis, the conversion of two values to floats, the delays of the SPI, the text of the replies.
* Proof: a small abstract interpretation of the programs of the main loop (who may use the bus), proved sound against the transition system by an invariant; a conserved sum of frames sent and frames planned.
* Not covered or contradicted by the code: sizes that pass the check of the command but fail the assertion of the driver (`C80_read_refuted`, `C80_write_refuted`); `adi` is assigned twice and `dig` never (`C80_diagnosis_refuted`). Besides: in `kWarmup` a command is dropped but answered with OK; an odd number of hexadecimal digits reads beyond the token.
* Theorems in: `Verif/Fw/IcPz.lean`.

### C81 Encoders on the I2C bus (partial)

* Modelled: fw/stm32_i2c.h (the transfers; the initialisation is C77) and `ISR_I2C_Update`, `ISR_PollI2c`, `ISR_Parse*` of fw/aux_port.h. The flags that each cycle reads are arbitrary inputs; the events on the bus are recorded. A NACK flag that was just cleared may still be set in the model.
* Proof: an invariant between the three parts of a cycle that ties the mode of the peripheral, the pending device and the end of the record of events together; a decreasing number of answers; for starvation an invariant of the periodic run.
* Not covered or contradicted by the code: no time out (`C81_hang_refuted`); `initialized` is set before the write of the settings was acknowledged (`C81_settings_refuted`); fixed priority of the devices (`C81_starved_refuted`).
* Theorems in: `Verif/Fw/I2cEncoders.lean`.

### C82 Voltage vectors and phase currents (partial)

* Modelled: `DqTransform`, `InverseDqTransform` of fw/foc.h, `RadiansToQ31` of fw/math.h, the phase current part of `ISR_CalculateCurrentState`, `ISR_CalculatePhaseVoltage`, `ISR_DoVoltageDQ`, `ISR_DoVoltageDQCommand`, with the duty cycles of C40. The CORDIC unit is an arbitrary pair of numbers within ε of sine and cosine. Specification: real numbers, `cos (θ - 2πk/3)`. Not modelled: the Clarke and Park transforms of foc.h (used by no control mode), `Cordic`.
* Proof: a calculus of errors (`Float/Approx.lean`): value, centre, error and magnitude through every operation; then trigonometric identities. A vector of length `max_V` has phases at most √3 max_V apart, and kSvpwmRatio is just below 2/√3.
* Not covered or contradicted by the code: `ISR_DoVoltageDQCommand` (`C82_command_refuted`), `RadiansToQ31` at half a turn (`C82_half_turn_refuted`; the ARM instruction saturates, and with that the angle is right).
* Theorems in: `Verif/Fw/FocPwm.lean`, `Verif/Fw/Foc.lean`, `Verif/Fw/FocAngle.lean`.

### C83 Limits of current, power and voltage (partial)

* Modelled: `ISR_DoCurrent` of fw/bldc_servo.cc for a configured motor with a valid angle, with `SimplePI` of C41 and the duty cycles of C82; `sqrtf` is any function whose square is right up to 2^-22 (`SqrtOk`; `sqrtRef_ok` shows that one exists). `status_.power_W` is left out. Specification: `allowed`, the straight line from maximum current to derating current; power 3/2 (v_d i_d + v_q i_q).
* Proof: case distinction over NaN, infinities and numbers; errors of the chain of products, quotient, root and products of `limit_to_max_voltage` bounded one after the other, so that `C82_line_voltage` applies to the result; induction over cycles for NaN.
* Not covered or contradicted by the code: `std::min` of the two derating fractions takes the cooler (`C83_motor_refuted`, `C83_fet_refuted`; `C83_cooler_partial` says what is computed); the power limit divides by `1.5 * old_d_V` (`C83_power_refuted`), which in `voltage_mode_control` is 0 whenever no d current is commanded (`C83_voltage_mode_refuted`), and NaN never goes away while the mode lasts (`C83_nan_stays_refuted`).
* Theorems in: `Verif/Fw/CurrentControl.lean`, `Verif/Fw/CurrentLimits.lean`.

### C84 Torque of the position modes (partial)

* Modelled: `ISR_DoPositionCommon`, `ISR_DoPosition`, `ISR_DoPositionTimeout`, `ISR_DoZeroVelocity`, `ISR_DoStayWithinBounds`, `Threshold` of fw/bldc_servo.cc, with `UpdateCommand` of C35-C37 and `PID::Apply` of C41; `torque_to_current` (C42) is an arbitrary function. The outcome is what is handed to the current loop (C83). Left out: what is written to `status_` for reporting; a read outside of the cogging table counts as NaN.
* Proof: inversion of `positionCommon`, signs of products of floats over NaN and infinities, `C41_scale_zero` for the integral; at rest at the target every branch of the trajectory generator gives velocity 0 (`rest_stays`); C41_output_exact for the exact law; linear interpolation as `Spec.interpolate`.
* Not covered or contradicted by the code: `Limit` with a NaN bound does nothing and with a negative maximum returns the bound (`C84_nan_limit_refuted`, `C84_negative_limit_refuted`); `ISR_DoZeroVelocity` uses `timeout_max_torque_Nm` (`C84_zero_limit_refuted`) and in its first cycle the filtered velocity as set point (`C84_zero_first_cycle_refuted`); no code for the documented limit of the kd scale (`C84_kd_scale_refuted`); `timeout_data.max_torque_Nm` is 100 (`C84_timeout_hold_refuted`); `ISR_DoVoltageDQ` is called without the limit that the comment before line 2254 demands of all callers (`C84_fixed_voltage_refuted`).
* Theorems in: `Verif/Fw/PositionModes.lean`, `Verif/Fw/StayWithin.lean`, `Verif/Fw/PositionExact.lean`.

### C85 Preparation of commands (partial)

* Modelled: `Command` of fw/bldc_servo.cc except what is refused (C33); the members it does not look at are one parameter. The two buffers as a transition system: every write of the main loop and the three assignments of `std::swap` are single steps, the interrupt may come between any two and changes the current command. Assumed: the compiler does not move writes to the buffers across the exchange of the pointers (only the pointers are volatile). Not modelled: `telemetry_data_`, a torn read of the 64 bit position.
* Proof: case distinction over NaN and infinities against an inductive description of the limit that was asked for (`Spec.Asked`); the limit theorems of C36 once more for limits that differ from command to command, also while the velocity is above the limit in force (`Fw/TrajVary.lean`); for the buffers an invariant that relates the state to one atomic variable (`Spec.Atomic`) and the calls to the sequence of published commands.
* Not covered or contradicted by the code: a negative `default_velocity_limit` is used as a limit, `Limit(0, 1, -1)` is 1 (`C85_negative_default_refuted`); `std::min` with a NaN maximum (`C85_nan_maximum_refuted`); `C85_at_stop_refuted`; `C85_position_overflow_refuted`.
* Theorems in: `Verif/Fw/CommandPrep.lean`, `Verif/Fw/CommandBuffer.lean`.

### C86 What the controller measures (partial)

* Modelled: `ExponentialFilter`, `Interpolate`, the scales and limits of `UpdateConfig`, currents, `motor_max_velocity` and `max_power_W` of `ISR_CalculateCurrentState` (fw/bldc_servo.cc), `max_sense_V` of fw/drv8323.cc, fw/thermistor.h over the real numbers (because of the logarithm). Specification: the table in docs/reference.md, the ADC with 3.3 V and 4096 counts, the B equation of a thermistor in a divider with 10 kΩ. Not modelled: bus_V before the filter beyond "a number that is not negative".
* Proof: error of one step of a filter, then a geometric recursion; fixed point computed in binary32 for the refutation; monotonicity of logarithm and quotient, steps from count to count.
* Not covered or contradicted by the code: the filter can stall (`C86_filter_stalls_refuted`), keeps infinities (`C86_filter_infinite_refuted`); it is set up with the PWM rate but runs at the interrupt rate, which above 30 kHz is half of it (`C86_time_constant_refuted`); no check of the configuration (`C86_negative_shunt_refuted`, `C86_nan_current_refuted`, `C86_negative_power_refuted`, `C86_negative_kv_refuted`); the table ends at 3968 counts (`C86_thermistor_1k_refuted`).
* Theorems in: `Verif/Fw/Measure.lean`.

### C87 Modes used for calibration (partial)

* Modelled: `ISR_DoVoltageFOC`, `ISR_DoMeasureInductance`, `ISR_MaybeEmitDebug` of fw/bldc_servo.cc, the period of the command `d ind` of fw/board_debug.cc; duty cycles and angles as in C82. `int8_t` wraps. Not modelled: the values in the debug output, the speed of the UART.
* Proof: the limit of these modes agrees with the one of the current control up to 2^-18, so that `C82_line_voltage` applies; induction over cycles with the error of one addition; a closed form of the phase of the square wave.
* Not covered or contradicted by the code: `C87_rotation_refuted` (the angle is not wrapped), `C87_period_refuted` (the number is cut to 8 bits before it is checked).
* Theorems in: `Verif/Fw/TestModes.lean`.

### C88 Encoder calibration on the controller (partial)

* Modelled: `DoCalibration` and the commands `d cal`, `d cali` of fw/board_debug.cc; an event is a call of `PollMillisecond`, the completion of a write, or another command. Positions are the 16 bit values of lines 254-257. Not modelled: the scan of the options, the values of the currents in the reports.
* Proof: induction over events; the movement is tied to unwrapped positions by an invariant with the list of positions seen; lengths of decimal numbers for the buffer.
* Not covered or contradicted by the code: `C88_malformed_refuted`, `C88_stop_refuted`, `C88_zero_speed_refuted`, `C88_direction_refuted`.
* Theorems in: `Verif/Fw/CalSequence.lean`.

### C89 Configuration files of moteus_tool (proved)

* Modelled: `write_config_stream`, `do_restore_config`, `restore_config`, `--dump-config` of moteus_tool.py with Python's `readlines`, `split`, `rstrip` and universal newlines (`Session/Actions.lean`), as programs whose replies are arbitrary.
* Proof: `Runs L t b`: the exchanges t follow the list L of expected exchanges, each successful before the next; `Follows` composes over sequence.
* Theorems in: `Verif/Session/ActionsProps.lean`.

### C90 Firmware, offset, calibration and targets of moteus_tool (partial)

* Modelled: `do_flash` (the lines of an image are C21, the conversion of settings C22-C24: parameters here), `do_set_offset`, `do_restore_calibration`, `read_uuid`, `is_config_supported`, `find_targets`, `run_action`, `start`. Numbers of a report are given as text; Python's truth value of a number is whether its text is that of 0.
* Proof: `Follows` with lists that depend on what the controller says it supports (`Fol`); induction over the targets.
* Not covered or contradicted by the code: `report['serial_number']` does not exist (`C90_calibration_message_refuted`); `range(1, 127)` (`C90_search_refuted`); `Controller(i)` without prefix in the search (`C90_prefix_refuted`); no handling of errors between targets (`C90_stop_refuted`); `elif self.args.set_offset:` (`C90_offset_zero_refuted`). Besides: the conversion of the settings runs after the flash was written, so an error there leaves them unrestored.
* Theorems in: `Verif/Session/ActionsProps.lean`.

### C91 Configuration and sampling of the auxiliary ports (partial)

* Modelled: `HandleConfigUpdate`, `PollMillisecond`, `ISR_MaybeStartSample`, `ISR_MaybeFinishSample` (what is sampled and whether its object exists, levels of digital pins), `ISR_EndAnalogSample` (whether the positions are known), `WriteDigitalOut`, `debug_uart` of fw/aux_port.h; `FindSpiOption`, `FindUartOption`, `Stm32PwmTimerSet::get`, which pins make `Stm32Quadrature` and `Stm32Index` fail (fw/aux_mbed.h); the pin tables of fw/moteus_controller.cc. `pinmap_find_peripheral` of mbed is an arbitrary function. Uses of an empty `std::optional` are `none`. Results of `Stm32GpioInterruptIn::Make` are arbitrary. What the sensors deliver is C65, C66, C78-C81. Not modelled: the delays, the electrical state of pins taken away, the values of PWM outputs, the texts of commands.
* Proof: a description of the state after each way through `HandleConfigUpdate` (`Taken`, `Refused`), from which an invariant of all operations and a relation to the last configuration follow; witnesses are computed by the kernel.
* Not covered or contradicted by the code: `C91_hall_count_refuted`, `C91_hall_missing_refuted`, `C91_hall_polarity_refuted`, `C91_error_erased_refuted` and `C91_error_none_refuted` (`PollMillisecond` sets the error to none), `C91_missing_pin_refuted`, `C91_first_level_refuted` (the second argument of `DigitalOut` is a level, not a pull direction), `C91_debug_refuted`, `C91_change_race_refuted`, `C91_reset_race_refuted` (`ISR_MaybeStartSample` does not look at `any_isr_enabled_`).
* Theorems in: `Verif/Fw/AuxPortProps.lean`, `Verif/Fw/AuxPortOut.lean`.

### C92 Analog inputs and the sine/cosine sensor (partial)

* Modelled: `AuxADC` (fw/aux_adc.h: the register JSQR bit by bit, the tables of results, start and end of sampling), both ports of a board as in C91, `FastAtan2` (fw/math.h), the sine/cosine value and the analog inputs of `ISR_EndAnalogSample`. The converter is a function of converter and channel; the conversions are assumed done when they are read (the code does not wait for the end of conversion). The constant kPi is as in math.h.
* Proof: induction over the pins for the registers, an invariant over all operations of both ports (`C92_readings`); the distance of the polynomial from the arc tangent by its derivative and positivity of polynomials on intervals, which the kernel computes (`Float/Poly.lean`, `Fw/FastAtan.lean`); rounding by intervals around the exact value (`Apx`).
* Not covered or contradicted by the code: `C92_refused_refuted`: a `HandleConfigUpdate` that returns early does not call `config_update`.
* Theorems in: `Verif/Fw/AuxAdc.lean`, `Verif/Fw/AuxAnalog.lean`, `Verif/Fw/SineCosine.lean`.

### C93 Interrupts of pins (partial)

* Modelled: fw/stm32_gpio_interrupt_in.h completely: the table of entries, `Make` (each assignment one step), destructor, the interrupt handlers; which objects of `Stm32Quadrature` and `Stm32Index` (fw/aux_mbed.h) ask for pins, and the order in which `HandleConfigUpdate` of both ports releases and makes them. The EXTI line of a pin is its number. Not modelled: NVIC priorities, two edges of the same line before the handler runs (the hardware keeps one pending bit).
* Proof: an invariant of the table (entries in use have distinct lines, counts agree with owners) kept by every step; a plan of a configuration is interrupted at any point; closed witnesses.
* Not covered or contradicted by the code: `C93_early_refuted`, `C93_torn_refuted`, `C93_fourth_refuted` (`entry_->ref_count++` after a search that found nothing), `C93_any_pins_refuted` (docs/reference.md says any pins).
* Theorems in: `Verif/Fw/PinIrqProps.lean`.

### C94 PWM outputs of the auxiliary ports (partial)

* Modelled: `Stm32PwmTimer`, `Stm32PwmTimerSet`, `Stm32Pwm` of fw/aux_mbed.h and their use in `HandleConfigUpdate`, `ISR_MaybeFinishSample`, `WritePwmOut` of fw/aux_port.h. The timer is modelled clock by clock: prescaler (which takes effect at the next update event, because EGR is written with 0), counter, auto reload without preload, compare registers without preload, width 16 or 32 bits. The channel of a pin (mbed's pin map) is a parameter, for the refutations the one of docs/reference.md. Assumed: the compare registers change at the clock they are written; the timers run at the clock the code assumes. Not modelled: other users of the same timers.
* Proof: a bijection of the settled timer with a counter modulo the period, a bound on the clocks until it is settled, counting of residues; an invariant for what a configuration leaves in the port; errors of `value * (counts + 1)` in any rounding.
* Not covered or contradicted by the code: `C94_full_refuted`, `C94_nan_refuted`, `C94_long_refuted`, `C94_negative_refuted`, `C94_shared_refuted`, `C94_stuck_refuted`, `C94_restart_refuted`: see the note in MANIFEST.json.
* Theorems in: `Verif/Fw/AuxPwmProps.lean`.

### C95 Open loop operation: which angle, which voltage, and without encoder (partial)

* Modelled: the choice of the electrical angle (`ISR_DoTimerLowerPriority`, lines 911-924 of fw/bldc_servo.cc), `synthetic_theta` of `Command` (with the model of C85), the fixed voltage and fixed current branches of `ISR_DoPositionCommon` (with the model of C84), and the modes and faults around them (with the model of C30 to C34). Reading an empty optional is a value of its own (`none`). Not modelled: how the voltage becomes PWM (C82).
* Proof: case analysis; an induction over the cycles that compares two runs with different encoders; error bounds of each operation of the angle in any rounding.
* Not covered or contradicted by the code: `C95_reported_refuted`, `C95_first_refuted`, `C95_start_refuted`, `C95_timeout_refuted`, `C95_stop_refuted`, `C95_fixed_current_refuted`, `C95_coarse_refuted`: see the note in MANIFEST.json.
* Theorems in: `Verif/Fw/OpenLoop.lean`.

### C96 What decode_can_frame.py shows (partial)

* Modelled: utils/decode_can_frame.py completely, except `bytes.fromhex`, the layout of the text and the names of registers (only whether a name exists). The output is the list of printed pieces with their bytes, and the exception that ends the program.
* Proof: induction over the frame; each reading function is compared with the documented grammar (`Multiplex.Spec`, extended by the subframes of the diagnostic stream), in both directions; the table of units is compared with docs/reference.md by evaluation over all registers.
* Not covered or contradicted by the code: `C96_unknown_refuted`, `C96_unit_refuted` and `C96_unscaled_refuted`, `C96_cut_refuted`: see the note in MANIFEST.json.
* Theorems in: `Verif/Tool/CanDecode.lean`.

### C97 Histograms gathered by the controller (partial)

* Modelled: `ParseHistogramChannel`, `d hstart`, `d hend`, `SampleHistogram`, `DoHistogram` and `PollMillisecond` of fw/board_debug.cc. `strtof` is a parameter. A read outside of the arrays of sources is `none`. Not modelled: the tokenizer, the writing of the response (128 lines with `%f`), the race of the interrupt that changes the readings while they are read.
* Proof: induction over the options against a grammar, in both directions; induction over the milliseconds: the state machine with remembered values gathers what a specification without state describes; error bounds of sum, quotient and bin in any rounding.
* Not covered or contradicted by the code: `C97_channel_refuted`, `C97_stale_refuted`, `C97_refused_refuted`, `C97_limits_refuted`: see the note in MANIFEST.json.
* Theorems in: `Verif/Fw/Histogram.lean`.

### C98 The table of compensate_cogging.py (partial)

* Modelled: utils/compensate_cogging.py: the windows, their means, scale and entries of the table, and what happens to the limits of the position; `ISR_DoPositionCommon` applies the table as in C84, histograms are those of C97. Means and interpolation in exact arithmetic, the entries in binary64. Not modelled: options, plots, the motion.
* Proof: arithmetic of the borders of the windows; truncation to 127 steps; the interpolation is linear in the entries.
* Not covered or contradicted by the code: `C98_place_refuted`, `C98_short_refuted`, `C98_zero_refuted`, `C98_limits_refuted`, `C98_encoder_refuted`: see the note in MANIFEST.json.
* Theorems in: `Verif/Tool/Cogging.lean`.

### C99 The table of compensate_encoder.py (partial)

* Modelled: utils/compensate_encoder.py: `mean_value`, `integrate`, the unbiased velocities and deviations of the inertial mode, `wrap_half`, `wrap_zero_one`, offset and deviations of the reference mode, update, scale and entries of the table; `lerp` of fw/motor_position.h as in C66. Exact arithmetic, the entries in binary64. `numpy.interp`, which samples the deviations at the places of the table, is not modelled: the theorems about the table are about any sampled values. Not modelled: options, plots, the motion, firmware without `compensation_scale`.
* Proof: induction over the bins; the sum of the unbiased velocities is 0; a value less than half a turn away that is equal up to whole turns is equal.
* Not covered or contradicted by the code: `C99_reference_refuted` (mean of angles), `C99_zero_refuted`.
* Theorems in: `Verif/Tool/EncoderComp.lean`.

### C100 Gate driver: settings, enabling, faults (partial)

* Modelled: fw/drv8323.cc: `StartEnable`, `Read`, `Write`, `WriteConfig`, `HandleConfigUpdate`, the calibration of the amplifiers, `PollMillisecond` (the status registers), `fault`; the defaults of fw/drv8323.h. For `C100_verified` the bus is any device; for the rest the chip is described after its data sheets: registers that answer a millisecond after ENABLE went high and are reset when it goes low, ones on the bus otherwise. `StartEnable` is one step except in `C100_race_refuted`. Not modelled: the wires of the bus, the lock, the single bits of the status (copies of bits of `fsr1`, `fsr2`), values of enumerations outside of their range.
* Proof: the fields of each word over all combinations of flags and choices (the kernel evaluates the complete tables); induction over the table for the choice; an invariant of the state machine and the chip over all operations; closed witnesses.
* Not covered or contradicted by the code: `C100_sink_refuted`, `C100_gain_refuted`, `C100_old_gain_refuted`, `C100_stale_refuted`, `C100_race_refuted`, `C100_early_refuted`: see the note in MANIFEST.json.
* Theorems in: .

### C101 The C++ library: lines to and from a fdcanusb (partial)

* Modelled: `Fdcanusb` of lib/cpp/mjbots/moteus/moteus_transport.h from frames to bytes and back (`Printer`, `CHILD_SendCanFdFrame`, `CHILD_FlushTransmit`, `RoundUpDlc`, `CHILD_ConsumeData`, `CHILD_ConsumeLines`, `CHILD_ProcessLine`, `ParseCanData`), `Tokenizer` of moteus_tokenizer.h, `std::stoul` with base 16. A text that is cut by `vsnprintf`, and a write behind the buffer, are `none`. Not modelled: opening the device, errors of `read` and `write` that end the program.
* Proof: numbers and bytes as inductive relations between text and value; induction over the frames with the number of characters in the buffer; induction over the reads: lines of a text are a fold over its characters, which can be cut anywhere; induction over the flags.
* Not covered or contradicted by the code: `C101_noise_refuted`, `C101_empty_refuted`, `C101_long_refuted`: see the note in MANIFEST.json.
* Theorems in: .

### C102 The C++ library: a cycle with a transport (partial)

* Modelled: `CHILD_Cycle` and `CHILD_CheckReplies` of lib/cpp/mjbots/moteus/moteus_transport.h, with the counters, for both transports, and `FindResult` of moteus.h. The device is a list of reads with times, contents and durations. Besides that time passes only in `ppoll`. Frames are those of C101. Not modelled: interrupted or failing system calls, the thread and its queue (`ThreadedEventLoop`), negative destinations.
* Proof: the counters as functions of the device number; induction over the reads with the reads before as a parameter; a relation for a sequence of rounds.
* Not covered or contradicted by the code: `C102_stale_refuted`, `C102_busy_refuted`, `C102_gone_refuted`, `C102_pipeline_refuted`, `C102_socket_refuted`: see the note in MANIFEST.json.
* Theorems in: .

### C103 The C++ library: diagnostic commands (partial)

* Modelled: `DiagnosticCommand` with `AsyncDiagnosticCommandContext` of lib/cpp/mjbots/moteus/moteus.h, `DiagnosticWrite::Make` and `DiagnosticResponse::Parse` of moteus_protocol.h, `ReadVaruint` of moteus_multiplex.h. The frames that each read returns are an input; a cycle has no errors (see C102). Not modelled: the sleep between reads, `DiagnosticFlush`, `AsyncDiagnosticRead`.
* Proof: an invariant for the text that is cut into lines (what was written and what is left is the text so far, cut at the end of a line, without a line OK); induction over reads; the number of empty texts at the end as a fold.
* Not covered or contradicted by the code: `C103_absent_refuted`, `C103_error_refuted`, `C103_left_refuted`: see the note in MANIFEST.json.
* Theorems in: .

### C104 The C++ library: replies (partial)

* Modelled: `MultiplexParser` of lib/cpp/mjbots/moteus/moteus_multiplex.h (for a host), `Query::Parse` and `Query::ParseGeneric` of moteus_protocol.h with the table of registers. The cast of NaN or of a number that is too large to `int` is `none`. Register numbers from 32768 on are kept as unsigned numbers. Not modelled: the shift of the fifth byte of a number, which overflows `int`; `GenericQuery`.
* Proof: a simulation of the Python parser by the C++ parser (counters modulo 256, registers modulo 65536); a relation of the steps of the parser over the blocks of a frame; folds over the values; the table is compared with the switch of the firmware register by register.
* Not covered or contradicted by the code: `C104_register_refuted`, `C104_unit_refuted`, `C104_marker_refuted`, `C104_extra_refuted`: see the note in MANIFEST.json.
* Theorems in: .

### C105 tview: the stream of a controller (partial)

* Modelled: `DeviceStream` and the task of a device of utils/gui/moteus_gui/tview.py: `start` from `ignore_all` on, `update_config`, `schema_update_config`, `update_telemetry`, `command`, both kinds of blocks, `run`, `do_data`. A task is a machine that wants a line, a block or a resynchronization; it is woken by every accepted message. A record is handed over as bytes: parsing schemas and data (reader.py) is in C28 and is assumed to succeed. Not modelled: the widgets, plots, `add_config_line`, the transport below.
* Proof: the task on the whole stream at once as a function; what it does at a wake is a beginning of that (induction over its steps); more data does not change what was done before; an invariant over the messages; the same for a controller that refuses `conf list` (Tool/TviewOld); induction over the groups, channels and items.
* Not covered or contradicted by the code: `C105_prompt_refuted`, `C105_refused_refuted`, `C105_stale_refuted`, `C105_inflight_refuted`, `C105_lost_refuted`, `C105_ended_refuted`: see the note in MANIFEST.json.
* Theorems in: .

### C106 tview: console, polling, plots (partial)

* Modelled: `TviewMainWindow` of utils/gui/moteus_gui/tview.py: the console (`_run_user_command_line`, the regular expressions of `_run_user_command`, `_wait_user_query` with `wait_for_data`), one iteration of the polling for a device, `_dispatch_until`; `config_item_changed`, the points of `PlotItem`, the history of `Record`. Digits are those of ASCII. Times are rational. Not modelled: cancelling a script by the next line, drawing, the tree widgets, numpy.
* Proof: induction over the script with the separator `&&`; a characterization of the list of records; an invariant between iterations and polls (`2 n + 2 count = k (k + 3)`); induction over messages and over points.
* Not covered or contradicted by the code: `C106_unknown_refuted`, `C106_typo_refuted`, `C106_prefix_refuted`, `C106_plot_refuted`: see the note in MANIFEST.json.
* Theorems in: .

### C107 Saving the configuration: the flash (partial)

* Modelled: fw/stm32g4_flash.h completely (`GetInfo`, `Unlock`, `Lock`, `Erase`, `ProgramByte` with the shadow word and its flush). The flash is described after the reference manual of the STM32G4: words of 8 bytes that can be programmed only when erased (or to 0), pages of 2048 bytes, nothing while locked. Not modelled: times, a loss of power while saving, mjlib's PersistentConfig, which decides what is written (it is not in the repository).
* Proof: induction over the bytes with the invariant that everything before the current word is in the flash and the current word is in the shadow.
* Not covered or contradicted by the code: `C107_twice_refuted`, `C107_back_refuted`, `C107_pause_refuted`, `C107_again_refuted`: see the note in MANIFEST.json.
* Theorems in: .

### C108 The registers of the MA732 and MA600 encoders (partial)

* Modelled: `SetConfig` and `SetRegister` of fw/ma732.h, on any bus. The encoders are described after their data sheets: the answer to a command comes with the next word. Assumed: the window of the filter of the MA732 doubles with each step of 17 and is 64 us for 51, as the entries 64, 128 and 1024 to 16384 of the table in the code say too. Not modelled: waits, reading the angle, the wires.
* Proof: one lemma for a register of a working encoder, used three times; powers of two for the filter.
* Not covered or contradicted by the code: `C108_filter_refuted`, `C108_trim_refuted`, `C108_absent_refuted`: see the note in MANIFEST.json.
* Theorems in: .

### C109 Searching the trimming of an MA732 or MA600 (partial)

* Modelled: `Searcher`, the loop of `find_best_bct` and the settings changed by `run` of utils/measure_ma732_bct.py. Measurements are exact numbers or failures. Assumed: a number that the controller printed is read back as the same. Not modelled: the motion, the voltage, finding the source, a measurement that is not a number (no values at all).
* Proof: induction over the values of a round with its results as a parameter; in a ladder of values the best is less than a step from the bottom of a valley; an invariant for the values with failures.
* Not covered or contradicted by the code: `C109_sign_refuted`, `C109_forgotten_refuted`, `C109_failed_refuted`, `C109_left_refuted`: see the note in MANIFEST.json.
* Theorems in: .

### C110 The CAN controller of the firmware (partial)

* Modelled: `MakeTime` (with 32 bit numbers), `Send` and the formats of fw/fdcan.cc, `AsyncWrite` of fw/fdcan_micro_server.h, the callback for `can` of fw/moteus.cc with the filters it sets. The transmit queue of the STM32G4 has three places; assumed: an abort takes effect at once on a frame that is not on the bus, and not at all on one that is. Not modelled: pins, delay compensation, remote frames, overrides of the timing, bus off.
* Proof: the smallest prescaler by the least number principle, bounds of quotients; induction over the configurations and over the events of the queue.
* Not covered or contradicted by the code: `C110_rate_refuted`, `C110_short_refuted`, `C110_filter_refuted`, `C110_dropped_refuted`: see the note in MANIFEST.json.
* Theorems in: .

### C111 The tunnel between the UART of an auxiliary port and the diagnostic channel (partial)

* Modelled: The tunnel of fw/aux_port.h: `StartTunnelRead`, `HandleTunnelRead`, the part of `Poll`, what `HandleConfigUpdate` resets and starts; fw/stm32g4_dma_uart.h. The hardware is a receive queue of any size up to 64 and two DMA channels; the stream of mjlib is an environment that completes reads and writes at any time. Not modelled: errors of the line, other modes of the UART.
* Proof: an invariant over all sequences of events; the bytes that came are those sent and those that wait (equal without changes of the configuration, a sublist with).
* Not covered or contradicted by the code: `C111_update_refuted`: see the note in MANIFEST.json.
* Theorems in: .

### C112 The C++ library: socketcan, the event loop, the choice of a transport (partial)

* Modelled: `CHILD_SendCanFdFrame` and `CHILD_ConsumeData` of `Socketcan`, `Post` and `CHILD_Run` of `ThreadedEventLoop`, both factories and `TransportRegistry::make`, `ArgumentProcessHelper`, `SetPositionWaitComplete`. Assumed of Linux: a write of the size of a `canfd_frame` is a CAN-FD frame, the driver fills up with the bytes of the structure. Not modelled: failing system calls of an open transport, texts of errors, help.
* Proof: bits of the identifier; induction over what happens to the queue, over the arguments and over the replies.
* Not covered or contradicted by the code: `C112_standard_refuted`, `C112_classic_refuted`, `C112_padding_refuted`, `C112_brs_refuted`, `C112_refused_refuted`, `C112_closed_refuted`, `C112_left_refuted`: see the note in MANIFEST.json.
* Theorems in: .

### C113 Timing of the main loop, the counter of milliseconds, and waits (partial)

* Modelled: the end of the loop of `main` (fw/moteus.cc:322-340), `MillisecondTimer` (read_ms, subtract_us, wait_us and its helper), `ms_count` of `SystemInfo`. When the loop reads the timer is up to the environment; a register of any number of values stands for the timer. Not modelled: what the millisecond work consists of (see the other properties), `wait_ms` (a product by 1000 modulo 2^32), `idle_rate` and the sizes of the pool.
* Proof: an invariant (`old_time` is the start and 1000 for each poll, modulo the width) over all sequences of times; induction over the reads of a wait and strong induction over its duration.
* Not covered or contradicted by the code: `C113_pause_refuted`, `C113_read_ms_refuted`: see the note in MANIFEST.json.
* Theorems in: .

### C114 Commands to the servo on the diagnostic channel (partial)

* Modelled: `HandleCommand` of fw/board_debug.cc for these words, `ParseOptions`, `Strtof`, the defaults of `BldcServoCommandData`. Assumed: `Tokenizer` of mjlib (text up to the next space, null at the end; the text is followed by the rest of the message in memory) and what `strtof` of the C library does with white space and without a number; the numbers it reads are a parameter. Not modelled: `led`, `cfg-set-output`, the commands that stop the firmware (for `cal` and `cali` see C88, for histograms C97), the value NUL as an option letter.
* Proof: induction over the texts of the options with the memory behind each of them; case analysis over the words; the refused ones over arbitrary messages.
* Not covered or contradicted by the code: `C114_spaces_refuted`, `C114_empty_option_refuted`, `C114_within_refuted`, `C114_malformed_refuted`, `C114_ind_refuted`: see the note in MANIFEST.json.
* Theorems in: .

### C115 The serial port of the Python library (partial)

* Modelled: `read`, `write`, `drain` and `_handle_read` of `AioSerial` (lib/python/moteus/posix_aioserial.py). asyncio runs one thing at a time; a call runs until it waits. `_read_event` is represented by the calls it has woken. Not modelled: exceptions of the port, partial writes, negative sizes, the setter of `loop` (it calls itself).
* Proof: the loop of `read` in closed form, an invariant over all sequences of events.
* Not covered or contradicted by the code: `C115_cancel_refuted`, `C115_zero_refuted`: see the note in MANIFEST.json.
* Theorems in: .

### C116 Which board the firmware runs on (partial)

* Modelled: `DetectMoteusFamily`, `DetectGateDriver` (fw/moteus_hw.cc) and the check in `main` (fw/moteus.cc:166-180). What the pins are connected to, what the registers of the gate drivers read as in each attempt and the reading of the converter are up to the environment; a pin is low, high or open. Not modelled: `FindHardwarePins` (constants), setting up the converter, waits.
* Proof: induction over the attempts, with the first one that is answered; all states of the pins; arithmetic for the voltage.
* Not covered or contradicted by the code: `C116_unknown_refuted`: see the note in MANIFEST.json.
* Theorems in: .

### C117 SPI in software (partial)

* Modelled: `Stm32BitbangSpi` (fw/stm32_bitbang_spi.h). The device presents a bit at each rising edge and takes one at each falling edge; it has taken its input and still presents its bit when the master reads it. Not modelled: the chip select, the duration of waits (see C113), a mode other than 1 (the constructor stops the firmware).
* Proof: induction over the bits with the number received so far.
* Not covered or contradicted by the code: `C117_clock_refuted`: see the note in MANIFEST.json.
* Theorems in: .

### C118 The UUID of a controller (partial)

* Modelled: `Uuid` (fw/uuid.cc, fw/uuid.h). Assumed of `PersistentConfig` of mjlib: it calls the registered function after each change of the group, before anything else runs. Programming a byte can only clear bits.
* Proof: induction over the sequences of events.
* Not covered or contradicted by the code: `C118_programming_refuted`: see the note in MANIFEST.json.
* Theorems in: .

### C119 The SPI driver of the firmware (partial)

* Modelled: `finish_write`, `start_dma_transfer` and `is_dma_finished` of `Stm32Spi` (fw/stm32_spi.h). Time is counted in reads of the status register; its content and that of the data register at each time are up to the environment. A frame sends a byte if the sending channel has one left and stores one if the receiving channel has. Not modelled: the setup of the peripheral, `start_write`, `set_cs`, the FIFO, interrupts.
* Proof: induction over the timeout of a wait and over the frames.
* Not covered or contradicted by the code: `C119_timeout_refuted`, `C119_dma_refuted`: see the note in MANIFEST.json.
* Theorems in: .

## Trusted base

* The Lean 4 kernel and the axioms `propext`, `Classical.choice`, `Quot.sound` (list at the end). No axiom is added, there are no gaps in
  proofs, and no proof is done by compiled evaluation. `decide +kernel` is used for complete finite tables
  and closed witnesses only; it is checked by the kernel.
* The translation by hand from Python and C++ to Lean; each definition cites its source lines.
* The parts of the environment that are described by hypotheses: Python's `struct`, `int`, `float` and dictionaries
  as described in the modules; the flash hardware (`GoodHw`: reports its errors, changes only what it was told to
  change); what sensors and the gate driver report (arbitrary inputs).
* Assumptions about the compiler and the processor: no fused multiply-add, no flush to zero (the build sets no
  fast math option); the conversion of a float to an integer out of range saturates and maps NaN to 0 (the
  VCVT instruction; undefined in C++); a double that is too large for a float becomes an infinity.
* mjlib is not part of the repository. `mjlib::multiplex::MicroServer` is assumed to call `StartFrame`, then `Write`
  and `Read` for each register of a frame in order, then `CompleteFrame`, and to send the reply unless that returns
  `kDiscard`; at most one frame is processed per pass of the main loop (fw/fdcan_micro_server.h, fw/moteus.cc:312-335).
  The telemetry encoder of mjlib is represented by its documented format.

## Modelled code

* lib/python/moteus: multiplex.py (all but the trivial constants), moteus.py (command builders, query
  configuration, reply parsing, `Stream`, `make_diagnostic_*`, `set_position_wait_complete`), fdcanusb.py, aiostream.py, the
  framing of pythoncan.py, command.py, router.py (`cycle`), reader.py, regression.py, calibrate_encoder.py (helpers, direction and
  pole count, hall), moteus_tool.py (`FlashContext`, upload and verification, `ElfMappings`, `expand_targets`,
  serial number, `FirmwareUpgrade`, `do_calibrate` with everything it calls, the other actions except the console).
* utils: decode_can_frame.py, compensate_cogging.py, compensate_encoder.py, and tview.py (`DeviceStream`, the task of a device, the console, polling, plots).
* lib/cpp/mjbots/moteus: moteus_multiplex.h, moteus_protocol.h (commands, queries and their replies, diagnostic frames), moteus_tokenizer.h, moteus_transport.h (lines of a fdcanusb, cycles),
  the frame builders of moteus.h, identifiers and padding of moteus_transport.h.
* fw: can_bootloader.cc, fdcan_micro_server.h and fdcan.cc (identifiers, sizes, bit timing, filter, sending), moteus_controller.cc (register file),
  board_debug.cc (the calibration and its commands), bldc_servo.cc (mode logic, faults, watchdog, current control, position modes, preparation of commands, measurements, duty cycles, d/q transforms), bldc_servo_position.h, motor_position.h (settings,
  sources, sensors, timeouts, filter, output and commutation angle), pid.h, simple_pi.h, torque_model.h and the approximations of math.h, clock_manager.h, stream_writer.h,
  foc.h (the transforms in use), thermistor.h, drv8323.cc (but the single bits of the status), stm32_i2c_timing.h, cui_amt21.h, aksim2.h, ic_pz.h, ma732.h (the configuration), stm32g4_flash.h, stm32_i2c.h and its use in aux_port.h, the configuration and sampling of aux_port.h with the searches for pins of aux_mbed.h, the PWM outputs of aux_mbed.h, aux_adc.h, stm32_gpio_interrupt_in.h.

## Not modelled

* asyncio scheduling beyond the order of lock acquisition and the steps of `AioStream`, timeouts of the client, serial drivers, the operating
  system, CAN arbitration and errors.
* The CORDIC unit, calibration of the current sensors and the rest of the numeric part of the
  control modes (they are arbitrary inputs of the mode logic), ADC and timer hardware.
* The drivers of the auxiliary ports other than those named above; what they report is an input.
* Flash configuration storage, firmware_info, the bootloader entry, ESP32 / Arduino variants.
* The graphical tools other than the named parts of tview.py, the simulators and the unit tests of the repository.
* Signed zeros and NaN payloads: there is one zero and one NaN. Memory and recursion limits of Python.

## Axioms of each theorem

Collected with `#print axioms` over all theorems named in MANIFEST.json. No other axiom occurs.

* `propext`, `Classical.choice`, `Quot.sound`: all theorems that are not in the following lists (650).
* `propext`, `Quot.sound`: C06_query_increasing, C09_reply_parse_stable, C09_values_fit, C12_read_gpio, C12_reindex_query_refuted, C14_custom_query_empty, C15_cpp_id, C15_extended, C15_id_range, C15_python_id, C16_address_text, C16_command_line, C16_cpp_reads, C16_identifier_text, C16_injective, C16_line_without_flags, C16_one_token, C16_python_hex_grammar, C16_received_line, C16_round_trip, C17_bootloader_padding, C17_bootloader_refuted, C17_client_padding, C17_controller_padding, C17_too_large, C18_channel_range, C18_drain, C18_write_limit, C22_gaps_erased, C24_disjoint, C24_error_iff, C24_same_distance, C24_sections, C46_far_registers_refuted, C46_read_gpio_refuted, C46_triggers_refuted, C51_serial_chunk_invariant, C52_lost_synchronization, C52_replies_in_order, C53_buffers_partial, C53_error_buffer_refuted, C65_errors_never_counted, C78_late_refuted, C80_exclusive, C80_read_partial, C80_read_refuted, C81_settings_refuted, C81_starved_refuted, C81_written_once, C87_period_refuted, C87_square_symmetric, C89_lines, C89_write_config, C90_prefix_refuted, C90_search, C90_search_refuted, C91_change_race_refuted, C91_debug_refuted, C91_error_erased_refuted, C91_error_none_refuted, C91_first_level_refuted, C91_hall_count_refuted, C91_hall_missing_refuted, C91_hall_polarity_refuted, C91_missing_pin_refuted, C91_reset_race_partial, C91_reset_race_refuted, C92_refused_refuted, C93_any_pins_refuted, C93_early_refuted, C93_fourth_refuted, C93_torn_refuted, C94_boards, C94_negative_refuted, C97_refused_refuted, C98_encoder_refuted, C98_limits_partial, C98_limits_refuted.
* `propext`: C15_bootloader_prefix_refuted, C15_cpp_source_refuted, C15_filter_refuted, C15_python_source_refuted, C15_raw_identifier, C16_bootloader_reads, C17_tables_agree, C18_complete_in_order, C28_escape_refuted, C43_overflow_refuted, C57_table, C58_empty_write_refuted, C58_reentrant_refuted, C64_start_refuted, C65_error_refuted, C65_invalid_refuted, C65_polarity_refuted, C77_edges_ignored, C80_diagnosis_refuted, C81_free, C89_refused, C90_search_finds.
* no axiom: C19_nonblocking_depends, C19_read_zero_blocks, C21_empty_image_refuted, C21_empty_section_refuted.
