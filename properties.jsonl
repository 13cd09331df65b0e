{"id": "C01", "title": "Variable-length integers survive the wire", "statement": "A non-negative integer written with the multiplex variable-length encoding and followed by any other bytes is read back as the same integer, and the reader stops exactly at the first following byte, provided the integer is below 2^35. An integer of 2^35 or more is reported as unreadable instead of being returned truncated.", "quantifier": "every non-negative integer, every prefix and every suffix around its encoding", "why_tests_cant": "The domain is infinite and the byte count changes at every power of 128; a test only samples a few values and never all suffixes.", "anchors": ["lib/python/moteus/multiplex.py:WriteFrame.write_varuint", "lib/python/moteus/multiplex.py:read_varuint"]}
{"id": "C02", "title": "Reading a variable-length integer is safe on arbitrary bytes", "statement": "For arbitrary bytes and any starting offset the reader returns either \"no value\" or a value below 2^35, consumes at most five bytes, never looks at a byte past the end of the buffer, and the result depends only on the bytes it consumed.", "quantifier": "every byte string and every starting offset", "why_tests_cant": "Malformed and truncated frames form an unbounded set; tests try a handful.", "anchors": ["lib/python/moteus/multiplex.py:read_varuint"]}
{"id": "C03", "title": "Finite and non-finite commands are never confused in integer resolutions", "statement": "When a number is sent as int8, int16 or int32, the wire integer is the most negative value exactly when the number is NaN or infinite; a finite number, however large, is clipped to plus or minus the maximum. On reception the value decodes to NaN exactly when the most negative integer was received.", "quantifier": "every double precision value including NaN and both infinities, every integer resolution, every positive scale", "why_tests_cant": "The set of doubles is too large to enumerate and the clip boundaries depend on floating point rounding.", "anchors": ["lib/python/moteus/multiplex.py:saturate", "lib/python/moteus/multiplex.py:RegisterParser.nanify", "lib/python/moteus/multiplex.py:RegisterParser.read_mapped", "lib/python/moteus/multiplex.py:WriteFrame.write_mapped"]}
{"id": "C04", "title": "Integer scaling loses less than one step and preserves order", "statement": "For a value inside the representable range of the chosen integer resolution, encoding then decoding gives a value of the same sign (or zero) that differs by less than one scale step and exceeds the original in magnitude by at most a floating point rounding error; the encoding is monotone over all finite values and odd; values outside of the range decode to the largest representable magnitude.", "quantifier": "every finite value, every integer resolution, every positive scale", "why_tests_cant": "Order preservation and the error bound quantify over pairs of reals.", "anchors": ["lib/python/moteus/multiplex.py:saturate", "lib/python/moteus/multiplex.py:RegisterParser.read_mapped"]}
{"id": "C05", "title": "A register block that is written is parsed back register by register", "statement": "For any start register and any list of per-register resolutions and values, the bytes emitted by the combiner plus the values parse back, in order, to exactly the registers whose resolution is not \"ignore\", each with its resolution and its value bytes, and nothing else. Blocks of more than 127 consecutive registers at one resolution raise an error instead of emitting a wrong frame.", "quantifier": "every start register, every list of resolutions of any length, every list of values, any preceding and following frame content", "why_tests_cant": "The grouping depends on runs of equal resolutions; the number of resolution lists is exponential in their length.", "anchors": ["lib/python/moteus/multiplex.py:WriteCombiner.maybe_write", "lib/python/moteus/multiplex.py:RegisterParser.next", "lib/python/moteus/multiplex.py:RegisterParser.read"]}
{"id": "C06", "title": "A query asks for exactly the requested registers", "statement": "For any start register and resolution list, the query bytes the library emits, when listed with the query parser, give exactly the requested (register, resolution) pairs in increasing register order and without duplicates.", "quantifier": "every start register and every list of resolutions", "why_tests_cant": "Exponentially many resolution lists and an unbounded number of registers.", "anchors": ["lib/python/moteus/multiplex.py:WriteCombiner.maybe_write", "lib/python/moteus/multiplex.py:QueryParser.__next__", "lib/python/moteus/moteus.py:Controller._make_query_data"]}
{"id": "C07", "title": "The announced reply size is the real reply size", "statement": "The expected reply size computed while building a query equals the length of the reply frame that contains the requested registers with the same grouping.", "quantifier": "every start register, every list of resolutions, every value of the replied registers", "why_tests_cant": "It relates two different encoders over all resolution lists.", "anchors": ["lib/python/moteus/multiplex.py:WriteCombiner.maybe_write", "lib/python/moteus/moteus.py:Controller._format_query", "lib/python/moteus/moteus.py:Controller._make_command"]}
{"id": "C08", "title": "Padding a reply does not change its meaning", "statement": "Appending any number of padding bytes (0x50) to a well formed reply leaves the parsed registers unchanged, and padding before or between register blocks is ignored as well.", "quantifier": "every well formed reply and every number of padding bytes at any block boundary", "why_tests_cant": "CAN-FD frame lengths force padding at data dependent places.", "anchors": ["lib/python/moteus/multiplex.py:RegisterParser.next", "lib/python/moteus/multiplex.py:QueryParser.__next__", "lib/python/moteus/moteus.py:parse_reply", "lib/python/moteus/fdcanusb.py:Fdcanusb.write"]}
{"id": "C09", "title": "Reply parsing is total and never reads outside of the frame", "statement": "For arbitrary received bytes the reply parser terminates, every value it returns was decoded from bytes inside the frame, values are taken from strictly increasing non overlapping positions, and no overrun error is raised while following the parser protocol.", "quantifier": "every byte string", "why_tests_cant": "All byte strings up to any length cannot be enumerated, and termination is not observable by a test.", "anchors": ["lib/python/moteus/multiplex.py:RegisterParser.next", "lib/python/moteus/multiplex.py:RegisterParser.read", "lib/python/moteus/moteus.py:parse_reply"]}
{"id": "C10", "title": "parse_reply reports the last value of each register", "statement": "The mapping returned for a reply contains a key for exactly the registers present in the frame, the associated value is the one from the last occurrence, and parsing a concatenation of two well formed replies is the union of both, the later one winning.", "quantifier": "every sequence of register blocks", "why_tests_cant": "Unbounded frames and orders.", "anchors": ["lib/python/moteus/moteus.py:parse_reply", "lib/python/moteus/moteus.py:parse_register"]}
{"id": "C11", "title": "A position command reaches the controller as requested", "statement": "Decoding the frame produced for a position command gives first a mode write of \"position\" and then exactly one write for each parameter the caller supplied, at the register documented for this parameter, at the configured resolution, carrying the caller's value with the scale the controller uses for this register. Parameters left out are not written. The frame is the same for all orders of keyword arguments.", "quantifier": "every subset of parameters, every resolution setting, every value", "why_tests_cant": "There are 2^14 subsets times 5^14 resolution settings.", "anchors": ["lib/python/moteus/moteus.py:Controller.make_position", "lib/python/moteus/moteus.py:Writer", "fw/moteus_controller.cc:MoteusController::Impl::Write"]}
{"id": "C12", "title": "All other control commands reach the controller as requested", "statement": "Stop, brake, stay-within, voltage FOC, current, set-output, require-reindex, recapture, clock trim, aux PWM and GPIO commands each decode to exactly the writes the caller asked for: the mode (when there is one) first, then one write for each supplied parameter at its own register, resolution and scale.", "quantifier": "every subset of parameters, every resolution setting, every value", "why_tests_cant": "Number of combinations is exponential in the number of parameters.", "anchors": ["lib/python/moteus/moteus.py:Controller.make_stop", "lib/python/moteus/moteus.py:Controller.make_stay_within", "lib/python/moteus/moteus.py:Controller.make_vfoc", "lib/python/moteus/moteus.py:Controller.make_current", "lib/python/moteus/moteus.py:Controller.make_brake", "lib/python/moteus/moteus.py:Controller.make_set_output", "lib/python/moteus/moteus.py:Controller.make_aux_pwm", "lib/python/moteus/moteus.py:Controller.make_write_gpio", "lib/python/moteus/moteus.py:Controller.make_set_trim"]}
{"id": "C13", "title": "No parameter leaks from one command frame into the next", "statement": "After the controller has processed any history of frames, the command it acts on after receiving a library generated control frame depends only on this frame: parameters not present in it have their documented defaults, never a value from an earlier frame. A frame without a mode write does not change what the motor does.", "quantifier": "every history of frames followed by any control frame", "why_tests_cant": "The history is unbounded; stale state only shows up for particular sequences.", "anchors": ["fw/moteus_controller.cc:MoteusController::Impl::Write", "fw/moteus_controller.cc:MoteusController::Impl::StartFrame", "fw/moteus_controller.cc:MoteusController::Impl::Poll", "lib/python/moteus/moteus.py:Controller.make_position"]}
{"id": "C14", "title": "Query configuration covers what the caller asked for", "statement": "For any query resolution setting (including extra registers), the query emitted by make_query / query=True lists exactly the standard registers with a non-ignore resolution followed by the extra registers that are set, and make_custom_query lists exactly the given mapping.", "quantifier": "every query resolution setting and every mapping of extra registers to resolutions", "why_tests_cant": "Registers and resolutions combine exponentially.", "anchors": ["lib/python/moteus/moteus.py:Controller._make_query_data", "lib/python/moteus/moteus.py:Controller._format_query", "lib/python/moteus/moteus.py:Controller.make_custom_query", "lib/python/moteus/moteus.py:Controller.make_query"]}
{"id": "C15", "title": "Bus identifiers identify sender, receiver and reply flag unambiguously", "statement": "The CAN identifier of a command determines destination, source, reply request and prefix uniquely; the identifier of the controller's reply, decoded by the library, names exactly this controller as source and the requester as destination; the standard/extended frame choice agrees with the identifier range.", "quantifier": "every destination and source id, every prefix, with and without reply request", "why_tests_cant": "The property is injectivity over the full identifier space and agreement of three independent implementations.", "anchors": ["lib/python/moteus/fdcanusb.py:Fdcanusb.write", "lib/python/moteus/pythoncan.py:PythonCan", "fw/fdcan_micro_server.h:FDCanMicroServer", "fw/can_bootloader.cc:BootloaderServer::ReadFrame"]}
{"id": "C16", "title": "Hex transport is loss free", "statement": "Payload bytes rendered in hex for the serial CAN adapter and parsed back are unchanged for any payload, and the rendered text contains no separator or line ending so that it is always one token of a command line.", "quantifier": "every byte string", "why_tests_cant": "Unbounded inputs.", "anchors": ["lib/python/moteus/fdcanusb.py:_hexify", "lib/python/moteus/fdcanusb.py:_dehexify", "fw/can_bootloader.cc:uint8_hex", "fw/can_bootloader.cc:hex_to_i"]}
{"id": "C17", "title": "Frames are padded to the smallest legal CAN-FD size", "statement": "A payload of at most 64 bytes goes out with the smallest CAN-FD data length that can hold it, the original payload is a prefix of what is sent and all added bytes are the no-operation code; host and controller implementations agree on the size.", "quantifier": "every payload of at most 64 bytes and all larger payloads for the failure case", "why_tests_cant": "Agreement of several independent tables for all sizes, with all payload contents.", "anchors": ["lib/python/moteus/fdcanusb.py:Fdcanusb._round_up_dlc", "lib/python/moteus/pythoncan.py", "fw/fdcan_micro_server.h:RoundUpDlc", "fw/fdcan.cc:RoundUpDlc", "fw/can_bootloader.cc:RoundUpDlc"]}
{"id": "C18", "title": "Diagnostic writes are delivered completely and in order", "statement": "Text written to the diagnostic stream is sent as a sequence of frames each within the CAN-FD size limit, whose payloads concatenated are exactly the text written, for any sequence of write and drain calls.", "quantifier": "every sequence of writes of any size interleaved with drains", "why_tests_cant": "Unbounded histories and sizes.", "anchors": ["lib/python/moteus/moteus.py:Stream.write", "lib/python/moteus/moteus.py:Stream.drain", "lib/python/moteus/moteus.py:Controller.make_diagnostic_write"]}
{"id": "C19", "title": "Diagnostic reads do not depend on how the bytes were split into frames", "statement": "Lines, binary blobs and command responses returned by the diagnostic stream depend only on the concatenated bytes received from the controller, not on the frame boundaries or on empty polls in between; no received byte is lost or duplicated between consecutive reads.", "quantifier": "every byte stream, every split of it into frames (including empty ones), every sequence of read operations", "why_tests_cant": "Exponentially many splits and schedules.", "anchors": ["lib/python/moteus/moteus.py:Stream.read", "lib/python/moteus/moteus.py:Stream.readline", "lib/python/moteus/moteus.py:Stream.read_until_OK", "lib/python/moteus/moteus.py:Stream.read_binary_blob", "lib/python/moteus/moteus.py:parse_diagnostic_data"]}
{"id": "C20", "title": "Diagnostic data replies are accepted only when intact", "statement": "A stream reply yields its payload exactly when the frame is a server data frame of the requested channel whose announced length fits in the frame; trailing padding is removed; any other frame yields nothing and is not mistaken for data.", "quantifier": "every received frame and every channel", "why_tests_cant": "All frames.", "anchors": ["lib/python/moteus/moteus.py:parse_diagnostic_data", "lib/python/moteus/moteus.py:DiagnosticResult", "lib/cpp/mjbots/moteus/moteus_protocol.h:DiagnosticResponse"]}
{"id": "C21", "title": "Firmware upload sends every byte exactly once, in order", "statement": "For any set of program sections, the sequence of upload blocks covers every byte of every section exactly once at its own address, in order, each block holds between 1 and 32 bytes, and the upload ends after finitely many blocks.", "quantifier": "every list of sections of any size", "why_tests_cant": "Section sizes are unbounded and the block split depends on all of them.", "anchors": ["lib/python/moteus/moteus_tool.py:FlashContext", "lib/python/moteus/moteus_tool.py:FlashDataBlock"]}
{"id": "C22", "title": "After a successful upload the flash holds the image", "statement": "If the bootloader acknowledged unlock, every write, the trailing flush and lock, then the flash memory holds exactly the image bytes at the image addresses, and bytes of untouched 2048-byte sectors are unchanged.", "quantifier": "every image, every initial flash content", "why_tests_cant": "It relates host and bootloader over all images, word alignments and sector boundaries.", "anchors": ["lib/python/moteus/moteus_tool.py:Stream.write_flash", "fw/can_bootloader.cc:FlashWriter", "fw/can_bootloader.cc:BootloaderServer::WriteFlash"]}
{"id": "C23", "title": "The bootloader never alters itself or locked flash", "statement": "For any sequence of bootloader commands, however malformed, no flash word is programmed and no sector erased while flash is locked, and no byte of the bootloader region 0x0800c000-0x0800ffff is ever erased or programmed.", "quantifier": "every sequence of received command lines and every initial flash content", "why_tests_cant": "Adversarial, unbounded histories.", "anchors": ["fw/can_bootloader.cc:BootloaderServer::WriteByte", "fw/can_bootloader.cc:BootloaderServer::RunCommand", "fw/can_bootloader.cc:FlashWriter"]}
{"id": "C24", "title": "Section addresses are translated to where the bytes will be stored", "statement": "An ELF section inside one loadable segment is placed at the physical address with the same distance from the segment start; sections in no segment are reported as an error; distinct non overlapping sections of one segment stay non overlapping.", "quantifier": "every list of loadable segments and every section", "why_tests_cant": "Unbounded address arithmetic.", "anchors": ["lib/python/moteus/moteus_tool.py:ElfMappings"]}
{"id": "C25", "title": "Target lists are expanded as written", "statement": "Expanding a target specification of single ids and ranges yields each named id exactly once in increasing order and no other id; ranges are inclusive at both ends.", "quantifier": "every specification list", "why_tests_cant": "Unbounded lists of ranges.", "anchors": ["lib/python/moteus/moteus_tool.py:expand_targets"]}
{"id": "C26", "title": "Different serial numbers print differently", "statement": "The printable serial number derived from the three serial number words is different for different controllers.", "quantifier": "every pair of triples of 32 bit words", "why_tests_cant": "2^192 pairs.", "anchors": ["lib/python/moteus/moteus_tool.py:_base64_serial_number"]}
{"id": "C27", "title": "Configuration migration between firmware versions is faithful", "statement": "Migrating a saved configuration to another firmware family never touches unrelated settings, is the identity when the version does not change, and upgrading and then downgrading (or the reverse) restores every setting that exists in the starting version.", "quantifier": "every configuration and every pair of firmware versions", "why_tests_cant": "Arbitrary configurations and version pairs.", "anchors": ["lib/python/moteus/moteus_tool.py:FirmwareUpgrade.fix_config"]}
{"id": "C28", "title": "Telemetry decoding inverts telemetry encoding", "statement": "For every schema the controller can announce and every value of this schema, decoding the binary form with the parsed schema returns this value and consumes exactly the bytes of this value, so that following data is unaffected.", "quantifier": "every schema (nested objects, arrays, maps, unions, enums, optional values) and every value", "why_tests_cant": "Schemas and values are recursive and unbounded.", "anchors": ["lib/python/moteus/reader.py:Type.from_binary", "lib/python/moteus/reader.py:Stream"]}
{"id": "C29", "title": "Telemetry schema parsing is total on arbitrary bytes", "statement": "Parsing arbitrary bytes as a schema either fails with an error or consumes a finite prefix and returns a schema; it depends on that prefix only.", "quantifier": "every byte string", "why_tests_cant": "Adversarial input; recursion depth is unbounded.", "anchors": ["lib/python/moteus/reader.py:Type.from_binary"]}
{"id": "C30", "title": "A fault latches until the host stops the controller", "statement": "Once the controller is in fault it stays in fault and keeps reporting the first fault code, whatever commands arrive, until a stop command is received; after a stop the fault code is cleared.", "quantifier": "every sequence of commands, sensor readings and control cycles after a fault", "why_tests_cant": "Unbounded histories.", "anchors": ["fw/bldc_servo.cc:ISR_MaybeChangeMode", "fw/bldc_servo.cc:ISR_DoControl", "fw/bldc_servo.cc:ISR_DoFault"]}
{"id": "C31", "title": "No torque without an energised mode", "statement": "In every control cycle that ends in stopped, fault, enabling, calibrating or calibration-complete mode the output stage drives no phase with a non-zero duty cycle, and in stopped and fault mode the power stage is off.", "quantifier": "every history of commands, faults, driver states and cycles", "why_tests_cant": "Unbounded histories, interleavings of the interrupt and main loop.", "anchors": ["fw/bldc_servo.cc:ISR_DoControl", "fw/bldc_servo.cc:ISR_DoStopped", "fw/bldc_servo.cc:ISR_DoFault", "fw/bldc_servo.cc:ISR_DoCalibrating"]}
{"id": "C32", "title": "Leaving stop always goes through current sensor calibration", "statement": "In any run, between a stopped (or fault) cycle and the next energised cycle there is a complete calibration: the driver has been enabled, all calibration samples were taken and the measured offsets were within the accepted range; otherwise the controller is in fault.", "quantifier": "every run of the controller", "why_tests_cant": "Property of all paths in a state machine driven by arbitrary inputs.", "anchors": ["fw/bldc_servo.cc:ISR_MaybeChangeMode", "fw/bldc_servo.cc:PollMillisecond", "fw/bldc_servo.cc:ISR_DoCalibrating"]}
{"id": "C33", "title": "Loss of commands always triggers the watchdog", "statement": "In a position type mode, if no new command arrives, the controller leaves this mode for the timeout mode after at most timeout times control rate cycles (rounded up), unless the timeout was disabled by NaN; it then never returns to the position mode without a stop command.", "quantifier": "every timeout value, control rate and command history", "why_tests_cant": "Liveness over unbounded executions.", "anchors": ["fw/bldc_servo.cc:ISR_DoControl", "fw/bldc_servo.cc:ISR_DoPositionTimeout", "fw/bldc_servo.cc:Command"]}
{"id": "C34", "title": "Stop is always obeyed", "statement": "From every mode, including fault and timeout, a received stop command puts the controller into stopped mode in the next control cycle, and it remains stopped until another command arrives.", "quantifier": "every reachable state of the controller", "why_tests_cant": "All reachable states.", "anchors": ["fw/bldc_servo.cc:ISR_MaybeChangeMode", "fw/bldc_servo.cc:ISR_DoControl"]}
{"id": "C35", "title": "Position targets respect the configured bounds", "statement": "While bounds are enforced, the control position used by position mode lies within the configured minimum and maximum whatever targets, velocities and stop positions are commanded; the bounded velocity command becomes zero at the bound.", "quantifier": "every sequence of position commands and control cycles, every configuration of bounds", "why_tests_cant": "Unbounded trajectories.", "anchors": ["fw/bldc_servo_position.h:BldcServoPosition::UpdateCommand", "fw/bldc_servo.cc:Command"]}
{"id": "C36", "title": "Trajectories obey their velocity and acceleration limits", "statement": "With a velocity and an acceleration limit the commanded velocity never exceeds the velocity limit once it has been within it, and changes by at most acceleration times period in each control cycle.", "quantifier": "every target, limit, initial state and number of cycles", "why_tests_cant": "Continuous state, unbounded runs.", "anchors": ["fw/bldc_servo_position.h:BldcServoPosition::UpdateTrajectory", "fw/bldc_servo_position.h:BldcServoPosition::DoVelocityAndAccelLimits", "fw/bldc_servo_position.h:BldcServoPosition::DoVelocityModeLimits"]}
{"id": "C37", "title": "A completed trajectory is at its target", "statement": "When the controller reports that the trajectory is complete, the commanded position equals the target position and the commanded velocity equals the target velocity.", "quantifier": "every target, limit, initial state and number of cycles", "why_tests_cant": "Continuous state, unbounded runs.", "anchors": ["fw/bldc_servo_position.h:BldcServoPosition::UpdateTrajectory", "fw/bldc_servo_position.h:BldcServoPosition::DoVelocityAndAccelLimits"]}
{"id": "C38", "title": "Multi-turn position follows the encoder exactly", "statement": "If the encoder moves less than half a turn between samples, the accumulated multi-turn count differs from the true count by a constant and stays congruent to the raw reading modulo the counts per turn, with no drift over any number of turns.", "quantifier": "every sequence of encoder readings and every counts-per-revolution value", "why_tests_cant": "Drift only shows after unbounded runs and at wrap boundaries.", "anchors": ["fw/motor_position.h:MotorPosition::ISR_UpdateOutput", "fw/motor_position.h:MotorPosition::WrapBalancedCpr", "fw/motor_position.h:MotorPosition::WrapCpr"]}
{"id": "C39", "title": "Set-output-nearest only moves the position by whole turns", "statement": "Setting the output to the nearest position chooses, among all positions compatible with the measured output angle, the one closest to the request; the reported position changes by a whole number of output turns.", "quantifier": "every requested position and every measured angle", "why_tests_cant": "Continuous domain with rounding ties.", "anchors": ["fw/motor_position.h:MotorPosition::ISR_SetOutputPositionNearest"]}
{"id": "C40", "title": "PWM commands stay inside of the safe band", "statement": "Every duty cycle sent to the power stage lies between the minimum and maximum the sampling hardware needs, and for balanced voltage commands the three phases keep their pairwise differences when not limited.", "quantifier": "every voltage command, bus voltage and rate configuration", "why_tests_cant": "Continuous domain.", "anchors": ["fw/bldc_servo.cc:LimitPwm", "fw/bldc_servo.cc:ISR_DoBalancedVoltageControl", "fw/bldc_servo.cc:RateConfig"]}
{"id": "C41", "title": "PID windup is bounded", "statement": "For any sequence of errors and rates, the integral contribution of the PID controllers never exceeds its configured limit in magnitude and changes by at most the configured rate in each cycle; with a desired-rate limit the internal set point moves by at most this limit per cycle.", "quantifier": "every sequence of inputs, every configuration", "why_tests_cant": "Unbounded sequences.", "anchors": ["fw/pid.h:PID", "fw/simple_pi.h:SimplePI"]}
{"id": "C42", "title": "The torque model is a consistent monotone bijection", "statement": "The conversion from current to torque is odd, strictly increasing and continuous at the cutoff, and the conversion back from torque to current is its inverse.", "quantifier": "every current, every torque and every valid parameter set", "why_tests_cant": "Continuous domain.", "anchors": ["fw/torque_model.h:TorqueModel"]}
{"id": "C43", "title": "Clock trim is bounded and reversible", "statement": "Whatever sequence of trim values is written, the oscillator calibration stays in its legal range, moves at most 8 steps from the factory value, and the factory value is restored by writing zero.", "quantifier": "every sequence of writes and every factory calibration value", "why_tests_cant": "Unbounded histories.", "anchors": ["fw/clock_manager.h:ClockManager"]}
{"id": "C44", "title": "A frame addressed to another UUID has no effect", "statement": "A frame that begins with a UUID mask that does not match this controller changes nothing: no register write takes effect, no command is started, and no reply is sent; a matching mask behaves like the frame without it.", "quantifier": "every frame content, every UUID, every previous state", "why_tests_cant": "All frames and histories.", "anchors": ["fw/moteus_controller.cc:MoteusController::Impl::Write", "fw/moteus_controller.cc:MoteusController::Impl::CompleteFrame", "fw/moteus_controller.cc:MoteusController::Impl::StartFrame"]}
{"id": "C45", "title": "Commands for several buses reach the right bus exactly once", "statement": "With a transport that routes by controller id, each command is handed to exactly the transports that list its destination, in the original order, and the replies returned are exactly those of these transports.", "quantifier": "every routing table and every list of commands", "why_tests_cant": "Unbounded lists and tables.", "anchors": ["lib/python/moteus/router.py:Router.cycle"]}
{"id": "C46", "title": "The C++ and Python libraries produce the same frames", "statement": "For the same command, resolutions and values, both client libraries emit byte-identical frames and the same expected reply size.", "quantifier": "every parameter subset, resolution setting and value", "why_tests_cant": "Relates two code bases over an exponential configuration space.", "anchors": ["lib/cpp/mjbots/moteus/moteus_multiplex.h:WriteCombiner", "lib/cpp/mjbots/moteus/moteus_protocol.h:PositionMode", "lib/python/moteus/multiplex.py:WriteCombiner", "lib/python/moteus/moteus.py:Controller.make_position"]}
{"id": "C47", "title": "Client and controller use the same unit for each register", "statement": "For each register and each resolution the scale used by the client to decode equals the scale used by the controller to encode, and for commands the scale used by the client to encode equals the one used by the controller to decode.", "quantifier": "every register, every resolution, every raw value", "why_tests_cant": "A mismatch shows only for particular register/resolution combinations.", "anchors": ["lib/python/moteus/moteus.py:parse_register", "lib/python/moteus/moteus.py:Parser", "lib/python/moteus/moteus.py:Writer", "fw/moteus_controller.cc:MoteusController::Impl::Read", "fw/moteus_controller.cc:MoteusController::Impl::Write"]}
{"id": "C48", "title": "Waiting for completion never returns early", "statement": "The wait-for-completion position command returns a result only if the controller reported the trajectory complete in a reply that came after at least one earlier reply to the same command; it then returns this reply; lost replies never count as completion, and without such a reply it keeps polling.", "quantifier": "every sequence of replies including losses", "why_tests_cant": "Unbounded reply histories.", "anchors": ["lib/python/moteus/moteus.py:Controller.set_position_wait_complete"]}
{"id": "C49", "title": "Bounded text formatting never writes past its buffer", "statement": "Formatting any sequence of strings and numbers into the fixed size controller buffer writes only inside of the buffer, keeps the already written prefix intact, and reports the exact written length.", "quantifier": "every sequence of writes and every buffer size", "why_tests_cant": "Memory safety over unbounded sequences.", "anchors": ["fw/stream_writer.h"]}
{"id": "C50", "title": "Calibration angle arithmetic wraps consistently", "statement": "The 16 bit and angle wrap helpers used by encoder calibration return the unique congruent representative in their range, and unwrapping a sampled sequence whose true steps are below half a turn reproduces the true sequence up to a constant.", "quantifier": "every integer or angle, every sequence of samples", "why_tests_cant": "Unbounded sequences and wrap boundaries.", "anchors": ["lib/python/moteus/calibrate_encoder.py:_wrap_uint16", "lib/python/moteus/calibrate_encoder.py:_wrap_int16", "lib/python/moteus/calibrate_encoder.py:_unwrap"]}
{"id": "C51", "title": "Serial adapter results do not depend on how the serial data is split", "statement": "What a cycle over the serial CAN adapter returns (frames, errors, and the bytes left for the next cycle) depends only on the bytes that arrive, not on how the operating system splits them into reads.", "quantifier": "every list of commands, every byte stream, every division of it into reads", "why_tests_cant": "Serial data can be split at any byte; the number of divisions is exponential in the length.", "anchors": ["lib/python/moteus/fdcanusb.py:Fdcanusb._readline", "lib/python/moteus/fdcanusb.py:Fdcanusb._do_command"]}
{"id": "C52", "title": "Replies of a cycle are paired with their commands", "statement": "If the adapter acknowledges every command and delivers a frame for every command that requested a reply, a cycle returns one result per command in order: the frame received for that command, or nothing if it did not request one. Any line other than an acknowledge where an acknowledge is due raises.", "quantifier": "every list of commands of any length, every received identifier, data and flags, every division into reads", "why_tests_cant": "The number of commands and the contents of the replies are unbounded.", "anchors": ["lib/python/moteus/fdcanusb.py:Fdcanusb.cycle", "lib/python/moteus/fdcanusb.py:Fdcanusb._do_command"]}
{"id": "C53", "title": "Bootloader number buffers are large enough", "statement": "Every number that the bootloader prints, with its terminating zero, fits into the local buffer that it is printed to.", "quantifier": "every value that is printed", "why_tests_cant": "The failing path needs a flash error; the overflow only corrupts the stack silently.", "anchors": ["fw/can_bootloader.cc:BootloaderServer.WriteByte", "fw/can_bootloader.cc:BootloaderServer.ReadFlash", "fw/can_bootloader.cc:BootloaderServer.WriteFlash"]}
{"id": "C54", "title": "Calibration resampling is the piecewise linear function", "statement": "Resampling calibration data on a regular grid returns, at each grid point, the value of the piecewise linear function through the recorded points, never outside of the range of the two neighbouring points; the grid has the requested number of points, first and last as requested.", "quantifier": "every list of recorded points in increasing order, every grid of any size", "why_tests_cant": "Off by one errors at the ends and at equal points appear only for particular spacings of the recorded data.", "anchors": ["lib/python/moteus/calibrate_encoder.py:_linspace", "lib/python/moteus/calibrate_encoder.py:_interpolate"]}
{"id": "C55", "title": "The circular window average is the mean of the surrounding values", "statement": "The smoothed value at each index is the mean of the values in the window around it, taken cyclically, and lies between the smallest and largest value of the window.", "quantifier": "every list, every window size of at least 2 up to the length, every index", "why_tests_cant": "The window wraps around the end of the list; a wrong index only shifts the result slightly.", "anchors": ["lib/python/moteus/calibrate_encoder.py:_window_average"]}
{"id": "C56", "title": "Encoder calibration finds direction and pole count", "statement": "For a sweep in which consecutive samples are less than half a turn apart, the total encoder and phase motion is computed exactly; encoder and phase inversion are chosen from the measured and the desired direction such that phase and encoder advance together; and a motor with N pole pairs whose measured phase is within a quarter electrical turn per mechanical turn of N times the encoder motion is reported to have 2 N poles. A result without errors has encoder motion of about one turn and a phase ratio within the accepted remainder.", "quantifier": "every sweep of any length, both wiring directions, both desired directions, every pole count", "why_tests_cant": "Samples wrap around at arbitrary places and there are four combinations of direction; tests use a few recorded sweeps.", "anchors": ["lib/python/moteus/calibrate_encoder.py:calibrate"]}
{"id": "C57", "title": "Hall calibration finds offset and direction", "statement": "For a sweep over all six hall states in one direction, hall calibration returns the direction (inverted together with the phase if the opposite direction is desired) and the offset of the state at the sample closest to phase zero; the state table assigns cyclically neighbouring numbers to states that differ in one sensor. Data without exactly six states or with an invalid state is refused.", "quantifier": "every sweep of any length, starting at any state, in both directions", "why_tests_cant": "The number of samples per state and the starting state are unbounded.", "anchors": ["lib/python/moteus/calibrate_encoder.py:calibrate_hall"]}
{"id": "C58", "title": "Buffered stream writes call back once and in order", "statement": "When callers hand bytes and a callback to the double buffered stream writer, each callback is called exactly once, in the order of the writes, and only after all bytes of its write and of the writes before it were sent.", "quantifier": "every sequence of writes of any length and of completions of the underlying stream", "why_tests_cant": "Interleavings of writes and completions are unbounded; a reused buffer or callback slot shows only in particular interleavings.", "anchors": ["fw/stream_writer.h:StreamWriter"]}
{"id": "C59", "title": "Commands without a mode act at once and only as asked", "statement": "Setting the output position, requiring a reindex, recapturing, setting the clock trim, and setting GPIO or PWM outputs through the library makes the controller do exactly this, once, with the given value up to the resolution of the register, whatever was sent before, and starts no motion command.", "quantifier": "every argument, every resolution, every history of frames", "why_tests_cant": "All histories and values; narrowing of integers only shows for large values.", "anchors": ["lib/python/moteus/moteus.py:Controller.make_set_output", "lib/python/moteus/moteus.py:Controller.make_set_trim", "lib/python/moteus/moteus.py:Controller.make_write_gpio", "lib/python/moteus/moteus.py:Controller.make_aux_pwm", "fw/moteus_controller.cc:MoteusController::Impl::Write"]}
{"id": "C60", "title": "Bitfield registers report each bit as documented", "statement": "In the GPIO registers, bit i is set exactly if pin i+1 of the port is on; in the encoder validity register, bit i is set exactly if encoder i is active; the client reads the same bits for every register type.", "quantifier": "every state of pins and encoders, every register type", "why_tests_cant": "All combinations of bits and types; an unused encoder is rarely configured in tests.", "anchors": ["fw/moteus_controller.cc:MoteusController::Impl::Read", "fw/moteus_controller.cc:PinsToBits", "lib/python/moteus/moteus.py:parse_register"]}
{"id": "C61", "title": "The C++ library never writes beyond the 64 bytes of a frame", "statement": "Whatever command, parameters, resolutions and query settings are used, building a frame with the C++ library either gives a frame of at most 64 bytes or fails in a defined way; no byte behind the 64 byte frame buffer is accessed.", "quantifier": "every command builder, every subset of parameters, every resolution, every query format, with and without default query and override", "why_tests_cant": "The number of combinations of resolutions is exponential, and a write behind the buffer silently changes the neighbouring size field.", "anchors": ["lib/cpp/mjbots/moteus/moteus.h:Controller.MakeFrame", "lib/cpp/mjbots/moteus/moteus_multiplex.h:WriteCanData", "lib/cpp/mjbots/moteus/moteus_multiplex.h:WriteCombiner"]}
{"id": "C62", "title": "A C++ frame that reads registers asks for a reply and announces its size", "statement": "Every frame built by the C++ library can be decoded by the controller; if it contains a register read then it requests a reply, and the expected reply size is the size of the reply that the controller sends.", "quantifier": "every command builder, every parameter and query setting, every register content", "why_tests_cant": "Transports use the announced size to size the reply or to wait for it; a wrong value shows only on some adapters.", "anchors": ["lib/cpp/mjbots/moteus/moteus.h:Controller.MakeFrame", "lib/cpp/mjbots/moteus/moteus.h:Controller.MakeGpioRead", "lib/cpp/mjbots/moteus/moteus.h:Controller.MakeSchemaVersionQuery"]}
{"id": "C63", "title": "Absolute encoders report the documented position", "statement": "After a new sample of an absolute encoder (SPI, UART, I2C), the reported position of the source is (raw + offset) * sign modulo the counts per revolution, the source is valid, and a repeated sample does not change it.", "quantifier": "every sample, offset, sign, counts per revolution and earlier state", "why_tests_cant": "Wrapping of negative numbers only goes wrong for counts per revolution that are no powers of two in combination with a sign and an offset.", "anchors": ["fw/motor_position.h:MotorPosition::ISR_UpdateAbsoluteSource", "fw/motor_position.h:MotorPosition::ISR_UpdateSources", "docs/reference.md:Source Configuration"]}
{"id": "C64", "title": "Quadrature sources count every edge and no more", "statement": "While the shaft moves, the count of a quadrature port and the position of its source change by the number of edges with their direction, modulo the counts per revolution, with the sign of the configuration; no error is counted; missed edges are counted as errors; at the first index pulse the position becomes the configured offset and counts from there.", "quantifier": "every motion of the shaft, any number of edges between and over any number of control cycles, software and timer decoding", "why_tests_cant": "Paths are unbounded, and a wrong entry of the table or a wrong wrap appears only at some transitions and at the ends of the range.", "anchors": ["fw/aux_mbed.h:Stm32Quadrature", "fw/motor_position.h:MotorPosition::ISR_UpdateSources"]}
{"id": "C65", "title": "Hall sources follow the shaft", "statement": "For three hall sensors 120 degrees apart with any polarity, the source reports after each sample the sector of the shaft with offset and sign, and over samples at most two sectors apart it counts the motion of the shaft modulo the number of sectors of a revolution; states and changes that cannot occur are counted as errors.", "quantifier": "every sequence of positions of the shaft, every polarity, offset, sign and even number of poles", "why_tests_cant": "The count is built from differences of sectors across wraps; errors appear for some combinations of offset and sign.", "anchors": ["fw/aux_port.h:AuxPort::ISR_MaybeStartSample", "fw/motor_position.h:MotorPosition::ISR_UpdateSources"]}
{"id": "C66", "title": "A source is valid exactly while its last sample is recent", "statement": "A source becomes valid with a new sample, stays valid as long as the last sample is not older than the configured timeout, and is invalid afterwards until a new sample arrives; an error of its port makes it invalid at once.", "quantifier": "every type of source, every history of samples, timeouts and control rates, in single precision", "why_tests_cant": "Timeouts are only seen when a sensor fails; accumulated rounding of the clock needs millions of cycles.", "anchors": ["fw/motor_position.h:MotorPosition::ISR_UpdateSources"]}
{"id": "C67", "title": "The position filter follows the encoder", "statement": "Without filter the filtered position is the position of the encoder and the velocity is zero; with the filter, the velocity never exceeds an eighth of a revolution per sample, and for a shaft at constant speed the errors of position and velocity converge to zero.", "quantifier": "every encoder resolution, bandwidth, control rate and speed, any number of samples", "why_tests_cant": "Convergence is a statement about unbounded time; simulations cover single parameter sets.", "anchors": ["fw/motor_position.h:MotorPosition::ISR_UpdateSources", "fw/motor_position.h:MotorPosition::HandleConfigUpdate"]}
{"id": "C68", "title": "The electrical angle is that of the rotor, and stale angles are not used", "statement": "While the commutation encoder works, the electrical angle used for driving the motor is the calibrated angle of the current rotor position (pole pairs times position plus the interpolated calibration table), up to full turns and rounding, without a jump where the encoder wraps around; when the encoder stops answering or reports an error the angle is no longer reported as valid.", "quantifier": "every encoder resolution, even pole count, calibration table and position; every history of samples, timeouts, errors and requests", "why_tests_cant": "A jump at the wrap or a stale angle shows only at single positions or after a sensor failure; the table has 64 free numbers.", "anchors": ["fw/motor_position.h:MotorPosition::ISR_UpdateCommutation", "fw/motor_position.h:MotorPosition::ISR_Update", "fw/motor_position.h:MotorPosition::ISR_UpdateState"]}
{"id": "C69", "title": "Position settings are checked before they are used", "statement": "A configuration of the position sources is accepted only if the angle and the output computed from it are meaningful: ports, devices, signs and source numbers in range, counts of known devices, bandwidth limited by the rate of the sensor, even pole count and usable ratio for commutation; everything else is corrected or refused, the choices of the user are kept, and checking again changes nothing.", "quantifier": "every configuration of the three sources, the ports, the motor and the output", "why_tests_cant": "The space of configurations is large and the harm of a bad one shows only when the motor is driven.", "anchors": ["fw/motor_position.h:MotorPosition::HandleConfigUpdate", "fw/motor_position.h:MotorPosition::IsThetaCapable"]}
{"id": "C70", "title": "A motion ends", "statement": "A commanded motion to a fixed target with an acceleration limit comes to an end: after finitely many control cycles the trajectory is reported done, the commanded velocity is zero and the control position is at the target (up to the resolution), for every start position, start velocity and distance.", "quantifier": "every target, start, limit, control rate and measured signal; unbounded time", "why_tests_cant": "Termination is a statement about unbounded time; limit cycles of a few resolution steps appear only for particular combinations of limits and distance.", "anchors": ["fw/bldc_servo_position.h:BldcServoPosition::UpdateCommand", "fw/bldc_servo_position.h:BldcServoPosition::DoVelocityAndAccelLimits", "fw/bldc_servo_position.h:BldcServoPosition::CalculateAcceleration"]}
{"id": "C71", "title": "Slip limits hold in every cycle", "statement": "With a position slip limit, after every control cycle the control position is within the limit of the measured position; it is changed for this only when needed and no more than needed. With a velocity slip limit the same holds for the control velocity and the measured velocity, up to rounding. Position bounds take precedence: when the measured position is within the bounds both hold.", "quantifier": "every state, command, configuration and measured signal", "why_tests_cant": "The limits act when external torque overcomes the motor; both signs, both limits, bounds and rounding have to be combined.", "anchors": ["fw/bldc_servo_position.h:BldcServoPosition::UpdateCommand", "docs/reference.md:servo.max_position_slip", "docs/reference.md:servo.max_velocity_slip"]}
{"id": "C72", "title": "A calibration leaves the motor without power", "statement": "After `moteus_tool --calibrate` the motor is not driven: when it completes, the last driving command was followed by an acknowledged `d stop`. When it fails (error reply, timeout, refused measurement, Ctrl-C), a motor that was told to sweep or to turn is stopped as well.", "quantifier": "every set of options, every behaviour of the controller (replies, telemetry, errors, timeouts at any command), every point of failure", "why_tests_cant": "There are about a hundred points of failure and each needs a misbehaving controller; tests calibrate healthy motors.", "anchors": ["lib/python/moteus/moteus_tool.py:Stream.do_calibrate", "lib/python/moteus/moteus_tool.py:Stream.calibrate_encoder_mapping", "lib/python/moteus/moteus_tool.py:Stream.calibrate_kv_rating"]}
{"id": "C73", "title": "What a calibration saves", "statement": "Settings are written to the persistent storage only after every measurement succeeded, with the motor off, and nothing but a reset follows. The settings that are changed temporarily (position limits, sign of the output) are saved as they were before; with `--cal-no-update` every setting is.", "quantifier": "every set of options and every behaviour of the controller, also when saving fails", "why_tests_cant": "A wrong limit is saved silently and shows in a later session; the combinations of options and failures are not enumerable.", "anchors": ["lib/python/moteus/moteus_tool.py:Stream.do_calibrate", "lib/python/moteus/moteus_tool.py:Stream.calibrate_kv_rating", "lib/python/moteus/moteus_tool.py:Stream.calibrate_encoder_mapping"]}
{"id": "C74", "title": "Low level and deprecated calibration options", "statement": "A calibration can complete with each documented option. A deprecated option (`--cal-power`, `--cal-speed`, `--cal-kv-voltage`) behaves like the option that replaced it.", "quantifier": "every value of the options and every behaviour of the controller", "why_tests_cant": "The options are rarely used, and the failure comes late in a calibration of a real motor.", "anchors": ["lib/python/moteus/moteus_tool.py:Stream.calculate_calibration_parameters", "lib/python/moteus/moteus_tool.py:Stream.find_encoder_cal_voltage"]}
{"id": "C75", "title": "The search for the winding resistance", "statement": "If the motor behaves like a resistor, the stored resistance is that of the resistor, up to the rounding of the voltages to millivolts (exact arithmetic). The applied voltages never exceed 44 % of the supply voltage and the search ends after a number of steps that depends on the supply only.", "quantifier": "every resistance, supply voltage, power limit and telemetry", "why_tests_cant": "The number of steps depends on the motor; the error bound is an inequality over all resistances.", "anchors": ["lib/python/moteus/moteus_tool.py:Stream.calibrate_winding_resistance2", "lib/python/moteus/moteus_tool.py:Stream.find_current_and_noise"]}
{"id": "C76", "title": "The fit of a line and the measurement of Kv", "statement": "`linear_regression` returns the line with the least sum of squared deviations, and is defined exactly when two x values differ. If the speed of the motor is proportional to the applied voltage, the Kv that a calibration stores is 34.2 * s / ratio for a speed of s revolutions of the output per second and volt, with a relative error of at most 1 / (500 V) for a highest voltage of V (the voltages are sent with three decimals), in exact arithmetic. The applied voltages never exceed 22 % of the supply voltage.", "quantifier": "every list of points; every motor constant, gear ratio, supply voltage, duration of the measurements and behaviour of the controller otherwise", "why_tests_cant": "Tests check a few lines; optimality is a statement about all lines, and the error bound about all motors.", "anchors": ["lib/python/moteus/regression.py:linear_regression", "lib/python/moteus/moteus_tool.py:Stream.calibrate_kv_rating", "lib/python/moteus/moteus_tool.py:Stream.find_speed"]}
{"id": "C77", "title": "The timing of the I2C bus", "statement": "The value that `CalculateI2cTiming` returns for the timing register meets the I2C specification of the selected mode: low and high time of the clock, set-up time of the data after the configured rise time, hold time of the data; the bus is never faster than requested or than the mode allows, and not slower than requested by more than the rounding to clock periods. For a clock of up to 170 MHz a value is found for each bus frequency of at least 30 kHz.", "quantifier": "every clock of the peripheral, requested frequency and mode", "why_tests_cant": "Tests check four register values; rounding errors of the integer divisions appear for single frequencies.", "anchors": ["fw/stm32_i2c_timing.h:CalculateI2cTiming", "fw/stm32_i2c_timing.h:detail::TryTimingWithPrescaler"]}
{"id": "C78", "title": "Encoders on a serial line", "statement": "The drivers of the AMT21 and AksIM-2 send queries at least one poll interval apart and, whatever the encoder does, again at the first cycle later than two intervals. A position is reported only from a complete answer to the last query, at most one per query, and equals the one that the encoder sent, in whatever pieces it arrives; an AMT21 answer with an error in a single bit is never used.", "quantifier": "every sequence of cycles and received bytes, every clock value including wrap around, every position and error pattern", "why_tests_cant": "The driver depends on the arrival times of bytes; races between time out and answer appear rarely.", "anchors": ["fw/cui_amt21.h:CuiAmt21::ISR_Update", "fw/cui_amt21.h:CuiAmt21::ProcessQuery", "fw/aksim2.h:Aksim2::ISR_Update", "fw/aksim2.h:Aksim2::ProcessQuery"]}
{"id": "C79", "title": "The serial adapter as a stream for coroutines", "statement": "Through `AioStream` no byte of the device is lost, duplicated or reordered: the results of successive calls of `read` put together are the bytes of the device, a call with `block` returns exactly as many as asked for and another at most as many, a cancelled call takes no bytes, overlapping calls get contiguous pieces, and every call returns. The bytes given to `write` reach the device in order, each once, and `drain` returns after those given before it was called have been written.", "quantifier": "every interleaving of the event loop and the worker threads, every number of calls, cancellations at any time, every length of the pieces that the device delivers", "why_tests_cant": "The order of the steps of the threads is chosen by the operating system; a test runs one schedule.", "anchors": ["lib/python/moteus/aiostream.py:AioStream.read", "lib/python/moteus/aiostream.py:AioStream.write", "lib/python/moteus/aiostream.py:AioStream.drain", "lib/python/moteus/aiostream.py:_run_queue"]}
{"id": "C80", "title": "The iC-PZ encoder", "statement": "The main loop and the control interrupt never disturb each other on the SPI of an iC-PZ encoder: no transfer is started and no transmit buffer changed during another transfer, each reads only answers to its own requests, the interrupt sends nothing but requests for the position, each call of the main loop sends exactly its frames, and the main loop never waits forever. Reported position, error and warning are those of the last answer, the counter that of the positions fetched. The commands `ic-rd` and `ic-wr` perform or refuse every request.", "quantifier": "every interleaving of main loop, interrupt and DMA; every sequence of calls and answers of the encoder; every argument of the commands", "why_tests_cant": "The interrupt can come between any two instructions of the main loop; sizes at the edge of the buffer are not tried.", "anchors": ["fw/ic_pz.h:IcPz::ISR_StartSample", "fw/ic_pz.h:IcPz::ISR_MaybeFinishSample", "fw/ic_pz.h:IcPz::ReadRegisters", "fw/ic_pz.h:IcPz::WriteRegisters", "fw/aux_port.h:AuxPort::HandleCommand"]}
{"id": "C81", "title": "Encoders on the I2C bus", "statement": "A value that is reported for an AS5048 or AS5600 is made from the bytes of one complete transaction with that device that asked for its registers. Each poll is started at least one interval after the last one, ends, and is counted as a sample or as an error; at most one poll is in progress. The settings of an AS5600 are written before it is used, and each device is polled as configured.", "quantifier": "every sequence of control cycles, every behaviour of the hardware flags and every byte received, every configuration of three devices, every clock value including wrap around", "why_tests_cant": "The state machine of the bus is driven by flags of the hardware in single cycles; errors of the bus and several devices are not tested.", "anchors": ["fw/stm32_i2c.h:Stm32I2c::Poll", "fw/stm32_i2c.h:Stm32I2c::StartReadMemory", "fw/stm32_i2c.h:Stm32I2c::CheckRead", "fw/aux_port.h:AuxPort::ISR_I2C_Update", "fw/aux_port.h:AuxPort::ISR_PollI2c"]}
{"id": "C82", "title": "Voltage vectors and phase currents", "statement": "The phase voltages applied for d_V and q_V are those of this vector turned by the electrical angle, each phase a third of a turn after the previous one; d_A and q_A are the components of the measured phase currents in the same frame, for either order of the phases and either sign of the output. A vector within the allowed voltage reaches the motor: the limits of the duty cycles do not change the voltages between the phases. The angle given to the trigonometric unit is the electrical angle modulo a turn.", "quantifier": "every angle, vector, bus voltage, PWM rate, order of phases and sign; binary32 rounding included", "why_tests_cant": "Continuous domains; an error in one coefficient or the order of the phases shows only at certain angles.", "anchors": ["fw/foc.h:DqTransform", "fw/foc.h:InverseDqTransform", "fw/math.h:RadiansToQ31", "fw/bldc_servo.cc:ISR_CalculateCurrentState", "fw/bldc_servo.cc:ISR_CalculatePhaseVoltage", "fw/bldc_servo.cc:ISR_DoVoltageDQ", "fw/bldc_servo.cc:ISR_DoVoltageDQCommand"]}
{"id": "C83", "title": "Limits of current, power and voltage", "statement": "In current control the commanded currents never exceed the maximum current, nor the current allowed at the measured temperatures of power stage and motor, whatever is measured; no current drives the motor further past its position bounds by more than the derating distance, or past its maximum velocity by more than the derating range; the power stays within its limit. The voltage vector is never longer than the PWM can produce, is limited without changing its direction, and reaches the motor unbent; the integrals stay within the same voltage. Finite commands and measurements give finite voltages.", "quantifier": "every command, measurement (NaN included), configuration, state of the controllers, PWM rate and bus voltage; every number of cycles", "why_tests_cant": "The limits interact over several cycles through the voltage of the cycle before; a test sees one motor at one temperature.", "anchors": ["fw/bldc_servo.cc:BldcServo::Impl::ISR_DoCurrent"]}
{"id": "C84", "title": "Torque of the position modes", "statement": "In position mode and when staying within bounds the torque never exceeds the maximum of the command, in zero velocity mode and for such timeouts never the maximum configured for timeouts. It is the sum of the three terms of the controller with the scales of the command and the feedforward, limited. Zero velocity mode never accelerates the motor. Within its bounds, \"stay within\" applies the feedforward only; outside of them it controls to the violated bound. Without a valid position or with an encoder error the result is a fault. Flux braking acts only above its voltage; without a torque constant at most 5 A are used; the cogging table is read within its bounds and interpolated linearly.", "quantifier": "every command, measurement, configuration, controller state and trajectory; binary32 rounding for limits, signs, indices and set points", "why_tests_cant": "Combinations of mode, command options and state; NaN and negative values; errors show up as physical motion.", "anchors": ["fw/bldc_servo.cc:ISR_DoPositionCommon", "fw/bldc_servo.cc:ISR_DoPosition", "fw/bldc_servo.cc:ISR_DoPositionTimeout", "fw/bldc_servo.cc:ISR_DoZeroVelocity", "fw/bldc_servo.cc:ISR_DoStayWithinBounds"]}
{"id": "C85", "title": "Preparation of commands", "statement": "A timeout of 0 means the configured default. A limit of NaN means the configured default, a negative one means none; as soon as there is any limit the velocity limit is at most the configured maximum velocity, and the commanded velocity is within it and otherwise unchanged in magnitude. Without a position the velocity points to the stop position. Positions are kept up to 1/65536 turns. The velocity that the trajectory generator commands never exceeds the configured maximum, however the limits of successive commands differ. The interrupt sees every command completely or not at all, in the order of the calls, each once.", "quantifier": "every command, configuration, offset and position; binary32 rounding; every sequence of commands and cycles; every interleaving of the main loop and the interrupt", "why_tests_cant": "NaN, negative and missing values in all combinations; races of the interrupt with the main loop.", "anchors": ["fw/bldc_servo.cc:BldcServo::Impl::Command", "fw/bldc_servo_position.h:BldcServoPosition::UpdateTrajectory"]}
{"id": "C86", "title": "What the controller measures", "statement": "The exponential filters start with the first sample, stay within the range of the samples, and reach a constant input at the rate of their time constant. A phase current is the reading minus the offset times the scale, 0 at the offset; no current up to the maximum drives the converter to its end. The power limit follows the documented profile of the board over voltage and PWM rate, never above a configured limit unless overridden. The maximum velocity of the motor is never negative. The thermistor reads within its table, increases with the count, and is right up to the distance of two entries.", "quantifier": "every sequence of samples, every reading of the converters, every configuration; binary32 rounding for filters, signs and ranges, exact arithmetic for the values of currents and powers, real numbers for thermistors", "why_tests_cant": "Tests check some readings; they do not show rounding that stalls a filter, the ends of the converter or saturated readings.", "anchors": ["fw/bldc_servo.cc:ExponentialFilter", "fw/bldc_servo.cc:BldcServo::Impl::ISR_CalculateCurrentState", "fw/bldc_servo.cc:BldcServo::Impl::UpdateConfig", "fw/thermistor.h:Thermistor::Calculate", "fw/thermistor.h:Thermistor::MakeTable", "fw/drv8323.cc:max_sense_V"]}
{"id": "C87", "title": "Modes used for calibration", "statement": "The rotating voltage of the calibration is applied in the direction of the angle with the commanded length up to the limit, and the angle advances at the commanded rate. The inductance measurement applies a square wave with half periods of the commanded number of cycles, within the voltage limit, and integrates the change of the current in the direction of the voltage; a drift contributes at most half a period. The debug output contains the mark and the selected values and never overflows its buffer.", "quantifier": "every bus voltage, PWM rate, board, angle, voltage, period and sequence of currents; binary32 rounding except for the integral", "why_tests_cant": "The errors grow with time and with the number of cycles; tests run for seconds.", "anchors": ["fw/bldc_servo.cc:BldcServo::Impl::ISR_DoVoltageFOC", "fw/bldc_servo.cc:BldcServo::Impl::ISR_DoMeasureInductance", "fw/bldc_servo.cc:BldcServo::Impl::ISR_MaybeEmitDebug", "fw/board_debug.cc:BoardDebug::Impl::HandleCommand"]}
{"id": "C88", "title": "Encoder calibration on the controller", "statement": "The calibration started by \"d cal\" or \"d cali\" ends: with a message after which the servo is commanded to stop, or with a fault; past its maximum time it ends at the first tick at which no write is outstanding. After the end it gives no command and writes nothing. \"done\" is written only after the motor was seen to move by more than a turn and then by more than a turn from there. Reports come at every tenth tick at most, never while a write is outstanding, the first half before the second, each with the angle of the voltage applied when the position was read; they fit their buffer. The voltage or current commanded is the one that was asked for, at an angle that moves by one step per tick.", "quantifier": "every sequence of ticks, positions, faults, completed writes and other commands; every magnitude and speed from 1/80 electrical revolutions per second up; any rounding", "why_tests_cant": "A test sees one motor and one serial line; it does not interleave slow writes, faults and turning points, and it does not wait for a time out.", "anchors": ["fw/board_debug.cc:BoardDebug::Impl::DoCalibration", "fw/board_debug.cc:BoardDebug::Impl::HandleCommand"]}
{"id": "C89", "title": "Configuration files of moteus_tool", "statement": "Writing a file of commands sends each line that is not blank once, in order, without whitespace at its end; a refused line does not stop it, any other failure does, and the lines reported as refused are those that were refused. Restoring settings sends each as one \"conf set\", then \"conf write\". What --dump-config prints is what the controller enumerated, and restoring it sets exactly those values.", "quantifier": "every file, every sequence of replies and failures", "why_tests_cant": "Line ends, blank lines and comments in all positions; refusals and lost replies at each step.", "anchors": ["lib/python/moteus/moteus_tool.py:Stream.write_config_stream", "lib/python/moteus/moteus_tool.py:Stream.do_restore_config", "lib/python/moteus/moteus_tool.py:Stream.restore_config", "lib/python/moteus/moteus_tool.py:Runner.run_action"]}
{"id": "C90", "title": "Firmware, offset, calibration and targets of moteus_tool", "statement": "Installing a firmware writes all blocks, then reads all of them back, and only if all agree locks the flash and restarts the controller; the settings read before are converted and restored after it, and nothing happens after a failure. Setting an offset stores and applies it; the old way is used only for 0 and only if the new one is refused. A calibration is restored only if the serial number agrees; it is stored last and only if all values were accepted. Targets are processed in order; the search finds those that answer. --stop sends \"d stop\" to each target and nothing else.", "quantifier": "every reply and failure at every step, every report, every image, every list of targets", "why_tests_cant": "A failure at each of hundreds of steps; an interrupted update cannot be tested without a device to lose.", "anchors": ["lib/python/moteus/moteus_tool.py:Stream.do_flash", "lib/python/moteus/moteus_tool.py:Stream.do_set_offset", "lib/python/moteus/moteus_tool.py:Stream.do_restore_calibration", "lib/python/moteus/moteus_tool.py:Runner.find_targets", "lib/python/moteus/moteus_tool.py:Runner.run_action"]}
{"id": "C91", "title": "Configuration and sampling of the auxiliary ports", "statement": "Whatever order configurations, polls, control cycles and writes of outputs come in, the control interrupt uses no driver that does not exist and leaves no table. After a configuration that reports no error, each control cycle samples every function that the configuration asks for exactly once and nothing else, drives every digital output to the level last written and reports every digital input. An error is reported until the next configuration. After an error nothing is sampled. Each configuration increments the epoch.", "quantifier": "every board and port, every configuration, every alternate function table of the pins, every sequence of operations", "why_tests_cant": "There are about 10^20 configurations of one port; most that tests try are the working ones.", "anchors": ["fw/aux_port.h:AuxPort::HandleConfigUpdate", "fw/aux_port.h:AuxPort::ISR_MaybeFinishSample", "fw/aux_mbed.h:FindSpiOption", "fw/moteus_controller.cc:MoteusController::Impl"]}
{"id": "C92", "title": "Analog inputs and the sine/cosine sensor", "statement": "Once the configuration of an auxiliary port was taken, every analog pin of it reports exactly the reading of the converter at that pin divided by 4096, until the configuration of this port is changed again, whatever is configured on the other port. On no board do the converters run out of channels. The sine/cosine sensor uses the readings of its own two pins and reports a value of 0 to 65535 that is within 3.3 counts of the angle of these readings about the configured centre, of 65536 counts per turn. A configuration that is refused switches its analog pins off.", "quantifier": "every board, every sequence of configurations and operations of both ports, every reading, every centre; binary32 rounding for all values", "why_tests_cant": "The conversion has 2^48 inputs and the error of the approximation of the arc tangent shows at few of them; the order of configurations of both ports matters.", "anchors": ["fw/aux_adc.h:AuxADC", "fw/aux_port.h:AuxPort::ISR_EndAnalogSample", "fw/math.h:FastAtan2"]}
{"id": "C93", "title": "Interrupts of pins", "statement": "Whatever order pins are configured, released and change their level in, an edge of a pin that has an owner calls exactly the function of that owner with the argument that was registered, once, and calls no other function; an edge of a pin without owner calls nothing. An owner is refused only if all entries are taken or another pin with the same number is in use. Releasing an owner returns what it used, so that the same configuration works any number of times. Configurations of the auxiliary ports never use a missing entry.", "quantifier": "every sequence of configurations of both ports, releases and edges, with an edge possible between any two steps of a configuration", "why_tests_cant": "The interrupt has to come between two assignments; entries run out only for particular combinations of functions on both ports.", "anchors": ["fw/stm32_gpio_interrupt_in.h:Stm32GpioInterruptIn", "fw/aux_mbed.h:Stm32Quadrature", "fw/aux_mbed.h:Stm32Index"]}
{"id": "C94", "title": "PWM outputs of the auxiliary ports", "statement": "Once a configuration was taken, every pin that is a PWM output has the configured period, up to a 65536th part and one clock, and is high for the same number of clocks in every period. This number is the value last written (limited to 0 to 1) times the period, up to about a 65536th part of the period and a clock; 0 is never high, 1 is always high. This holds whatever is written to the other pins and however often the control interrupt runs. Each pin has its own value. A pin that is no longer an output is no longer driven.", "quantifier": "every board, every configuration, every clock and period, every value, every sequence of writes, control cycles and clocks; any rounding", "why_tests_cant": "An oscilloscope sees a few values and periods; counter, prescaler and rounding matter only at some of them, and what is left of a previous configuration depends on the moment.", "anchors": ["fw/aux_mbed.h:Stm32PwmTimer", "fw/aux_mbed.h:Stm32PwmTimerSet", "fw/aux_mbed.h:Stm32Pwm", "fw/aux_port.h:AuxPort::HandleConfigUpdate", "fw/aux_port.h:AuxPort::ISR_MaybeFinishSample", "fw/aux_port.h:AuxPort::WritePwmOut"]}
{"id": "C95", "title": "Open loop operation: which angle, which voltage, and without encoder", "statement": "With `servo.fixed_voltage_mode`, or with a fixed voltage or fixed current override in a position command, the controller applies the commanded current, else the commanded voltage, else the configured voltage, and uses the electrical angle of the control position; in all other position commands it uses the angle of the encoder. The synthetic angle is, up to whole turns and rounding, (sign of the output) * (control position) / (rotor to output ratio) * (poles / 2) turns. Once the control position is known and no slip limit is set, nothing that an encoder says changes the applied angles, voltages and currents. The reported position is the control position.", "quantifier": "every configuration and command, every sequence of measurements, every control position; any rounding", "why_tests_cant": "A test bench sees the motor follow slow motions near position 0; the first cycle, timeouts, faults of the encoder and positions far away are rare.", "anchors": ["fw/bldc_servo.cc:ISR_DoTimerLowerPriority", "fw/bldc_servo.cc:Command", "fw/bldc_servo.cc:ISR_DoPositionCommon", "fw/bldc_servo.cc:ISR_DoPositionTimeout", "fw/bldc_servo.cc:ISR_DoCurrent", "fw/bldc_servo.cc:ISR_DoStopped"]}
{"id": "C96", "title": "What decode_can_frame.py shows", "statement": "utils/decode_can_frame.py ends for every frame. It shows the bytes of the frame in order, and all of them unless it ends with an exception. A frame made of documented subframes is shown as what it is: type, resolution, number and registers of each subframe, each value with its register, its number, and its value in the unit of the register or the name of the mode. A frame that is not made of documented subframes does not pass unnoticed.", "quantifier": "every sequence of bytes, of any length", "why_tests_cant": "There are 2^512 frames; the tool has no tests.", "anchors": ["utils/decode_can_frame.py:main", "utils/decode_can_frame.py:Stream", "utils/decode_can_frame.py:format_value", "utils/decode_can_frame.py:format_reg", "docs/reference.md:A.1 CAN Format"]}
{"id": "C97", "title": "Histograms gathered by the controller", "statement": "From an accepted `d hstart` to `d hend` the controller takes one point per millisecond, the first one excepted, and reports for each of the 128 parts of the range of x the mean of the y values of the points in that part (of the first 65535 of them), and NaN for a part without points. The sources, the limits and the derivative are those of the options; the derivative of an angle goes the shorter way around. Options in another form are refused without effect. What was gathered before has no influence.", "quantifier": "every list of options, every sequence of readings and its length, every state before; any rounding", "why_tests_cant": "A histogram has millions of samples per bin position and encoder; rounding, saturation of counters and the moments of start and end do not show in a plot.", "anchors": ["fw/board_debug.cc:ParseHistogramChannel", "fw/board_debug.cc:HandleCommand", "fw/board_debug.cc:SampleHistogram", "fw/board_debug.cc:DoHistogram", "fw/board_debug.cc:PollMillisecond"]}
{"id": "C98", "title": "The table of compensate_cogging.py", "statement": "utils/compensate_cogging.py stores a table of 1024 entries that fit into 8 bits. At every angle the controller adds, up to 1/127 of the largest value, the mean of the currents that were measured there while turning forward and backward, interpolated between the entries. Every bin of the histograms counts in exactly one entry. The position limits that are set aside for the measurement are restored, whatever is measured.", "quantifier": "every pair of histograms of any length, every angle; the arithmetic of Python for the range of the entries", "why_tests_cant": "The tool needs a motor and has no tests; a table that is shifted by half an entry or less precise than it could be does not show.", "anchors": ["utils/compensate_cogging.py:main", "utils/compensate_cogging.py:read_data", "fw/bldc_servo.cc:ISR_DoPositionCommon", "utils/histogram.py:capture_histogram"]}
{"id": "C99", "title": "The table of compensate_encoder.py", "statement": "From the velocities measured over a turn, utils/compensate_encoder.py computes deviations of the position that change from bin to bin by the relative deviation of the velocity times the width of the bin, and that are the same after a whole turn. From the readings of a reference encoder it computes the deviation of the readings of the other encoder from the reference, up to a constant. The stored table has entries that fit into 8 bits, and at every angle the controller then subtracts the deviation up to 1/127 of the largest one, interpolated between the entries; an incremental update begins with what the controller applied before.", "quantifier": "every list of velocities with a mean other than 0, every list of pairs of readings, every stored table and scale, every angle", "why_tests_cant": "The tool needs a motor, two encoders and a flywheel; whether readings of the encoders are nearly equal, so that their difference crosses 0, depends on how they are mounted.", "anchors": ["utils/compensate_encoder.py:integrate", "utils/compensate_encoder.py:run_inertial_compensation", "utils/compensate_encoder.py:run_reference_compensation", "utils/compensate_encoder.py:wrap_half", "utils/compensate_encoder.py:wrap_zero_one", "utils/compensate_encoder.py:main", "fw/motor_position.h:MotorPosition"]}
{"id": "C100", "title": "Gate driver: settings, enabling, faults", "statement": "Each register of the gate driver is written with the configured flags and, for every current, time, voltage and gain, the smallest setting of the chip that is not below the configured one, else the largest. Every register is read back: if it differs the controller reports a fault, whatever is on the bus. When the driver is said to be enabled, ENABLE has been high for a millisecond, the registers are those of the configuration in force and the amplifiers are not being calibrated. An enabled driver reports a fault exactly when the chip does. The gate currents of revision 7 stay within the limits that protect the board. Currents are computed with the gain that the chip has.", "quantifier": "every board, configuration, reply on the bus, and sequence of enabling, disabling, configurations, polls, faults and waiting", "why_tests_cant": "The settings can only be measured at the gates; the sequence of enabling depends on the moment of interrupts and configurations.", "anchors": ["fw/drv8323.cc:StartEnable", "fw/drv8323.cc:WriteConfig", "fw/drv8323.cc:HandleConfigUpdate", "fw/drv8323.cc:PollMillisecond", "fw/drv8323.cc:fault", "fw/drv8323.cc:StartCalibrate", "fw/drv8323.cc:FinishCalibrate", "fw/drv8323.h:Config", "fw/bldc_servo.cc:UpdateConfig"]}
{"id": "C101", "title": "The C++ library: lines to and from a fdcanusb", "statement": "Frames with at most 64 bytes that the C++ transport is told to send reach the device in order, each as one line `can send`, the identifier in hexadecimal, the bytes padded with 0x50 to the next length of CAN-FD, and the flags that were asked for; whatever `write` accepts at a time. What the device sends is divided into lines at CR and LF, however it is cut by `read`. A line `rcv` with identifier, bytes and flags is delivered as this frame, with source, destination and prefix of the identifier. A line that is not of this form is ignored.", "quantifier": "every frame and list of frames, every division of the bytes in either direction, every line of any length", "why_tests_cant": "How the operating system divides the bytes and what noise on the line does cannot be enumerated by tests; the library has none for this.", "anchors": ["lib/cpp/mjbots/moteus/moteus_transport.h:CHILD_SendCanFdFrame", "lib/cpp/mjbots/moteus/moteus_transport.h:CHILD_FlushTransmit", "lib/cpp/mjbots/moteus/moteus_transport.h:CHILD_ConsumeData", "lib/cpp/mjbots/moteus/moteus_transport.h:CHILD_ProcessLine", "lib/cpp/mjbots/moteus/moteus_transport.h:RoundUpDlc", "lib/cpp/mjbots/moteus/moteus_transport.h:ParseCanData", "lib/cpp/mjbots/moteus/moteus_tokenizer.h:Tokenizer"]}
{"id": "C102", "title": "The C++ library: a cycle with a transport", "statement": "`Cycle` of a C++ transport sends all frames once and in order, at most `max_pipeline` of them before it waits. After each group it returns all frames that are received, in order, and goes on as soon as every frame got its OK and every device as many replies as were required; if answers are missing, after the documented times without a sign of life. So answers that come in time are never missed, and with nothing on the bus a cycle takes the configured time. `replies` holds frames that were received after the first frame was sent. The result of a command is the last reply of the controller it was sent to. A cycle ends in bounded time, whatever is on the bus.", "quantifier": "every list of frames, options, and sequence of reads with any contents and times", "why_tests_cant": "The order and times of replies and of the traffic of others cannot be enumerated; the library has no tests for late or foreign frames.", "anchors": ["lib/cpp/mjbots/moteus/moteus_transport.h:CHILD_Cycle", "lib/cpp/mjbots/moteus/moteus_transport.h:CHILD_CheckReplies", "lib/cpp/mjbots/moteus/moteus_transport.h:CHILD_ConsumeData", "lib/cpp/mjbots/moteus/moteus.h:FindResult"]}
{"id": "C103", "title": "The C++ library: diagnostic commands", "statement": "`DiagnosticCommand` sends the command and a line feed in pieces of at most 48 characters on channel 1. Where OK is expected, its result is what the controller says before the first line OK; where a single line is expected, the first line; however the text is divided into frames and reads, and whatever frames of other devices or of other kinds come between. A command that is not answered fails after a limited number of reads. A command that the controller refuses is distinguishable from one that succeeds. The result does not depend on what an earlier command left.", "quantifier": "every message, every list of frames for each read, either mode, every controller", "why_tests_cant": "The controller cuts its text wherever its buffer was filled at the time of a read; no tests of the library cover this class.", "anchors": ["lib/cpp/mjbots/moteus/moteus.h:DiagnosticCommand", "lib/cpp/mjbots/moteus/moteus.h:AsyncDiagnosticCommandContext", "lib/cpp/mjbots/moteus/moteus_protocol.h:DiagnosticResponse", "lib/cpp/mjbots/moteus/moteus_protocol.h:DiagnosticWrite"]}
{"id": "C104", "title": "The C++ library: replies", "statement": "`Query::Parse` of the C++ library ends for every frame, never aborts and reads only inside of the frame. It finds the registers that a controller sent, however they are divided into blocks and padded, and for any other bytes the same as the Python library. Each member of the result is the last value of its register in the documented unit, NaN or 0 without one; the other registers follow in order, in the unit in which the firmware sends them, within one LSB, for every type; integers exactly.", "quantifier": "every frame; every register of the firmware, type and value", "why_tests_cant": "The frame is arbitrary bytes from the bus; there are more than a hundred registers in four types; the tests of the library parse a few frames.", "anchors": ["lib/cpp/mjbots/moteus/moteus_multiplex.h:MultiplexParser", "lib/cpp/mjbots/moteus/moteus_protocol.h:Query::Parse", "lib/cpp/mjbots/moteus/moteus_protocol.h:Query::ParseGeneric", "fw/moteus_controller.cc:Read", "lib/python/moteus/multiplex.py:RegisterParser"]}
{"id": "C105", "title": "tview: the stream of a controller", "statement": "tview sends a controller its commands in order, in frames of at most 61 bytes. From the answers of the controller it builds the whole tree of the configuration and the list of channels, then shows every line of text, and every record of a known channel unchanged, also if its bytes look like lines; however the stream is cut into messages and whatever other messages come in between. A line is shown when it has arrived. A refused command ends the reading of its answer. Answers to earlier commands and records in flight are not taken for an answer. After bytes that are no text or a lost message, tview finds the next record.", "quantifier": "every configuration, list of channels, sequence of texts and records, every way of cutting the stream, every other message, every interleaving of writes and sends", "why_tests_cant": "The moments at which a controller is polled decide how the stream is cut; tview has no tests.", "anchors": ["utils/gui/moteus_gui/tview.py:DeviceStream", "utils/gui/moteus_gui/tview.py:Device.start", "utils/gui/moteus_gui/tview.py:Device.command", "utils/gui/moteus_gui/tview.py:Device.read_schema", "utils/gui/moteus_gui/tview.py:Device.read_data", "utils/gui/moteus_gui/tview.py:Device.run", "utils/gui/moteus_gui/tview.py:Device.do_data"]}
{"id": "C106", "title": "tview: console, polling, plots", "statement": "A line of the console of tview does its steps in order: texts go with a line feed to the first device, to the device with the given number, or to all; `:ms` waits, `?` waits for a controller to report the end of its trajectory in a record that is newer than the question. What cannot be done is reported. Every device is polled again and again, in every iteration while it answers, and one that does not answer takes few iterations. Every message goes to the device it comes from, and only messages of these devices to this host are taken. A changed setting is sent by its value. A plot shows all points of its window and at most one before.", "quantifier": "every line and list of devices, every sequence of records, of answers and of messages, every setting, every sequence of points with times that do not decrease", "why_tests_cant": "tview has no tests; the order of answers and of records depends on the devices.", "anchors": ["utils/gui/moteus_gui/tview.py:_run_user_command_line", "utils/gui/moteus_gui/tview.py:_run_user_command", "utils/gui/moteus_gui/tview.py:_wait_user_query", "utils/gui/moteus_gui/tview.py:_run_transport_iteration", "utils/gui/moteus_gui/tview.py:_dispatch_until", "utils/gui/moteus_gui/tview.py:config_item_changed", "utils/gui/moteus_gui/tview.py:PlotItem", "utils/gui/moteus_gui/tview.py:Record", "docs/reference.md"]}
{"id": "C107", "title": "Saving the configuration: the flash", "statement": "When the controller saves its configuration (unlock, erase, one `ProgramByte` per byte, lock), the flash holds exactly these bytes afterwards, whatever it held before; erased bytes that are not written read 255. Nothing outside of the two pages that `GetInfo` names changes, whatever is erased and programmed, and with the flash locked nothing changes at all. Every byte that is programmed is in the flash, in whatever order and with whatever pauses.", "quantifier": "every content of the flash before, every list of addresses and bytes, every order that does not return to an earlier word of 8 bytes (the rest is refuted)", "why_tests_cant": "The flash programs words of 8 bytes once; which bytes share a word depends on the size of every element of the configuration. The class has no tests.", "anchors": ["fw/stm32g4_flash.h:Stm32G4Flash", "fw/moteus.cc"]}
{"id": "C108", "title": "The registers of the MA732 and MA600 encoders", "statement": "After the configuration of a working MA732 or MA600 the encoder holds the configured filter, BCT and trimmed axis, whatever it held before, and no error is reported; all other registers, and the other bits of these, are as they were. A register that already holds its value is not written, so the same configuration is written at most once. Without an encoder an error is reported. The filter is the shortest that is at least as long as configured.", "quantifier": "every content of the registers, every configuration, both models, every angle that is read in between", "why_tests_cant": "The encoder survives about a thousand writes; the contents of the registers and the timing are those of the hardware. There are no tests.", "anchors": ["fw/ma732.h:SetConfig", "fw/ma732.h:SetRegister", "fw/aux_port.h:HandleConfigUpdate"]}
{"id": "C109", "title": "Searching the trimming of an MA732 or MA600", "statement": "`measure_ma732_bct.py` tries 17 values from -248 to 248 (positive: X axis) and then the interval between the neighbours of the best one in steps of 2 or 3, so at most 38 in all; if the measurement has one valley, the result is at most 2 from its bottom. The result is never worse than a value that was measured. Every BCT fits into a byte. A measurement that fails is skipped. The settings that are saved are those with which the result was measured. However the search ends, poles and limits are restored; without a result the trimming is restored too.", "quantifier": "every sequence of measurements, each of which may fail; every function with one valley; all settings", "why_tests_cant": "The measurements depend on motor, magnet and noise. The tool has no tests.", "anchors": ["utils/measure_ma732_bct.py:Searcher", "utils/measure_ma732_bct.py:find_best_bct", "utils/measure_ma732_bct.py:run"]}
{"id": "C110", "title": "The CAN controller of the firmware", "statement": "For every clock and bit rate the bit timing is found, its segments are inside of the limits of the controller and at least 1, the prescaler is the smallest possible, and the bit rate is exact up to a quantum of a bit. `can.prefix` is the upper 13 bits of the identifier of all communication: frames with another prefix are not received, and replies carry the one configured last. Frames are sent in order and at most once, there is always room for a frame, and the newest one is never dropped; none is lost. A classic query gets a classic reply if it fits, CAN-FD one in CAN-FD; the bit rate is switched if it was in the query.", "quantifier": "every clock, bit rate and limits; every sequence of configurations and frame; every interleaving of sending with what the bus does; every size and flags", "why_tests_cant": "When the bus is free depends on all other devices; the code has no tests.", "anchors": ["fw/fdcan.cc:MakeTime", "fw/fdcan.cc:Send", "fw/fdcan_micro_server.h:AsyncWrite", "fw/moteus.cc:main", "docs/reference.md"]}
{"id": "C111", "title": "The tunnel between the UART of an auxiliary port and the diagnostic channel", "statement": "With `aux?.uart.mode` 2 every byte received by the UART goes to the diagnostic channel exactly once and in order, and every byte from the diagnostic channel is sent by the UART exactly once and in order; bytes are lost only when the buffers are full or when the configuration is changed. A buffer that is being sent is not overwritten. After a change of the configuration the tunnel works.", "quantifier": "every interleaving of received bytes, DMA transfers, completed reads and writes of the stream, polls and changes of the configuration", "why_tests_cant": "Whether a change of the configuration meets a transfer is a matter of microseconds; the code needs the hardware and has no tests.", "anchors": ["fw/aux_port.h:Poll", "fw/aux_port.h:HandleTunnelRead", "fw/aux_port.h:HandleConfigUpdate", "fw/stm32g4_dma_uart.h", "docs/reference.md"]}
{"id": "C112", "title": "The C++ library: socketcan, the event loop, the choice of a transport", "statement": "The socketcan transport sends a frame with its identifier (standard up to 0x7ff), data, format and bit rate switch, filled up as the protocol says, and as the fdcanusb transport would; it receives every frame as it is. Cycles are carried out once, in order; one that is refused is not, and one that was accepted is called back. `--force-transport` and the options of a transport decide which transport is used, else the fdcanusb comes first; options of transports are removed from the arguments, all others are returned in order. `SetPositionWaitComplete` returns with the first reply, but not the very first, that reports the end of the motion.", "quantifier": "every frame and options; every interleaving of posted and executed cycles; every command line and every set of devices that can be opened; every sequence of replies", "why_tests_cant": "Tests have no bus, no second transport and no threads that compete; the space of command lines is infinite.", "anchors": ["lib/cpp/mjbots/moteus/moteus_transport.h:Socketcan", "lib/cpp/mjbots/moteus/moteus_transport.h:ThreadedEventLoop", "lib/cpp/mjbots/moteus/moteus_transport.h:TransportRegistry", "lib/cpp/mjbots/moteus/moteus.h:SetPositionWaitComplete"]}
{"id": "C113", "title": "Timing of the main loop, the counter of milliseconds, and waits", "statement": "The millisecond work of the firmware is done once for each millisecond: never early, at most once in a pass of the loop, without drift, and over the end of the range of the timer. If no pass of the loop takes more than a millisecond, the register Millisecond Counter has advanced by exactly the number of whole milliseconds since the start, modulo 2^32, and no timing fault is raised. With `servo.timing_fault` the fault is raised in a pass exactly if the millisecond work is 4 ms or more behind. A wait of d microseconds takes more than d microseconds and ends with the first read of the timer that shows d+1; `read_ms` is the time since the start.", "quantifier": "every sequence of times at which the loop passes, every width of the timer, every start; every duration of a wait and every sequence of reads of the timer", "why_tests_cant": "The timer wraps around after 71 minutes, the counter after 49 days; tests on the host have no timer, and the order of reads at the end of its range is a matter of microseconds.", "anchors": ["fw/moteus.cc:main", "fw/millisecond_timer.h:MillisecondTimer", "fw/system_info.cc:PollMillsecond", "docs/reference.md"]}
{"id": "C114", "title": "Commands to the servo on the diagnostic channel", "statement": "Each of `d stop`, `brake`, `raw`, `pwm`, `v`, `vdq`, `dq`, `pos`, `tmt`, `zero`, `within`, `ind`, `exact`, `nearest`, `req-reindex` and `recapture` tells the servo exactly what is documented: the mode, the values in their order, for motion no timeout unless one is given, and every option with its documented meaning, where the last value of a letter counts; all else has its default. A command with missing or malformed values or an unknown option is answered with an error and has no effect; one that is answered with OK has exactly one.", "quantifier": "every message; every text of numbers, every list of options, whatever lies in memory behind the message", "why_tests_cant": "The space of messages is infinite; the code needs the hardware and has no tests.", "anchors": ["fw/board_debug.cc:HandleCommand", "fw/board_debug.cc:ParseOptions", "fw/strtof.h:Strtof", "fw/bldc_servo_structs.h", "docs/reference.md"]}
{"id": "C115", "title": "The serial port of the Python library", "statement": "What arrives at the port is given to the calls of `read` in order, every byte to exactly one of them, however calls overlap and whenever bytes arrive; a call that blocks returns exactly the number of bytes asked for, another one at least one and not more. No call sleeps while there are bytes; one that goes on with enough bytes returns and leaves the rest. A cancelled call takes no bytes with it. `drain` sends what was written, once and in order.", "quantifier": "every interleaving of arriving bytes, calls of any size, wake-ups, cancellations and writes", "why_tests_cant": "Tests need a serial port; the interleavings of callbacks, overlapping reads and timeouts are unbounded.", "anchors": ["lib/python/moteus/posix_aioserial.py:AioSerial"]}
{"id": "C116", "title": "Which board the firmware runs on", "statement": "The family of the board is told from two pins: the first pulled low and the second open is family 2, both open is family 0 or 1, anything else stops the firmware. Between 0 and 1 decides where the first gate driver answers, at the chip select of family 1 first, and the firmware waits until one does. The revision of family 0 follows from the number on three pins, that of family 1 from a voltage; a board of unknown revision is refused.", "quantifier": "every state of the pins, every reading of the converter and every sequence of answers of the gate drivers", "why_tests_cant": "Tests need each board, also those that do not exist yet, and a supply that rises slowly.", "anchors": ["fw/moteus_hw.cc:DetectMoteusFamily", "fw/moteus_hw.cc:DetectGateDriver", "fw/moteus.cc:main"]}
{"id": "C117", "title": "SPI in software", "statement": "For every width up to 16 bits, a device in SPI mode 1 receives the lowest bits of the value, highest first and exactly as many as the width, and `write` returns the word that the device sends in the meantime. The clock is not faster than the frequency asked for.", "quantifier": "every value, width, word of the device and frequency", "why_tests_cant": "No test of the repository covers the driver, which needs the pins of the controller.", "anchors": ["fw/stm32_bitbang_spi.h:Stm32BitbangSpi"]}
{"id": "C118", "title": "The UUID of a controller", "statement": "A controller with a UUID in its one-time programmable memory has that one, whatever its configuration contains and however it is changed, loaded or reset; without, it has the UUID of the configuration, and zeros before there is one. It never has a UUID that is neither.", "quantifier": "every content of the memory and every sequence of changes of the configuration", "why_tests_cant": "Tests cannot program the memory twice, and the firmware is not run by the tests of the repository.", "anchors": ["fw/uuid.cc:Uuid::Update", "fw/uuid.cc:Uuid::Uuid"]}
{"id": "C119", "title": "The SPI driver of the firmware", "statement": "Waiting for the end of the transfer of a word takes a bounded number of steps, whatever the peripheral does; the result is the word that arrived; chip select is released only when the peripheral is idle or the timeout is used up. A missing answer can be told from an answer. A transfer by DMA sends the one buffer, fills the other one, touches nothing else, and is finished after as many frames.", "quantifier": "every behaviour of the status and data register, every timeout and every size of the buffers", "why_tests_cant": "No test of the repository runs the driver; peripherals that do not answer cannot be provoked on demand.", "anchors": ["fw/stm32_spi.h:Stm32Spi::finish_write", "fw/stm32_spi.h:Stm32Spi::start_dma_transfer", "fw/stm32_spi.h:Stm32Spi::is_dma_finished"]}
