import Verif.Float.Ieee
import Verif.Base.Bytes
import Verif.Multiplex.Model
import Verif.Multiplex.Spec
import Verif.Multiplex.Lemmas
import Verif.Multiplex.Combiner
import Verif.Multiplex.ReplyLemmas
import Verif.Multiplex.QueryLemmas
import Verif.Multiplex.DecodeLemmas
import Verif.Multiplex.Props
import Verif.Multiplex.ValueProps
import Verif.Float.Single
import Verif.Commands.Model
import Verif.Commands.Spec
import Verif.Commands.Lemmas
import Verif.Commands.QueryLemmas
import Verif.Commands.Props
import Verif.Commands.ReplyProps
import Verif.Can.Model
import Verif.Can.Props
import Verif.Stream.Model
import Verif.Stream.Props
import Verif.Flash.Model
import Verif.Flash.Blocks
import Verif.Flash.Word
import Verif.Flash.Writer
import Verif.Flash.Image
import Verif.Flash.Link
import Verif.Flash.Upload
import Verif.Flash.Props
import Verif.Flash.Gaps
import Verif.Telemetry.Model
import Verif.Telemetry.Total
import Verif.Telemetry.Props
import Verif.Tool.Targets
import Verif.Tool.Route
import Verif.Tool.Migrate
import Verif.Tool.MigrateProps
import Verif.Tool.MigrateTrip
import Verif.Tool.MigrateOffset
import Verif.Tool.MigrateComp
import Verif.Calib.Angles
import Verif.Calib.Interp
import Verif.Calib.Poles
import Verif.Float.Arith
import Verif.Fw.Pid
import Verif.Fw.Clock
import Verif.Fw.StreamWriter
import Verif.Fw.Torque
import Verif.Tool.MigrateValues
import Verif.Float.Near
import Verif.Fw.Trajectory
import Verif.Fw.TrajBounds
import Verif.Fw.TrajLimits
import Verif.Fw.TrajDone
import Verif.Fw.Pwm
import Verif.Fw.Servo
import Verif.Fw.ServoStop
import Verif.Fw.ServoRuns
import Verif.Fw.ServoLatch
import Verif.Fw.ServoEnergy
import Verif.Fw.ServoCalib
import Verif.Fw.Watchdog
import Verif.Fw.Registers
import Verif.Fw.RegUnits
import Verif.Fw.RegReplies
import Verif.Fw.RegTable
import Verif.Fw.RegFrames
import Verif.Fw.RegDirect
import Verif.Fw.RegBits
import Verif.Cxx.Model
import Verif.Cxx.Sim
import Verif.Cxx.Spec
import Verif.Cxx.QuerySim
import Verif.Cxx.FrameSim
import Verif.Cxx.Props
import Verif.Cxx.Refuted
import Verif.Cxx.Safety
import Verif.Float.Rel
import Verif.Fw.Source
import Verif.Fw.Position
import Verif.Fw.PositionFollow
import Verif.Fw.PositionNearest
import Verif.Fw.Sensors
import Verif.Fw.SensorCounts
import Verif.Fw.SensorHall
import Verif.Fw.SensorTimeout
import Verif.Fw.Pll
import Verif.Fw.Commutation
import Verif.Fw.CommutationAngle
import Verif.Fw.PosSettings
import Verif.Fw.TrajEndless
import Verif.Fw.TrajEnds
import Verif.Fw.TrajCompletes
import Verif.Fw.PositionVelocity
import Verif.Fw.TrajOverspeed
import Verif.Fw.TrajSlip
import Verif.Session.Prog
import Verif.Session.Tool
import Verif.Session.Only
import Verif.Session.Sends
import Verif.Session.Stops
import Verif.Session.Saves
import Verif.Session.Run
import Verif.Session.Sweep
import Verif.Session.Resist
import Verif.Session.Fit
import Verif.Fw.I2cTiming
import Verif.Fw.UartEncoder
import Verif.Aio.Model
import Verif.Aio.Read
import Verif.Aio.Ledger
import Verif.Aio.Order
import Verif.Aio.Results
import Verif.Aio.Write
import Verif.Fw.IcPz
import Verif.Fw.I2cEncoders
import Verif.Float.Approx
import Verif.Fw.Foc
import Verif.Fw.FocPwm
import Verif.Fw.FocAngle
import Verif.Fw.CurrentLimits
import Verif.Fw.CurrentControl
import Verif.Fw.PositionModes
import Verif.Fw.StayWithin
import Verif.Fw.PositionExact
import Verif.Fw.TrajVary
import Verif.Fw.CommandPrep
import Verif.Fw.CommandBuffer
import Verif.Fw.Measure
import Verif.Fw.TestModes
import Verif.Fw.CalSequence
import Verif.Session.Actions
import Verif.Session.ActionsProps
import Verif.Fw.AuxPort
import Verif.Fw.AuxPortLemmas
import Verif.Fw.AuxPortProps
import Verif.Fw.AuxPortOut
import Verif.Float.Poly
import Verif.Fw.FastAtan
import Verif.Fw.SineCosine
import Verif.Fw.AuxAdc
import Verif.Fw.AuxAnalog
import Verif.Fw.PinIrq
import Verif.Fw.PinIrqProps
import Verif.Fw.AuxPwm
import Verif.Fw.AuxPwmProps
import Verif.Fw.OpenLoop
import Verif.Tool.CanDecode
import Verif.Fw.Histogram
import Verif.Tool.Cogging
import Verif.Tool.EncoderComp
import Verif.Fw.GateDriver
import Verif.Cxx.SerialLine
import Verif.Cxx.Cycle
import Verif.Cxx.Diag
import Verif.Cxx.Replies
import Verif.Tool.Tview
import Verif.Tool.TviewConsole
import Verif.Fw.ConfigFlash
import Verif.Fw.Ma732
import Verif.Tool.Bct
import Verif.Fw.CanServer
import Verif.Tool.TviewOld
import Verif.Fw.UartTunnel
import Verif.Cxx.Socket
import Verif.Fw.MainLoop
import Verif.Fw.DiagCommands
import Verif.Aio.Serial
import Verif.Fw.Board
import Verif.Fw.Uuid
import Verif.Fw.Spi
