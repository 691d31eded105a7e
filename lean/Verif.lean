import Verif.Ticks.Props
import Verif.HalfPeriod.Props
import Verif.HalfPeriod.Fine
import Verif.WaitQueue.Props
import Verif.Channel.Props3
import Verif.Channel.Progress
import Verif.WakerReg.Props
import Verif.WaitUntil.Props
import Verif.Arbiter.Props
import Verif.Spi.Props
import Verif.Signal.Props
import Verif.Watch.Props
import Verif.TimerList.Props
import Verif.TimerQueue.Props
import Verif.TimerQueue.Timeout
import Verif.Backends.Props
import Verif.Backends.StartProps
import Verif.TimerHw.Props
import Verif.Executor.Props
import Verif.Executor.Fair
import Verif.Executor.Esp
import Verif.Delay.Props
import Verif.Await.Props
import Verif.Srp.Props
import Verif.Srp.Blocking
import Verif.SourceMask.Props
import Verif.SourceMask.Blocking
import Verif.SourceMask.Register
import Verif.Esp32.Props
import Verif.Analysis.Props
import Verif.Analysis.TargetProps
import Verif.Analysis.AcceptProps
import Verif.Cfg.Props
import Verif.Names.Props
import Verif.Startup.Props
import Verif.Startup.Esp
import Verif.Startup.Slic
import Verif.Storage.Props
import Verif.EndToEnd.Props
import Verif.EndToEnd.Blocking
import Verif.EndToEnd.Esp
import Verif.Wakers.Props
import Verif.Systimer.Props
import Verif.Intrusive.ChannelProps
import Verif.Intrusive.ArbiterProps
import Verif.Intrusive.WaitUntilProps
import Verif.Intrusive.TimerProps
import Verif.System.Props
import Verif.EndToEnd.System
import Verif.Timed.Props
import Verif.Timed.Run
import Verif.EndToEnd.Timed
import Verif.EndToEnd.Stack
import Verif.WaitFree.Props
import Verif.Build.Props
import Verif.MaskSystem.Register
import Verif.EndToEnd.MaskSystem
import Verif.EndToEnd.MaskRegister
import Verif.EndToEnd.EspSystem
import Verif.Returned.Props
import Verif.Await.Returned
import Verif.Sync.Props
import Verif.Sync.Run
import Verif.EndToEnd.Sync
import Verif.Rcc.Props
import Verif.Signature.Props
import Verif.Signature.Kept
import Verif.Escape.Spawn
import Verif.Grammar.Props
import Verif.Front.Ui
import Verif.Front.Examples
import Verif.Front.Targets
import Verif.MaskSync.Props
import Verif.MaskSync.Run
import Verif.EspSync.Props
import Verif.EspSync.Run
import Verif.EndToEnd.MaskSync
import Verif.EndToEnd.EspSync
import Verif.MaskTimed.Props
import Verif.MaskTimed.Run
import Verif.EndToEnd.MaskTimed
import Verif.EspTimed.Props
import Verif.EspTimed.Run
import Verif.EndToEnd.EspTimed
import Verif.TimerStart.Props
import Verif.TimerStart.Systick
import Verif.TimerStart.Ack
import Verif.Race.ChannelProps
import Verif.Race.Arbiter
import Verif.Race.Simple
import Verif.Race.Timer
import Verif.Race.Executor
import Verif.Systimer.Arm
import Verif.PendCall.Props
import Verif.MakeChannel.Props
