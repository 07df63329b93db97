import Verif.History.Props
import Verif.Resources.Props
import Verif.Scheduler.Props
import Verif.Alloc.Props
import Verif.Alloc.Aposmm
import Verif.Alloc.More
import Verif.Alloc.MoreLemmas
import Verif.Alloc.MorePick
import Verif.Alloc.PropsMore
import Verif.Alloc.Pausing
import Verif.Alloc.PausingLemmas
import Verif.Alloc.PausingRun
import Verif.Alloc.PropsPausing
import Verif.History.Counters
import Verif.Manager.Always
import Verif.Manager.Props
import Verif.Manager.PropsEnd
import Verif.Manager.PropsCkpt
import Verif.Manager.PropsOrders
import Verif.Manager.PropsSims
import Verif.Manager.BundledSims
import Verif.Manager.Ended
import Verif.Manager.Sims
import Verif.Manager.Given
import Verif.Manager.PropsRes
import Verif.Comms.Props
import Verif.Worker.Props
import Verif.Worker.UserInd
import Verif.Worker.Told
import Verif.Exec.Props
import Verif.Mpi.Props
import Verif.Mpi.Accept
import Verif.Mpi.PropsCmd
import Verif.Mpi.PropsCmd2
import Verif.Labels.Props
import Verif.Nodes.Props
import Verif.Locs.Props
import Verif.Arrays.Props
import Verif.Manager.Fine
import Verif.Manager.PropsKill
import Verif.Manager.PropsGens
import Verif.Manager.PropsHist
import Verif.Manager.PropsHist2
import Verif.Manager.PropsQuiet
import Verif.Manager.PropsTotals
import Verif.Manager.CleanStart
import Verif.System.Props
import Verif.System.Origin
import Verif.System.Whole
import Verif.System.Back
import Verif.System.PropsBack
import Verif.System.PropsHist
import Verif.Runner.Model
import Verif.Runner.Spec
import Verif.Runner.Lemmas
import Verif.Runner.Props
import Verif.Runner.Joint
import Verif.Runner.PropsStd
import Verif.Aposmm.Props
import Verif.Aposmm.Examples
import Verif.Aposmm.ClassProps
import Verif.Aposmm.ClassExamples
import Verif.LocalOpt.Props
import Verif.LocalOpt.Examples
import Verif.Team.Props
import Verif.Manager.StallDemo
import Verif.Manager.EndsDemo
import Verif.Manager.EndsPersDemo
import Verif.Aposmm.Thread
import Verif.Aposmm.ThreadProps
import Verif.Aposmm.ThreadTurns
import Verif.Aposmm.ThreadDemo
import Verif.System.PropsLive
import Verif.System.LiveDemo
import Verif.System.GensDemo
import Verif.System.PropsShutdown
import Verif.System.ShutdownDemo
import Verif.Gens.Model
import Verif.Gens.Spec
import Verif.Gens.Props
import Verif.Gens.PropsMore
import Verif.Gens.Worker
import Verif.Gens.Joint
import Verif.Gens.Fd
import Verif.Gens.FdProps
import Verif.Gens.FdValues
import Verif.Gens.Cal
import Verif.Gens.CalProps
import Verif.Tcp.Model
import Verif.Tcp.Props
import Verif.System.Halt
import Verif.System.Closing
import Verif.System.PropsClosing
import Verif.System.ClosingDemo
import Verif.System.Dismiss
import Verif.System.PropsDismiss
import Verif.System.DismissDemo
import Verif.Settings.Model
import Verif.Settings.Props
import Verif.Settings.PropsEns
import Verif.Platform.Model
import Verif.Platform.Props
import Verif.Persis.Model
import Verif.Persis.Props
import Verif.Persis.Draws
import Verif.Manager.Indep
import Verif.Manager.Again
import Verif.Manager.PropsAgain
import Verif.Alloc.LocalRuns
import Verif.Logs.Model
import Verif.Logs.Props
import Verif.Gest.Model
import Verif.Gest.Props
import Verif.GpCam.Model
import Verif.GpCam.Props
import Verif.Timing.Model
import Verif.Timing.Props
import Verif.CopyBack.Model
import Verif.CopyBack.Props
import Verif.Launches.Model
import Verif.Launches.Props
import Verif.GenInit.Model
import Verif.GenInit.Props
import Verif.Interfacer.Model
import Verif.Interfacer.Props
import Verif.Sampling.Model
import Verif.Sampling.Props
import Verif.LocalRun.Model
import Verif.LocalRun.Props
import Verif.MultiTask.Model
import Verif.MultiTask.Props
import Verif.FromFile.Model
import Verif.FromFile.Props
import Verif.Watch.Model
import Verif.Watch.Props
import Verif.Batch.Model
import Verif.Batch.Props
import Verif.TestFuncs.Model
import Verif.TestFuncs.Props
import Verif.Batch.Values
import Verif.Batch.PropsValues
import Verif.Saved.Model
import Verif.Saved.Props
import Verif.Live.Model
import Verif.Live.Props
import Verif.Checks.Model
import Verif.Checks.Props
import Verif.RunLines.Model
import Verif.RunLines.Props
import Verif.Sampling.Uniform
import Verif.Sampling.UniformProps
import Verif.Sampling.Requests
import Verif.Sampling.RequestsProps
import Verif.TestFuncs.More
import Verif.TestFuncs.MoreProps
import Verif.GpuEnv.Model
import Verif.GpuEnv.Props
import Verif.GpuEnv.Text
import Verif.GpuEnv.TextProps
import Verif.Gens.CalData
import Verif.Gens.CalDataProps
