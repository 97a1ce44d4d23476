import Verif.Map.Props
import Verif.Async.Props
import Verif.Dependency.Props
import Verif.Sched.Props
import Verif.Heart.Props
import Verif.Broadcast.Props
import Verif.DB.SqliteProps
import Verif.Hub.Examples
import Verif.Hub.MoreProps
import Verif.Util.RDict
import Verif.Client.Targets
import Verif.Ports.Props
import Verif.View.Flags
import Verif.View.Imap
import Verif.View.Executor
import Verif.View.SaveIds
import Verif.View.Calls
import Verif.View.CallsProps
import Verif.Engine.Abort
import Verif.Serialize.Sets
import Verif.Launcher.Stop
import Verif.Broadcast.Tree
import Verif.Mux.Props
import Verif.Sched.Violations
import Verif.Sched.LocProps
import Verif.Sched.LinkProps
import Verif.Sched.WorkProps
import Verif.Sched.SweepProps
import Verif.Sched.SweepSelf
import Verif.Sched.SweepSelfProps
import Verif.Sched.TimerProps
import Verif.Sched.Weighted
import Verif.Serialize.Frames
import Verif.Sched.FifoProps
import Verif.Sched.FailProps
import Verif.Hub.QueryProps
import Verif.Hub.CaptureFields
import Verif.Client.OutputMore
import Verif.Client.Display
import Verif.Client.DisplayProps
import Verif.Client.Stream
import Verif.Client.StreamProps
import Verif.Client.StreamMore
import Verif.Client.StreamResult
import Verif.Client.DisplayFiles
import Verif.Cluster.Model
import Verif.Cluster.Manager
import Verif.Cluster.ManagerProps
import Verif.Cluster.ManagerMore
import Verif.Cluster.Lemmas
import Verif.Cluster.Props
import Verif.Cluster.PropsMain
import Verif.Cluster.FileProps
import Verif.Cluster.Orphans
import Verif.Cluster.Stops
import Verif.Cluster.Examples
import Verif.Namespace.Model
import Verif.Namespace.Lemmas
import Verif.Namespace.Props
import Verif.Namespace.System
import Verif.Namespace.Examples
import Verif.Nanny.Model
import Verif.Nanny.Props
import Verif.Sched.Tries
import Verif.Sched.Once
import Verif.Sched.TriesProps
import Verif.LB.Model
import Verif.LB.Lemmas
import Verif.LB.Inv
import Verif.LB.Settled
import Verif.LB.Exact
import Verif.LB.Props
import Verif.LB.Require
import Verif.LB.Examples
import Verif.LB.Deaths
import Verif.LB.DeathsExamples
import Verif.Async.WaitProps
import Verif.Async.Timing
import Verif.Async.TimingProps
import Verif.Async.TimingMain
import Verif.Async.TimingSerial
import Verif.Client.FetchProps
import Verif.Client.ControlProps
import Verif.Client.EnginesProps
import Verif.Namespace.Scatter
import Verif.Namespace.ScatterExamples
import Verif.Connect.Start
import Verif.Magics.Props
import Verif.Magics.Auto
import Verif.Life.Wrong
import Verif.HubQ.Calls
import Verif.Shell.Init
import Verif.View.ImportsMain
import Verif.Cluster.AppRest
import Verif.Cluster.Commands
import Verif.Client.CloseLive
import Verif.Launcher.BatchWrong
import Verif.Async.AccessProps
import Verif.Launcher.SshProps
import Verif.Connect.Files
import Verif.Connect.FilesProps
import Verif.DB.Persist
import Verif.DB.PersistProps
import Verif.Hub.CaptureSql
import Verif.Hub.CaptureSqlProps
import Verif.Cluster.Web
import Verif.Cluster.WebProps
import Verif.Cluster.WebMore
import Verif.Cluster.WebStop
import Verif.Async.Interactive
import Verif.Async.InteractiveProps
import Verif.DB.Mongo
import Verif.DB.MongoProps
import Verif.Cluster.Classes
import Verif.Cluster.ClassesProps
import Verif.Async.SyncWrap
import Verif.Async.SyncWrapProps
import Verif.Cluster.WinHPC
import Verif.Cluster.WinHPCProps
import Verif.DB.Dates
import Verif.DB.DatesProps
import Verif.Client.QueueStatus
import Verif.Client.QueueStatusProps
import Verif.Apps.LogWatcher
import Verif.Apps.LogWatcherProps
import Verif.Client.Joblib
import Verif.Client.JoblibProps
import Verif.Async.ErrorText
import Verif.Async.ErrorTextProps
import Verif.Cluster.Context
import Verif.Cluster.ContextProps
