import Verif.Deque.Props
import Verif.Str.Props
import Verif.Base64.Props
import Verif.BMH.Props
import Verif.Hash.Props
import Verif.Hash.ScanProps
import Verif.PQ.Props
import Verif.BB.Props
import Verif.HashFn.Props
import Verif.Rng.Props
import Verif.Interp.Props
import Verif.Clock.Props
import Verif.Rng.DoubleProps
import Verif.Atomic.Props
import Verif.Spin.Props
import Verif.LockOrd.Props
import Verif.Cond.Props
import Verif.StrId.Props
import Verif.Stl.Props
import Verif.CStr.Props
import Verif.Tuple.Props
import Verif.Cube.Props
import Verif.Quantile.Props
import Verif.Quantile.Print
import Verif.Quantile.PrintSpec
import Verif.Quantile.PrintLemmas
import Verif.Quantile.PrintProps
import Verif.Stats.Props
import Verif.Histo.Props
import Verif.Histo.Props2
import Verif.Histo.Mode
import Verif.LogHisto.Props
import Verif.LogHisto.Props2
import Verif.Series.SeqProps
import Verif.Series.SerProps
import Verif.Series.GroupProps
import Verif.Rome.Props
import Verif.Series.RWProps
import Verif.Ema.Props
import Verif.Maker.Props
import Verif.Lsq.Props
import Verif.Matrix.Props
import Verif.Wrap.Props
import Verif.Num.Props
import Verif.Num.RadixProps
import Verif.Log.Props
import Verif.MathFn.Props
import Verif.MathFn.ErfProps
import Verif.MathFn.Newton
import Verif.MathFn.NewtonProps
import Verif.Assert.Props
import Verif.Assert.ThreadsProps
import Verif.Assert.PrintfProps
import Verif.Log.InitProps
import Verif.Log.XmlProps
import Verif.Log.Out
import Verif.Log.OutSpec
import Verif.Log.OutProps
import Verif.Log.OutTime
import Verif.Thread.TimedProps
import Verif.Thread.MutexProps
import Verif.Thread.LifeProps
import Verif.Thread.CpusProps
import Verif.Opt.Props
import Verif.Posix.Props
import Verif.LogNormal.Props
import Verif.LogNormal.SolveProps
import Verif.Expand.Model
import Verif.Expand.Spec
import Verif.Expand.Lemmas
import Verif.Expand.Props
import Verif.Proc.Model
import Verif.Proc.Spec
import Verif.Proc.Lemmas
import Verif.Proc.Segments
import Verif.Proc.Flat
import Verif.Proc.Props
import Verif.FLock.Model
import Verif.FLock.Spec
import Verif.FLock.Lemmas
import Verif.FLock.Logged
import Verif.FLock.Props
import Verif.Batch.Sched
import Verif.Batch.SchedSpec
import Verif.Batch.SchedLemmas
import Verif.Batch.SchedProps
import Verif.Batch.Shuffle
import Verif.Batch.ShuffleProps
import Verif.Batch.Files
import Verif.Batch.FilesProps
import Verif.Batch.Compress
import Verif.Batch.CompressProps
import Verif.Batch.Jobs
import Verif.Batch.JobsProps
import Verif.Batch.Tar
import Verif.Batch.TarProps
import Verif.KHosts.Model
import Verif.KHosts.Props
import Verif.Batch.Make
import Verif.Batch.MakeProps
import Verif.Batch.Checksum
import Verif.Batch.ChecksumProps
import Verif.Tics.Model
import Verif.Tics.Lemmas
import Verif.Tics.Props
import Verif.Latex.Props
import Verif.TestUtil.Props
import Verif.TestUtil.Macro
import Verif.Misc.FileTime
import Verif.Misc.Pointer
import Verif.Misc.ProcStat
import Verif.DBI.SplitProps
import Verif.DBI.TxnProps
import Verif.DBI.SchemaProps
import Verif.DBI.RowsProps
import Verif.Deptool.BuildProps
import Verif.Deptool.OldProps
import Verif.Deptool.DepsProps
import Verif.Deptool.TestsProps
import Verif.Disktool.DriveProps
import Verif.Disktool.FormatProps
import Verif.Disktool.MountProps
import Verif.Disktool.UmountProps
import Verif.Disktool.FailProps
import Verif.Disktool.Sfdisk
import Verif.Mercury.SqlProps
import Verif.Mercury.Rows
import Verif.Mercury.Bar
import Verif.Mercury.Plots
import Verif.Mercury.Cmd
import Verif.Mercury.Import
import Verif.Mercury.Dsn
import Verif.Mercury.Sync
import Verif.Mercury.Exp
import Verif.Mercury.Conn
import Verif.Hash.Diag
import Verif.Str.DoubleProps
import Verif.Str.Case
import Verif.DepVC.PublishProps
import Verif.DepVC.UnknownProps
import Verif.DepVC.MarksProps
import Verif.DepVC.RevisionProps
import Verif.DepVC.SelectProps
import Verif.DepVC.WalkProps
import Verif.DepVC.SequenceProps
import Verif.DepVC.OrderProps
import Verif.DepVC.TarProps
import Verif.DepVC.CtestProps
import Verif.DepVC.CdProps
import Verif.DepVC.Pin
import Verif.DepVC.PinProps
import Verif.Deptool.CMake
import Verif.Deptool.CMakeProps
import Verif.Dbl.Round
import Verif.Dbl.Model
import Verif.Dbl.Lemmas
import Verif.Dbl.Props
import Verif.Clock.PerThread
import Verif.Clock.PerThreadProps
import Verif.Matrix.Store
import Verif.Matrix.StoreProps
import Verif.Stats.Perl
import Verif.Stats.PerlProps
import Verif.Clock.CalProps
import Verif.Clock.ScalingProps
import Verif.Scope.Props
import Verif.Tab.Props
import Verif.Another.Props
import Verif.Serve.Props
import Verif.DepVC.RootProps
import Verif.DepVC.MtnLogProps
import Verif.DepVC.MtnOneProps
import Verif.HashFn.DispatchProps
import Verif.Deptool.GetEnvProps
import Verif.CStr.OpsProps
import Verif.DepVC.GitRepoProps
import Verif.DepVC.GitConfigProps
import Verif.Quantile.IndexProps
import Verif.Quantile.CacheProps
import Verif.DepVC.CheckoutProps
import Verif.DepVC.CheckoutRunProps
import Verif.Rng.SeedProps
import Verif.Rng.Ctor
import Verif.Rng.MicroProps
import Verif.Histo.Access
import Verif.Histo.AccessProps
import Verif.DepVC.Pull
import Verif.DepVC.PullProps
import Verif.Rng.PeriodTable
import Verif.Rng.PeriodLemmas
import Verif.Rng.PeriodProps
import Verif.Rng.Consts
import Verif.Rng.ConstProps
import Verif.Rng.Const1024
import Verif.Rng.Const2048A
import Verif.Rng.Const2048B
import Verif.Rng.Const2048
import Verif.Rng.ConstClaims
import Verif.DepVC.CmdOut
import Verif.DepVC.CmdOutProps
import Verif.DepVC.Alias
import Verif.DepVC.AliasProps
import Verif.DepVC.Remotes
import Verif.DepVC.RemotesProps
import Verif.Mercury.Split
import Verif.Mercury.SplitProps
import Verif.Mercury.Png
import Verif.Mercury.PngProps
import Verif.Posix.Reopen
import Verif.Posix.ReopenProps
import Verif.DepVC.TestStatus
import Verif.DepVC.TestStatusProps
import Verif.DepVC.GitStatus
import Verif.DepVC.GitStatusProps
import Verif.DepVC.Config
import Verif.DepVC.ConfigProps
import Verif.Mercury.Colors
import Verif.Mercury.ColorsProps
import Verif.Misc.LintelConfig
import Verif.Misc.LintelConfigProps
import Verif.Disktool.Listing
import Verif.Disktool.ListingProps
import Verif.Mercury.Output
import Verif.Mercury.OutputProps
import Verif.DepVC.MtnOp
import Verif.DepVC.MtnOpProps
import Verif.Batch.Find
import Verif.Batch.FindProps
import Verif.Batch.TarRun
import Verif.Batch.TarRunProps
import Verif.DepVC.Reviews
import Verif.DepVC.ReviewsProps
import Verif.Mercury.Select
import Verif.Mercury.SelectProps
import Verif.Batch.Workdir
import Verif.Batch.WorkdirProps
import Verif.DepVC.TryCheckout
import Verif.DepVC.TryCheckoutProps
import Verif.Dist.ManName
import Verif.Dist.ManNameProps
import Verif.Batch.Submit
import Verif.Batch.SubmitProps
import Verif.Dist.Changelogs
import Verif.Dist.ChangelogsProps
import Verif.CMakeMod.Inc
import Verif.CMakeMod.IncProps
import Verif.CMakeMod.Find
import Verif.CMakeMod.FindProps
import Verif.CMakeMod.Prog
import Verif.CMakeMod.ProgProps
import Verif.CMakeMod.BoostExtra
import Verif.CMakeMod.BoostExtraProps
import Verif.CMakeMod.DocsMacros
import Verif.CMakeMod.DocsMacrosProps
import Verif.CMakeMod.PathFix
import Verif.CMakeMod.PathFixProps
import Verif.Dist.ReleaseInfo
import Verif.Dist.ReleaseInfoProps
