import Verif.Dag.Props
import Verif.CheckDag.Props
import Verif.Sched.PropsHistory
import Verif.Sched.PropsState
import Verif.Sched.PropsTotal
import Verif.Sched.PropsNotify
import Verif.Sched.PropsStatus
import Verif.Cache.PropsKey
import Verif.Cache.PropsLimits
import Verif.Cache.PropsHistory
import Verif.Store.PropsFiles
import Verif.Store.PropsIndex
import Verif.Storage.Props
import Verif.Proto.Props
import Verif.Client.PropsFile
import Verif.Client.PropsLoop
import Verif.Exec.Props
import Verif.Worker.PropsJob
import Verif.Worker.PropsProto
import Verif.Worker.PropsGroup
import Verif.Score.Props
import Verif.Score.PropsBounds
import Verif.Text.Span
import Verif.Solution.PropsCheck
import Verif.Solution.PropsExtract
import Verif.Format.PropsLoad
import Verif.Format.PropsGenGen
import Verif.Format.PropsCases
import Verif.Format.PropsStatic
import Verif.Format.PropsGenSyntax
import Verif.Format.PropsCasesSyntax
import Verif.Format.PropsNumbers
import Verif.Format.PropsWriteGen
import Verif.Build.Props
import Verif.Build.PropsScore
import Verif.Build.PropsSamples
import Verif.Whole.Spec
import Verif.Whole.Lemmas
import Verif.Whole.Props
import Verif.Whole.Demo
import Verif.Clean.Demo
import Verif.Lang.DepsProps
import Verif.Lang.PyProps
import Verif.Ui.Checks
import Verif.Ui.LiveLemmas
import Verif.Whole.Order
import Verif.Ui.Props
import Verif.Ui.PropsScores
import Verif.Ui.PropsGen
import Verif.Ui.Examples
import Verif.Whole.Shown
import Verif.Ui.Results
import Verif.Sanity.NewLine
import Verif.Sanity.Outputs
import Verif.Sanity.PropsDeps
import Verif.Sanity.PropsSamples
import Verif.Sanity.PropsGraders
import Verif.Sanity.PropsStatement
import Verif.Sanity.Hooks
import Verif.Sandbox.PropsStore
import Verif.Sandbox.Limits
import Verif.Sandbox.Command
import Verif.Sandbox.PropsCommand
import Verif.Terry.Props
import Verif.Terry.UiSample
import Verif.Terry.PropsWhole
import Verif.Terry.PropsComp
import Verif.BadCase.Props
import Verif.BadCase.Sample
import Verif.BadCase.PropsPatched
import Verif.BadCase.PatchSample
import Verif.Fuzz.Props
import Verif.Fuzz.Sample
import Verif.Booklet.PropsTex
import Verif.Booklet.PropsWarn
import Verif.Booklet.PropsDag
import Verif.Find.Model
import Verif.Find.Spec
import Verif.Find.TaskLemmas
import Verif.Find.PropsTask
import Verif.Find.SolLemmas
import Verif.Find.PropsSol
import Verif.Find.Contest
import Verif.Find.ContestSpec
import Verif.Find.ContestLemmas
import Verif.Find.PropsContest
import Verif.Find.PropsCopy
import Verif.Parse.Model
import Verif.Parse.Spec
import Verif.Parse.Sample
import Verif.Parse.PartLemmas
import Verif.Parse.PropsParts
import Verif.Parse.YamlLemmas
import Verif.Parse.PropsYaml
import Verif.Parse.TaskLemmas
import Verif.Parse.EntryLemmas
import Verif.Parse.PropsTask
import Verif.Report.Model
import Verif.Report.Spec
import Verif.Report.Exact
import Verif.Report.Lemmas
import Verif.Report.Summary
import Verif.Report.Table
import Verif.Report.Lines
import Verif.Report.Props
import Verif.Report.PropsLive
import Verif.Report.PropsCache
import Verif.Remote.PropsExe
import Verif.Remote.PropsConnect
import Verif.Remote.PropsListen
import Verif.Dot.Props
import Verif.Lang.PropsKnown
import Verif.Session.Props
import Verif.Build.PropsJunk
import Verif.Text.PropsDiag
import Verif.Terry.PropsFuzz
import Verif.Parse.PropsTerry
import Verif.Terry.PropsReport
import Verif.Sanity.PropsBits
import Verif.Sanity.PropsPdf
import Verif.Sanity.PropsAtt
import Verif.Reset.Props
import Verif.TaskInfo.Props
import Verif.Sandbox.PropsShell
import Verif.Kill.Props
