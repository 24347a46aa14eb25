import Verif.Basic
import Verif.HierarchyProps
import Verif.SlotProps
import Verif.SchedProps
import Verif.ShareProps
import Verif.SlotInverse
import Verif.QuotasAssign
import Verif.CalendarProps
import Verif.ReservationProps
import Verif.AccountingProps
import Verif.WalltimeProps
import Verif.JobsFragProps
import Verif.JobsEvents
import Verif.ResourcesProps
import Verif.AlmightyProps
import Verif.CommanderProps
import Verif.ToolsProps
import Verif.PerlProps
import Verif.ApiProps
import Verif.ResourceSetProps
import Verif.QueuesProps
import Verif.JobTypesProps
import Verif.LaunchResv
import Verif.SubmissionParse
import Verif.SubmissionProps
import Verif.DataJobsProps
import Verif.DataJobsMeaning
import Verif.Estimate
import Verif.Resubmit
import Verif.Energy
import Verif.GretaRun
import Verif.Bipbip
import Verif.BipbipProps
import Verif.BipbipState
import Verif.BipbipReport
import Verif.BipbipHist
import Verif.BipbipWitness
import Verif.BipbipNodes
import Verif.KarmaSpec
import Verif.SqlText
import Verif.Admission
import Verif.AdmissionProps
import Verif.AdmissionText
import Verif.AdmissionResv
import Verif.Fifo
import Verif.FifoProps
import Verif.BasicSched
import Verif.BasicSchedProps
import Verif.Phoenix
import Verif.PhoenixProps
import Verif.Ping
import Verif.PingProps
import Verif.Cli
import Verif.CliProps
import Verif.Priority
import Verif.PriorityProps
import Verif.Proxy
import Verif.ProxyProps
import Verif.Config
import Verif.ConfigProps
import Verif.NodeSetting
import Verif.NodeSettingSpec
import Verif.NodeSettingProps
import Verif.OarQueue
import Verif.OarQueueSpec
import Verif.OarQueueProps
import Verif.OarProperty
import Verif.OarPropertySpec
import Verif.OarPropertyProps
import Verif.Script
import Verif.ScriptSpec
import Verif.ScriptProps
import Verif.Keys
import Verif.KeysSpec
import Verif.KeysProps
import Verif.Notify
import Verif.NotifySpec
import Verif.NotifyProps
import Verif.ApiSubmit
import Verif.ApiSubmitSpec
import Verif.ApiSubmitProps
import Verif.ApiProxy
import Verif.ApiProxySpec
import Verif.ApiProxyProps
import Verif.Media
import Verif.MediaSpec
import Verif.MediaProps
import Verif.ApiSession
import Verif.ApiSessionSpec
import Verif.ApiSessionProps
import Verif.Oarstat
import Verif.OarstatSpec
import Verif.OarstatProps
import Verif.QuotasFile
import Verif.QuotasFileSpec
import Verif.QuotasFileValues
import Verif.QuotasFileProps
import Verif.Oarnodes
import Verif.OarnodesSpec
import Verif.OarnodesProps
import Verif.Round
import Verif.RoundTimeline
import Verif.RoundSpec
import Verif.RoundProps
import Verif.RoundRequest
import Verif.RoundLive
import Verif.SchedTotal
import Verif.RoundTotal
import Verif.RoundPromise
import Verif.WalltimeCli
import Verif.WalltimeCliProps
import Verif.KeyRace
import Verif.KeyRaceProps
import Verif.RoundExt
import Verif.RoundExtSpec
import Verif.RoundExtProps
import Verif.RoundExtMain
import Verif.EndRound
import Verif.EndRoundSpec
import Verif.EndRoundProps
import Verif.EndRoundMain
import Verif.ApiJobs
import Verif.ApiJobsSpec
import Verif.ApiJobsProps
import Verif.Shell
import Verif.Signal
import Verif.SignalSpec
import Verif.SignalProps
import Verif.Remote
import Verif.RemoteProps
import Verif.Archive
import Verif.ArchiveSpec
import Verif.ArchiveProps
import Verif.ArchiveEffects
import Verif.SharpCli
import Verif.SharpJobs
import Verif.SharpKao
import Verif.SharpMore
import Verif.SharingSpec
import Verif.SharingProps
import Verif.TemporalSpec
import Verif.TemporalProps
import Verif.Interactive
import Verif.InteractiveProps
import Verif.ShellQuotes
import Verif.Connect
import Verif.ConnectSpec
import Verif.ConnectProps
import Verif.ConnectMain
import Verif.AcctReport
import Verif.AcctReportSpec
import Verif.AcctReportLemmas
import Verif.AcctReportGroups
import Verif.AcctReportProps
import Verif.AcctReportMain
import Verif.Tokens
import Verif.TokensProps
import Verif.Details
import Verif.DetailsSpec
import Verif.DetailsProps
import Verif.DetailsMain
import Verif.DetailsRoutes
import Verif.Database
import Verif.DatabaseSpec
import Verif.DatabaseProps
import Verif.EnergyHistory
import Verif.EnergyHistoryProps
import Verif.Pages
import Verif.PagesSpec
import Verif.PagesProps
import Verif.GretaAsk
import Verif.GretaAskSpec
import Verif.GretaAskProps
import Verif.Messages
import Verif.MessagesSpec
import Verif.MessagesProps
import Verif.MessagesMore
import Verif.Visu
import Verif.VisuProps
import Verif.WalltimeRound
import Verif.WalltimeRoundProps
import Verif.WalltimeRoundMain
import Verif.WalltimeRoundMore
import Verif.AcctCrash
import Verif.AcctCrashProps
import Verif.RemoveCmd
import Verif.RemoveCmdProps
import Verif.StatProps
import Verif.StatPropsProps
import Verif.RoundResv
import Verif.RoundNext
import Verif.Load
import Verif.LoadProps
import Verif.Desktop
import Verif.DesktopProps
