import Verif.YEncProps
import Verif.CrcProps
import Verif.DecoderProps
import Verif.ConnProps
import Verif.PoolProps
import Verif.DownloadProps
import Verif.StateFileProps
import Verif.TextProps
import Verif.RecordProps
import Verif.FileStateProps
import Verif.ServersProps
import Verif.VolumeProps
import Verif.CalendarProps
import Verif.QuotaProps
import Verif.SpeedProps
import Verif.SchedulerProps
import Verif.QueueEditProps
import Verif.CountersProps
import Verif.SplitProps
import Verif.MergeProps
import Verif.HealthProps
import Verif.NextArticleProps
import Verif.DupeProps
import Verif.HistoryWorkProps
import Verif.CacheProps
import Verif.WriterProps
import Verif.AssembleProps
import Verif.WildMaskProps
import Verif.WildRefProps
import Verif.FeedFilterProps
import Verif.FeedHistoryProps
import Verif.FeedKeyProps
import Verif.Base64
import Verif.Base64Props
import Verif.XmlText
import Verif.XmlTextProps
import Verif.JsonText
import Verif.JsonTextProps
import Verif.UrlText
import Verif.UrlTextProps
import Verif.Tokens
import Verif.TokensProps
import Verif.WebAccess
import Verif.WebAccessProps
import Verif.WebRequestProps
import Verif.WebFrameProps
import Verif.Rpc
import Verif.RpcProps
import Verif.FileName
import Verif.FileNameProps
import Verif.ParName
import Verif.ParNameProps
import Verif.Repair
import Verif.RepairProps
import Verif.NzbParse
import Verif.NzbParseProps
import Verif.Subject
import Verif.SubjectProps
import Verif.PostJob
import Verif.PostJobLemmas
import Verif.PostJobProps
import Verif.PostQueue
import Verif.PostQueueLemmas
import Verif.PostQueueProps
import Verif.PostQueueOrder
import Verif.Files
import Verif.FilesProps
import Verif.UnpackFiles
import Verif.Join
import Verif.JoinProps
import Verif.FileExt
import Verif.FileExtProps
import Verif.Rar
import Verif.RarSafe
import Verif.RarProps
import Verif.Rar5
import Verif.RarEnds
import Verif.RarRename
import Verif.RarRenameProps
import Verif.RarRenameSets
import Verif.RarRenameRun
import Verif.RarRenameNew
import Verif.RarRenameNames
import Verif.RarRenameStale
import Verif.Scan
import Verif.ScanWatch
import Verif.ScanProps
import Verif.ScanAdd
import Verif.ScanAddProps
import Verif.ParRename
import Verif.ParRenameProps
import Verif.ParRenameNames
import Verif.UrlFetch
import Verif.UrlFetchInv
import Verif.UrlFetchProps
import Verif.HistoryRetry
import Verif.HistoryRetryLemmas
import Verif.HistoryRetryProps
import Verif.OptStore
import Verif.OptStoreProps
import Verif.OptFileProps
import Verif.OptLoadProps
import Verif.ParRenameMore
import Verif.OptOldProps
import Verif.OptValue
import Verif.OptValueProps
import Verif.CmdLine
import Verif.CmdLineProps
import Verif.TaskDef
import Verif.TaskTimeProps
import Verif.TaskDaysProps
import Verif.TaskDefProps
import Verif.Section
import Verif.SectionProps
import Verif.PpParam
import Verif.PpParamProps
import Verif.WebUrl
import Verif.WebUrlProps
import Verif.WebFetch
import Verif.WebFetchProps
import Verif.SaveConf
import Verif.SaveConfProps
import Verif.SaveConfOldProps
import Verif.AddNzb
import Verif.AddNzbProps
import Verif.MoveDone
import Verif.MoveDoneProps
import Verif.RpcParam
import Verif.RpcParamProps
import Verif.GroupEdit
import Verif.GroupEditProps
import Verif.FileSort
import Verif.FileSortProps
import Verif.MsgLog
import Verif.MsgLogProps
import Verif.NzbLog
import Verif.NzbLogProps
import Verif.QueueScript
import Verif.QueueScriptProps
import Verif.CrcDetect
import Verif.ParQuick
import Verif.ParQuickProps
import Verif.Nntp
import Verif.NntpProps
import Verif.BinReq
import Verif.BinReqProps
import Verif.BinResp
import Verif.BinRespProps
import Verif.ScriptRun
import Verif.ScriptRunProps
import Verif.DirectRename
import Verif.DirectRenameProps
import Verif.DirectUnpack
import Verif.DirectUnpackInv
import Verif.DirectUnpackProps
import Verif.DirectUnpackText
import Verif.UnpackRun
import Verif.UnpackRunProps
import Verif.UnpackRunMore
import Verif.DelTree
import Verif.DelTreeProps
import Verif.DelTreeMore
import Verif.HistEdit
import Verif.HistEditProps
import Verif.StartUp
import Verif.StartUpText
import Verif.StartUpProps
import Verif.StartUpMore
import Verif.Pause
import Verif.PauseProps
import Verif.Throttle
import Verif.ThrottleProps
import Verif.StatTime
import Verif.StatTimeProps
import Verif.Service
import Verif.ServiceProps
import Verif.Status
import Verif.StatusProps
import Verif.CmdArgs
import Verif.CmdArgsProps
import Verif.CmdIdsProps
import Verif.CmdAddProps
import Verif.Galois
import Verif.GaloisField
import Verif.ReedSolomonSpec
import Verif.GaloisProps
import Verif.ReedSolomon
import Verif.GaussLemmas
import Verif.RsWord
import Verif.RsProps
import Verif.RsRepairProps
import Verif.RepairFiles
import Verif.RepairFilesProps
import Verif.ParVerdict
import Verif.ParVerdictProps
import Verif.ParWait
import Verif.ParWaitProps
import Verif.ParThreads
import Verif.ParThreadsProps
import Verif.DupeScan
import Verif.DupeScanProps
import Verif.DeleteJob
import Verif.DeleteJobProps
import Verif.ForceDir
import Verif.ForceDirProps
import Verif.ForceDirMore
import Verif.LogRotate
import Verif.LogRotateProps
import Verif.FeedTerm
import Verif.FeedTermProps
import Verif.FeedOpts
import Verif.FeedOptsProps
import Verif.NzbPass
import Verif.NzbPassProps
import Verif.FeedRefs
import Verif.FeedRefsProps
import Verif.FeedParse
import Verif.FeedParseProps
import Verif.FeedSeason
import Verif.FeedSeasonProps
import Verif.CacheFlush
import Verif.CacheFlushProps
import Verif.FileCrc
import Verif.FileCrcProps
