import Verif.Audit
import Verif.Lemmas.Acl
import Verif.Lemmas.Asfd
import Verif.Lemmas.Attribs
import Verif.Lemmas.BackupList
import Verif.Lemmas.BackupNumber
import Verif.Lemmas.Base64
import Verif.Lemmas.Bedup
import Verif.Lemmas.BedupConc
import Verif.Lemmas.BedupConcInv
import Verif.Lemmas.BedupConcRel
import Verif.Lemmas.BedupRun
import Verif.Lemmas.CaServer
import Verif.Lemmas.Cache
import Verif.Lemmas.CacheOrder
import Verif.Lemmas.ClientMain
import Verif.Lemmas.CommandLine
import Verif.Lemmas.ConfCheck
import Verif.Lemmas.ConfFiles
import Verif.Lemmas.Confine
import Verif.Lemmas.ConfineSteps
import Verif.Lemmas.Confs
import Verif.Lemmas.ConfsFinish
import Verif.Lemmas.DataPath
import Verif.Lemmas.Decimal
import Verif.Lemmas.Deletions
import Verif.Lemmas.Dpth
import Verif.Lemmas.EndToEnd
import Verif.Lemmas.Ending
import Verif.Lemmas.Exchange
import Verif.Lemmas.ExtraMeta
import Verif.Lemmas.ExtraMetaFile
import Verif.Lemmas.FilesEqual
import Verif.Lemmas.FindLogic
import Verif.Lemmas.FindLogicText
import Verif.Lemmas.ForkChild
import Verif.Lemmas.Fzp
import Verif.Lemmas.HardCopy
import Verif.Lemmas.History
import Verif.Lemmas.Human
import Verif.Lemmas.Iobuf
import Verif.Lemmas.Jiggle
import Verif.Lemmas.JsonInput
import Verif.Lemmas.JsonMerge
import Verif.Lemmas.JsonShown
import Verif.Lemmas.Links
import Verif.Lemmas.ListClient
import Verif.Lemmas.ListExtra
import Verif.Lemmas.Listening
import Verif.Lemmas.Logging
import Verif.Lemmas.MainLoop
import Verif.Lemmas.Merge
import Verif.Lemmas.Monitor
import Verif.Lemmas.MonitorAnswer
import Verif.Lemmas.Negotiate
import Verif.Lemmas.PathCmp
import Verif.Lemmas.Phase1Calls
import Verif.Lemmas.Phase1Depth
import Verif.Lemmas.Phase1List
import Verif.Lemmas.Phase1Order
import Verif.Lemmas.Phase1Right
import Verif.Lemmas.Phase1Run
import Verif.Lemmas.Phase1Told
import Verif.Lemmas.Phase1Walk
import Verif.Lemmas.Phase2
import Verif.Lemmas.Printable
import Verif.Lemmas.Privs
import Verif.Lemmas.Relay
import Verif.Lemmas.Remove
import Verif.Lemmas.RemoveAside
import Verif.Lemmas.RestoreAttr
import Verif.Lemmas.RestoreFlow
import Verif.Lemmas.RestoreFlowInv
import Verif.Lemmas.RestoreFlowRun
import Verif.Lemmas.RestoreTo
import Verif.Lemmas.Resume
import Verif.Lemmas.ResumeCntr
import Verif.Lemmas.ResumeFiles
import Verif.Lemmas.Retention
import Verif.Lemmas.RsBuf
import Verif.Lemmas.RunScript
import Verif.Lemmas.Sbuf
import Verif.Lemmas.Scan
import Verif.Lemmas.Sdirs
import Verif.Lemmas.SendConf
import Verif.Lemmas.Sender
import Verif.Lemmas.Session
import Verif.Lemmas.Sessions
import Verif.Lemmas.StatsFile
import Verif.Lemmas.StoredForm
import Verif.Lemmas.TimedOps
import Verif.Lemmas.Tls
import Verif.Lemmas.Transfer
import Verif.Lemmas.X509Env
import Verif.Lemmas.YajlDef
import Verif.Lemmas.YajlGen
import Verif.Lemmas.YajlInput
import Verif.Lemmas.YajlLex
import Verif.Lemmas.YajlLines
import Verif.Lemmas.YajlMsg
import Verif.Lemmas.YajlRead
import Verif.Lemmas.YajlText
import Verif.Model.Acl
import Verif.Model.Admission
import Verif.Model.Asfd
import Verif.Model.Attribs
import Verif.Model.Auth
import Verif.Model.Autoupgrade
import Verif.Model.BackupList
import Verif.Model.BackupNumber
import Verif.Model.Base64
import Verif.Model.Basic
import Verif.Model.Bedup
import Verif.Model.BedupConc
import Verif.Model.BedupRun
import Verif.Model.Browse
import Verif.Model.CaClient
import Verif.Model.CaServer
import Verif.Model.Cache
import Verif.Model.Children
import Verif.Model.ClientMain
import Verif.Model.Cmd
import Verif.Model.Cntr
import Verif.Model.CommandLine
import Verif.Model.ConfCheck
import Verif.Model.ConfFiles
import Verif.Model.ConfLine
import Verif.Model.Confine
import Verif.Model.Confs
import Verif.Model.DataPath
import Verif.Model.Deletions
import Verif.Model.Diff
import Verif.Model.Dpth
import Verif.Model.EndToEnd
import Verif.Model.Ending
import Verif.Model.Exchange
import Verif.Model.ExtraMeta
import Verif.Model.FilesEqual
import Verif.Model.Find
import Verif.Model.FindLogic
import Verif.Model.ForkChild
import Verif.Model.Fzp
import Verif.Model.HardCopy
import Verif.Model.History
import Verif.Model.Human
import Verif.Model.Incexc
import Verif.Model.Interrupt
import Verif.Model.Iobuf
import Verif.Model.Ipacl
import Verif.Model.Jiggle
import Verif.Model.JsonInput
import Verif.Model.Links
import Verif.Model.ListClient
import Verif.Model.Listening
import Verif.Model.Lock
import Verif.Model.Logging
import Verif.Model.MainLoop
import Verif.Model.Manifest
import Verif.Model.Monitor
import Verif.Model.Negotiate
import Verif.Model.Notify
import Verif.Model.PathCmp
import Verif.Model.Phase1
import Verif.Model.Phase2
import Verif.Model.Prepend
import Verif.Model.Printable
import Verif.Model.Privs
import Verif.Model.Quota
import Verif.Model.RateLimit
import Verif.Model.Relay
import Verif.Model.Remove
import Verif.Model.Request
import Verif.Model.Restore
import Verif.Model.RestoreAttr
import Verif.Model.RestoreFlow
import Verif.Model.RestoreTo
import Verif.Model.Resume
import Verif.Model.ResumeCntr
import Verif.Model.ResumeFiles
import Verif.Model.Retention
import Verif.Model.RsBuf
import Verif.Model.Rubble
import Verif.Model.RunAction
import Verif.Model.RunScript
import Verif.Model.Sbuf
import Verif.Model.Scan
import Verif.Model.Sdirs
import Verif.Model.Seed
import Verif.Model.SendConf
import Verif.Model.Session
import Verif.Model.Sessions
import Verif.Model.Stamps
import Verif.Model.StatsFile
import Verif.Model.StoredForm
import Verif.Model.Strlist
import Verif.Model.Switch
import Verif.Model.TimedOps
import Verif.Model.Timeout
import Verif.Model.Timer
import Verif.Model.Tls
import Verif.Model.Transfer
import Verif.Model.Verify
import Verif.Model.Version
import Verif.Model.VssStrip
import Verif.Model.X509Env
import Verif.Model.Yajl
import Verif.Props.Acl
import Verif.Props.Admission
import Verif.Props.Attribs
import Verif.Props.Auth
import Verif.Props.Autoupgrade
import Verif.Props.BackupList
import Verif.Props.BackupNumber
import Verif.Props.Bedup
import Verif.Props.BedupConc
import Verif.Props.BedupConcCases
import Verif.Props.BedupRun
import Verif.Props.Browse
import Verif.Props.CaClient
import Verif.Props.CaClientCases
import Verif.Props.CaServer
import Verif.Props.Cache
import Verif.Props.CacheCases
import Verif.Props.Children
import Verif.Props.ClientMain
import Verif.Props.Cntr
import Verif.Props.CntrStr
import Verif.Props.CommandLine
import Verif.Props.CommandLineCases
import Verif.Props.ConfCheck
import Verif.Props.ConfFiles
import Verif.Props.ConfLine
import Verif.Props.Confine
import Verif.Props.Confs
import Verif.Props.ConfsOwn
import Verif.Props.DataPath
import Verif.Props.Deletions
import Verif.Props.Diff
import Verif.Props.Dpth
import Verif.Props.EndToEnd
import Verif.Props.EndToEndCases
import Verif.Props.Ending
import Verif.Props.Exchange
import Verif.Props.ExchangeCases
import Verif.Props.ExchangeStall
import Verif.Props.ExtraMeta
import Verif.Props.ExtraMetaCases
import Verif.Props.FilesEqual
import Verif.Props.Find
import Verif.Props.FindLogic
import Verif.Props.ForkChild
import Verif.Props.Fzp
import Verif.Props.FzpCases
import Verif.Props.HardCopy
import Verif.Props.History
import Verif.Props.Human
import Verif.Props.Incexc
import Verif.Props.Interrupt
import Verif.Props.Ipacl
import Verif.Props.Jiggle
import Verif.Props.JsonInput
import Verif.Props.JsonInputCases
import Verif.Props.Links
import Verif.Props.ListClient
import Verif.Props.ListClientCases
import Verif.Props.Listening
import Verif.Props.Lock
import Verif.Props.Logging
import Verif.Props.MainLoop
import Verif.Props.Manifest
import Verif.Props.Merge
import Verif.Props.Monitor
import Verif.Props.MonitorCases
import Verif.Props.MonitorDisk
import Verif.Props.MonitorRun
import Verif.Props.Negotiate
import Verif.Props.Net
import Verif.Props.Notify
import Verif.Props.NotifyCases
import Verif.Props.Overwrite
import Verif.Props.PathCmp
import Verif.Props.Phase1
import Verif.Props.Phase1Cases
import Verif.Props.Phase1Order
import Verif.Props.Phase2
import Verif.Props.Prepend
import Verif.Props.Printable
import Verif.Props.Privs
import Verif.Props.Quota
import Verif.Props.RateLimit
import Verif.Props.RateLimitCases
import Verif.Props.Relay
import Verif.Props.Remove
import Verif.Props.RemoveBackup
import Verif.Props.RemoveCases
import Verif.Props.RemoveMoved
import Verif.Props.RemoveWorks
import Verif.Props.Request
import Verif.Props.Restore
import Verif.Props.RestoreAttr
import Verif.Props.RestoreAttrCases
import Verif.Props.RestoreFlow
import Verif.Props.RestoreFlowCases
import Verif.Props.RestoreFlowStall
import Verif.Props.RestoreSelect
import Verif.Props.RestoreTo
import Verif.Props.Resume
import Verif.Props.ResumeCntr
import Verif.Props.ResumeFiles
import Verif.Props.Retention
import Verif.Props.RsBuf
import Verif.Props.RsBufCases
import Verif.Props.Rubble
import Verif.Props.RunAction
import Verif.Props.RunScript
import Verif.Props.Scan
import Verif.Props.Sdirs
import Verif.Props.Seed
import Verif.Props.SendConf
import Verif.Props.Session
import Verif.Props.Sessions
import Verif.Props.Stamps
import Verif.Props.StatsFile
import Verif.Props.StoredForm
import Verif.Props.Strip
import Verif.Props.Strlist
import Verif.Props.Switch
import Verif.Props.TimedOps
import Verif.Props.Timeout
import Verif.Props.TimeoutCases
import Verif.Props.Timer
import Verif.Props.Tls
import Verif.Props.TlsCases
import Verif.Props.Transfer
import Verif.Props.Verify
import Verif.Props.Version
import Verif.Props.VssStrip
import Verif.Props.X509Env
import Verif.Props.Yajl
import Verif.Props.YajlCases
import Verif.Spec.Acl
import Verif.Spec.Admission
import Verif.Spec.Attribs
import Verif.Spec.Autoupgrade
import Verif.Spec.BackupList
import Verif.Spec.BackupNumber
import Verif.Spec.Bedup
import Verif.Spec.BedupConc
import Verif.Spec.BedupRun
import Verif.Spec.Browse
import Verif.Spec.CaClient
import Verif.Spec.CaServer
import Verif.Spec.Cache
import Verif.Spec.Children
import Verif.Spec.ClientMain
import Verif.Spec.Cntr
import Verif.Spec.CommandLine
import Verif.Spec.ConfCheck
import Verif.Spec.ConfFiles
import Verif.Spec.Confine
import Verif.Spec.Confs
import Verif.Spec.DataPath
import Verif.Spec.Deletions
import Verif.Spec.Dpth
import Verif.Spec.EndToEnd
import Verif.Spec.Ending
import Verif.Spec.Exchange
import Verif.Spec.ExtraMeta
import Verif.Spec.FindLogic
import Verif.Spec.ForkChild
import Verif.Spec.Fzp
import Verif.Spec.HardCopy
import Verif.Spec.History
import Verif.Spec.Human
import Verif.Spec.Ipacl
import Verif.Spec.Jiggle
import Verif.Spec.JsonInput
import Verif.Spec.Links
import Verif.Spec.ListClient
import Verif.Spec.Listening
import Verif.Spec.Lock
import Verif.Spec.Logging
import Verif.Spec.MainLoop
import Verif.Spec.Manifest
import Verif.Spec.Merge
import Verif.Spec.Monitor
import Verif.Spec.Negotiate
import Verif.Spec.Net
import Verif.Spec.Notify
import Verif.Spec.Path
import Verif.Spec.Phase1
import Verif.Spec.Phase2
import Verif.Spec.Printable
import Verif.Spec.Privs
import Verif.Spec.RateLimit
import Verif.Spec.Relay
import Verif.Spec.Remove
import Verif.Spec.Request
import Verif.Spec.Restore
import Verif.Spec.RestoreAttr
import Verif.Spec.RestoreFlow
import Verif.Spec.RestoreTo
import Verif.Spec.Resume
import Verif.Spec.ResumeCntr
import Verif.Spec.ResumeFiles
import Verif.Spec.Retention
import Verif.Spec.RsBuf
import Verif.Spec.Rubble
import Verif.Spec.RunAction
import Verif.Spec.RunScript
import Verif.Spec.Scan
import Verif.Spec.Sdirs
import Verif.Spec.Seed
import Verif.Spec.SendConf
import Verif.Spec.Session
import Verif.Spec.Sessions
import Verif.Spec.Stamps
import Verif.Spec.StatsFile
import Verif.Spec.StoredForm
import Verif.Spec.TimedOps
import Verif.Spec.Timeout
import Verif.Spec.Timer
import Verif.Spec.Tls
import Verif.Spec.Transfer
import Verif.Spec.VssStrip
import Verif.Spec.X509Env
import Verif.Spec.Yajl
