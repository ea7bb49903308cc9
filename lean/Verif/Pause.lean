import Verif.PpParam

/-! Pausing and resuming: the flags of the work state and everything which sets them.
Models WorkState.h, PauseUnpauseXmlCommand, ScheduleResumeXmlCommand and SetDownloadRateXmlCommand (remote/XmlRpc.cpp),
PauseUnpauseBinCommand and SetDownloadRateBinCommand (remote/BinRpc.cpp), Frontend::ServerPauseUnpause and
ServerSetDownloadRate, the commands of scheduler tasks and the scheduled resume (main/Scheduler.cpp), DiskService, the pause
during post-processing (PrePostProcessor::UpdatePauseState) and the tests of these flags before something is started.
Simplified: the setters and getters are taken as one step each; the source says itself that they are not synchronised
(WorkState.h:26-29). The notifications of observers are left out. -/

namespace Verif.Pause
open Verif.CStr

/-- A news server as far as the scheduler touches it (NewsServer). -/
structure Server where
  id : Int
  name : Bytes
  active : Bool
deriving DecidableEq, Repr

/-- The fields of WorkState (WorkState.h:58-69) used here, `m_waitingRequiredDir` (DiskService.h:38), and the servers. -/
structure S where
  download : Bool       -- m_pauseDownload
  post : Bool           -- m_pausePostProcess
  scan : Bool           -- m_pauseScan
  tempDownload : Bool   -- m_tempPauseDownload
  tempPost : Bool       -- m_tempPausePostprocess
  resume : Int          -- m_resumeTime
  quota : Bool          -- m_quotaReached
  limit : Int           -- m_speedLimit
  downloading : Bool    -- m_downloading
  waiting : Bool        -- DiskService::m_waitingRequiredDir
  servers : List Server
deriving DecidableEq, Repr

/-- The options used. -/
structure Cfg where
  diskSpace : Int
  hasInter : Bool       -- InterDir is not empty
  requiredDir : Bytes
  dailyQuota : Int
  monthlyQuota : Int
  parPause : Bool
  unpackPause : Bool
  scriptPause : Bool

/-- What pause commands refer to: `paDownload`, `paPostProcess`, `paScan`, and any other number of the binary protocol
(`switch` without `default`, BinRpc.cpp:319-332). -/
inductive What
  | download | post | scan | unknown
deriving DecidableEq, Repr

/-- ESchedulerCommand with the parameter; `process` stands for `scExtensions` and `scProcess`. -/
inductive Cmd
  | pauseDownload | unpauseDownload | pausePost | unpausePost | pauseScan | unpauseScan
  | rate (param : Bytes)
  | process
  | activate (servers : Bytes) | deactivate (servers : Bytes)
  | fetch (feeds : Bytes)
deriving DecidableEq, Repr

/-- PostInfo::EStage. -/
inductive Stage
  | queued | loadingPars | verifyingSources | repairing | verifyingRepaired | parRenaming | rarRenaming | unpacking
  | cleaningUp | moving | executingScript | finished
deriving DecidableEq, Repr

/-- What happens to the program. -/
inductive Ev
  /-- pausedownload, resumedownload, pausepost, … over the network or at the console. -/
  | command (w : What) (pause : Bool)
  /-- scheduleresume at the time `now`; `none`: the parameter is missing or not a number. -/
  | resumeIn (now : Int) (seconds : Option Int)
  /-- rate over XML-RPC or JSON-RPC, in KB/s. -/
  | rate (kb : Option Int)
  /-- The rate command of the binary protocol or of the console, in bytes/s. -/
  | rateRaw (bytes : Int)
  /-- The first work of the scheduler, with the tasks it executes. -/
  | firstCheck (tasks : List Cmd)
  /-- Every further work of the scheduler: the tasks executed, and the time at which the resume time is checked. -/
  | tick (now : Int) (tasks : List Cmd)
  /-- The work of the disk service: free bytes on DestDir and on InterDir (−1: not known), and which files exist. -/
  | disk (dest inter : Int) (fileExists : Bytes → Bool)
  /-- StatMeter::CheckQuota with what was computed of the quotas. -/
  | quota (monthly daily : Bool)
  /-- PrePostProcessor::CheckPostQueue with a change of jobs: the stages of the active jobs. -/
  | jobs (stages : List Stage)
  /-- The coordinator found out that downloads run, or that none runs any more. -/
  | downloading (b : Bool)

/-- Multiplication of `int` by 1024; `none`: the overflow, which is undefined. -/
def times1024 (i : Int) : Option Int :=
  if -2147483648 ≤ i * 1024 ∧ i * 1024 ≤ 2147483647 then some (i * 1024) else none

/-- The condition of Scheduler.cpp:293-294. -/
def refers (token : Bytes) (s : Server) : Bool :=
  (decide (atoll token > 0) && s.id == atoll token) || Rpc.eqNoCase s.name token

/-- The inner loop of Scheduler::EditServer (Scheduler.cpp:291-310): the first server which matches. -/
def editOne (active : Bool) (token : Bytes) : List Server → List Server
  | [] => []
  | s :: l => if refers token s then { s with active := active } :: l else s :: editOne active token l

/-- Scheduler::EditServer (Scheduler.cpp:285-312). `atoi` is modelled by `atoll`. Without the list kept for the log. -/
def editServer (active : Bool) (list : Bytes) (servers : List Server) : List Server :=
  (PpParam.names list).foldl (fun l t => editOne active t l) servers

/-- A feed: number and name. Scheduler::FetchFeed (Scheduler.cpp:314-331): the numbers given to FeedCoordinator::FetchFeed,
where 0 means all feeds. -/
def fetchFeed (list : Bytes) (feeds : List (Int × Bytes)) : List Int :=
  (PpParam.names list).filterMap fun t =>
    (feeds.find? fun f => f.1 == atoll t || Rpc.eqNoCase f.2 t || t == lit "0").map fun f => if t == lit "0" then 0 else f.1

/-- Scheduler::ExecuteTask (Scheduler.cpp:182-241) as far as it changes the work state: starting programs and fetching feeds
is left out. -/
def exec (s : S) : Cmd → Option S
  | .pauseDownload => some { s with download := true }
  | .unpauseDownload => some { s with download := false }
  | .pausePost => some { s with post := true }
  | .unpausePost => some { s with post := false }
  | .pauseScan => some { s with scan := true }
  | .unpauseScan => some { s with scan := false }
  | .rate p => if p.isEmpty then some s else (times1024 (atoll p)).map fun r => { s with limit := r }
  | .process => some s
  | .activate l => some { s with servers := editServer true l s.servers }
  | .deactivate l => some { s with servers := editServer false l s.servers }
  | .fetch _ => some s

/-- The tasks of one check, in order. -/
def execAll : S → List Cmd → Option S
  | s, [] => some s
  | s, c :: l => match exec s c with | none => none | some s' => execAll s' l

/-- Scheduler::CheckScheduledResume (Scheduler.cpp:333-345). -/
def checkResume (now : Int) (s : S) : S :=
  if s.resume > 0 ∧ now ≥ s.resume then { s with resume := 0, download := false, post := false, scan := false } else s

/-- `freeSpace > -1 && freeSpace / 1024 / 1024 < DiskSpace` (DiskService.cpp:70, 79). -/
def low (c : Cfg) (free : Int) : Bool := decide (free > -1) && decide ((free.tdiv 1024).tdiv 1024 < c.diskSpace)

/-- DiskService::CheckDiskSpace (DiskService.cpp:65-85). -/
def checkSpace (c : Cfg) (dest inter : Int) (s : S) : S :=
  let s := if low c dest then { s with download := true } else s
  if c.hasInter && low c inter then { s with download := true } else s

/-- DiskService::CheckRequiredDir (DiskService.cpp:87-123), without the messages. `fileExists`: the path is a file or a
directory. -/
def checkRequired (c : Cfg) (fileExists : Bytes → Bool) (s : S) : S :=
  if !c.requiredDir.isEmpty && !(PpParam.names c.requiredDir).all fileExists then s
  else { s with tempDownload := false, tempPost := false, waiting := false }

/-- DiskService::ServiceWork (DiskService.cpp:49-63). -/
def diskWork (c : Cfg) (dest inter : Int) (fileExists : Bytes → Bool) (s : S) : S :=
  let s := if decide (c.diskSpace > 0) && s.downloading then checkSpace c dest inter s else s
  if s.waiting then checkRequired c fileExists s else s

/-- The `switch` of PrePostProcessor::UpdatePauseState (PrePostProcessor.cpp:869-893). -/
def needPause (c : Cfg) : Stage → Bool
  | .loadingPars | .verifyingSources | .repairing | .verifyingRepaired | .parRenaming => c.parPause
  | .rarRenaming | .unpacking | .cleaningUp | .moving => c.unpackPause
  | .executingScript => c.scriptPause
  | .queued | .finished => false

/-- One event. `none`: the overflow of `rate * 1024` (XmlRpc.cpp:1181, Scheduler.cpp:198). -/
def step (c : Cfg) (s : S) : Ev → Option S
  -- PauseUnpauseXmlCommand::Execute (XmlRpc.cpp:1100-1125), PauseUnpauseBinCommand::Execute (BinRpc.cpp:309-335),
  -- Frontend::ServerPauseUnpause (Frontend.cpp:119-130)
  | .command w p =>
    let s := { s with resume := 0 }
    some (match w with
      | .download => { s with download := p }
      | .post => { s with post := p }
      | .scan => { s with scan := p }
      | .unknown => s)
  -- ScheduleResumeXmlCommand::Execute (XmlRpc.cpp:1128-1142)
  | .resumeIn now seconds =>
    match seconds with
    | none => some s
    | some k => if k < 0 then some s else some { s with resume := now + k }
  -- SetDownloadRateXmlCommand::Execute (XmlRpc.cpp:1172-1183)
  | .rate kb =>
    match kb with
    | none => some s
    | some r => if r < 0 then some s else (times1024 r).map fun l => { s with limit := l }
  -- SetDownloadRateBinCommand::Execute (BinRpc.cpp:337-347), Frontend::ServerSetDownloadRate (Frontend.cpp:132-140)
  | .rateRaw b => some { s with limit := b }
  -- Scheduler::ServiceWork (Scheduler.cpp:82-87): FirstCheck ends with CheckTasks
  | .firstCheck tasks => execAll s tasks
  -- Scheduler::ServiceWork (Scheduler.cpp:89-92)
  | .tick now tasks => (execAll s tasks).map (checkResume now)
  | .disk dest inter fileExists => some (diskWork c dest inter fileExists s)
  -- StatMeter::CheckQuota (StatMeter.cpp:456-483)
  | .quota m d => if c.dailyQuota = 0 ∧ c.monthlyQuota = 0 then some s else some { s with quota := m || d }
  -- PrePostProcessor::Run (PrePostProcessor.cpp:63-68) and UpdatePauseState (864-906)
  | .jobs stages => if s.tempPost then some s else some { s with tempDownload := stages.any (needPause c) }
  -- QueueCoordinator::Run (QueueCoordinator.cpp:241-246)
  | .downloading b => some { s with downloading := b }

def run (c : Cfg) : S → List Ev → Option S
  | s, [] => some s
  | s, e :: l => match step c s e with | none => none | some s' => run c s' l

/-- The state after the start (WorkState.h:58-69, nzbget.cpp:424-440): `pauseArg` is the switch -P of the command line,
`errors` tells that the configuration had errors. -/
def start (pauseArg errors : Bool) (limit : Int) (servers : List Server) : S :=
  { download := pauseArg || errors, post := errors, scan := errors, tempDownload := true, tempPost := true, resume := 0,
    quota := false, limit := limit, downloading := false, waiting := true, servers := servers }

/-- May a download of an article begin: GetNextArticle (QueueCoordinator.cpp:536) and QueueCoordinator::Run
(QueueCoordinator.cpp:216-217). `forced`: NzbInfo::GetForcePriority, `extra`: FileInfo::GetExtraPriority. -/
def mayStart (s : S) (forced extra : Bool) : Bool :=
  (!(s.download || s.quota) || forced) && (!s.tempDownload || extra)

/-- Does a running download give up at its next check (ArticleDownloader.cpp:106-108, 198-199), apart from a stop of the
program and a change of the servers. -/
def givesUp (s : S) (forced extra : Bool) : Bool :=
  ((s.download || s.quota) && !forced) || (s.tempDownload && !extra)

/-- UrlCoordinator::Run (UrlCoordinator.cpp:103). -/
def mayFetchUrl (s : S) (urlForce : Bool) : Bool := !s.download || urlForce

/-- FeedCoordinator::Run (FeedCoordinator.cpp:105). -/
def mayFetchFeed (s : S) (force urlForce : Bool) : Bool := !s.download || force || urlForce

/-- PrePostProcessor::Run and CheckPostQueue (PrePostProcessor.cpp:63-68, 647-648), PickNextJob (614). -/
def mayPostProcess (s : S) (forced : Bool) : Bool := !s.tempPost && (!s.post || forced)

/-- Scanner::ServiceWork (Scanner.cpp:100-103). -/
def mayScan (s : S) (requested : Bool) : Bool := !s.scan || requested

end Verif.Pause
