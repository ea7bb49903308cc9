/-!
# The stages of post-processing of one download

Model of `PrePostProcessor::StartJob`, `CheckRequestPar` and `CleanupJobs` for one job
(daemon/postprocess/PrePostProcessor.cpp), together with what the stages report back when they
end: `RenameController::RenameCompleted` (Rename.cpp), `ParChecker::Execute` (ParChecker.cpp) and
`RepairController::ParCheckCompleted` (Repair.cpp), `UnpackController::Run`/`Completed`
(Unpack.cpp), `CleanupController::Run` and `MoveController::Run` (Cleanup.cpp),
`PostScriptController::Run` (extension/PostScript.cpp).

What the stages do with the files is not modelled here: the results of renaming, of
verification and repair by libpar2, of unrar and 7-zip, of scripts and everything which is seen on
disk after a stage are parameters (`Work`).
-/
namespace Verif.PostJob

/-- `NzbInfo::EParStatus`, queue/DownloadInfo.h:376-384. -/
inductive Par | none | skipped | failure | success | possible | manual
  deriving DecidableEq, Repr

/-- The comparison `GetParStatus() <= NzbInfo::psSkipped` (the order is that of
DownloadInfo.h:376-384). -/
def Par.unchecked : Par → Bool
  | .none => true
  | .skipped => true
  | _ => false

/-- `NzbInfo::EPostUnpackStatus`, queue/DownloadInfo.h:394-402. -/
inductive Unp | none | skipped | failure | success | space | password
  deriving DecidableEq, Repr

/-- `NzbInfo::EPostRenameStatus`, queue/DownloadInfo.h:368-374. -/
inductive Ren | none | skipped | nothing | success
  deriving DecidableEq, Repr

/-- `NzbInfo::ECleanupStatus` and `NzbInfo::EMoveStatus`, queue/DownloadInfo.h:404-416. -/
inductive Res | none | failure | success
  deriving DecidableEq, Repr

/-- `Options::EParCheck`, main/Options.h:52-58. -/
inductive ParCheck | auto | always | force | manual
  deriving DecidableEq, Repr

/-- `PostInfo::EStage`, queue/DownloadInfo.h:762-776. -/
inductive Stage
  | queued | loadingPars | verifyingSources | repairing | verifyingRepaired
  | parRenaming | rarRenaming | unpacking | cleaningUp | moving | executingScript | finished
  deriving DecidableEq, Repr

/-- The comparison `stage >= ptLoadingPars && stage <= ptVerifyingRepaired`
(PrePostProcessor.cpp:575-576). -/
def Stage.par : Stage → Bool
  | .loadingPars => true
  | .verifyingSources => true
  | .repairing => true
  | .verifyingRepaired => true
  | _ => false

/-- The options which are used. `parScanDupe`: ParScan is "dupe"; `extCleanup`: ExtCleanupDisk is
not empty; `passFile`: UnpackPassFile is not empty. -/
structure Opts where
  parCheck : ParCheck
  parRename : Bool
  rarRename : Bool
  parQuick : Bool
  parScanDupe : Bool
  extCleanup : Bool
  passFile : Bool
  deriving DecidableEq, Repr

/-- What is seen on disk and in the queue. `pars`: `ParParser::FindMainPars` finds par2-files in
the destination directory; `archives`: `UnpackController::HasCompletedArchiveFiles`; `inter`: the
destination directory lies in the intermediate directory (PrePostProcessor.cpp:808-810); `remPars`:
`GetRemainingParCount`; `files`: the list of files left for download isn't empty; `health` and
`critical`: `CalcHealth`, `CalcCriticalHealth(false)`; `damaged`:
`GetFailedSize() - GetParFailedSize() > 0`. -/
structure Disk where
  pars : Bool
  archives : Bool
  inter : Bool
  remPars : Nat
  files : Bool
  health : Nat
  critical : Nat
  damaged : Bool
  deriving DecidableEq, Repr

/-- The fields of `NzbInfo` which are used. `deleted`: `GetDeleteStatus() != dsNone`; `want`: the
parameter "*Unpack:" isn't "no"; `password`: the parameter "*Unpack:Password" isn't empty. -/
structure Nzb where
  deleted : Bool
  want : Bool
  password : Bool
  parRename : Ren
  par : Par
  parFull : Bool
  rarRename : Ren
  unpack : Unp
  cleanup : Res
  move : Res
  disk : Disk
  deriving DecidableEq, Repr

/-- `PostInfo`, queue/DownloadInfo.h:820-840 (times, progress and labels are left out). -/
structure Post where
  working : Bool := false
  cancelled : Bool := false
  requestPar : Bool := false
  forceFull : Bool := false
  forceRepair : Bool := false
  parRepaired : Bool := false
  unpackTried : Bool := false
  passTried : Bool := false
  lastUnpack : Unp := .none
  needPar : Bool := false
  stage : Stage := .queued
  deriving DecidableEq, Repr

structure Job where
  nzb : Nzb
  post : Post
  deriving DecidableEq, Repr

/-- `PrePostProcessor::NzbDownloaded`, PrePostProcessor.cpp:346-353: the download enters
post-processing. -/
def enter (o : Opts) (n : Nzb) : Job :=
  { nzb := if n.par = .none ∧ o.parCheck ≠ .always ∧ o.parCheck ≠ .force then
      { n with par := .skipped } else n
    post := {} }

/-- `PrePostProcessor::EnterStage`, PrePostProcessor.cpp:843-847. -/
def enterStage (s : Stage) (j : Job) : Job :=
  { j with post := { j.post with working := true, stage := s } }

/-- The condition for the early failure due to health, PrePostProcessor.cpp:713-718. -/
def hopeless (o : Opts) (n : Nzb) : Bool :=
  n.par == .skipped &&
  ((!o.parScanDupe && n.disk.health < n.disk.critical && n.disk.critical < 1000) ||
    n.disk.health == 0) && n.disk.pars

/-- Variable `unpack` of `StartJob`, PrePostProcessor.cpp:748-751. -/
def toUnpack (n : Nzb) : Bool :=
  n.want && n.unpack == .none && !n.deleted

/-- Variable `parFailed` of `StartJob`, PrePostProcessor.cpp:776-778. -/
def parFailed (n : Nzb) : Bool :=
  n.par == .failure || n.par == .possible || n.par == .manual

/-- Variable `cleanup` of `StartJob`, PrePostProcessor.cpp:780-793. -/
def toCleanup (o : Opts) (n : Nzb) : Bool :=
  !toUnpack n && n.want && n.cleanup == .none && o.extCleanup &&
  ((n.par == .success && n.unpack != .failure && n.unpack != .space && n.unpack != .password) ||
   (n.unpack == .success && n.par != .failure) ||
   ((n.unpack == .none || n.unpack == .skipped) && (n.par == .none || n.par == .skipped) &&
     n.disk.health == 1000))

/-- Variable `moveInter` of `StartJob`, PrePostProcessor.cpp:795-810. -/
def toMove (n : Nzb) : Bool :=
  !toUnpack n && n.move == .none &&
  n.unpack != .failure && n.unpack != .space && n.unpack != .password &&
  n.par != .failure && n.par != .manual && !n.deleted &&
  !((n.unpack == .none || n.unpack == .skipped) && (n.par == .none || n.par == .skipped) &&
     n.disk.health < 1000) &&
  n.disk.inter

/-- The end of `StartJob`, PrePostProcessor.cpp:812-840. -/
def startLast (o : Opts) (j : Job) : Job :=
  let n := j.nzb
  let c := toCleanup o n
  let m := toMove n
  if toUnpack n && !parFailed n then enterStage .unpacking j
  else
    let j := if toUnpack n then { j with nzb := { n with unpack := .skipped } } else j
    if c then enterStage .cleaningUp j
    else if m then enterStage .moving j
    else enterStage .executingScript j

/-- `PrePostProcessor::StartJob`, PrePostProcessor.cpp:666-841. Times, progress and messages are
left out. -/
def startJob (o : Opts) (allowPar : Bool) (j : Job) : Job :=
  let n := j.nzb
  if n.parRename = .none ∧ n.deleted = false ∧ o.parRename = true then
    enterStage .parRenaming j
  else if n.par = .none ∧ n.deleted = false then
    if n.disk.pars then
      if !allowPar then { j with post := { j.post with needPar := true } }
      else
        let j := enterStage .loadingPars j
        { j with post := { j.post with needPar := false } }
    else { j with nzb := { n with par := .skipped } }
  else if hopeless o n then { j with nzb := { n with par := .failure } }
  else if n.par = .skipped ∧ n.disk.damaged = true ∧ n.disk.pars = true then
    { j with post := { j.post with requestPar := true } }
  else if n.rarRename = .none ∧ toUnpack n = true ∧ o.rarRename = true then
    enterStage .rarRenaming j
  else if n.par = .skipped ∧ n.deleted = false ∧ o.parCheck = .auto ∧ n.disk.archives = false ∧
      n.disk.pars = true then
    { j with post := { j.post with requestPar := true } }
  else startLast o j

/-- `PrePostProcessor::CheckRequestPar`, PrePostProcessor.cpp:484-525, for one job. -/
def checkRequestPar (o : Opts) (j : Job) : Job :=
  if j.post.requestPar = true ∧ (j.nzb.par.unchecked = true ∨
      (j.post.forceRepair = true ∧ j.nzb.parFull = false)) ∧ o.parCheck ≠ .manual then
    { nzb := { j.nzb with par := .none }
      post := { j.post with forceFull := !j.nzb.par.unchecked, requestPar := false,
                            working := false } }
  else if j.post.requestPar = true ∧ j.nzb.par.unchecked = true ∧ o.parCheck = .manual then
    { nzb := { j.nzb with par := .manual }
      post := { j.post with requestPar := false, working := false,
                            stage := if j.nzb.disk.files then .finished else j.post.stage } }
  else j

/-- What happens with a job which isn't working any more, `PrePostProcessor::CleanupJobs`,
PrePostProcessor.cpp:527-564. -/
inductive After
  /-- the job stays active -/
  | busy (j : Job)
  /-- the job goes back to the queue and waits for its next stage -/
  | again (j : Job)
  /-- the post-processing is completed (`JobCompleted`) -/
  | left (j : Job)
  deriving DecidableEq, Repr

/-- `PrePostProcessor::CleanupJobs`, PrePostProcessor.cpp:527-564, for one job whose thread isn't
running. -/
def cleanupJob (j : Job) : After :=
  if j.post.working then .busy j
  else if j.post.stage = .finished ∨ j.post.cancelled = true then .left j
  else .again { j with post := { j.post with stage := .queued } }

/-! ## What the stages report -/

/-- `ParChecker::EStatus`, postprocess/ParChecker.h:36-42. -/
inductive Check | failed | possible | repaired | notNeeded
  deriving DecidableEq, Repr

/-- Result of one `ParChecker::RunParCheckAll`, ParChecker.cpp:403-442: `none` - the par2-files
could not be found; otherwise the worst status of all par-sets and whether the check of any file was
replaced by the comparison of its CRC (`Repairer::ScanDataFile`, ParChecker.cpp:148-174). -/
abbrev CheckRun := Option (Check × Bool)

/-- `ParChecker::RunParCheckAll`, ParChecker.cpp:403-442: status and the new `m_parFull`. CRCs are
used only if `m_parQuick` is set (ParChecker.cpp:150). -/
def runCheck (quick : Bool) (full : Bool) : CheckRun → Check × Bool
  | none => (.failed, full)
  | some (s, crc) => (s, !(quick && crc))

/-- `ParChecker::Execute`, ParChecker.cpp:389-401: `stopped` - the check was cancelled. `m_parFull`
is false when the checker is created (ParChecker.h:184). -/
def execute (quick force stopped : Bool) (r1 r2 : CheckRun) : Check × Bool :=
  let a := runCheck quick false r1
  if a.1 = .notNeeded ∧ quick = true ∧ force = true ∧ stopped = false then
    runCheck false a.2 r2
  else a

/-- Results of unpacking. `hasFiles`: there are archives; `hidden`: there are rar-archives with
other extensions; `ok`, `startErr`, `spaceErr`, `passErr`, `decryptErr`: the flags after the
unpackers were executed; `stopped`: terminated by the user (not automatically after a wrong
password); `listTried`: the passwords of the password-file were tried; `movedOk`: result of
`UnpackController::Cleanup`. -/
structure UnpackWork where
  hasFiles : Bool
  hidden : Bool
  ok : Bool
  startErr : Bool
  spaceErr : Bool
  passErr : Bool
  decryptErr : Bool
  stopped : Bool
  listTried : Bool
  movedOk : Bool
  deriving DecidableEq, Repr

/-- Everything what stages may report, and what is seen on disk after the stage. `parsUsed`: how
many of the remaining par2-files were downloaded or deleted meanwhile. -/
structure Work where
  renamed : Bool
  parDamaged : Bool
  missed : Bool
  resume : Bool
  check1 : CheckRun
  check2 : CheckRun
  stopped : Bool
  unpack : UnpackWork
  ok : Bool
  scriptPar : Bool
  cancel : Bool
  disk : Disk
  parsUsed : Nat
  deriving DecidableEq, Repr

/-- What is seen on disk after a stage. The number of par2-files which are left for download
doesn't grow. -/
def newDisk (w : Work) (old : Disk) : Disk :=
  { w.disk with remPars := old.remPars - w.parsUsed }

/-- End of the par-renaming, `RenameController::RenameCompleted`, Rename.cpp:150-187. If par2-files
are damaged and more of them are left the renaming is repeated after another one was downloaded:
`resume` - `GetRemainingSize() > 0`. `eaGroupPauseExtraPars` leaves one file unpaused
(QueueEditor.cpp:835-896) and the job is picked only if no unpaused file is left (`PickNextJob`),
therefore at least one par2-file was downloaded (or has failed) by then. -/
def finishParRename (w : Work) (j : Job) : Job :=
  let d := newDisk w j.nzb.disk
  let rep := !w.renamed && w.parDamaged && decide (0 < j.nzb.disk.remPars) && w.resume
  { nzb := { j.nzb with
      parRename := if rep then .none else if w.renamed then .success else .nothing
      disk := if rep then { d with remPars := d.remPars - 1 } else d }
    post := { j.post with
      requestPar := j.post.requestPar || (w.missed && j.nzb.par.unchecked)
      working := false } }

/-- End of the renaming of archives, `RenameController::RenameCompleted`, Rename.cpp:171-187. -/
def finishRarRename (w : Work) (j : Job) : Job :=
  { nzb := { j.nzb with
      rarRename := if w.renamed then .success else .nothing
      disk := newDisk w j.nzb.disk }
    post := { j.post with working := false } }

/-- End of the par-check, `RepairController::Run`, Repair.cpp:227-248, and
`RepairController::ParCheckCompleted`, Repair.cpp:273-304. -/
def finishCheck (o : Opts) (w : Work) (j : Job) : Job :=
  let r := execute (o.parQuick && !j.post.forceFull) j.post.forceRepair w.stopped w.check1 w.check2
  let good := (r.1 = .repaired ∨ r.1 = .notNeeded) ∧ j.nzb.par.unchecked = true
  { nzb := { j.nzb with
      par := if good then .success
        else if r.1 = .possible ∧ j.nzb.par ≠ .failure then .possible
        else .failure
      parFull := r.2
      disk := newDisk w j.nzb.disk }
    post := { j.post with
      parRepaired := if good then decide (r.1 = .repaired) else j.post.parRepaired
      working := false } }

/-- The status for a failed unpack, Unpack.cpp:578-582 and 594-597. -/
def unpackFailure (u : UnpackWork) : Unp :=
  if u.spaceErr then .space else if u.passErr || u.decryptErr then .password else .failure

/-- `UnpackController::RequestParCheck`, Unpack.cpp:587-598. -/
def requestParCheck (force : Bool) (u : UnpackWork) (j : Job) : Job :=
  { j with post := { j.post with
      requestPar := true, forceRepair := force, unpackTried := true, passTried := u.listTried
      lastUnpack := unpackFailure u } }

/-- `UnpackController::Completed`, Unpack.cpp:545-585. -/
def unpackCompleted (o : Opts) (w : Work) (j : Job) : Job :=
  let u := w.unpack
  if u.ok && u.movedOk then
    { j with nzb := { j.nzb with
        unpack := .success
        parRename := if o.parRename then .none else j.nzb.parRename
        disk := newDisk w j.nzb.disk } }
  else if !u.ok && (j.nzb.par.unchecked || !j.nzb.parFull) &&
      !u.startErr && !u.spaceErr && !u.passErr && !u.stopped && j.nzb.disk.pars then
    requestParCheck (j.nzb.password || !o.passFile || u.listTried ||
      !(u.decryptErr || u.passErr) || !j.nzb.par.unchecked) u j
  else { j with nzb := { j.nzb with unpack := unpackFailure u } }

/-- `UnpackController::Run`, Unpack.cpp:50-175, without the execution of the unpackers. -/
def unpackRun (o : Opts) (w : Work) (j : Job) : Job :=
  let u := w.unpack
  if j.post.unpackTried && !j.post.parRepaired &&
      (j.nzb.password || !o.passFile || j.post.passTried) then
    { j with nzb := { j.nzb with unpack := j.post.lastUnpack } }
  else if j.nzb.want && u.hasFiles then unpackCompleted o w j
  else if j.nzb.want then
    if j.nzb.par.unchecked = true ∧ (j.nzb.parRename = .none ∨ j.nzb.parRename = .skipped) ∧
        j.nzb.disk.pars = true then
      requestParCheck false { u with spaceErr := false, passErr := false, decryptErr := false,
                                     listTried := false } j
    else if u.hidden then { j with nzb := { j.nzb with unpack := .failure } }
    else { j with nzb := { j.nzb with unpack := .skipped } }
  else { j with nzb := { j.nzb with unpack := .skipped } }

/-- End of the unpack stage, Unpack.cpp:170-175. -/
def finishUnpack (o : Opts) (w : Work) (j : Job) : Job :=
  let j := unpackRun o w j
  { j with post := { j.post with working := false } }

/-- End of the cleanup, `CleanupController::Run`, Cleanup.cpp:128-178. -/
def finishCleanup (w : Work) (j : Job) : Job :=
  { nzb := { j.nzb with cleanup := if w.ok then .success else .failure
                        disk := newDisk w j.nzb.disk }
    post := { j.post with working := false } }

/-- End of the move, `MoveController::Run`, Cleanup.cpp:40-81. -/
def finishMove (w : Work) (j : Job) : Job :=
  { nzb := { j.nzb with move := if w.ok then .success else .failure
                        disk := newDisk w j.nzb.disk }
    post := { j.post with working := false } }

/-- End of the scripts, `PostScriptController::Run` and `AnalyseExitCode`,
extension/PostScript.cpp:46-71 and 186-230: `scriptPar` - a script has ended with
`POSTPROCESS_PARCHECK`. -/
def finishScript (w : Work) (j : Job) : Job :=
  let req := w.scriptPar && j.nzb.par.unchecked
  { nzb := { j.nzb with disk := newDisk w j.nzb.disk }
    post := { j.post with
      requestPar := j.post.requestPar || req
      forceRepair := j.post.forceRepair || req
      stage := .finished
      working := false } }

/-- The end of the stage which is running. -/
def finish (o : Opts) (w : Work) (j : Job) : Job :=
  match j.post.stage with
  | .parRenaming => finishParRename w j
  | .rarRenaming => finishRarRename w j
  | .loadingPars => finishCheck o w j
  | .verifyingSources => finishCheck o w j
  | .repairing => finishCheck o w j
  | .verifyingRepaired => finishCheck o w j
  | .unpacking => finishUnpack o w j
  | .cleaningUp => finishCleanup w j
  | .moving => finishMove w j
  | .executingScript => finishScript w j
  | _ => j

/-- `PostQueueDelete` of a working job (PrePostProcessor.cpp:933-953): the stage is stopped and
the job leaves after it. -/
def cancelJob (w : Work) (j : Job) : Job :=
  if w.cancel then { j with post := { j.post with cancelled := true } } else j

/-- One turn of a job: `CheckPostQueue` (PrePostProcessor.cpp:626-664) starts the next stage, the
stage runs to its end, and the next `CheckPostQueue` looks at the result. If no stage was entered
the result is looked at at once. The job is the only one, thus par-checks are allowed. -/
def turn (o : Opts) (w : Work) (j : Job) : After :=
  let j := startJob o true j
  let j := if j.post.working then finish o w (cancelJob w j) else j
  cleanupJob (checkRequestPar o j)

/-- The stage which is entered in this turn, if any. -/
def entered (o : Opts) (j : Job) : Option Stage :=
  let j := startJob o true j
  if j.post.working then some j.post.stage else none

/-- The course of post-processing: the stages in the order they are entered and how it ended. -/
def course (o : Opts) : List Work → Job → List Stage × After
  | [], j => ([], .again j)
  | w :: ws, j =>
    match turn o w j with
    | .again j' =>
      let r := course o ws j'
      ((entered o j).toList ++ r.1, r.2)
    | r => ((entered o j).toList, r)

end Verif.PostJob
