/-
Model of the counters of a queue entry, /repo/daemon/queue/DownloadInfo.cpp and QueueCoordinator.cpp. Sizes and numbers are unbounded
integers here (the program: `int64` and `int`); overflow is considered in the model of the health (`Verif.Health`).
-/
namespace Verif.Counters

/-- ServerStat, DownloadInfo.h: articles downloaded from and failed on a server. -/
structure Stat where
  server : Nat
  success : Int
  failed : Int
deriving DecidableEq, Repr

/-- EStatOperation. -/
inductive StatOp | set | add | subtract
deriving DecidableEq, Repr

/-- The `switch` in ServerStatList::StatOp, DownloadInfo.cpp:118-134. -/
def StatOp.apply (op : StatOp) (s : Stat) (success failed : Int) : Stat :=
  match op with
  | .set => { s with success := success, failed := failed }
  | .add => { s with success := s.success + success, failed := s.failed + failed }
  | .subtract => { s with success := s.success - success, failed := s.failed - failed }

/-- ServerStatList::StatOp, DownloadInfo.cpp:100-135: the first entry of the server is changed, or a new one at the end. -/
def statOp (op : StatOp) (server : Nat) (success failed : Int) : List Stat → List Stat
  | [] => [op.apply ⟨server, 0, 0⟩ success failed]
  | s :: l => if s.server = server then op.apply s success failed :: l else s :: statOp op server success failed l

/-- ServerStatList::ListOp, DownloadInfo.cpp:137-143. -/
def listOp (op : StatOp) (l : List Stat) : List Stat → List Stat
  | [] => l
  | s :: other => listOp op (statOp op s.server s.success s.failed l) other

/-- The members of FileInfo (DownloadInfo.h:199-250) which the counters depend on. The list of articles is not part of this model. -/
structure File where
  id : Nat
  time : Int
  size : Int
  remaining : Int
  missed : Int
  success : Int
  failed : Int
  total : Int
  missedArticles : Int
  successArticles : Int
  failedArticles : Int
  completedArticles : Int
  active : Int
  par : Bool
  paused : Bool
  extra : Bool
  stats : List Stat
deriving DecidableEq, Repr

/-- The members of NzbInfo (DownloadInfo.h:655-740) for the counters, and what a merge or split changes. `completed`: the completed
files, each with the directory it lies in. -/
structure Nzb where
  id : Nat
  url : Bool
  post : Bool
  name : String
  category : String
  dir : String
  queued : String
  files : List File
  completed : List (String × Nat)
  fileCount : Int
  active : Int
  size : Int
  remaining : Int
  pausedCount : Int
  pausedSize : Int
  success : Int
  curSuccess : Int
  failed : Int
  curFailed : Int
  parSize : Int
  parSuccess : Int
  parCurSuccess : Int
  parFailed : Int
  parCurFailed : Int
  parCount : Int
  total : Int
  successArticles : Int
  curSuccessArticles : Int
  failedArticles : Int
  curFailedArticles : Int
  extra : Int
  stats : List Stat
  curStats : List Stat
  minTime : Int
  maxTime : Int
  downloadedSize : Int
  downloadSec : Int
  startTime : Int
deriving DecidableEq, Repr

/-- A new NzbInfo, DownloadInfo.h:655-740: all counters are 0. -/
def Nzb.new (id : Nat) : Nzb :=
  { id := id, url := false, post := false, name := "", category := "", dir := "", queued := "", files := [], completed := [],
    fileCount := 0, active := 0, size := 0, remaining := 0, pausedCount := 0, pausedSize := 0, success := 0, curSuccess := 0, failed := 0,
    curFailed := 0, parSize := 0, parSuccess := 0, parCurSuccess := 0, parFailed := 0, parCurFailed := 0, parCount := 0, total := 0,
    successArticles := 0, curSuccessArticles := 0, failedArticles := 0, curFailedArticles := 0, extra := 0, stats := [], curStats := [],
    minTime := 0, maxTime := 0, downloadedSize := 0, downloadSec := 0, startTime := 0 }

/-- The file of an id in a list. The program uses pointers; ids of files are unique. -/
def find (i : Nat) : List File → Option File
  | [] => none
  | f :: l => if f.id = i then some f else find i l

/-- A change of the file with an id. -/
def change (i : Nat) (g : File → File) : List File → List File
  | [] => []
  | f :: l => if f.id = i then g f :: l else f :: change i g l

/-- UniqueDeque::Remove, Container.h:77-89. -/
def remove (i : Nat) : List File → List File
  | [] => []
  | f :: l => if f.id = i then l else f :: remove i l

/-- FileInfo::SetPaused, DownloadInfo.cpp:802-810. -/
def setPaused (n : Nzb) (i : Nat) (b : Bool) : Nzb :=
  match find i n.files with
  | none => n
  | some f =>
    let n := if f.paused ≠ b then
      { n with pausedCount := n.pausedCount + (if b then 1 else -1),
               pausedSize := n.pausedSize + (if b then f.remaining else -f.remaining) } else n
    { n with files := change i (fun f => { f with paused := b }) n.files }

/-- FileInfo::SetExtraPriority, DownloadInfo.cpp:812-819. -/
def setExtra (n : Nzb) (i : Nat) (b : Bool) : Nzb :=
  match find i n.files with
  | none => n
  | some f =>
    let n := if f.extra ≠ b then { n with extra := n.extra + (if b then 1 else -1) } else n
    { n with files := change i (fun f => { f with extra := b }) n.files }

/-- The change of the par2-flag, DirectRenamer.cpp:191-213. -/
def setPar (n : Nzb) (i : Nat) (b : Bool) : Nzb :=
  match find i n.files with
  | none => n
  | some f =>
    if f.par ≠ b then
      let delta : Int := if b then 1 else -1
      let n := { n with
        files := change i (fun f => { f with par := b }) n.files,
        parSize := n.parSize + f.size * delta,
        parCurSuccess := n.parCurSuccess + f.success * delta,
        parCurFailed := n.parCurFailed + f.failed * delta + f.missed * delta,
        parFailed := n.parFailed + f.missed * delta,
        parCount := n.parCount + 1 * delta }
      if !b && f.paused then setPaused n i false else n
    else n

/-- The result of the download of an article: EStatus of ArticleDownloader. -/
inductive Result | finished | failed | retry
deriving DecidableEq, Repr

/-- The counters in QueueCoordinator::ArticleCompleted, QueueCoordinator.cpp:695-736 and 771. `size`: the size of the article; `stats`:
the statistics of the download; `downloaded`: the bytes it took. -/
def articleCompleted (n : Nzb) (i : Nat) (r : Result) (size : Int) (stats : List Stat) (downloaded : Int) : Nzb :=
  match find i n.files with
  | none => n
  | some f =>
    let n := { n with downloadedSize := n.downloadedSize + downloaded }
    match r with
    | .retry => n
    | .finished =>
      { n with
        files := change i (fun f => { f with
          success := f.success + size, successArticles := f.successArticles + 1, remaining := f.remaining - size,
          completedArticles := f.completedArticles + 1, stats := listOp .add f.stats stats }) n.files,
        curSuccess := n.curSuccess + size,
        parCurSuccess := n.parCurSuccess + (if f.par then size else 0),
        curSuccessArticles := n.curSuccessArticles + 1,
        remaining := n.remaining - size,
        pausedSize := if f.paused then n.pausedSize - size else n.pausedSize,
        curStats := listOp .add n.curStats stats }
    | .failed =>
      { n with
        files := change i (fun f => { f with
          failed := f.failed + size, failedArticles := f.failedArticles + 1, remaining := f.remaining - size,
          completedArticles := f.completedArticles + 1, stats := listOp .add f.stats stats }) n.files,
        curFailed := n.curFailed + size,
        parCurFailed := n.parCurFailed + (if f.par then size else 0),
        curFailedArticles := n.curFailedArticles + 1,
        remaining := n.remaining - size,
        pausedSize := if f.paused then n.pausedSize - size else n.pausedSize,
        curStats := listOp .add n.curStats stats }

/-- NzbInfo::UpdateCompletedStats, DownloadInfo.cpp:693-714. -/
def updateCompletedStats (n : Nzb) (f : File) : Nzb :=
  { n with
    success := n.success + f.success,
    failed := n.failed + f.failed,
    failedArticles := n.failedArticles + f.failedArticles,
    successArticles := n.successArticles + f.successArticles,
    extra := n.extra - (if f.extra then 1 else 0),
    parSuccess := if f.par then n.parSuccess + f.success else n.parSuccess,
    parFailed := if f.par then n.parFailed + f.failed else n.parFailed,
    parCount := if f.par then n.parCount - 1 else n.parCount,
    pausedCount := if f.paused then n.pausedCount - 1 else n.pausedCount,
    stats := listOp .add n.stats f.stats }

/-- NzbInfo::UpdateDeletedStats, DownloadInfo.cpp:716-746. -/
def updateDeletedStats (n : Nzb) (f : File) : Nzb :=
  { n with
    fileCount := n.fileCount - 1,
    size := n.size - f.size,
    curSuccess := n.curSuccess - f.success,
    failed := n.failed - f.missed,
    failedArticles := n.failedArticles - f.missedArticles,
    curFailed := n.curFailed - (f.failed + f.missed),
    total := n.total - f.total,
    curSuccessArticles := n.curSuccessArticles - f.successArticles,
    curFailedArticles := n.curFailedArticles - (f.failedArticles + f.missedArticles),
    remaining := n.remaining - f.remaining,
    extra := n.extra - (if f.extra then 1 else 0),
    parCount := if f.par then n.parCount - 1 else n.parCount,
    parSize := if f.par then n.parSize - f.size else n.parSize,
    parCurSuccess := if f.par then n.parCurSuccess - f.success else n.parCurSuccess,
    parFailed := if f.par then n.parFailed - f.missed else n.parFailed,
    parCurFailed := if f.par then n.parCurFailed - (f.failed + f.missed) else n.parCurFailed,
    pausedCount := if f.paused then n.pausedCount - 1 else n.pausedCount,
    pausedSize := if f.paused then n.pausedSize - f.remaining else n.pausedSize,
    curStats := listOp .subtract n.curStats f.stats }

/-- QueueCoordinator::DeleteFileInfo after the completion of a file, QueueCoordinator.cpp:821-894 with `completed`: counters, list of
completed files, list of files. -/
def completeFile (n : Nzb) (i : Nat) : Nzb :=
  match find i n.files with
  | none => n
  | some f =>
    let n := updateCompletedStats n f
    { n with completed := n.completed ++ [(n.dir, f.id)], files := remove i n.files }

/-- QueueCoordinator::DeleteFileInfo for the deletion of a file of an entry which is not deleted as a whole, and the removal of
duplicate files, QueueCoordinator.cpp:474-482. -/
def deleteFile (n : Nzb) (i : Nat) : Nzb :=
  match find i n.files with
  | none => n
  | some f =>
    let n := updateDeletedStats n f
    { n with files := remove i n.files }

/-- QueueCoordinator::DiscardDownloadedArticles, QueueCoordinator.cpp:1438-1461, called for par2-files only (1390). -/
def discardArticles (n : Nzb) (i : Nat) : Nzb :=
  match find i n.files with
  | none => n
  | some f =>
    if f.par then
      { n with
        remaining := n.remaining + f.success + f.failed,
        pausedSize := if f.paused then n.pausedSize + f.success + f.failed else n.pausedSize,
        curStats := listOp .subtract n.curStats f.stats,
        curSuccessArticles := n.curSuccessArticles - f.successArticles,
        curSuccess := n.curSuccess - f.success,
        parCurSuccess := n.parCurSuccess - f.success,
        curFailedArticles := n.curFailedArticles - f.failedArticles,
        curFailed := n.curFailed - f.failed,
        parCurFailed := n.parCurFailed - f.failed,
        files := change i (fun f => { f with
          stats := [], success := 0, successArticles := 0, failed := 0, failedArticles := 0, completedArticles := 0,
          remaining := f.size - f.missed }) n.files }
    else n

/-- The body of the loop of NzbInfo::UpdateCurrentStats, DownloadInfo.cpp:670-689. -/
def addFileStats (n : Nzb) (f : File) : Nzb :=
  { n with
    remaining := n.remaining + f.remaining,
    curSuccessArticles := n.curSuccessArticles + f.successArticles,
    curFailedArticles := n.curFailedArticles + f.failedArticles,
    curSuccess := n.curSuccess + f.success,
    curFailed := n.curFailed + f.failed,
    extra := n.extra + (if f.extra then 1 else 0),
    pausedCount := if f.paused then n.pausedCount + 1 else n.pausedCount,
    pausedSize := if f.paused then n.pausedSize + f.remaining else n.pausedSize,
    parCount := if f.par then n.parCount + 1 else n.parCount,
    parCurSuccess := if f.par then n.parCurSuccess + f.success else n.parCurSuccess,
    parCurFailed := if f.par then n.parCurFailed + f.failed else n.parCurFailed,
    curStats := listOp .add n.curStats f.stats }

/-- NzbInfo::UpdateCurrentStats, DownloadInfo.cpp:652-691: what the program computes when the queue is loaded (DiskState.cpp:1837), where
`m_currentServerStats` has been set from `m_serverStats` before (935). -/
def updateCurrentStats (n : Nzb) : Nzb :=
  n.files.foldl addFileStats
    { n with
      pausedCount := 0, parCount := 0, remaining := 0, pausedSize := 0,
      curSuccessArticles := n.successArticles, curFailedArticles := n.failedArticles,
      curSuccess := n.success, curFailed := n.failed,
      parCurSuccess := n.parSuccess, parCurFailed := n.parFailed,
      extra := 0, curStats := listOp .set n.curStats n.stats }

/-- The counters of a new entry, NzbFile.cpp:348-379, one file. -/
def addNewFile (n : Nzb) (f : File) : Nzb :=
  let n := { n with
    files := n.files ++ [f],
    fileCount := n.fileCount + 1,
    total := n.total + f.total,
    failedArticles := n.failedArticles + f.missedArticles,
    curFailedArticles := n.curFailedArticles + f.missedArticles,
    size := n.size + f.size,
    remaining := n.remaining + f.remaining,
    failed := n.failed + f.missed,
    curFailed := n.failed + f.missed }
  if f.par then
    { n with
      parSize := n.parSize + f.size,
      parFailed := n.parFailed + f.missed,
      parCurFailed := n.parFailed + f.missed,
      parCount := n.parCount + 1 }
  else n

/-- NzbInfo::UpdateMinMaxTime, DownloadInfo.cpp:321-347. -/
def minMaxLoop : List File → Int × Int → Int × Int
  | [], t => t
  | f :: l, t =>
    minMaxLoop l (if f.time > 0 then (if f.time < t.1 then f.time else t.1, if f.time > t.2 then f.time else t.2) else t)

def updateMinMaxTime (n : Nzb) : Nzb :=
  match n.files with
  | [] => { n with minTime := 0, maxTime := 0 }
  | f :: l => let t := minMaxLoop (f :: l) (f.time, f.time); { n with minTime := t.1, maxTime := t.2 }

/-! ### Merge -/

/-- QueueCoordinator::SetQueueEntryCategory, QueueCoordinator.cpp:1097-1114, for an entry without post-processing. `dirOf`:
NzbInfo::BuildDestDirName (DownloadInfo.cpp:231-268) with the options. ArticleWriter::MoveCompletedFiles (ArticleWriter.cpp:694-730) moves the
completed files from the old directory; failures and the choice of another name for a file which exists there are not modelled. -/
def setCategory (dirOf : String → String → Nat → String) (n : Nzb) (category : String) : Nzb :=
  let dir := dirOf n.name category n.id
  { n with
    category := category, dir := dir,
    completed := if dir = n.dir then n.completed else n.completed.map (fun c => if c.1 = n.dir then (dir, c.2) else c) }

/-- QueueCoordinator::MergeQueueEntries, QueueCoordinator.cpp:1148-1229. `none`: refused. (`SetFilename(GetFilename())` has no effect.)
The change of `m_downloadSec` made by `SetActiveDownloads` is not modelled. -/
def mergeEntries (dirOf : String → String → Nat → String) (dest src : Nzb) : Option Nzb :=
  if dest.post || src.post then none
  else if dest.url || src.url then none
  else
    let src := setCategory dirOf src dest.category
    some { dest with
      files := dest.files ++ src.files,
      fileCount := dest.fileCount + src.fileCount,
      active := dest.active + src.active,
      size := dest.size + src.size,
      remaining := dest.remaining + src.remaining,
      pausedCount := dest.pausedCount + src.pausedCount,
      pausedSize := dest.pausedSize + src.pausedSize,
      success := dest.success + src.success,
      curSuccess := dest.curSuccess + src.curSuccess,
      failed := dest.failed + src.failed,
      curFailed := dest.curFailed + src.curFailed,
      parSize := dest.parSize + src.parSize,
      parSuccess := dest.parSuccess + src.parSuccess,
      parCurSuccess := dest.parCurSuccess + src.parCurSuccess,
      parFailed := dest.parFailed + src.parFailed,
      parCurFailed := dest.parCurFailed + src.parCurFailed,
      parCount := dest.parCount + src.parCount,
      total := dest.total + src.total,
      successArticles := dest.successArticles + src.successArticles,
      failedArticles := dest.failedArticles + src.failedArticles,
      curSuccessArticles := dest.curSuccessArticles + src.curSuccessArticles,
      curFailedArticles := dest.curFailedArticles + src.curFailedArticles,
      stats := listOp .add dest.stats src.stats,
      curStats := listOp .add dest.curStats src.curStats,
      minTime := if src.minTime < dest.minTime then src.minTime else dest.minTime,
      maxTime := if src.maxTime > dest.maxTime then src.maxTime else dest.maxTime,
      downloadedSize := dest.downloadedSize + src.downloadedSize,
      downloadSec := dest.downloadSec + src.downloadSec,
      startTime := if (dest.startTime > 0 ∧ dest.startTime < src.startTime) ∨ src.startTime = 0 then dest.startTime else src.startTime,
      completed := dest.completed ++ src.completed,
      queued := dest.queued ++ "|" ++ src.queued }

/-- The entry of an id in the queue. -/
def entry (i : Nat) (q : List Nzb) : Option Nzb := q.find? (fun n => n.id == i)

/-- The loop of QueueEditor::MergeGroups, QueueEditor.cpp:1008-1018, over the ids of the items. `none`: an entry which was merged before is
used again (its memory has been freed): undefined. The result: the queue and `ok`. -/
def mergeLoop (dirOf : String → String → Nat → String) (dest : Nat) : List Nat → List Nzb → Bool → Option (List Nzb × Bool)
  | [], q, ok => some (q, ok)
  | i :: items, q, ok =>
    if i = dest then mergeLoop dirOf dest items q ok
    else
      match entry dest q, entry i q with
      | some d, some s =>
        match mergeEntries dirOf d s with
        | some m =>
          mergeLoop dirOf dest items ((q.filter (fun n => n.id != i)).map (fun n => if n.id = dest then m else n)) false
        | none => mergeLoop dirOf dest items q ok
      | _, _ => none

/-- QueueEditor::MergeGroups, QueueEditor.cpp:997-1021. -/
def mergeGroups (dirOf : String → String → Nat → String) (items : List Nat) (q : List Nzb) : Option (List Nzb × Bool) :=
  match items with
  | [] => some (q, false)
  | dest :: _ => mergeLoop dirOf dest items q true

/-! ### Split -/

/-- One turn of the loop of QueueCoordinator::SplitQueueEntries, QueueCoordinator.cpp:1280-1328, for a file `f` of `src`. -/
def splitFile (src new : Nzb) (f : File) : Nzb × Nzb :=
  let src := { src with
    files := remove f.id src.files,
    fileCount := src.fileCount - 1,
    size := src.size - f.size,
    remaining := src.remaining - f.remaining,
    curSuccess := src.curSuccess - f.success,
    curFailed := src.curFailed - f.failed - f.missed,
    total := src.total - f.total,
    failedArticles := src.failedArticles - f.missedArticles,
    curSuccessArticles := src.curSuccessArticles - f.successArticles,
    curFailedArticles := src.curFailedArticles - f.failedArticles - f.missedArticles,
    curStats := listOp .subtract src.curStats f.stats }
  let new := { new with
    files := new.files ++ [f],
    fileCount := new.fileCount + 1,
    size := new.size + f.size,
    remaining := new.remaining + f.remaining,
    curSuccess := new.curSuccess + f.success,
    curFailed := new.curFailed + f.failed + f.missed,
    total := new.total + f.total,
    failedArticles := new.failedArticles + f.missedArticles,
    curSuccessArticles := new.curSuccessArticles + f.successArticles,
    curFailedArticles := new.curFailedArticles + f.failedArticles + f.missedArticles,
    curStats := listOp .add new.curStats f.stats }
  let src := if f.par then { src with
    parSize := src.parSize - f.size,
    parCurSuccess := src.parCurSuccess - f.success,
    parCurFailed := src.parCurFailed - f.failed - f.missed,
    parCount := src.parCount - 1 } else src
  let new := if f.par then { new with
    parSize := new.parSize + f.size,
    parCurSuccess := new.parCurSuccess + f.success,
    parCurFailed := new.parCurFailed + f.failed + f.missed,
    parCount := new.parCount + 1 } else new
  let src := if f.paused then { src with
    pausedCount := src.pausedCount - 1,
    pausedSize := src.pausedSize - f.remaining } else src
  let new := if f.paused then { new with
    pausedCount := src.pausedCount + 1,
    pausedSize := new.pausedSize + f.remaining } else new
  (src, new)

/-- The loop, QueueCoordinator.cpp:1278-1329. `none`: the file is not in the list of `src`, `Remove` returns a null pointer which is
added to the new list and read by `UpdateMinMaxTime` (1331): undefined. -/
def splitLoop : List Nat → Nzb → Nzb → Option (Nzb × Nzb)
  | [], src, new => some (src, new)
  | i :: sel, src, new =>
    match find i src.files with
    | none => none
    | some f => splitLoop sel (splitFile src new f).1 (splitFile src new f).2

/-- The entry which has the file of an id. -/
def owner (i : Nat) (q : List Nzb) : Option Nzb := q.find? (fun n => (find i n.files).isSome)

/-- The check of one file, QueueCoordinator.cpp:1247-1256. -/
def splittable (q : List Nzb) (i : Nat) : Bool :=
  match owner i q with
  | none => false
  | some n =>
    match find i n.files with
    | none => false
    | some f => !(f.active > 0 || f.completedArticles > 0) && !n.post

/-- QueueCoordinator::SplitQueueEntries, QueueCoordinator.cpp:1236-1347, for files of the queue. `newId`: the id of the new entry. The
outer `none`: undefined. The inner one: the command is refused. Notifications are not modelled. -/
def splitEntries (dirOf : String → String → Nat → String) (q : List Nzb) (sel : List Nat) (name : String) (newId : Nat) :
    Option (Option (List Nzb)) :=
  match sel with
  | [] => some none
  | i :: _ =>
    if !sel.all (splittable q) then some none
    else
      match owner i q with
      | none => some none
      | some src =>
        let new := { Nzb.new newId with
          name := name, category := src.category, dir := dirOf name src.category newId, queued := src.queued }
        (splitLoop sel src new).map fun r =>
          let new := updateMinMaxTime r.2
          let src' := if r.1.completed.isEmpty then updateMinMaxTime r.1 else r.1
          let q := if src'.files.isEmpty then q.filter (fun n => n.id != src.id)
            else q.map (fun n => if n.id = src.id then src' else n)
          some (q ++ [new])

end Verif.Counters
