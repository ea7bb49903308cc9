import Verif.CStr
import Verif.Dupe

/-
Model of the deletion of a download which is in the queue, while articles of it are being downloaded: QueueEditor::EditGroup
(/repo/daemon/queue/QueueEditor.cpp:716-789) with DeleteEntry (219-228), QueueCoordinator::ArticleCompleted (QueueCoordinator.cpp:683-797),
DeleteDownloader (799-819), DeleteFileInfo (821-894), CheckHealth (997-1028), DeleteQueueEntry (1077-1095), PrePostProcessor::DownloadQueueUpdate
(PrePostProcessor.cpp:212-298), NzbDownloaded (334-379), NzbDeleted (381-405), NzbCompleted (407-448), DeleteCleanup (450-482),
HistoryCoordinator::DeleteDiskFiles (HistoryCoordinator.cpp:88-119), AddToHistory (121-190).

The events are what happens under the lock of the queue, in any order. Not modelled: the other downloads (the search for duplicates after the end
of a download), counters, scripts, the unpacking during the download, renaming during the download, par2 files waited for by a running par-check
(PrePostProcessor.cpp:261-274), temporary files with articles in other directories, paths of 1024 bytes and more.
-/
namespace Verif.DeleteJob
open CStr

/-- CompletedFile::EStatus (DownloadInfo.h:257-263). -/
inductive Cf | none | success | partly | failure
deriving DecidableEq, Repr

/-- FileInfo. `active`: downloads of its articles which are running; `writing`: all are ended, the file is being put together (QueueCoordinator.cpp:788-792);
`dupe`: dropped as duplicate (761); `cf`: how much of it was downloaded (843-847). -/
structure File where
  id : Nat
  name : Bytes
  active : Nat := 0
  writing : Bool := false
  deleted : Bool := false
  paused : Bool := false
  par : Bool := false
  dupe : Bool := false
  cf : Cf := .none
deriving DecidableEq, Repr

/-- CompletedFile (DownloadInfo.h:252-292). -/
structure Done where
  id : Nat
  name : Bytes
  cf : Cf
deriving DecidableEq, Repr

/-- A name in the directory of the download. -/
inductive Kind | file | emptyDir | fullDir
deriving DecidableEq, Repr

structure Ent where
  name : Bytes
  kind : Kind
deriving DecidableEq, Repr

/-- Where the download is: in the queue, in the queue with post-processing (with PostInfo), in the history, nowhere. -/
inductive Place | queue | post | history | gone
deriving DecidableEq, Repr

/-- The commands GroupDelete, GroupParkDelete, GroupDupeDelete, GroupFinalDelete. -/
inductive Act | plain | park | dupe | final
deriving DecidableEq, Repr

/-- Options: KeepHistory, NzbCleanupDisk, RawArticle or SkipWrite. -/
structure Config where
  keep : Nat
  nzbCleanup : Bool
  raw : Bool
deriving DecidableEq, Repr

/-- NzbInfo with its directory. `success`: GetCurrentSuccessArticles; `cleaned`: GetUnpackCleanedUpDisk; `nzb`: the nzb-file is on disk; `discarded`: what is
needed to download the rest of the files later was deleted (DiskState::DiscardFiles). -/
structure Job where
  files : List File
  completed : List Done
  place : Place := .queue
  del : Dupe.Del := .none
  deleting : Bool := false
  parking : Bool := false
  avoid : Bool := false
  cleanup : Bool := false
  cleaned : Bool := false
  success : Nat := 0
  dir : Option (List Ent)
  nzb : Bool := true
  discarded : Bool := false
deriving DecidableEq, Repr

/-! ### The directory -/

/-- The test in PrePostProcessor.cpp:470-471. -/
def isTemp (n : Bytes) : Bool := decide (n.length > 8) && n.drop (n.length - 8) == lit ".out.tmp"

/-- FileSystem::DeleteDirectory (FileSystem.cpp:596-624) of what is left, see C124: an empty directory, or one with hidden names only. -/
def dropDir (l : List Ent) : Option (List Ent) := if l.all (fun e => e.name.head? == some 46) then none else some l

/-- DeleteCleanup (PrePostProcessor.cpp:450-482), the condition aside: `DeleteFile` deletes also empty directories. -/
def sweep (done : List Done) (l : List Ent) : Option (List Ent) :=
  let l := done.foldl (fun l d => if l.contains ⟨d.name, .file⟩ then l.filter (fun e => e.name != d.name) else l) l
  let l := l.filter (fun e => !(isTemp e.name && e.kind != .fullDir))
  dropDir l

/-! ### The end of a download -/

/-- AddToHistory (HistoryCoordinator.cpp:121-190). `good`: lines 141-150, the download is complete as far as par-check and unpack know. -/
def addToHistory (good : Bool) (j : Job) : Job :=
  let completed := j.completed ++ j.files.map (fun f => ⟨f.id, f.name, .none⟩)
  let clean := ((good || j.del != .none) && !j.parking) || j.cleaned
  { j with place := .history, files := [], parking := false, completed := if clean then [] else completed, discarded := j.discarded || clean }

/-- NzbCompleted (PrePostProcessor.cpp:407-448) with DeleteDiskFiles (HistoryCoordinator.cpp:88-119). -/
def nzbCompleted (c : Config) (good : Bool) (j : Job) : Job :=
  let add := decide (c.keep > 0) && !j.avoid
  let j := if add then addToHistory good j else j
  let j := { j with avoid := false }
  if add then j else { j with place := .gone, files := [], discarded := true, nzb := j.nzb && !c.nzbCleanup }

/-- NzbDownloaded (PrePostProcessor.cpp:334-379). -/
def nzbDownloaded (c : Config) (good : Bool) (j : Job) : Job :=
  if j.place != .post && !c.raw then { j with place := .post } else nzbCompleted c good j

/-- DeleteCleanup (PrePostProcessor.cpp:450-482). -/
def deleteCleanup (j : Job) : Job :=
  if j.cleanup || j.del == .dupe then { j with dir := j.dir.bind (sweep j.completed) } else j

/-- PrePostProcessor.cpp:388-392. -/
def setDeleted (j : Job) : Job := { j with del := if j.del = .none then .manual else j.del, deleting := false }

/-- NzbDeleted (PrePostProcessor.cpp:381-405). -/
def nzbDeleted (c : Config) (good : Bool) (j : Job) : Job :=
  let j := deleteCleanup (setDeleted j)
  if j.del == .health || j.del == .bad then nzbDownloaded c good j else nzbCompleted c good j

/-- NzbInfo::IsDownloadCompleted (DownloadInfo.cpp:748-765). -/
def isCompleted (ignorePausedPars : Bool) (j : Job) : Bool :=
  j.files.all (fun f => f.active == 0) && j.files.all (fun f => f.paused && ignorePausedPars && f.par || f.deleted)

/-! ### Files -/

/-- The part of DownloadQueueUpdate for files (PrePostProcessor.cpp:253-297). `f` is no longer in the list. -/
def fileGone (c : Config) (good completed : Bool) (f : File) (j : Job) : Job :=
  if j.place == .post then j
  else if (completed || f.dupe) && j.del != .health && isCompleted true j then nzbDownloaded c good j
  else if (!completed || j.del != .none) && isCompleted false j then nzbDeleted c good j
  else j

/-- DeleteFileInfo (QueueCoordinator.cpp:821-894). -/
def deleteFileInfo (c : Config) (good completed : Bool) (f : File) (j : Job) : Job :=
  fileGone c good (completed && !f.deleted) f
    { j with
      files := j.files.filter (fun g => g.id != f.id)
      completed := if completed || j.parking then j.completed ++ [⟨f.id, f.name, f.cf⟩] else j.completed }

def setFile (id : Nat) (g : File → File) (j : Job) : Job := { j with files := j.files.map (fun f => if f.id = id then g f else f) }

/-- DeleteQueueEntry (QueueCoordinator.cpp:1077-1095): a file with running downloads waits for them. -/
def deleteQueueEntry (c : Config) (good : Bool) (f : File) (j : Job) : Job :=
  let j := setFile f.id (fun f => { f with deleted := true }) j
  if f.active = 0 then deleteFileInfo c good false { f with deleted := true } j else j

/-- QueueEditor::DeleteEntry (QueueEditor.cpp:219-228). -/
def deleteEntry (c : Config) (good : Bool) (j : Job) (id : Nat) : Job :=
  match j.files.find? (fun f => f.id == id) with
  | none => j
  | some f => if f.deleted then j else deleteQueueEntry c good f j

/-- QueueEditor.cpp:729-746. -/
def mark (c : Config) (a : Act) (j : Job) : Job :=
  { j with
    deleting := true
    parking := a == .park && decide (c.keep > 0) && !j.cleaned && decide (j.success > 0)
    avoid := a == .final
    del := if a == .dupe then .dupe else j.del
    cleanup := a != .park }

/-- EditGroup (QueueEditor.cpp:716-789) for the four commands; its end is the case eaNzbDeleted of DownloadQueueUpdate (PrePostProcessor.cpp:234-244). -/
def editGroup (c : Config) (good : Bool) (a : Act) (j : Job) : Job :=
  let ids := j.files.map (·.id)
  let j := ids.foldl (deleteEntry c good) (mark c a j)
  if a != .park && j.place == .queue && j.deleting && j.files.isEmpty then nzbDeleted c good j else j

/-- What CheckHealth (QueueCoordinator.cpp:997-1028) does if the health is too low and the option is Delete or Park. -/
def checkHealth (c : Config) (good : Bool) (a : Act) (j : Job) : Job :=
  if j.del = .health then j else editGroup c good a { j with del := .health }

/-! ### Events -/

/-- `delete`: one of the commands, for this download. `start`: the download of an article begins. `ended`: the download of an article ends; `all`: it was the
last of the file, `dupe`: its name shows that the file is a duplicate, `cf`: how much of the file is downloaded now, `ok`: the article was
downloaded, `low`: the health check acts. `written`: the file is put together, with this name. `post`: post-processing ended. -/
inductive Ev
  | delete (a : Act)
  | start (id : Nat)
  | ended (id : Nat) (ok all dupe : Bool) (cf : Cf) (low : Option Act)
  | written (id : Nat) (name : Bytes)
  | post
deriving DecidableEq, Repr

/-- ArticleCompleted, the counting and the name (QueueCoordinator.cpp:695-764). -/
def noted (id : Nat) (ok dupe : Bool) (cf : Cf) (j : Job) : Job :=
  setFile id (fun f => { f with cf := cf, dupe := f.dupe || dupe, deleted := f.deleted || dupe }) { j with success := j.success + if ok then 1 else 0 }

/-- QueueCoordinator.cpp:773. -/
def health (c : Config) (good : Bool) (low : Option Act) (j : Job) : Job :=
  match low with
  | none => j
  | some a => checkHealth c good a j

/-- QueueCoordinator.cpp:775-785 with DeleteDownloader (799-819). When the last article of a file ended, no other download of it runs. -/
def settle (c : Config) (good : Bool) (id : Nat) (all dupe : Bool) (j : Job) : Job :=
  match j.files.find? (fun g => g.id == id) with
  | none => j
  | some f =>
    let completed := all && f.active == 1 && !dupe || j.parking && f.active == 1 && !f.dupe
    if completed && (!f.deleted || j.parking) then setFile f.id (fun f => { f with writing := true }) j
    else if f.deleted && f.active == 1 then
      deleteFileInfo c good false { f with active := 0 } (setFile f.id (fun f => { f with active := f.active - 1 }) j)
    else setFile f.id (fun f => { f with active := f.active - 1 }) j

/-- ArticleCompleted (QueueCoordinator.cpp:683-786). -/
def articleEnded (c : Config) (good : Bool) (f : File) (ok all dupe : Bool) (cf : Cf) (low : Option Act) (j : Job) : Job :=
  settle c good f.id all dupe (health c good low (noted f.id ok dupe cf j))

/-- The second part of ArticleCompleted (QueueCoordinator.cpp:788-796): the file is in the directory. -/
def fileWritten (c : Config) (good : Bool) (f : File) (name : Bytes) (j : Job) : Job :=
  let dir := match j.dir with
    | none => some [⟨name, .file⟩]
    | some l => some (if l.contains ⟨name, .file⟩ then l else l ++ [⟨name, .file⟩])
  deleteFileInfo c good true { f with name := name, active := 0 } { j with dir := dir }

def step (c : Config) (good : Bool) (j : Job) : Ev → Job
  | .delete a => if j.place = .queue ∨ j.place = .post then editGroup c good a j else j
  | .start id =>
    if (j.place = .queue ∨ j.place = .post) ∧ j.files.any (fun f => !f.deleted) then
      setFile id (fun f => if f.writing then f else { f with active := f.active + 1 }) j
    else j
  | .ended id ok all dupe cf low =>
    match j.files.find? (fun f => f.id == id) with
    | none => j
    | some f => if f.active = 0 ∨ f.writing then j else articleEnded c good f ok all dupe cf low j
  | .written id name =>
    match j.files.find? (fun f => f.id == id) with
    | none => j
    | some f => if f.writing then fileWritten c good f name j else j
  | .post => if j.place = .post then nzbCompleted c good j else j

def exec (c : Config) (good : Bool) (j : Job) (evs : List Ev) : Job := evs.foldl (step c good) j

end Verif.DeleteJob
