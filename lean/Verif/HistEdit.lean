import Verif.DelTree
import Verif.FileName
import Verif.Dupe
import Verif.PostJob
import Verif.PpParam

/-
Model of the commands for history entries: /repo/daemon/queue/HistoryCoordinator.cpp DeleteDiskFiles (88-119), HistoryHide (192-224), EditList
(243-329), HistoryDelete (331-369), MoveToQueue (371-430), HistoryRedownload (432-538), HistorySetParameter (719-743), HistorySetCategory
(745-758), HistorySetName (760-780), HistorySetDupeParam (782-870), with NzbInfo::BuildDestDirName (DownloadInfo.cpp:231-268).

The disk is that of `DelTree`, without links and locked entries, where deleting a directory is what is proved in C124; `.` and `..` in
paths are resolved by their names. Not modelled: the commands for marking (C25), for returning and processing (C98), the files in the queue
directory, hash sums, sizes and counters of the job, log messages, the notification after a job came back to the queue (duplicates).
-/
namespace Verif.HistEdit
open CStr DelTree

/-! ### The disk -/

/-- A path with `.` and `..` resolved; `up` is the place so far, reversed. -/
def resolve : (up : Path) → Path → Path
  | up, [] => up.reverse
  | up, n :: r =>
    if n = [46] then resolve up r
    else if n = [46, 46] then resolve up.tail r
    else resolve (n :: up) r

def place (b : Bytes) : Path := resolve [] (parts b)

/-- The last component is `.` or `..`: then `rmdir` fails. -/
def dotted (b : Bytes) : Bool := (parts b).getLast? == some [46] || (parts b).getLast? == some [46, 46]

/-- FileSystem::FileExists (FileSystem.cpp:529-547). -/
def fileExists (fs : Fs) (b : Bytes) : Bool := kindOf fs (place b) == some .file

/-- FileSystem::DirectoryExists (FileSystem.cpp:549-574). -/
def dirExists (fs : Fs) (b : Bytes) : Bool := kindOf fs (place b) == some .dir

/-- FileSystem::DeleteDirectoryWithContent (FileSystem.cpp:626-662), see C124. -/
def deleteDir (fs : Fs) (b : Bytes) : Fs :=
  fs.filter (fun e => !(place b).isPrefixOf e.1 || (e.1 == place b && dotted b))

/-! ### Entries -/

/-- NzbInfo, what is used. `queued`: the nzb-file, several with `|` between them. -/
structure Job where
  isUrl : Bool
  name : Bytes
  category : Bytes
  dir : Bytes
  queued : Bytes
  del : Dupe.Del
  mark : Dupe.Mark
  par : PostJob.Par
  unpack : PostJob.Unp
  success : Bool
  key : Bytes
  score : Int
  mode : Dupe.Mode
  params : List (Bytes × Bytes)
deriving DecidableEq, Repr

/-- DupInfo (DownloadInfo.h:847-890), what is used. -/
structure Dup where
  name : Bytes
  key : Bytes
  score : Int
  mode : Dupe.Mode
  status : Dupe.DupStatus
deriving DecidableEq, Repr

inductive What where
  | job (j : Job)
  | dup (d : Dup)
deriving DecidableEq, Repr

structure Entry where
  id : Nat
  time : Int
  what : What
deriving DecidableEq, Repr

/-- The options, and the number of files the parser finds in an nzb-file (nothing if it can't be parsed). -/
structure Config where
  interDir : Bytes
  destDir : Bytes
  catDir : Bytes → Bytes
  append : Bool
  dupeCheck : Bool
  nzbCleanup : Bool
  parse : Bytes → Option Nat

structure State where
  queue : List (Nat × Job)
  hist : List Entry
  fs : Fs
  saved : Bool

/-- NzbInfo::BuildDestDirName (DownloadInfo.cpp:231-241) with BuildFinalDirName (243-268). -/
def destOf (c : Config) (id : Nat) (j : Job) : Bytes :=
  if c.interDir = [] then FileName.finalDir c.destDir (c.catDir j.category) c.append j.category j.name
  else c.interDir ++ 47 :: j.name ++ lit ".#" ++ dec id

/-! ### Deleting -/

/-- The names between the bars (HistoryCoordinator.cpp:105-118). -/
def names : Bytes → List Bytes
  | [] => [[]]
  | b :: s =>
    if b = 124 then [] :: names s
    else
      match names s with
      | [] => [[b]]
      | n :: r => (b :: n) :: r

/-- HistoryCoordinator::DeleteDiskFiles (HistoryCoordinator.cpp:88-119), the nzb-files. -/
def deleteDiskFiles (c : Config) (j : Job) (fs : Fs) : Fs :=
  if !c.nzbCleanup then fs
  else (names j.queued).foldl (fun fs n => if fileExists fs n then unlink fs (place n) else fs) fs

/-- The status of the hidden entry (HistoryCoordinator.cpp:205-215). -/
def hiddenStatus (j : Job) : Dupe.DupStatus :=
  if j.mark == .good then .good
  else if j.mark == .bad then .bad
  else if j.mark == .success then .success
  else if j.del == .dupe then .dupe
  else if j.del == .manual || j.del == .good || j.del == .copy then .deleted
  else if j.success then .success
  else .failed

/-- HistoryCoordinator::HistoryHide (HistoryCoordinator.cpp:192-224): the new entry. -/
def hide (e : Entry) (j : Job) : Entry := { e with what := .dup ⟨j.name, j.key, j.score, j.mode, hiddenStatus j⟩ }

/-- The condition in HistoryCoordinator.cpp:342-345. -/
def failed (j : Job) : Bool := j.del != .none || j.par == .failure || j.unpack == .failure || j.unpack == .password

/-- What HistoryDelete does with the disk (HistoryCoordinator.cpp:336-354). -/
def deleteFiles (c : Config) (e : Entry) (fs : Fs) : Fs :=
  match e.what with
  | .dup _ => fs
  | .job j =>
    if j.isUrl then fs
    else
      let fs := deleteDiskFiles c j fs
      if failed j && dirExists fs j.dir then deleteDir fs j.dir else fs

/-- HistoryCoordinator::HistoryDelete (HistoryCoordinator.cpp:331-369) for the entry at `i`. -/
def historyDelete (c : Config) (final : Bool) (i : Nat) (e : Entry) (s : State) : State :=
  let fs := deleteFiles c e s.fs
  match e.what with
  | .dup _ => if final || !c.dupeCheck then { s with hist := s.hist.eraseIdx i, fs := fs } else { s with fs := fs }
  | .job j =>
    if final || !c.dupeCheck || j.isUrl then { s with hist := s.hist.eraseIdx i, fs := fs }
    else { s with hist := s.hist.set i (hide e j), fs := deleteDiskFiles c j fs }

/-! ### Downloading again -/

/-- The statuses which HistoryRedownload and MoveToQueue reset (HistoryCoordinator.cpp:386-409, 506-511). -/
def fresh (j : Job) : Job := { j with del := .none, mark := .none, par := .none, unpack := .none }

/-- HistoryCoordinator.cpp:483-502: the directory is deleted, and that with the new name. -/
def clearDirs (c : Config) (id : Nat) (j : Job) (fs : Fs) : Fs :=
  let fs := if dirExists fs j.dir then deleteDir fs j.dir else fs
  if dirExists fs (destOf c id j) then deleteDir fs (destOf c id j) else fs

/-- HistoryCoordinator::HistoryRedownload (HistoryCoordinator.cpp:432-538) for the entry at `i`. -/
def historyRedownload (c : Config) (i : Nat) (e : Entry) (s : State) : State :=
  match e.what with
  | .dup _ => s
  | .job j =>
    if j.isUrl then { s with queue := (e.id, { j with del := .none }) :: s.queue, hist := s.hist.eraseIdx i }
    else if !fileExists s.fs j.queued then s
    else if (c.parse j.queued).isNone then s
    else
      { s with queue := (e.id, { fresh j with dir := destOf c e.id j }) :: s.queue, hist := s.hist.eraseIdx i, fs := clearDirs c e.id j s.fs }

/-! ### Changing -/

/-- HistoryCoordinator::HistorySetParameter (HistoryCoordinator.cpp:719-743). -/
def setParameter (text : Bytes) (e : Entry) : Bool × Entry :=
  match e.what with
  | .dup _ => (false, e)
  | .job j =>
    match text.idxOf? 61 with
    | some k => (true, { e with what := .job { j with params := Record.setParameter j.params (text.take k) (text.drop (k + 1)) } })
    | none => (true, e)

/-- HistoryCoordinator::HistorySetCategory (HistoryCoordinator.cpp:745-758). -/
def setCategory (text : Bytes) (e : Entry) : Bool × Entry :=
  match e.what with
  | .dup _ => (false, e)
  | .job j => (true, { e with what := .job { j with category := text } })

/-- HistoryCoordinator::HistorySetName (HistoryCoordinator.cpp:760-780). -/
def setName (text : Bytes) (e : Entry) : Bool × Entry :=
  if text = [] then (false, e)
  else
    match e.what with
    | .dup d => (true, { e with what := .dup { d with name := text } })
    | .job j => (true, { e with what := .job { j with name := text } })

/-- The modes (HistoryCoordinator.cpp:786-806). -/
def modeOf (text : Bytes) : Option Dupe.Mode :=
  if Rpc.eqNoCase text (lit "SCORE") then some .score
  else if Rpc.eqNoCase text (lit "ALL") then some .all
  else if Rpc.eqNoCase text (lit "FORCE") then some .force
  else none

/-- `atoi`. -/
def atoi (s : Bytes) : Int := (atoll s).bmod (2 ^ 32)

inductive Param where
  | key | score | mode | backup
deriving DecidableEq, Repr

/-- HistoryCoordinator.cpp:836-837. -/
def isYes (text : Bytes) : Bool :=
  Rpc.eqNoCase text (lit "YES") || Rpc.eqNoCase text (lit "TRUE") || Rpc.eqNoCase text (lit "1")

/-- HistoryCoordinator::HistorySetDupeParam (HistoryCoordinator.cpp:782-870). -/
def setDupe (p : Param) (text : Bytes) (e : Entry) : Entry :=
  match p, e.what with
  | .key, .job j => { e with what := .job { j with key := text } }
  | .key, .dup d => { e with what := .dup { d with key := text } }
  | .score, .job j => { e with what := .job { j with score := atoi text } }
  | .score, .dup d => { e with what := .dup { d with score := atoi text } }
  | .mode, .job j =>
    match modeOf text with
    | some m => { e with what := .job { j with mode := m } }
    | none => e
  | .mode, .dup d =>
    match modeOf text with
    | some m => { e with what := .dup { d with mode := m } }
    | none => e
  | .backup, .job j =>
    if j.isUrl then e
    else if j.del != .dupe && j.del != .manual then e
    else { e with what := .job { j with del := if isYes text then .dupe else .manual } }
  | .backup, .dup _ => e

/-! ### The commands -/

inductive Cmd where
  | delete (final : Bool)
  | redownload
  | setParameter (text : Bytes)
  | setCategory (text : Bytes)
  | setName (text : Bytes)
  | setDupe (p : Param) (text : Bytes)
deriving DecidableEq, Repr

/-- The result for a found entry (HistoryCoordinator.cpp:256-315). -/
def resultOf (cmd : Cmd) (e : Entry) : Bool :=
  match cmd with
  | .setParameter t => (setParameter t e).1
  | .setCategory t => (setCategory t e).1
  | .setName t => (setName t e).1
  | _ => true

/-- The action for a found entry (HistoryCoordinator.cpp:258-315). -/
def act (c : Config) (cmd : Cmd) (i : Nat) (e : Entry) (s : State) : State :=
  match cmd with
  | .delete final => historyDelete c final i e s
  | .redownload => historyRedownload c i e s
  | .setParameter t => { s with hist := s.hist.set i (setParameter t e).2 }
  | .setCategory t => { s with hist := s.hist.set i (setCategory t e).2 }
  | .setName t => { s with hist := s.hist.set i (setName t e).2 }
  | .setDupe p t => { s with hist := s.hist.set i (setDupe p t e) }

/-- The loop over the ids (HistoryCoordinator.cpp:249-320). -/
def editLoop (c : Config) (cmd : Cmd) : List Nat → State → Bool → State × Bool
  | [], s, ok => (s, ok)
  | id :: ids, s, ok =>
    match s.hist.findIdx? (fun e => e.id == id) with
    | none => editLoop c cmd ids s ok
    | some i =>
      match s.hist[i]? with
      | none => editLoop c cmd ids s ok
      | some e => editLoop c cmd ids (act c cmd i e s) (resultOf cmd e)

/-- HistoryCoordinator::EditList (HistoryCoordinator.cpp:243-329). -/
def editList (c : Config) (cmd : Cmd) (ids : List Nat) (s : State) : State × Bool :=
  let r := editLoop c cmd ids s false
  (if r.2 then { r.1 with saved := true } else r.1, r.2)

end Verif.HistEdit
