/-
Model of the state files of the queue directory: daemon/queue/DiskState.cpp:127-254 `StateFile` and
the order of the writes in 263-319 `SaveDownloadQueue`, 321-423 `LoadDownloadQueue`,
425-459 `SaveDownloadProgress`, 1478-1515 `DiscardDownloadQueue`, 1517-1523 `DownloadQueueExists` and
daemon/queue/QueueCoordinator.cpp:112-184 `Load`.

Simplifications. A crash is a crash of the process (or of a system which keeps the order of writes): what
has been written stays. Creating a file, appending one byte, deleting and renaming are the atomic steps; the
buffering of `DiskFile` is covered, because a prefix of the bytes is on disk at any moment. File operations
do not fail.
-/
namespace Verif.StateFile

abbrev Bytes := List UInt8

/-- The two file names of one `StateFile` with `transactional = true` (DiskState.cpp:127-139):
`dest` is "queue", `temp` is "queue.new". `none`: there is no such file. -/
structure Slot where
  dest : Option Bytes
  temp : Option Bytes
  deriving DecidableEq, Repr

/-- Atomic steps on the file system. -/
inductive Micro where
  | openTemp        -- `m_file.Open(m_tempFilename, omWrite)`, line 165
  | put (b : UInt8) -- one byte of `PrintLine`, line 55
  | delDest         -- `DeleteFile(m_destFilename)`, lines 143 and 200
  | rename          -- `MoveFile(m_tempFilename, m_destFilename)`, line 201
  deriving DecidableEq, Repr

/-- Effect of an atomic step. -/
def Micro.run : Micro → Slot → Slot
  | .openTemp, s => { s with temp := some [] }
  | .put b, s => { s with temp := s.temp.map (· ++ [b]) }
  | .delDest, s => { s with dest := none }
  | .rename, s => match s.temp with
    | some t => { dest := some t, temp := none }
    | none => s

def runOps (ops : List Micro) (s : Slot) : Slot := ops.foldl (fun s o => o.run s) s

/-- `BeginWrite`, the writing of the contents (signature line included) and `FinishWrite`
(DiskState.cpp:163-220). -/
def saveOps (new : Bytes) : List Micro := .openTemp :: (new.map .put ++ [.delDest, .rename])

/-- `StateFile::Discard` (DiskState.cpp:141-144). -/
def discardOps : List Micro := [.delDest]

/-- `StateFile::FileExists` (DiskState.cpp:158-161). -/
def fileExists (s : Slot) : Bool := s.dest.isSome || s.temp.isSome

/-- File operations of `BeginRead` (DiskState.cpp:222-236): the state of the files afterwards. -/
def beginRead (s : Slot) : Slot :=
  if s.dest.isNone && s.temp.isSome then Micro.run .rename s else s

/-- What a start of the program does with a state file (e.g. DiskState.cpp:329-332):
the file is opened if it exists. -/
def restart (s : Slot) : Slot := if fileExists s then beginRead s else s

/-- The contents the program gets to read at its start, `none` if it finds no file. -/
def contents (s : Slot) : Option Bytes := if fileExists s then (beginRead s).dest else none

/-- What can happen to a state file: a complete save, a complete discard, and a save during which the program
dies after `k` atomic steps and is then started again. -/
inductive Event where
  | save (new : Bytes)
  | discard
  | crash (new : Bytes) (k : Nat)
  deriving DecidableEq, Repr

def Event.run : Event → Slot → Slot
  | .save new, s => runOps (saveOps new) s
  | .discard, s => runOps discardOps s
  | .crash new k, s => restart (runOps ((saveOps new).take k) s)

def runEvents (es : List Event) (s : Slot) : Slot := es.foldl (fun s e => e.run s) s

/-! ### Queue, history and progress together -/

/-- An item of the queue or the history: its id and all its other data. -/
structure Item where
  id : Nat
  data : Nat
  deriving DecidableEq, Repr

/-- The state files of `DiskState` which hold the queue, the history and the progress. -/
structure Disk where
  queue : Slot
  history : Slot
  progress : Slot
  deriving DecidableEq, Repr

/-- An atomic step on one of the three files. -/
inductive DiskOp where
  | q (m : Micro) | h (m : Micro) | p (m : Micro)
  deriving DecidableEq, Repr

def DiskOp.run : DiskOp → Disk → Disk
  | .q m, d => { d with queue := m.run d.queue }
  | .h m, d => { d with history := m.run d.history }
  | .p m, d => { d with progress := m.run d.progress }

def runDisk (ops : List DiskOp) (d : Disk) : Disk := ops.foldl (fun d o => o.run d) d

/-- The formats of the files: how a list of items is written and what is read from any bytes. The reader of
a list (`LoadQueue` 472-491, `LoadHistory`) delivers the items read before an error and whether all was good.
A progress file holds (id, item) pairs (`SaveProgress` 493-506). The check of the format version
(246, 340-350, 371) is part of the readers. -/
structure Format where
  enc : List Item → Bytes
  dec : Bytes → List Item × Bool
  encP : List Item → Bytes
  decP : Bytes → List (Nat × Item) × Bool
  dec_enc : ∀ l, dec (enc l) = (l, true)
  decP_encP : ∀ l, decP (encP l) = (l.map (fun x => (x.id, x)), true)

/-- Steps to store a list: write the file or discard it if the list is empty
(DiskState.cpp:271-288, 294-311). -/
def storeOps (F : Format) (l : List Item) : List Micro :=
  if l.isEmpty then discardOps else saveOps (F.enc l)

/-- `SaveDownloadQueue` (DiskState.cpp:263-319): first the queue, then (if changed) the history, then the
progress file is discarded. -/
def saveQueueOps (F : Format) (queue history : List Item) (saveHistory : Bool) : List DiskOp :=
  (storeOps F queue).map .q ++ ((if saveHistory then (storeOps F history).map .h else []) ++
    discardOps.map .p)

/-- `SaveDownloadProgress` (DiskState.cpp:425-459): `changed` are the queue items with `GetChanged()`. -/
def saveProgressOps (F : Format) (changed : List Item) : List DiskOp :=
  (if changed.isEmpty then discardOps else saveOps (F.encP changed)).map .p

/-- `LoadProgress` (DiskState.cpp:508-535): each pair replaces the data of the queue item with that id; an
unknown id is an error. -/
def applyProgress : List (Nat × Item) → List Item → List Item × Bool
  | [], q => (q, true)
  | (i, x) :: rest, q =>
    if q.any (·.id == i) then applyProgress rest (q.map (fun y => if y.id == i then x else y))
    else (q, false)

/-- Result of `LoadDownloadQueue`. -/
structure Loaded where
  queue : List Item
  history : List Item
  ok : Bool
  deriving DecidableEq, Repr

/-- The history part of `LoadDownloadQueue` (DiskState.cpp:381-400). -/
def loadHistory (F : Format) (s : Slot) (queue : List Item) : Loaded :=
  match contents s with
  | none => ⟨queue, [], true⟩
  | some b => ⟨queue, (F.dec b).1, (F.dec b).2⟩

/-- The progress part of `LoadDownloadQueue` (DiskState.cpp:361-379); an error ends the loading. -/
def loadProgress (F : Format) (d : Disk) (queue : List Item) : Loaded :=
  match contents d.progress with
  | none => loadHistory F d.history queue
  | some b =>
    let r := applyProgress (F.decP b).1 queue
    if (F.decP b).2 && r.2 then loadHistory F d.history r.1 else ⟨r.1, [], false⟩

/-- `LoadDownloadQueue` (DiskState.cpp:321-423). The file infos and file states of the items are not part of
this model. -/
def loadQueue (F : Format) (d : Disk) : Loaded :=
  match contents d.queue with
  | none => loadProgress F d []
  | some b => if (F.dec b).2 then loadProgress F d (F.dec b).1 else ⟨(F.dec b).1, [], false⟩

/-- `DownloadQueueExists` (DiskState.cpp:1517-1523): only the final names are looked at. -/
def downloadQueueExists (d : Disk) : Bool := d.queue.dest.isSome || d.history.dest.isSome

/-- `QueueCoordinator::Load` (QueueCoordinator.cpp:112-132): what the program has in its queue and history
after a start. If `DownloadQueueExists` says no, nothing is loaded and `DiscardDownloadQueue` deletes the
files. -/
def startUp (F : Format) (d : Disk) : Loaded :=
  if downloadQueueExists d then loadQueue F d else ⟨[], [], true⟩

end Verif.StateFile
