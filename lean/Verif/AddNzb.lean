import Verif.CStr
/-
Model of adding a parsed nzb-file to the queue: /repo/daemon/queue/QueueCoordinator.cpp AddNzbFileToQueue (350-430) and
CheckDupeFileInfos (432-483), with what PrePostProcessor::NzbAdded (PrePostProcessor.cpp:308-332) and NzbCompleted (407-448) do
to the new entry.

What is simplified: the result of the duplicate check, which the listeners of eaNzbFound make (model Dupe), is a parameter. What
the listeners of eaNzbAdded do with other entries and with the files of the new one (pausing, sorting), messages, scripts and the
state on disk are not modelled. An entry is known by its number and whether it is a URL, instead of by its address; the number of a
new entry is not used yet.
-/
namespace Verif.AddNzb
open CStr

/-- A file of a collection. -/
structure File where
  id : Nat
  name : Bytes
  size : Nat
deriving DecidableEq, Repr

/-- An entry of the queue with its counters of files and bytes. -/
structure Entry where
  id : Nat
  isUrl : Bool
  files : List File
  fileCount : Int
  size : Int
deriving DecidableEq, Repr

/-- EDeleteStatus (DownloadInfo.h:418-428). -/
inductive Del where
  | none
  | manual
  | health
  | dupe
  | bad
  | good
  | copy
  | scan
deriving DecidableEq, Repr

/-- The number of files of a name (QueueCoordinator.cpp:456-460). -/
def count (fs : List File) (n : Bytes) : Nat := (fs.filter (fun f => f.name == n)).length

/-- Whether the file at a place is left out (QueueCoordinator.cpp:439-470). -/
def isDupe (fs : List File) (i : Nat) (f : File) : Bool :=
  fs.zipIdx.any (fun p => p.2 != i && f.name == p.1.name && (decide (f.size < p.1.size) || (f.size == p.1.size && decide (p.2 < i))) &&
    count fs p.1.name == 2)

/-- `dupeList`. -/
def dupes (fs : List File) : List File := (fs.zipIdx.filter (fun p => isDupe fs p.2 p.1)).map (·.1)

/-- What is kept in the list (QueueCoordinator.cpp:475-477). -/
def kept (fs : List File) : List File := (fs.zipIdx.filter (fun p => !isDupe fs p.2 p.1)).map (·.1)

/-- CheckDupeFileInfos (QueueCoordinator.cpp:432-483) with the counters which UpdateDeletedStats (DownloadInfo.cpp:716-746)
changes. The second part: whether memory is read which was freed before, because the file is destroyed by `Remove` (477) before its
number is read (480). -/
def checkFiles (server : Bool) (e : Entry) : Entry × Bool :=
  ({ e with
    files := kept e.files
    fileCount := e.fileCount - (dupes e.files).length
    size := e.size - ((dupes e.files).map (fun f => (f.size : Int))).sum },
   server && !(dupes e.files).isEmpty)

/-- `insert(Find(urlInfo), …)` (QueueCoordinator.cpp:387): before the URL, or at the end if it is not there. -/
def insertAt (u : Nat) (e : Entry) : List Entry → List Entry
  | [] => [e]
  | x :: q => if x.isUrl && x.id == u then e :: x :: q else x :: insertAt u e q

/-- `Remove(urlInfo)`. -/
def removeUrl (u : Nat) : List Entry → List Entry
  | [] => []
  | x :: q => if x.isUrl && x.id == u then q else x :: removeUrl u q

/-- The entries: those of the queue and the numbers in the history, the newest first. -/
structure State where
  queue : List Entry
  history : List Nat
deriving DecidableEq, Repr

structure Opts where
  dupeCheck : Bool
  server : Bool
  keepHistory : Bool
deriving DecidableEq, Repr

/-- The result: the new state, the number of the entry which is returned, and whether freed memory was read. -/
structure Result where
  state : State
  added : Option Nat
  freed : Bool
deriving DecidableEq, Repr

/-- Whether NzbAdded completes the entry at once (PrePostProcessor.cpp:321-327). -/
def completes : Del → Bool
  | .dupe => true
  | .copy => true
  | .good => true
  | .scan => true
  | _ => false

/-- AddNzbFileToQueue (QueueCoordinator.cpp:350-430). `found`: the delete status after the duplicate check; `force`: the duplicate mode
is "force"; `avoid`: the entry must not be in the history; `url`: the number of the URL which it was fetched from. -/
def add (o : Opts) (found : Del) (force avoid : Bool) (nzb : Entry) (url : Option Nat) (first : Bool) (s : State) : Result :=
  let id := url.getD nzb.id
  if found = .none then
    let c := if o.dupeCheck && !force then checkFiles o.server nzb else (nzb, false)
    let e := { c.1 with id := id }
    let q := match url with
      | some u => removeUrl u (insertAt u e s.queue)
      | none => if first then e :: s.queue else s.queue ++ [e]
    ⟨⟨q, s.history⟩, some id, c.2⟩
  else
    let q := match url with
      | some u => removeUrl u s.queue
      | none => s.queue
    if completes found && o.keepHistory && !avoid then ⟨⟨q, id :: s.history⟩, some id, false⟩
    -- the entry is destroyed (PrePostProcessor.cpp:441 or QueueCoordinator.cpp:420), then its number is read (421)
    else ⟨⟨q, s.history⟩, none, true⟩

end Verif.AddNzb
