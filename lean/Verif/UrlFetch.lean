/-
Model of the fetching of nzb-files from URLs: /repo/daemon/queue/UrlCoordinator.cpp, with what other parts do to these
items of the queue: PrePostProcessor::NzbDeleted and NzbCompleted, QueueEditor::DeleteUrl,
HistoryCoordinator::HistoryRedownload, QueueCoordinator::AddNzbFileToQueue and the saved queue of DiskState.cpp.

What runs under the guard of the queue is one step; what runs between two guards is a step of its own. Network, scanner
and duplicate check give arbitrary answers. Other kinds of items are not in the lists.
-/
namespace Verif.UrlFetch

/-- EUrlStatus (DownloadInfo.h:438-447). `lsRetry` is never set. -/
inductive Status where
  | none | running | finished | failed | scanSkipped | scanFailed
deriving DecidableEq, Repr

/-- What matters of NzbInfo for a URL. `del`: GetDeleteStatus is not dsNone; `active`: GetActiveDownloads is 1. -/
structure Item where
  id : Nat
  prio : Int
  status : Status
  del : Bool
  deleting : Bool
  avoid : Bool
  active : Bool
deriving DecidableEq, Repr

/-- Where a thread of a download is. `running`: it is in m_activeDownloads; `clear`: before line 339; `scan`: in
AddExternalFile; `report`: before the last block of UrlCompleted. -/
inductive Pc where
  | running | clear | scan | report
deriving DecidableEq, Repr

/-- A thread with the item to which it has a pointer. -/
structure Dl where
  tid : Nat
  item : Nat
  pc : Pc
deriving DecidableEq, Repr

/-- `nzbs`: the ids of the URLs which were replaced by their nzb-files, `freed`: those of items which were destroyed without
that. Both only record what happened. `next`: number of the next thread. -/
structure St where
  queue : List Item
  history : List Item
  dls : List Dl
  nzbs : List Nat
  freed : List Nat
  next : Nat
deriving DecidableEq, Repr

/-- `limit`: UrlConnections, `keep`: KeepHistory is not 0. -/
structure Cfg where
  limit : Nat
  keep : Bool

/-- The condition of UrlCoordinator::GetNextUrl without the priority (UrlCoordinator.cpp:233-235). -/
def waiting (x : Item) : Bool := x.status = .none && !x.del

/-- Nothing was found yet or this one has a higher priority (UrlCoordinator.cpp:236). -/
def better : Option Item → Item → Bool
  | none, _ => true
  | some b, x => decide (x.prio > b.prio)

/-- UrlCoordinator::GetNextUrl (UrlCoordinator.cpp:227-243). -/
def getNext : Option Item → List Item → Option Item
  | best, [] => best
  | best, x :: l =>
    getNext (if waiting x && better best x then some x else best) l

/-- A change of the item with this id, wherever it is. -/
def upd (f : Item → Item) (id : Nat) (l : List Item) : List Item := l.map (fun x => if x.id = id then f x else x)

/-- A write through the pointer of a thread. -/
def St.write (s : St) (id : Nat) (f : Item → Item) : St := { s with queue := upd f id s.queue, history := upd f id s.history }

/-- The downloads in m_activeDownloads. -/
def listed (s : St) : List Dl := s.dls.filter (fun d => d.pc = .running)

/-- UrlCoordinator::StartUrlDownload (UrlCoordinator.cpp:245-265). -/
def startOn (s : St) (x : Item) : St :=
  { s.write x.id (fun x => { x with active := true, status := .running }) with
    dls := s.dls ++ [⟨s.next, x.id, .running⟩], next := s.next + 1 }

/-- The block in Run (UrlCoordinator.cpp:97-110); the condition with the pause is not modelled. -/
def start (c : Cfg) (s : St) : St :=
  if (listed s).length < c.limit then
    match getNext none s.queue with
    | some x => startOn s x
    | none => s
  else s

/-- The thread goes on. -/
def goto (s : St) (tid : Nat) (pc : Pc) : St :=
  { s with dls := s.dls.map (fun d => if d.tid = tid then { d with pc := pc } else d) }

/-- The thread ends. -/
def endThread (s : St) (tid : Nat) : St := { s with dls := s.dls.filter (fun d => decide (d.tid ≠ tid)) }

inductive Result where
  | finished | failed | retry
deriving DecidableEq, Repr

/-- The change of the item in the first block of UrlCompleted (UrlCoordinator.cpp:311-328). -/
def mark (r : Result) (x : Item) : Item :=
  if x.deleting then { x with del := true, status := .none, deleting := false }
  else match r with
    | .finished => { x with status := .finished }
    | .failed => { x with status := .failed }
    | .retry => { x with status := .none }

/-- The item to which a thread has a pointer. -/
def find (s : St) (id : Nat) : Option Item :=
  match s.queue.find? (fun x => x.id == id) with
  | some x => some x
  | none => s.history.find? (fun x => x.id == id)

/-- The first block of UrlCompleted and the decision behind it (UrlCoordinator.cpp:303-343). -/
def finish (s : St) (tid : Nat) (r : Result) : St :=
  match s.dls.find? (fun d => d.tid == tid) with
  | some d =>
    if d.pc = .running then
      match find s d.item with
      | some x =>
        let s' := s.write d.item (mark r)
        if r = .retry ∧ x.deleting = false then goto s' tid .clear
        else if (mark r x).status = .finished then goto s' tid .scan
        else goto s' tid .report
      | none => s
    else s
  | none => s

/-- `SetActiveDownloads(0)` behind the first block, not under the guard (UrlCoordinator.cpp:337-341). -/
def clear (s : St) (tid : Nat) : St :=
  match s.dls.find? (fun d => d.tid == tid) with
  | some d => if d.pc = .clear then endThread (s.write d.item (fun x => { x with active := false })) tid else s
  | none => s

/-- The item leaves the queue: the end of NzbCompleted (PrePostProcessor.cpp:407-447) and AddToHistory
(HistoryCoordinator.cpp:121-127). -/
def leave (c : Cfg) (s : St) (x : Item) : St :=
  if c.keep && !x.avoid then
    { s with queue := s.queue.filter (fun y => decide (y.id ≠ x.id)), history := { x with avoid := false } :: s.history }
  else { s with queue := s.queue.filter (fun y => decide (y.id ≠ x.id)), freed := x.id :: s.freed }

inductive Added where
  | success | failed | skipped
deriving DecidableEq, Repr

/-- AddExternalFile returns (UrlCoordinator.cpp:343-361); with success, AddNzbFileToQueue has replaced the item
(QueueCoordinator.cpp:384-400). -/
def scanned (s : St) (tid : Nat) (r : Added) : St :=
  match s.dls.find? (fun d => d.tid == tid) with
  | some d =>
    if d.pc = .scan then
      match r with
      | .success => endThread { s with queue := s.queue.filter (fun y => decide (y.id ≠ d.item)), nzbs := d.item :: s.nzbs } tid
      | .failed => goto (s.write d.item (fun x => { x with status := .scanFailed })) tid .report
      | .skipped => goto (s.write d.item (fun x => { x with status := .scanSkipped })) tid .report
    else s
  | none => s

/-- The last block of UrlCompleted (UrlCoordinator.cpp:367-374). -/
def report (c : Cfg) (s : St) (tid : Nat) : St :=
  match s.dls.find? (fun d => d.tid == tid) with
  | some d =>
    if d.pc = .report then
      match s.queue.find? (fun x => x.id == d.item) with
      | some x => endThread (leave c s { x with active := false }) tid
      | none => s
    else s
  | none => s

/-- UrlCoordinator::DeleteQueueEntry (UrlCoordinator.cpp:377-406) with NzbDeleted (PrePostProcessor.cpp:380-405), and its
result. -/
def delete (c : Cfg) (s : St) (id : Nat) (final : Bool) : St × Bool :=
  match s.queue.find? (fun x => x.id == id) with
  | some x =>
    if x.active then ({ s with queue := upd (fun x => { x with deleting := true, avoid := final }) id s.queue }, (listed s).any (fun d => d.item == id))
    else (leave c s { x with del := true, status := .none, deleting := false }, true)
  | none => (s, false)

/-- HistoryRedownload for URLs (HistoryCoordinator.cpp:435-449). -/
def again (s : St) (id : Nat) : St :=
  match s.history.find? (fun x => x.id == id) with
  | some x => { s with queue := { x with status := .none, del := false } :: s.queue, history := s.history.filter (fun y => decide (y.id ≠ id)) }
  | none => s

/-- HistoryDelete for URLs (HistoryCoordinator.cpp:356-359). -/
def histDelete (s : St) (id : Nat) : St :=
  match s.history.find? (fun x => x.id == id) with
  | some x => { s with history := s.history.filter (fun y => decide (y.id ≠ id)), freed := x.id :: s.freed }
  | none => s

/-- UrlCoordinator::AddUrlToQueue (UrlCoordinator.cpp:408-428) with a new id; `dupe`: NzbAdded puts it to the history at
once (PrePostProcessor.cpp:305-330). -/
def add (c : Cfg) (s : St) (id : Nat) (prio : Int) (top dupe : Bool) : St :=
  if (s.queue ++ s.history).any (fun x => x.id == id) || s.nzbs.contains id || s.freed.contains id then s
  else if dupe then leave c s ⟨id, prio, .none, true, false, false, false⟩
  else if top then { s with queue := ⟨id, prio, .none, false, false, false, false⟩ :: s.queue }
  else { s with queue := s.queue ++ [⟨id, prio, .none, false, false, false, false⟩] }

/-- The status which is read from disk: only if it is at least lsFailed (DiskState.cpp:725-730). -/
def loaded : Status → Status
  | .none => .none
  | .running => .none
  | .finished => .none
  | st => st

/-- The queue as it is read from disk after the end of the program (DiskState.cpp:537-560, 700-735): threads and the marks
which are not saved are gone. -/
def restart (s : St) : St :=
  { s with
    queue := s.queue.map (fun x => { x with deleting := false, avoid := false, active := false, status := loaded x.status })
    history := s.history.map (fun x => { x with deleting := false, avoid := false, active := false, status := loaded x.status })
    dls := [] }

inductive Act where
  | add (id : Nat) (prio : Int) (top dupe : Bool)
  | start
  | finish (tid : Nat) (r : Result)
  | clear (tid : Nat)
  | scanned (tid : Nat) (r : Added)
  | report (tid : Nat)
  | delete (id : Nat) (final : Bool)
  | again (id : Nat)
  | histDelete (id : Nat)
  | setPrio (id : Nat) (prio : Int)
  | restart
deriving DecidableEq, Repr

def step (c : Cfg) (s : St) : Act → St
  | .add id prio top dupe => add c s id prio top dupe
  | .start => start c s
  | .finish tid r => finish s tid r
  | .clear tid => clear s tid
  | .scanned tid r => scanned s tid r
  | .report tid => report c s tid
  | .delete id final => (delete c s id final).1
  | .again id => again s id
  | .histDelete id => histDelete s id
  | .setPrio id prio => { s with queue := upd (fun x => { x with prio := prio }) id s.queue }
  | .restart => restart s

def run (c : Cfg) : St → List Act → St
  | s, [] => s
  | s, a :: l => run c (step c s a) l

def init : St := ⟨[], [], [], [], [], 1⟩

end Verif.UrlFetch
