import Verif.Rpc
import Verif.Tokens
/-
Model of the queue of scripts: /repo/daemon/extension/QueueScript.cpp EnqueueScript (261-326), UsableScript (328-386), FindNzbInfo (388-403),
CheckQueue (405-458), HasJob (460-482), GetQueueSize (484-495), end of QueueScriptController::Run (102-121).

What is simplified: entries are known by their ids; a script is the record of its name and events. The locks make the functions atomic. What a
script does is not modelled; it ends at some time (event `finish`). `started` and `dropped` are not in the program: they record which items
were given to QueueScriptController::StartScript and which were thrown away; `ticket` numbers the items.
-/
namespace Verif.QueueScript
open CStr

/-- QueueScript.h:30-39, in this order. -/
inductive Event where
  | fileDownloaded | urlCompleted | nzbMarked | nzbAdded | nzbNamed | nzbDownloaded | nzbDeleted
deriving DecidableEq, Repr

/-- The value of the enumeration: its priority (QueueScript.h:30-39). -/
def Event.prio : Event → Nat
  | .fileDownloaded => 0
  | .urlCompleted => 1
  | .nzbMarked => 2
  | .nzbAdded => 3
  | .nzbNamed => 4
  | .nzbDownloaded => 5
  | .nzbDeleted => 6

/-- QUEUE_EVENT_NAMES (QueueScript.cpp:30-37). -/
def Event.name : Event → Bytes
  | .fileDownloaded => lit "FILE_DOWNLOADED"
  | .urlCompleted => lit "URL_COMPLETED"
  | .nzbMarked => lit "NZB_MARKED"
  | .nzbAdded => lit "NZB_ADDED"
  | .nzbNamed => lit "NZB_NAMED"
  | .nzbDownloaded => lit "NZB_DOWNLOADED"
  | .nzbDeleted => lit "NZB_DELETED"

/-- A script: name, whether it is a queue script, the events it asks for. -/
structure Script where
  name : Bytes
  queue : Bool
  events : Bytes
deriving DecidableEq, Repr

/-- What is known about an entry when an event happens to it. `extensions`: the default scripts of its category, or of all (QueueScript.cpp:363-372). -/
structure Info where
  nzb : Nat
  params : List (Bytes × Bytes)
  extensions : Bytes
deriving DecidableEq, Repr

structure Item where
  ticket : Nat
  nzb : Nat
  script : Script
  event : Event
deriving DecidableEq, Repr

/-- The options: EventInterval, the scripts. -/
structure Cfg where
  interval : Int
  scripts : List Script

structure State where
  queue : List Item := []
  cur : Option Item := none
  stopped : Bool := false
  times : Nat → Int := fun _ => 0
  next : Nat := 0
  started : List Item := []
  dropped : List Item := []

/-- QueueScript.cpp:345-347. -/
def isOn (v : Bytes) : Bool := Rpc.eqNoCase v (lit "yes") || Rpc.eqNoCase v (lit "on") || Rpc.eqNoCase v (lit "1")

/-- A parameter assigns a script (QueueScript.cpp:341-356). The name is kept in a buffer of 1024 bytes. -/
def assigns (p : Bytes × Bytes) (name : Bytes) : Bool :=
  p.1 ≠ [] && p.1.head? ≠ some 42 && p.1.getLast? == some 58 && isOn p.2 && (p.1.take 1023).dropLast == name

def listSep (b : UInt8) : Bool := b == 44 || b == 59

/-- QueueScriptCoordinator::UsableScript (QueueScript.cpp:328-386). -/
def usable (s : Script) (i : Info) (e : Event) : Bool :=
  s.queue && (s.events.isEmpty || (after e.name s.events).isSome) &&
    (i.params.any (fun p => assigns p s.name) || (e == .urlCompleted && (Tokens.tokens listSep i.extensions).any (· == s.name)))

/-- Option EventInterval (QueueScript.cpp:281-289). -/
def suppressed (c : Cfg) (last now : Int) : Bool := c.interval == -1 || (decide (0 < c.interval) && decide (0 < now - last) && decide (now - last < c.interval))

/-- One script in EnqueueScript (QueueScript.cpp:291-325). -/
def enqueueOne (i : Info) (e : Event) (now : Int) (st : State) (s : Script) : State :=
  if usable s i e then
    let st :=
      if e == .fileDownloaded && st.queue.any (fun q => q.nzb == i.nzb && q.script == s) then st
      else
        let item : Item := ⟨st.next, i.nzb, s, e⟩
        match st.cur with
        | some _ => { st with queue := st.queue ++ [item], next := st.next + 1 }
        | none => { st with cur := some item, next := st.next + 1, started := st.started ++ [item] }
    { st with times := fun n => if n = i.nzb then now else st.times n }
  else st

/-- QueueScriptCoordinator::EnqueueScript (QueueScript.cpp:261-326). `InitOptions` (248-259) tells whether there are queue scripts. -/
def enqueue (c : Cfg) (i : Info) (e : Event) (now : Int) (st : State) : State :=
  if !c.scripts.any (·.queue) then st
  else
    let st := if e == .nzbDownloaded then
        { st with queue := st.queue.filter (fun q => q.nzb != i.nzb), dropped := st.dropped ++ st.queue.filter (fun q => q.nzb == i.nzb) }
      else st
    if e == .fileDownloaded && suppressed c (st.times i.nzb) now then st
    else c.scripts.foldl (enqueueOne i e now) st

/-- What FindNzbInfo (QueueScript.cpp:388-403) finds: whether the entry is deleted and whether it is marked as bad. -/
structure Found where
  deleted : Bool
  bad : Bool
deriving DecidableEq, Repr

/-- `ignoreEvent` (QueueScript.cpp:426-429). -/
def ignored (find : Nat → Option Found) (q : Item) : Bool :=
  match find q.nzb with
  | none => true
  | some f => (f.deleted && q.event != .nzbDeleted && q.event != .nzbMarked) || (f.bad && q.event != .nzbMarked)

/-- The loop of CheckQueue (QueueScript.cpp:419-450): the items before `it`, those from `it` on, the number of items before the chosen one. `cur` is
what `m_curItem` points to: it was reset before (415). The first argument bounds the number of turns. The result: the queue and the place
of the chosen item. -/
def loop (find : Nat → Option Found) (cur : Option Item) : (fuel : Nat) → (before rest : List Item) → (chosen : Option Nat) → List Item × Option Nat
  | 0, before, rest, chosen => (before ++ rest, chosen)
  | _ + 1, before, [], chosen => (before, chosen)
  | fuel + 1, before, q :: rest, chosen =>
    if ignored find q then
      if chosen.isSome then loop find cur fuel [] (before ++ rest) none
      else loop find cur fuel before rest none
    else
      let take := match cur with
        | none => true
        | some c => decide (c.event.prio < q.event.prio)
      loop find cur fuel (before ++ [q]) rest (if take then some before.length else chosen)

/-- QueueScriptCoordinator::CheckQueue (QueueScript.cpp:405-458). -/
def checkQueue (find : Nat → Option Found) (st : State) : State :=
  if st.stopped then st
  else
    let r := loop find none ((st.queue.length + 1) * (st.queue.length + 1)) [] st.queue none
    let dropped := st.dropped ++ st.queue.filter (ignored find)
    match r.2.bind (fun i => r.1[i]?) with
    | none => { st with queue := r.1, cur := none, dropped := dropped }
    | some q => { st with queue := r.1.eraseIdx (r.2.getD 0), cur := some q, started := st.started ++ [q], dropped := dropped }

/-- QueueScriptCoordinator::HasJob (QueueScript.cpp:460-482). -/
def hasJob (st : State) (nzb : Nat) : Bool := st.cur.any (fun q => q.nzb == nzb) || st.queue.any (fun q => q.nzb == nzb)

/-- QueueScriptCoordinator::GetQueueSize (QueueScript.cpp:484-495). -/
def queueSize (st : State) : Nat := st.queue.length + if st.cur.isSome then 1 else 0

/-- What happens: something happens to an entry, the running script ends, the program is stopped. -/
inductive Step where
  | happens (i : Info) (e : Event) (now : Int)
  | finish (find : Nat → Option Found)
  | stop

/-- CheckQueue is called by the script which ends (QueueScript.cpp:120). -/
def step (c : Cfg) (st : State) : Step → State
  | .happens i e now => enqueue c i e now st
  | .finish find => if st.cur.isNone then st else checkQueue find st
  | .stop => { st with stopped := true }

def run (c : Cfg) (st : State) (l : List Step) : State := l.foldl (step c) st

end Verif.QueueScript
