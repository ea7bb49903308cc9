import Verif.Record
/-
Model of the memory of feeds: daemon/feed/FeedCoordinator.cpp `FeedCompleted` (283-344), `SchedulerNextUpdate`
(346-368), `ProcessFeed` (400-448), `DownloadQueueUpdate` (632-651), `CheckSaveFeeds` (659-671), `CleanupHistory`
(673-703), and of the state file of the feeds, daemon/queue/DiskState.cpp:1667-1830.

The verdict of the filter is part of the items (FeedFilter.lean). Times are integers; every call of
`Util::CurrentTime` is an input.
-/
namespace Verif.FeedHistory
open Verif.Text Verif.Record

/-- FeedInfo (FeedInfo.h), as far as it matters here. `hash` is the hash value of the filter. -/
structure Feed where
  url : Bytes
  hash : I32
  backlog : Bool
  lastUpdate : Int := 0
deriving DecidableEq, Repr

/-- FeedHistoryInfo::EStatus (FeedInfo.h). -/
inductive Status where
  | unknown | backlog | fetched
deriving DecidableEq, Repr

/-- FeedHistoryInfo (FeedInfo.h). -/
structure Entry where
  url : Bytes
  status : Status
  lastSeen : Int
deriving DecidableEq, Repr

/-- An item of a fetched feed: its url, whether the filter accepted it and the time it is processed. -/
structure Item where
  url : Bytes
  accepted : Bool
  now : Int
deriving DecidableEq, Repr

/-- FeedHistory::Find (FeedInfo.cpp): the first entry with this url. -/
def find (hist : List Entry) (url : Bytes) : Option Entry := hist.find? (fun e => e.url == url)

/-- Change the first entry with this url. -/
def change (g : Entry → Entry) (url : Bytes) : List Entry → List Entry
  | [] => []
  | e :: l => if e.url = url then g e :: l else e :: change g url l

/-- One pass of the loop of ProcessFeed (FeedCoordinator.cpp:410-436): the history and the urls to be
added to the queue. `ignore` is `firstFetch && feedInfo->GetBacklog()`. -/
def processItem (ignore : Bool) (hist : List Entry) (it : Item) : List Entry × List Bytes :=
  if it.accepted then
    match find hist it.url with
    | some _ => (change (fun e => { e with lastSeen := it.now }) it.url hist, [])
    | none =>
      if ignore then (hist ++ [⟨it.url, .backlog, it.now⟩], [])
      else (hist ++ [⟨it.url, .fetched, it.now⟩], [it.url])
  else (hist, [])

/-- ProcessFeed (FeedCoordinator.cpp:400-448), without the filter. -/
def processItems (ignore : Bool) : List Entry → List Item → List Entry × List Bytes
  | hist, [] => (hist, [])
  | hist, it :: l =>
    ((processItems ignore (processItem ignore hist it).1 l).1,
     (processItem ignore hist it).2 ++ (processItems ignore (processItem ignore hist it).1 l).2)

structure St where
  feeds : List Feed
  hist : List Entry
deriving DecidableEq, Repr

/-- FeedCompleted (FeedCoordinator.cpp:302-337) for a feed which was fetched (not a preview) and whose
scripts, if any, succeeded; `items = none` if the file could not be parsed. -/
def completed (s : St) (i : Nat) (items : Option (List Item)) (now : Int) : St × List Bytes :=
  match s.feeds[i]? with
  | none => (s, [])
  | some f =>
    let r := match items with
      | none => (s.hist, [])
      | some l => processItems (decide (f.lastUpdate = 0) && f.backlog) s.hist l
    (⟨s.feeds.modify i (fun f => { f with lastUpdate := now }), r.1⟩, r.2)

/-- `g_Options->GetFeedHistory() * 60*60*24` (FeedCoordinator.cpp:689): a product of type `int`; where it
overflows, C++ does not define the result, and the wrapped result of all usual machines is taken. -/
def historySeconds (days : Nat) : Int := ((days : Int) * 86400).bmod (2 ^ 32)

/-- CleanupHistory (FeedCoordinator.cpp:679-689): entries seen last before this date are removed. -/
def border (days : Nat) (s : St) (now : Int) : Int :=
  s.feeds.foldl (fun o f => if f.lastUpdate < o then f.lastUpdate else o) now - historySeconds days

/-- CleanupHistory (FeedCoordinator.cpp:673-703). -/
def cleanup (days : Nat) (s : St) (now : Int) : St :=
  { s with hist := s.hist.filter (fun e => decide (¬ e.lastSeen < border days s now)) }

/-- DownloadQueueUpdate (FeedCoordinator.cpp:636-650): an url of the queue was downloaded. -/
def urlCompleted (s : St) (url : Bytes) (now : Int) : St :=
  match find s.hist url with
  | some _ => { s with hist := change (fun e => { e with status := .fetched }) url s.hist }
  | none => { s with hist := s.hist ++ [⟨url, .fetched, now⟩] }

/-- What happens while the program runs. -/
inductive Ev where
  | completed (i : Nat) (items : Option (List Item)) (now : Int)
  | cleanup (now : Int)
  | url (url : Bytes) (now : Int)
deriving DecidableEq, Repr

def step (days : Nat) (s : St) : Ev → St × List Bytes
  | .completed i items now => completed s i items now
  | .cleanup now => (cleanup days s now, [])
  | .url u now => (urlCompleted s u now, [])

/-- A history: the state and all urls which were added to the queue, in order. -/
def run (days : Nat) : St → List Ev → St × List Bytes
  | s, [] => (s, [])
  | s, e :: l => ((run days (step days s e).1 l).1, (step days s e).2 ++ (run days (step days s e).1 l).2)

/-! ### Crashes -/

/-- Memory and disk. `pending` are the urls which ProcessFeed returned and which FeedCompleted has not
yet given to the queue (FeedCoordinator.cpp:320-336); `queued` is the queue, which is saved by each
addition; `disk` is the state file of the feeds. -/
structure Sys where
  mem : St
  pending : List Bytes := []
  queued : List Bytes := []
  disk : St
deriving DecidableEq, Repr

/-- Steps of the two threads (the thread of the download and FeedCoordinator::Run) and crashes. -/
inductive Act where
  | completed (i : Nat) (items : Option (List Item)) (now : Int)
  | enqueue
  | save
  | crash
deriving DecidableEq, Repr

def act (s : Sys) : Act → Sys
  | .completed i items now =>
    { s with mem := (completed s.mem i items now).1, pending := s.pending ++ (completed s.mem i items now).2 }
  | .enqueue => { s with queued := s.queued ++ s.pending, pending := [] }      -- 333-336
  | .save => { s with disk := s.mem }                                          -- 659-671
  | .crash => { s with mem := s.disk, pending := [] }

def acts (s : Sys) (l : List Act) : Sys := l.foldl act s

/-! ### The time of the next update -/

/-- SchedulerNextUpdate (FeedCoordinator.cpp:346-368): the new value of `m_lastInterval` and the number of
seconds until the next update. `interval` is the option FeedX.Interval in minutes, so small that the
products fit into `int`. -/
def nextUpdate (interval lastInterval : Nat) (success : Bool) : Nat × Nat :=
  if success then (0, interval * 60)
  else (min (max (lastInterval * 2) 60) (interval * 60), min (max (lastInterval * 2) 60) (interval * 60))

/-- The delays after the given results of fetching, beginning with a new feed. -/
def delays (interval : Nat) : Nat → List Bool → List Nat
  | _, [] => []
  | last, ok :: l => (nextUpdate interval last ok).2 :: delays interval (nextUpdate interval last ok).1 l

/-- Is it time to fetch the feed? (FeedCoordinator.cpp:116-121, a feed which is not running and was not
requested). -/
def due (interval : Nat) (next now : Int) : Bool :=
  decide (interval > 0) && (decide (next = 0) || decide (now ≥ next) || decide (now < next - interval * 60))

/-! ### The state file -/

def statusCode : Status → Nat
  | .unknown => 0
  | .backlog => 1
  | .fetched => 2

/-- `(FeedHistoryInfo::EStatus)(status)`; other numbers do not occur in files written by the program. -/
def statusOf (i : I32) : Status := if i = 2 then .fetched else if i = 1 then .backlog else .unknown

/-- `(int)time`. -/
def time32 (t : Int) : I32 := BitVec.ofInt 32 t

/-- SaveFeedStatus (DiskState.cpp:1733-1746), one feed. -/
def saveFeed (f : Feed) : List Bytes :=
  [f.url, showNums [(.u, f.hash)], showNums [(.i, time32 f.lastUpdate)]]

/-- SaveFeedHistory (DiskState.cpp:1793-1805), one entry. -/
def saveEntry (e : Entry) : List Bytes :=
  [showNums [(.i, BitVec.ofNat 32 (statusCode e.status)), (.i, time32 e.lastSeen)], e.url]

/-- SaveFeeds (DiskState.cpp:1667-1693), the body of the file. -/
def save (s : St) : Option Bytes :=
  printLines ((countLine s.feeds.length :: s.feeds.flatMap saveFeed) ++
    (countLine s.hist.length :: s.hist.flatMap saveEntry))

/-- LoadFeedStatus (DiskState.cpp:1748-1791), one feed of the file in the present format. -/
def loadFeed : Reader (Bytes × I32 × Int) := fun b => do
  let (url, b) ← readLine 1024 b
  match ← scanLine [.u] b with
  | ([hash], b) =>
    match ← scanLine [.i] b with
    | ([t], b) => some ((url, hash, t.toInt), b)
    | _ => none
  | _ => none

/-- The time of the last update goes to every configured feed with the same url and filter. -/
def assign (feeds : List Feed) (r : Bytes × I32 × Int) : List Feed :=
  feeds.map (fun f => if f.url = r.1 ∧ f.hash = r.2.1 then { f with lastUpdate := r.2.2 } else f)

/-- LoadFeedHistory (DiskState.cpp:1807-1831), one entry. -/
def loadEntry : Reader Entry := fun b => do
  match ← scanLine [.i, .i] b with
  | ([status, t], b) =>
    let (url, b) ← readLine 1024 b
    some (⟨url, statusOf status, t.toInt⟩, b)
  | _ => none

/-- LoadFeeds (DiskState.cpp:1695-1731); `config` are the feeds of the configuration, never updated. -/
def load (config : List Feed) (b : Bytes) : Option St :=
  match readList loadFeed b with
  | none => none
  | some (rs, b) => (readList loadEntry b).map (fun r => ⟨rs.foldl assign config, r.1⟩)

end Verif.FeedHistory
