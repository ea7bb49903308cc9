import Verif.PostJob
/-!
# The queue of post-processing

Model of `PrePostProcessor::CheckPostQueue`, `CheckRequestPar`, `CleanupJobs`, `CanRunMoreJobs`,
`PickNextJob`, `JobCompleted`, `NzbDownloaded` and `PostQueueDelete`
(daemon/postprocess/PrePostProcessor.cpp) on the whole queue. Every event below is one section of
the program which is executed with the lock of the download queue, threads of stages and direct
unpack appear as the events by which they end. A pointer to `NzbInfo` is the id of the download.

The result `none` stands for a broken program: a null pointer or a pointer to a deleted object is
used, or a second thread is started for a download.
-/
namespace Verif.PostQueue
open Verif.PostJob

/-- `Options::EPostStrategy`, main/Options.h:88-94. -/
inductive Strategy | sequential | balanced | aggressive | rocket
  deriving DecidableEq, Repr

/-- A download in the queue. `force`: `GetForcePriority`; `script`: a queue-script is to be executed
for the download; `direct`: `GetDirectUnpackStatus() == nsRunning`; `complete`:
`IsDownloadCompleted(true)`; `post`: `GetPostInfo()`, `thread`: there is a `GetPostThread()` and it
is running. -/
structure Ent where
  id : Nat
  prio : Int
  force : Bool
  script : Bool
  direct : Bool
  complete : Bool
  nzb : Nzb
  post : Option Post
  thread : Bool
  deriving DecidableEq, Repr

/-- `keepHistory`: downloads are kept in history (KeepHistory > 0); otherwise they are deleted. -/
structure Cfg where
  opts : Opts
  strategy : Strategy
  keepHistory : Bool

/-- The download queue, `m_activeJobs`, `m_queuedJobs` and `GetPausePostProcess()`. -/
structure St where
  queue : List Ent
  active : List Nat
  queued : Int
  paused : Bool
  deriving DecidableEq, Repr

/-- The download behind a pointer. -/
def find (id : Nat) (q : List Ent) : Option Ent := q.find? (fun e => e.id == id)

/-- `PostInfo` behind a pointer to the download: `none` if it can't be used. -/
def postOf (id : Nat) (q : List Ent) : Option Post := (find id q).bind (·.post)

/-- Changes one download. -/
def upd (id : Nat) (f : Ent → Ent) (q : List Ent) : List Ent :=
  q.map (fun e => if e.id = id then f e else e)

/-- Changes the post-processing info of a download. -/
def onPost (f : Post → Post) (e : Ent) : Ent := { e with post := e.post.map f }

/-- `CheckRequestPar` for one download. -/
def reqEnt (o : Opts) (e : Ent) : Ent :=
  match e.post with
  | none => e
  | some p =>
    let j := checkRequestPar o ⟨e.nzb, p⟩
    { e with nzb := j.nzb, post := some j.post }

/-- `PrePostProcessor::CheckRequestPar`, PrePostProcessor.cpp:484-525. -/
def requestAll (o : Opts) : List Nat → List Ent → Option (List Ent)
  | [], q => some q
  | id :: r, q =>
    match postOf id q with
    | none => none
    | some _ => requestAll o r (upd id (reqEnt o) q)

/-- `PrePostProcessor::JobCompleted`, PrePostProcessor.cpp:849-862, without the counter: the download
leaves post-processing and, if it is downloaded completely, the queue. What happens in `NzbCompleted`
(history, duplicates) is left out. -/
def completeJob (id : Nat) (q : List Ent) : List Ent :=
  q.filterMap (fun e => if e.id = id then
    (if e.complete then none else some { e with post := none, thread := false }) else some e)

/-- The job waits for its next stage, PrePostProcessor.cpp:557. -/
def requeueEnt (e : Ent) : Ent := onPost (fun p => { p with stage := .queued }) e

/-- `PrePostProcessor::CleanupJobs`, PrePostProcessor.cpp:527-564: new active jobs, queue and
counter. -/
def cleanupAll : List Nat → List Ent → Int → Option (List Nat × List Ent × Int)
  | [], q, n => some ([], q, n)
  | id :: r, q, n =>
    match find id q with
    | none => none
    | some e =>
      match e.post with
      | none => none
      | some p =>
        if p.working = false ∧ e.thread = false then
          if p.stage = .finished ∨ p.cancelled = true then cleanupAll r (completeJob id q) (n - 1)
          else cleanupAll r (upd id requeueEnt q) n
        else
          match cleanupAll r q n with
          | none => none
          | some (a, q', n') => some (id :: a, q', n')

/-- The stages of active jobs. -/
def stages (q : List Ent) : List Nat → Option (List Stage)
  | [] => some []
  | id :: r =>
    match postOf id q, stages q r with
    | some p, some l => some (p.stage :: l)
    | _, _ => none

/-- `PrePostProcessor::CanRunMoreJobs`, PrePostProcessor.cpp:566-602: may a further job be started,
and is a par-check allowed for it. -/
def canRun (s : Strategy) (l : List Stage) : Bool × Bool :=
  let total := l.length
  let par := (l.filter Stage.par).length
  let other := (l.filter (fun s => !s.par)).length
  let repair := l.any (· == .repairing)
  match s with
  | .sequential => (total == 0, true)
  | .balanced => (other == 0 && (par == 0 || repair), par == 0)
  | .aggressive => (decide (total < 3), decide (par < 1))
  | .rocket => (decide (total < 6), decide (par < 2))

/-- The conditions of `PrePostProcessor::PickNextJob`, PrePostProcessor.cpp:610-617, without the
comparison of priorities. -/
def eligible (paused allowPar : Bool) (active : List Nat) (e : Ent) : Bool :=
  match e.post with
  | none => false
  | some p => !p.working && !e.script && !e.direct && (!paused || e.force) &&
      (allowPar || !p.needPar) && !active.contains e.id && e.complete

/-- One round of the loop of `PickNextJob`. -/
def better (ok : Ent → Bool) (best : Option Ent) (e : Ent) : Option Ent :=
  match best with
  | none => if ok e then some e else none
  | some b => if ok e && decide (b.prio < e.prio) then some e else some b

/-- `PrePostProcessor::PickNextJob`, PrePostProcessor.cpp:604-624. -/
def pick (paused allowPar : Bool) (active : List Nat) (q : List Ent) : Option Ent :=
  q.foldl (better (eligible paused allowPar active)) none

/-- `StartJob`: if a stage is entered a thread is started for it. -/
def startEnt (o : Opts) (allowPar : Bool) (e : Ent) : Ent :=
  match e.post with
  | none => e
  | some p =>
    let j := startJob o allowPar ⟨e.nzb, p⟩
    { e with nzb := j.nzb, post := some j.post, thread := j.post.working }

/-- The loop of `CheckPostQueue`, PrePostProcessor.cpp:635-655. The first number limits the rounds;
the first component of the result tells that the loop has ended by itself. `IsStopped` is left
out. -/
def loop (c : Cfg) (paused : Bool) : Nat → List Nat → List Ent → Int →
    Option (Bool × List Nat × List Ent × Int)
  | 0, a, q, n => some (false, a, q, n)
  | f + 1, a, q, n =>
    match stages q a with
    | none => none
    | some l =>
      if (canRun c.strategy l).1 then
        match pick paused (canRun c.strategy l).2 a q with
        | none => some (true, a, q, n)
        | some e =>
          match e.post with
          | none => none
          | some p =>
            if e.thread then none
            else if p.stage = .queued ∧ (paused = false ∨ e.force = true) then
              match requestAll c.opts (a ++ [e.id])
                  (upd e.id (startEnt c.opts (canRun c.strategy l).2) q) with
              | none => none
              | some q1 =>
                match cleanupAll (a ++ [e.id]) q1 n with
                | none => none
                | some (a2, q2, n2) => loop c paused f a2 q2 n2
            else loop c paused f (a ++ [e.id]) q n
      else some (true, a, q, n)

/-- `PrePostProcessor::CheckPostQueue`, PrePostProcessor.cpp:626-664, up to the saving of the queue.
The second component tells that the loop has ended. -/
def check (c : Cfg) (fuel : Nat) (s : St) : Option (Bool × St) :=
  match requestAll c.opts s.active s.queue with
  | none => none
  | some q1 =>
    match cleanupAll s.active q1 s.queued with
    | none => none
    | some (a2, q2, n2) =>
      match loop c s.paused fuel a2 q2 n2 with
      | none => none
      | some (b, a, q, n) => some (b, { s with active := a, queue := q, queued := n })

/-- The download enters post-processing, PrePostProcessor.cpp:346-360. -/
def enterEnt (o : Opts) (unpackThread : Bool) (e : Ent) : Ent :=
  { e with nzb := (enter o e.nzb).nzb
           post := some { (enter o e.nzb).post with working := unpackThread } }

/-- `PrePostProcessor::NzbDownloaded`, PrePostProcessor.cpp:334-379, for a download which isn't in
post-processing: `unpackThread` - direct unpack is active for it. The options RawArticle and
SkipWrite are off. -/
def downloaded (o : Opts) (id : Nat) (unpackThread : Bool) (s : St) : St :=
  match find id s.queue with
  | none => s
  | some e =>
    if e.post.isSome then s else
    { s with
      queue := upd id (enterEnt o unpackThread) s.queue
      active := if unpackThread then s.active ++ [id] else s.active
      queued := s.queued + 1 }

/-- A working job is marked as deleted, PrePostProcessor.cpp:937. -/
def cancelEnt (e : Ent) : Ent := onPost (fun p => { p with cancelled := true }) e

/-- `PrePostProcessor::PostQueueDelete`, PrePostProcessor.cpp:922-981, for one id. For a job which is
not working `JobCompleted` deletes its `PostInfo`, which is compared with the (new) `PostInfo` of
active jobs afterwards; none of them is equal. Without history the download itself is deleted before
it is asked for its `PostInfo`. -/
def postDelete (c : Cfg) (id : Nat) (s : St) : Option St :=
  match find id s.queue with
  | none => some s
  | some e =>
    match e.post with
    | none => some s
    | some p =>
      if p.working then
        some { s with queue := upd id cancelEnt s.queue }
      else if s.active.contains id && e.complete && !c.keepHistory then none
      else some { s with queue := completeJob id s.queue, queued := s.queued - 1 }

/-- What happens around post-processing. -/
inductive Ev
  /-- a download is added to the queue -/
  | added (e : Ent)
  /-- a download which isn't in post-processing is removed from the queue -/
  | removed (id : Nat)
  /-- a download changes: priority, running queue-scripts, state of direct unpack, state of the
  download, and everything which is seen on disk -/
  | changed (id : Nat) (prio : Int) (force script direct complete : Bool) (nzb : Nzb)
  /-- `NzbDownloaded` -/
  | downloaded (id : Nat) (unpackThread : Bool)
  /-- a par-check proceeds to another stage (`RepairController::UpdateParCheckProgress`) -/
  | proceeds (id : Nat) (s : Stage)
  /-- the stage of a job ends and reports its results -/
  | stageDone (id : Nat) (w : Work)
  /-- the thread of a stage which has reported its results ends -/
  | threadEnd (id : Nat)
  /-- direct unpack has ended or was stopped (DirectUnpack.cpp:149, 412). No stage was started for
  the download (`PickNextJob` waits for the end of direct unpack) -/
  | directDone (id : Nat)
  /-- post-processing is paused or resumed -/
  | pause (b : Bool)
  /-- `PostQueueDelete` -/
  | delete (id : Nat)
  /-- `CheckPostQueue` -/
  | check (fuel : Nat)

/-- The stage ends. -/
def stageDoneEnt (o : Opts) (w : Work) (e : Ent) : Ent :=
  match e.post with
  | none => e
  | some p =>
    if p.working && e.thread then
      { e with nzb := (finish o w ⟨e.nzb, p⟩).nzb, post := some (finish o w ⟨e.nzb, p⟩).post }
    else e

def proceedsEnt (s : Stage) (e : Ent) : Ent :=
  match e.post with
  | none => e
  | some p => if p.working && e.thread && p.stage.par && s.par then
      { e with post := some { p with stage := s } } else e

def threadEndEnt (e : Ent) : Ent :=
  match e.post with
  | none => e
  | some p => if p.working then e else { e with thread := false }

def directDoneEnt (e : Ent) : Ent :=
  if e.thread then e else onPost (fun p => { p with working := false }) e

def changeEnt (prio : Int) (force script direct complete : Bool) (nzb : Nzb) (e : Ent) : Ent :=
  { e with prio := prio, force := force, script := script, direct := direct, complete := complete,
           nzb := nzb }

/-- One event. -/
def step (c : Cfg) (s : St) : Ev → Option St
  | .added e => some (if e.post = none ∧ e.thread = false ∧ find e.id s.queue = none then
      { s with queue := s.queue ++ [e] } else s)
  | .removed id => some { s with queue := s.queue.filter (fun e => !(e.id == id && e.post.isNone)) }
  | .changed id prio force script direct complete nzb =>
    some { s with queue := upd id (changeEnt prio force script direct complete nzb) s.queue }
  | .downloaded id u => some (downloaded c.opts id u s)
  | .proceeds id st => some { s with queue := upd id (proceedsEnt st) s.queue }
  | .stageDone id w => some { s with queue := upd id (stageDoneEnt c.opts w) s.queue }
  | .threadEnd id => some { s with queue := upd id threadEndEnt s.queue }
  | .directDone id => some { s with queue := upd id directDoneEnt s.queue }
  | .pause b => some { s with paused := b }
  | .delete id => postDelete c id s
  | .check f => (check c f s).map (·.2)

def run (c : Cfg) : List Ev → St → Option St
  | [], s => some s
  | ev :: r, s => (step c s ev).bind (run c r)

end Verif.PostQueue
