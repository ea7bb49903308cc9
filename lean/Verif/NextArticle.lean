/-
Model of the choice of the next article, /repo/daemon/queue/QueueCoordinator.cpp:507-631.
-/
namespace Verif.NextArticle

/-- The members of FileInfo which the choice depends on. `arts`: the articles in memory, `stored`: those on disk with the saved partial
state; `true` for an article whose status is `aiUndefined`. -/
structure File where
  id : Nat
  time : Int
  paused : Bool
  deleted : Bool
  extra : Bool
  confirmed : Bool
  arts : List Bool
  stored : List Bool
deriving DecidableEq, Repr

/-- The members of NzbInfo. `extra`, `pausedCount`: the counters; `toRename`: the status of the direct rename is `tsNone` or `tsRunning`. -/
structure Entry where
  id : Nat
  priority : Int
  extra : Int
  pausedCount : Int
  toRename : Bool
  allFirst : Bool
  files : List File
deriving DecidableEq, Repr

/-- Options and state of the program. -/
structure Env where
  paused : Bool
  quota : Bool
  delay : Int
  now : Int
  serverMode : Bool
  directRename : Bool
deriving DecidableEq, Repr

/-- The articles, which are loaded if there are none in memory, QueueCoordinator.cpp:572-576 and 608-612. -/
def articles (env : Env) (f : File) : List Bool := if f.arts.isEmpty && env.serverMode then f.stored else f.arts

/-- NzbInfo::HasExtraPriority, DownloadInfo.h:540. -/
def hasExtra (e : Entry) : Bool := e.extra != 0

/-- `nzbPaused`, QueueCoordinator.cpp:531: a difference of type `size_t`. -/
def entryPaused (e : Entry) : Bool := ((e.files.length : Int) - e.pausedCount) % 2 ^ 64 == 0

/-- NzbInfo::GetForcePriority, DownloadInfo.h:539. -/
def forced (e : Entry) : Bool := e.priority ≥ 900

/-- `nzbHigherPriority`, QueueCoordinator.cpp:526-529. -/
def entryHigher (e e' : Entry) : Bool :=
  (hasExtra e == hasExtra e' && e.priority > e'.priority) || (hasExtra e && !hasExtra e')

/-- `higherPriority`, QueueCoordinator.cpp:544-547. -/
def fileHigher (e : Entry) (f : File) (e' : Entry) (f' : File) : Bool :=
  (f.extra == f'.extra && e.priority > e'.priority) || (f.extra && !f'.extra)

/-- `propagationWait`, QueueCoordinator.cpp:541-542. (The conversions to `int` are not modelled.) -/
def waits (env : Env) (f : File) : Bool := env.delay > 0 && f.time + env.delay ≥ env.now

/-- One file, QueueCoordinator.cpp:536-553. `checked`: the files found to have no article left; the program has pointers to them, ids are
unique. -/
def fileStep (env : Env) (checked : List Nat) (e : Entry) (pick : Option (Entry × File)) (f : File) : Option (Entry × File) :=
  if !checked.contains f.id && !waits env f && !f.paused && !f.deleted &&
      (match pick with | none => true | some p => fileHigher e f p.1 p.2) then some (e, f)
  else pick

/-- One entry, QueueCoordinator.cpp:524-556. -/
def entryStep (env : Env) (checked : List Nat) (pick : Option (Entry × File)) (e : Entry) : Option (Entry × File) :=
  if (match pick with | none => true | some p => entryHigher e p.1) && !entryPaused e &&
      (!(env.paused || env.quota) || forced e) then e.files.foldl (fileStep env checked e) pick
  else pick

/-- The file which is chosen, QueueCoordinator.cpp:522-556. -/
def pickFile (env : Env) (checked : List Nat) (q : List Entry) : Option (Entry × File) := q.foldl (entryStep env checked) none

/-- The first article which can be downloaded, QueueCoordinator.cpp:579-586. -/
def firstArticle (env : Env) (f : File) : Option Nat := (articles env f).findIdx? id

/-- QueueCoordinator::GetNextFirstArticle, QueueCoordinator.cpp:601-631. The result of the call is the same if it is repeated, so that the flag
`AllFirst` needs not be stored within one call of GetNextArticle. -/
def nextFirst (env : Env) : List File → Option (File × Nat)
  | [] => none
  | f :: l => if !f.confirmed && (articles env f).head? == some true then some (f, 0) else nextFirst env l

/-- QueueCoordinator::GetNextArticle, QueueCoordinator.cpp:507-599. The outer `none`: the number of turns was not enough
(never with one more than the number of files, `next_terminates`). -/
def nextLoop (env : Env) (q : List Entry) : Nat → List Nat → Option (Option (Entry × File × Nat))
  | 0, _ => none
  | fuel + 1, checked =>
    match pickFile env checked q with
    | none => some none
    | some (e, f) =>
      match if env.directRename && e.toRename && !e.allFirst then nextFirst env e.files else none with
      | some (f', i) => some (some (e, f', i))
      | none =>
        match firstArticle env f with
        | some i => some (some (e, f, i))
        | none => nextLoop env q fuel (f.id :: checked)

def nextArticle (env : Env) (q : List Entry) : Option (Option (Entry × File × Nat)) :=
  nextLoop env q ((q.flatMap Entry.files).length + 1) []

end Verif.NextArticle
