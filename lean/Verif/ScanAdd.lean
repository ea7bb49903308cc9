import Verif.CStr
/-
Model of adding nzb-files by requests (API, URLs) while the directory for incoming files is scanned:
/repo/daemon/queue/Scanner.cpp AddExternalFile (511-607), ScanNzbDir (496-509), ServiceWork (89-143) and the lookup in
ProcessIncomingFile (284-305, 354-358).

Each request is a thread. What is done under m_scanMutex is one step. The scan is one step too: the only thing which
happens outside of the mutex is the search for a free name; a search during a scan may find a name in use which is
neither before nor after, therefore it is permitted to go on to the next name at any time. Renaming succeeds; files
are removed from the view when they are processed (they are renamed to names which are not processed).
-/
namespace Verif.ScanAdd
open CStr

/-- The contents of a file: that of a request, or another file. -/
inductive Content where
  | req (i : Nat)
  | other (k : Nat)
deriving DecidableEq, Repr

/-- Where a request is in AddExternalFile: searching a name, `chosen`: before the mutex is taken
(Scanner.cpp:580), `queued`: after it was released (Scanner.cpp:603), `waiting`: in the loop of ScanNzbDir
(Scanner.cpp:505-508). -/
inductive Pc where
  | choosing (k : Nat)
  | chosen (n : Bytes)
  | queued (n : Bytes)
  | waiting (n : Bytes)
  | done
deriving DecidableEq, Repr

/-- `dir`: the files which can be processed. `queue`: m_queueList with the numbers of requests. `log`: what was given
to the queue of downloads, each with the request which gave the parameters (category, priority, …). `status`:
addStatus of each request, `none`: asSkipped, else asSuccess or asFailed. -/
structure State where
  dir : List (Bytes × Content)
  queue : List (Bytes × Nat)
  requested : Bool
  pc : Nat → Pc
  log : List (Content × Option Nat)
  status : Nat → Option Bool

inductive Label where
  /-- The candidate is in use: next one. -/
  | skip (i : Nat)
  /-- The candidate is free. -/
  | take (i : Nat)
  /-- Scanner.cpp:579-601. -/
  | move (i : Nat)
  /-- Scanner.cpp:498-503. -/
  | request (i : Nat)
  /-- Scanner.cpp:505-509, 605. -/
  | finish (i : Nat)
  /-- A scan which was not requested: only files which are old enough. -/
  | periodic (old : List Bytes)
  /-- A requested scan. -/
  | full
deriving DecidableEq, Repr

/-- The search in m_queueList: the last match (Scanner.cpp:289-305). -/
def params (q : List (Bytes × Nat)) (n : Bytes) : Option Nat := (q.filter (fun e => e.1 == n)).getLast?.map (·.2)

def upd {α : Type} (f : Nat → α) (i : Nat) (x : α) : Nat → α := fun j => if j = i then x else f j

/-- SetAddStatus (Scanner.cpp:354-358). -/
def setStatus (ok : Content → Bool) (q : List (Bytes × Nat)) (st : Nat → Option Bool) (e : Bytes × Content) : Nat → Option Bool :=
  match params q e.1 with
  | some j => upd st j (some (ok e.2))
  | none => st

/-- ServiceWork (Scanner.cpp:107-142), where `sel` are the files which are processed. -/
def work (ok : Content → Bool) (sel : Bytes → Bool) (s : State) : State :=
  { s with
    dir := s.dir.filter (fun e => !sel e.1)
    queue := []
    requested := false
    log := s.log ++ (s.dir.filter (fun e => sel e.1)).map (fun e => (e.2, params s.queue e.1))
    status := (s.dir.filter (fun e => sel e.1)).foldl (setStatus ok s.queue) s.status }

/-- One step. `cand i k`: the `k`-th name which is tried for request `i` (Scanner.cpp:553-575). -/
def step (ok : Content → Bool) (cand : Nat → Nat → Bytes) (s : State) : Label → Option State
  | .skip i =>
    match s.pc i with
    | .choosing k => some { s with pc := upd s.pc i (.choosing (k + 1)) }
    | _ => none
  | .take i =>
    match s.pc i with
    | .choosing k =>
      if cand i k ∈ s.dir.map (·.1) then none
      else some { s with pc := upd s.pc i (.chosen (cand i k)) }
    | _ => none
  | .move i =>
    match s.pc i with
    | .chosen n =>
      some { s with
        dir := (n, .req i) :: s.dir.filter (fun e => e.1 != n)
        queue := s.queue ++ [(n, i)]
        status := upd s.status i none
        pc := upd s.pc i (.queued n) }
    | _ => none
  | .request i =>
    match s.pc i with
    | .queued n => some { s with requested := true, pc := upd s.pc i (.waiting n) }
    | _ => none
  | .finish i =>
    match s.pc i with
    | .waiting _ => if s.requested then none else some { s with pc := upd s.pc i .done }
    | _ => none
  | .periodic old => if s.requested then none else some (work ok (fun n => decide (n ∈ old)) s)
  | .full => if s.requested then some (work ok (fun _ => true) s) else none

def run (ok : Content → Bool) (cand : Nat → Nat → Bytes) : State → List Label → Option State
  | s, [] => some s
  | s, l :: ls =>
    match step ok cand s l with
    | some s' => run ok cand s' ls
    | none => none

/-- All requests are at the begin, other files may be there. -/
def start (others : List (Bytes × Nat)) : State :=
  { dir := others.map (fun e => (e.1, .other e.2))
    queue := []
    requested := false
    pc := fun _ => .choosing 0
    log := []
    status := fun _ => none }

end Verif.ScanAdd
