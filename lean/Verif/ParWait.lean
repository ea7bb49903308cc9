import Verif.Repair
/-
Model of the waiting for more par2-files: ParChecker::LoadMainParBak (651-703), ProcessMorePars (705-782), LoadMorePars (784-807),
AddParFile (809-814), QueueChanged (816-820) and Cancel (1228-1238) of /repo/daemon/postprocess/ParChecker.cpp, RepairController::AddPar
(/repo/daemon/postprocess/Repair.cpp:258-271), with the thread of the check and all other threads as steps in any order.
-/
namespace Verif.ParWait
open Verif.CStr Verif.Repair

/-- How it ends: with enough blocks, without them, cancelled, or (LoadMainParBak) with files to try again. -/
inductive Out | possible | notEnough | stopped | again
deriving DecidableEq

/-- Where the thread of the check is. Each of these is one action which other threads can not divide: a question for IsStopped, or what is done
under the lock of the list of added files or of the queue. `reset ok`: behind RequestMorePars; `read l`: the files `l` were taken. -/
inductive Pc
  | top | look | request | reset (ok : Bool) | wait | woken | load | read (l : List PFile) | verify | ended (o : Out)
deriving DecidableEq

/-- `files`: the files of the download in the queue; `added`, `changed`: m_queuedParFiles, m_queuedParFilesChanged; `stop`: IsStopped().
For the statements: `loaded`: the files which were given to libpar2; `done`: the files which were downloaded since the begin, in their order; `asked`: the
files and the number of blocks of the last request; `lost`: since then a file was deleted or paused. -/
structure St where
  files : List PFile
  added : List PFile := []
  changed : Bool := false
  stop : Bool := false
  pc : Pc := .top
  loaded : List PFile := []
  done : List PFile := []
  asked : List PFile × Int := ([], 0)
  lost : Bool := false

/-- What does not change: `main`: LoadMainParBak, otherwise ProcessMorePars; `missing`: the missing blocks, and `have_`: the recovery blocks there
at the begin; `gives`: the further recovery blocks which libpar2 finds in the loaded files; `sort`: see Repair.requestMore; `parName`. -/
structure Par where
  main : Bool
  missing : Int
  have_ : Int
  gives : List PFile → Int
  sort : List Block → List Block
  parName : Bytes

/-- `missingblockcount - recoverypacketmap.size()`, ParChecker.cpp:712-713; LoadMainParBak asks for one block (668). -/
def needed (p : Par) (s : St) : Int := if p.main then 1 else p.missing - (p.have_ + p.gives s.loaded)

/-- A step of the thread of the check. Simplified: Process(false) says that a repair is possible exactly if there are enough blocks (C135). -/
def work (p : Par) (s : St) : St :=
  match s.pc with
  | .top =>                                     -- 653; 710-717
    if s.stop then { s with pc := .ended .stopped }
    else if p.main = false ∧ needed p s ≤ 0 then { s with pc := .ended .possible }
    else { s with pc := .look }
  | .look =>                                    -- 655-665; 724-730
    if s.added = [] then { s with pc := .request }
    else if p.main then { s with loaded := s.loaded ++ s.added, added := [], pc := .ended .again }
    else { s with pc := .woken }
  | .request =>                                 -- 667-674; 732-739
    let r := requestMore p.sort s.files p.parName (needed p s)
    { s with files := r.files, asked := (s.files, needed p s), lost := false, pc := .reset r.ok }
  | .reset ok =>                                -- 676-687; 741-753
    let s := { s with changed := false }
    if ok = false ∧ s.added = [] then { s with pc := .ended .notEnough }
    else if s.added = [] then { s with pc := .wait }
    else if p.main then { s with pc := .top }
    else { s with pc := .woken }
  | .wait =>                                    -- 689-698; 755-764
    if s.stop then { s with pc := .ended .stopped }
    else if s.changed then { s with pc := if p.main then .top else .woken }
    else s
  | .woken => { s with pc := if s.stop then .ended .stopped else .load }      -- 768-771
  | .load => { s with added := [], pc := .read s.added }                      -- 786-791
  | .read l => { s with loaded := s.loaded ++ l, pc := if l = [] then .top else .verify }   -- 793-806, 774
  | .verify =>                                  -- 775-778, 710
    { s with pc := if needed p s ≤ 0 then .ended .possible else .top }
  | .ended _ => s

/-- What the others do: `complete`: a file of the queue is finished (PrePostProcessor.cpp:257-274 calls AddPar with the queue locked); `delete`: it
is deleted (AddPar with `deleted`); `pause`: it is paused or resumed (nobody is told); `signal`: QueueChanged for another reason, also
the second half of cancelling; `cancel`: the job is stopped (RepairController::Stop, Repair.cpp:210-217, before it calls Cancel). A file which is added to the download meanwhile is not modelled. -/
inductive Ev | work | complete (id : Nat) | delete (id : Nat) | pause (id : Nat) (on : Bool) | signal | cancel
deriving DecidableEq

/-- Steps of the others: Repair.cpp:258-271, ParChecker.cpp:809-820, 1228-1238. -/
def step (p : Par) (s : St) : Ev → St
  | .work => work p s
  | .complete id =>
    match s.files.find? (fun f => f.id == id) with
    | some f => { s with files := s.files.filter (fun g => g.id != id), added := s.added ++ [f], changed := true, done := s.done ++ [f] }
    | none => s
  | .delete id =>
    if s.files.any (fun f => f.id == id) then { s with files := s.files.filter (fun g => g.id != id), changed := true, lost := true } else s
  | .pause id on =>
    { s with files := s.files.map (fun f => if f.id == id then { f with paused := on } else f), lost := s.lost || on }
  | .signal => { s with changed := true }
  | .cancel => { s with stop := true }

def exec (p : Par) (s : St) (evs : List Ev) : St := evs.foldl (step p) s

/-- The begin: the files of the queue, and those added since the check began (Cleanup, ParChecker.cpp:378-387, clears the list then; it takes another
lock for this, which is not modelled). -/
def start (files added : List PFile) : St := { files := files, added := added, done := added }

end Verif.ParWait
