import Verif.Health
import Verif.CStr
import Verif.Dupe

/-! The status shown for a finished download: NzbInfo::IsDupeSuccess and MakeTextStatus (queue/DownloadInfo.cpp:492-650),
ScriptStatusList::CalcTotalStatus (82-97), the status of a hidden entry (HistoryCoordinator::HistoryHide, HistoryCoordinator.cpp:205-214;
HistoryXmlCommand::DetectStatus, remote/XmlRpc.cpp:2534-2552), the variables for post-processing scripts (extension/PostScript.cpp:135-162)
and DupeCoordinator::GetDupeStatus (queue/DupeCoordinator.cpp:509-568). `none`: the computation of the health is undefined
(`Health.lean`). -/

namespace Verif.Status
open Verif.Counters Verif.CStr

/-- ScriptStatus::EStatus, DownloadInfo.h:323-328. -/
inductive Script | none | failure | success
deriving DecidableEq, Repr

/-- NzbInfo::EParStatus, DownloadInfo.h:376-384. -/
inductive Par | none | skipped | failure | success | repairPossible | manual
deriving DecidableEq, Repr

/-- NzbInfo::EPostUnpackStatus, DownloadInfo.h:394-402. -/
inductive Unpack | none | skipped | failure | success | space | password
deriving DecidableEq, Repr

/-- NzbInfo::EMoveStatus, DownloadInfo.h:411-416. -/
inductive Move | none | failure | success
deriving DecidableEq, Repr

/-- NzbInfo::EDeleteStatus, DownloadInfo.h:418-428. -/
inductive Del | none | manual | health | dupe | bad | good | copy | scan
deriving DecidableEq, Repr

/-- NzbInfo::EMarkStatus, DownloadInfo.h:430-436. -/
inductive Mark | none | bad | good | success
deriving DecidableEq, Repr

/-- NzbInfo::EUrlStatus, DownloadInfo.h:438-447. -/
inductive Url | none | running | finished | failed | retry | scanSkipped | scanFailed
deriving DecidableEq, Repr

/-- The members of NzbInfo the status depends on; `url`: the entry is of kind nkUrl; `n`: the sizes. -/
structure Info where
  isUrl : Bool
  mark : Mark
  del : Del
  par : Par
  unpack : Unpack
  move : Move
  url : Url
  scripts : List Script
  n : Nzb
deriving DecidableEq, Repr

/-- ScriptStatusList::CalcTotalStatus, DownloadInfo.cpp:82-97. -/
def totalScript (l : List Script) : Script :=
  l.foldl (fun st s => if (s = .success ∧ st = .none) ∨ s = .failure then s else st) .none

/-- DownloadInfo.cpp:581-582: neither checked nor unpacked. -/
def untouched (i : Info) : Bool :=
  (i.par = .none ∨ i.par = .skipped) && (i.unpack = .none ∨ i.unpack = .skipped)

/-- NzbInfo::MakeTextStatus for nkNzb, DownloadInfo.cpp:517-625. -/
def nzbStatus (i : Info) (ignoreScript : Bool) : Option Bytes := do
  let health ← calcHealth i.n
  let critical ← calcCriticalHealth i.n false
  let script := if ignoreScript then .success else totalScript i.scripts
  return if i.mark = .bad then lit "FAILURE/BAD"
  else if i.mark = .good then lit "SUCCESS/GOOD"
  else if i.mark = .success then lit "SUCCESS/MARK"
  else if i.del = .health then lit "FAILURE/HEALTH"
  else if i.del = .manual then lit "DELETED/MANUAL"
  else if i.del = .dupe then lit "DELETED/DUPE"
  else if i.del = .bad then lit "FAILURE/BAD"
  else if i.del = .good then lit "DELETED/GOOD"
  else if i.del = .copy then lit "DELETED/COPY"
  else if i.del = .scan then lit "FAILURE/SCAN"
  else if i.par = .failure then lit "FAILURE/PAR"
  else if i.unpack = .failure then lit "FAILURE/UNPACK"
  else if i.move = .failure then lit "FAILURE/MOVE"
  else if i.par = .manual then lit "WARNING/DAMAGED"
  else if i.par = .repairPossible then lit "WARNING/REPAIRABLE"
  else if untouched i ∧ health < critical then lit "FAILURE/HEALTH"
  else if untouched i ∧ health < 1000 ∧ health ≥ critical then lit "WARNING/HEALTH"
  else if untouched i ∧ script ≠ .failure ∧ health = 1000 then lit "SUCCESS/HEALTH"
  else if i.unpack = .space then lit "WARNING/SPACE"
  else if i.unpack = .password then lit "WARNING/PASSWORD"
  else if (i.unpack = .success ∨ ((i.unpack = .none ∨ i.unpack = .skipped) ∧ i.par = .success)) ∧ script = .success then
    lit "SUCCESS/ALL"
  else if i.unpack = .success ∧ script = .none then lit "SUCCESS/UNPACK"
  else if i.par = .success ∧ script = .none then lit "SUCCESS/PAR"
  else if script = .failure then lit "WARNING/SCRIPT"
  else lit "FAILURE/INTERNAL_ERROR"

/-- NzbInfo::MakeTextStatus for nkUrl, DownloadInfo.cpp:629-646. -/
def urlStatus (i : Info) : Bytes :=
  if i.del = .manual then lit "DELETED/MANUAL"
  else if i.del = .dupe then lit "DELETED/DUPE"
  else if i.del = .good then lit "DELETED/GOOD"
  else match i.url with
    | .none => lit "FAILURE/INTERNAL_ERROR"
    | .running => lit "FAILURE/INTERNAL_ERROR"
    | .finished => lit "FAILURE/INTERNAL_ERROR"
    | .failed => lit "FAILURE/FETCH"
    | .retry => lit "FAILURE/INTERNAL_ERROR"
    | .scanSkipped => lit "WARNING/SKIPPED"
    | .scanFailed => lit "FAILURE/SCAN"

/-- NzbInfo::MakeTextStatus, DownloadInfo.cpp:511-650. -/
def textStatus (i : Info) (ignoreScript : Bool) : Option Bytes :=
  if i.isUrl then some (urlStatus i) else nzbStatus i ignoreScript

/-- NzbInfo::IsDupeSuccess, DownloadInfo.cpp:492-509. -/
def isDupeSuccess (i : Info) : Option Bool := do
  let health ← calcHealth i.n
  let critical ← calcCriticalHealth i.n true
  let failure := decide (i.mark ≠ .success ∧ i.mark ≠ .good ∧
    (i.del ≠ .none ∨ i.mark = .bad ∨ i.par = .failure ∨ i.unpack = .failure ∨ i.unpack = .password ∨
     i.url = .failed ∨ i.url = .scanSkipped ∨ i.url = .scanFailed ∨
     (i.par = .skipped ∧ i.unpack = .skipped ∧ health < critical)))
  return !failure

/-- DupInfo::EStatus, DownloadInfo.h:850-859. -/
inductive Hidden | undefined | success | failed | deleted | dupe | bad | good
deriving DecidableEq, Repr

/-- The status of the record an entry is replaced with, HistoryCoordinator.cpp:205-214. -/
def hide (i : Info) : Option Hidden :=
  if i.mark = .good then some .good
  else if i.mark = .bad then some .bad
  else if i.mark = .success then some .success
  else if i.del = .dupe then some .dupe
  else if i.del = .manual ∨ i.del = .good ∨ i.del = .copy then some .deleted
  else (isDupeSuccess i).map fun s => if s then .success else .failed

/-- The names of XmlRpc.cpp:2546-2547. -/
def hiddenText : Hidden → Bytes
  | .undefined => lit "FAILURE/INTERNAL_ERROR"
  | .success => lit "SUCCESS/HIDDEN"
  | .failed => lit "FAILURE/HIDDEN"
  | .deleted => lit "DELETED/MANUAL"
  | .dupe => lit "DELETED/DUPE"
  | .bad => lit "FAILURE/BAD"
  | .good => lit "SUCCESS/GOOD"

/-- The part of a status before the slash (PostScript.cpp:138-140). -/
def beforeSlash (s : Bytes) : Bytes := s.takeWhile (· ≠ 47)

/-- The variables NZBPP_STATUS, NZBPP_TOTALSTATUS, NZBPP_SCRIPTSTATUS, NZBPP_PARSTATUS, NZBPP_UNPACKSTATUS and NZBPP_HEALTHDELETED. -/
structure Env where
  status : Bytes
  total : Bytes
  script : Bytes
  par : Nat
  unpack : Nat
  healthDeleted : Nat
deriving DecidableEq, Repr

/-- PostScript.cpp:146. -/
def parCode : Par → Nat
  | .none => 0 | .skipped => 0 | .failure => 1 | .success => 2 | .repairPossible => 3 | .manual => 4

/-- PostScript.cpp:158. -/
def unpackCode : Unpack → Nat
  | .none => 0 | .skipped => 0 | .failure => 1 | .success => 2 | .space => 3 | .password => 4

/-- PostScript.cpp:142. -/
def scriptName : Script → Bytes
  | .none => lit "NONE" | .failure => lit "FAILURE" | .success => lit "SUCCESS"

/-- PostScriptController::PrepareParams, PostScript.cpp:135-162. -/
def env (i : Info) : Option Env :=
  (textStatus i true).map fun st =>
    { status := st, total := beforeSlash st, script := scriptName (totalScript i.scripts)
      par := parCode (if i.del ≠ .none ∨ i.mark = .bad then .failure else i.par)
      unpack := unpackCode i.unpack, healthDeleted := if i.del = .health then 1 else 0 }

/-- An entry of the queue as GetDupeStatus sees it. -/
structure Queued where
  name : String
  key : String
  articles : Int
deriving DecidableEq, Repr

/-- An entry of the history. -/
inductive Hist
  | item (name key : String) (i : Info)
  | hidden (name key : String) (s : Hidden)
deriving DecidableEq, Repr

/-- DupeCoordinator::EDupeStatus as flags. -/
structure Flags where
  queued : Bool
  downloading : Bool
  success : Bool
  failure : Bool
  warning : Bool
deriving DecidableEq, Repr

/-- `strncasecmp(textStatus, word, 7)`; all texts are in upper case. -/
def begins (s w : Bytes) : Bool := s.take 7 == w.take 7

/-- DupeCoordinator.cpp:515-528. -/
def queueFlags (name key : String) (l : List Queued) (f : Flags) : Flags :=
  l.foldl (fun f q => if Dupe.sameNameOrKey name key q.name q.key then
    (if q.articles > 0 then { f with downloading := true } else { f with queued := true }) else f) f

/-- DupeCoordinator.cpp:533-564, one entry. -/
def histFlags (name key : String) (f : Flags) : Hist → Option Flags
  | .item n k i =>
    if i.isUrl = false ∧ Dupe.sameNameOrKey name key n k then
      (textStatus i true).map fun st =>
        if begins st (lit "SUCCESS") then { f with success := true }
        else if begins st (lit "FAILURE") then { f with failure := true }
        else if begins st (lit "WARNING") then { f with warning := true }
        else f
    else some f
  | .hidden n k s =>
    if Dupe.sameNameOrKey name key n k then
      some (if s = .success ∨ s = .good then { f with success := true }
        else if s = .failed ∨ s = .bad then { f with failure := true } else f)
    else some f

def allHist (name key : String) : Flags → List Hist → Option Flags
  | f, [] => some f
  | f, h :: l => match histFlags name key f h with | none => none | some f' => allHist name key f' l

/-- DupeCoordinator::GetDupeStatus, DupeCoordinator.cpp:509-568. -/
def dupeStatus (name key : String) (queue : List Queued) (history : List Hist) : Option Flags :=
  allHist name key (queueFlags name key queue ⟨false, false, false, false, false⟩) history

end Verif.Status
