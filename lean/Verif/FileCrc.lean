import Verif.Rpc
/-
Model of RepairController::PostParChecker::FindFileCrc (/repo/daemon/postprocess/Repair.cpp:71-116): what the par-check is told about a downloaded file, so that
it need not read the file again. What it does with the answer is modelled in Verif.ParQuick.
-/
namespace Verif.FileCrc
open CStr Rpc

/-- CompletedFile::EStatus (/repo/daemon/queue/DownloadInfo.h:257-263) -/
inductive Status where
  | none | success | partially | failure
deriving DecidableEq, Repr

/-- A completed file (DownloadInfo.h:254-): the checksum is what was calculated during the download. -/
structure Done where
  id : Nat
  name : Bytes
  status : Status
  crc : Nat
deriving DecidableEq, Repr

/-- A part of a file: downloaded or not, where, and its checksum. -/
structure Seg where
  ok : Bool
  offset : Nat
  size : Nat
  crc : Nat
deriving DecidableEq, Repr

/-- ParChecker::EFileStatus (/repo/daemon/postprocess/ParChecker.h:114-120) -/
inductive Verdict where
  | unknown | success | partially | failure
deriving DecidableEq, Repr

/-- The answer; the checksum is not set if the file isn't found. -/
structure Answer where
  verdict : Verdict
  crc : Option Nat
  segs : List Seg
deriving DecidableEq, Repr

/-- FindFileCrc (Repair.cpp:71-116). `load` are the articles in the saved state of a file, if it can be read (98); `reprocess`: the download was put back into post-processing. Simplified: ids are not
negative, and the list of parts is empty before the call, as it is at the only call (/repo/daemon/postprocess/ParChecker.cpp:1338). -/
def find (done : List Done) (reprocess : Bool) (load : Nat → Option (List Seg)) (name : Bytes) : Answer :=
  match done.find? (fun d => eqNoCase d.name name) with                            -- 76-83
  | none => ⟨.unknown, none, []⟩                                                    -- 84-87
  | some d =>
    if d.status = .partially ∧ 0 < d.id ∧ reprocess = false then                    -- 93-94
      match load d.id with
      | none => ⟨.unknown, some d.crc, []⟩                                          -- 98-101
      | some segs => ⟨if 0 < segs.length then .partially else .unknown, some d.crc, segs⟩   -- 103-107, 113-115
    else
      ⟨match d.status with
        | .success => .success
        | .failure => if reprocess then .unknown else .failure
        | _ => .unknown, some d.crc, []⟩                                            -- 110-115

end Verif.FileCrc
