import Verif.FileName
import Verif.RepairFiles
/-
Model of how a par check comes to its result: what libpar2 counts and says (Par2Repairer::UpdateVerificationResults, CheckVerificationResults
and Process(false), /repo/lib/par2/par2repairer.cpp), when a file counts as damaged (signals and CheckEmptyFiles) and the run of the steps
(ParChecker::RunParCheck, /repo/daemon/postprocess/ParChecker.cpp:444-597).
-/
namespace Verif.ParVerdict
open Verif.CStr

/-! ### Names -/

/-- The part behind the last such character, or all, par2repairersourcefile.cpp:73-82 (without the part for Windows). -/
def stripPath (s : Bytes) : Bytes :=
  match FileName.lastIdx 92 s with
  | some i => s.drop (i + 1)
  | none => match FileName.lastIdx 47 s with | some i => s.drop (i + 1) | none => s

/-- Par2RepairerSourceFile::ComputeTargetFileName, par2repairersourcefile.cpp:67-85; TranslateFilename is MakeValidFilename (diskfile.cpp:817-820). -/
def targetName (path name : Bytes) : Bytes := path ++ stripPath (FileName.makeValid false name)

/-! ### What is counted -/

/-- A file of the set (`Par2RepairerSourceFile`): `total` blocks; `found`: which of them were found (only for recoverable files there are data
blocks, AllocateSourceBlocks, par2repairer.cpp:1066-1138); the numbers of the objects of its target file and its complete file. -/
structure Src where
  total : Nat
  found : List Bool
  target : Option Nat
  complete : Option Nat

/-- The set after a verification: `none` - there is no description of the file; the first `recoverable` files are recoverable
(MainPacket::RecoverableFileCount); `packets`: `recoverypacketmap.size()`. -/
structure Checked where
  files : List (Option Src)
  recoverable : Nat
  packets : Nat

structure Counts where
  available : Nat := 0
  complete : Nat := 0
  renamed : Nat := 0
  damaged : Nat := 0
  missing : Nat := 0

/-- One file, par2repairer.cpp:1888-1938. `isRec`: the file is recoverable. For others there are no data blocks: reading them is undefined
behaviour (`none`). -/
def countFile (isRec : Bool) (c : Counts) : Option Src → Option Counts
  | none => some { c with missing := c.missing + 1 }
  | some s =>
    match s.complete with
    | some o =>
      if s.target = some o then some { c with complete := c.complete + 1, available := c.available + s.total }
      else some { c with renamed := c.renamed + 1, available := c.available + s.total }
    | none =>
      if isRec = false ∧ s.total > 0 then none
      else
        let c := { c with available := c.available + s.found.count true }
        if s.target.isSome then some { c with damaged := c.damaged + 1 } else some { c with missing := c.missing + 1 }

/-- The loop of UpdateVerificationResults, par2repairer.cpp:1884-1939. The number of files of the main packet is the length of the list
(CreateSourceFileList, 1045-1060). -/
def countAll (recoverable : Nat) : Nat → List (Option Src) → Counts → Option Counts
  | _, [], c => some c
  | n, f :: l, c =>
    match countFile (decide (n < recoverable)) c f with
    | some c => countAll recoverable (n + 1) l c
    | none => none

/-- The number of blocks of a file, 0 without a description. -/
def blocksOf : Option Src → Nat
  | some s => s.total
  | none => 0

/-- `sourceblockcount`, par2repairer.cpp:1068-1092. -/
def sourceBlocks (v : Checked) : Nat := ((v.files.take v.recoverable).map blocksOf).sum

/-- `missingblockcount`, a number of 32 bits, par2repairer.cpp:1941. -/
def missingBlocks (v : Checked) (c : Counts) : Nat := (sourceBlocks v + (2 ^ 32 - c.available % 2 ^ 32)) % 2 ^ 32

/-- The results of Process, par2cmdline.h:86-113. `error`: any other. -/
inductive Res | success | possible | notPossible | error
deriving DecidableEq

/-- Process(false) behind the verification, par2repairer.cpp:247-349, with CheckVerificationResults (1945-2013). `none`: undefined behaviour. -/
def verdict (v : Checked) : Option Res :=
  match countAll v.recoverable 0 v.files {} with
  | none => none
  | some c =>
    if c.complete < v.recoverable ∨ c.renamed > 0 ∨ c.damaged > 0 ∨ c.missing > 0 then
      if v.packets ≥ missingBlocks v c then
        if c.complete < v.recoverable then some .possible else some .success
      else some .notPossible
    else some .success

/-! ### Which files count as damaged -/

/-- What the verification tells about one file of the set. `missing`: it can not be opened (par2repairer.cpp:1301-1318). `silent`: it is empty and
verified by libpar2 (1558-1562). `full`: verified by libpar2, with the blocks found and the blocks of the file they belong to (1869); this need not
be the file with that name. `quick`: verified with the checksums of the download (ParChecker.cpp:152-174): the blocks found; `failed`: the download of the whole file failed
and it is not empty (1341-1344: the number of blocks found stays as it was set at 160); `quickEmpty`: it is empty (1329-1333). -/
inductive Look
  | missing
  | silent
  | full (found total : Nat)
  | quick (found : Nat)
  | failed
  | quickEmpty
deriving DecidableEq

/-- A file: its number of blocks, whether its extension is one of ParIgnoreExt, and what was seen. -/
structure File where
  total : Nat
  ignored : Bool
  look : Look

/-- The numbers given to signal_done, par2repairer.cpp:1316, 1869; ParChecker.cpp:164. -/
def signal (f : File) : Option (Nat × Nat) :=
  match f.look with
  | .missing => some (0, f.total)
  | .silent => none
  | .full c t => some (c, t)
  | .quick c => some (c, f.total)
  | .failed => some (f.total, f.total)
  | .quickEmpty => some (0, f.total)

/-- signal_done, ParChecker.cpp:1154-1195. -/
def flagged (f : File) : Bool :=
  match signal f with
  | some (a, t) => decide (a < t) && !f.ignored
  | none => false

/-- The file is in the list of processed files: by signal_filename (ParChecker.cpp:1088-1091) or by signal_done (1189-1192). -/
def processed (f : File) : Bool :=
  match f.look with
  | .missing => decide (0 < f.total)
  | .silent => false
  | _ => true

/-- `m_hasDamagedFiles` with CheckEmptyFiles if the check is not quick (ParChecker.cpp:478-481, 1202-1229). Simplified: the names of the files
differ (ignoring case), and all have descriptions. -/
def hasDamaged (quick : Bool) (files : List File) : Bool :=
  files.any flagged || (!quick && files.any (fun f => !processed f && !f.ignored))

/-! ### The run -/

/-- ParScan (Options.h). -/
inductive Scan | limited | extended | full | dupe
deriving DecidableEq

inductive Status | failed | repairPossible | repaired | notNeeded
deriving DecidableEq

/-- What is done. `verify`: Process(false); `repair`: Process(true). -/
inductive Act | verify | fragments | missingFiles | morePars | dupeFiles | repair | leftovers
deriving DecidableEq

/-- What the steps give. `stop n`: IsStopped() where it is asked for the n-th time; `pre`: PreProcessPar; `first`: the first Process(false); the
others in the order of the code. -/
structure Env where
  stop : Nat → Bool
  pre : Bool
  first : Res
  damaged : Bool
  fragmentsFound : Bool
  afterFragments : Res
  filesMissing : Bool
  scan : Scan
  missingFound : Bool
  afterMissing : Res
  more : Res
  dupesFound : Bool
  afterDupes : Res
  moreAgain : Res
  parRepair : Bool
  repair : Bool

/-- After the split fragments, ParChecker.cpp:483-491: result, whether fragments were added, what was done. -/
def stepFragments (e : Env) : Res × Bool × List Act :=
  if e.damaged = true ∧ e.stop 1 = false ∧ e.first = .notPossible then
    if e.fragmentsFound then (e.afterFragments, true, [.fragments, .verify]) else (e.first, false, [.fragments])
  else (e.first, false, [])

/-- After the search for missing files, ParChecker.cpp:493-502. -/
def stepMissing (e : Env) (r : Res) (added : Bool) : Res × List Act :=
  if e.damaged = true ∧ e.stop 2 = false ∧ e.filesMissing = true ∧ ¬ (added = true ∧ r = .possible) ∧ (e.scan = .extended ∨ e.scan = .dupe) then
    if e.missingFound then (e.afterMissing, [.missingFiles, .verify]) else (r, [.missingFiles])
  else (r, [])

/-- After more par2 files, ParChecker.cpp:504-507. -/
def stepMore (e : Env) (r : Res) : Res × List Act :=
  if e.damaged = true ∧ e.stop 3 = false ∧ r = .notPossible then (e.more, [.morePars]) else (r, [])

/-- After the search in duplicates, ParChecker.cpp:509-520. -/
def stepDupes (e : Env) (r : Res) : Res × List Act :=
  if e.damaged = true ∧ e.stop 4 = false ∧ r = .notPossible ∧ e.scan = .dupe then
    if e.dupesFound then
      if e.stop 5 = false ∧ e.afterDupes = .notPossible then (e.moreAgain, [.dupeFiles, .verify, .morePars]) else (e.afterDupes, [.dupeFiles, .verify])
    else (r, [.dupeFiles])
  else (r, [])

/-- The result of all steps of the verification, ParChecker.cpp:476-520. -/
def verified (e : Env) : Res × List Act :=
  let a := stepFragments e
  let b := stepMissing e a.1 a.2.1
  let c := stepMore e b.1
  let d := stepDupes e c.1
  (d.1, .verify :: a.2.2 ++ b.2 ++ c.2 ++ d.2)

/-- The end, ParChecker.cpp:530-568: status and what was done, and whether `m_stage` is at least ptRepairing. -/
def finish (e : Env) (r : Res) : Status × List Act × Bool :=
  if r = .success ∨ e.damaged = false then (.notNeeded, [], false)
  else if r = .possible then
    if e.parRepair then
      if e.repair then (.repaired, [.repair, .leftovers], true) else (.failed, [.repair], true)
    else (.repairPossible, [], false)
  else (.failed, [], false)

/-- ParChecker::RunParCheck, ParChecker.cpp:444-597. -/
def run (e : Env) : Status × List Act :=
  if e.stop 0 = true ∨ e.pre = false then (.failed, [])
  else
    let v := verified e
    if e.stop 6 then (.failed, v.2)
    else
      let f := finish e v.1
      if e.stop 7 then (if f.2.2 then .repairPossible else .failed, v.2 ++ f.2.1)
      else (f.1, v.2 ++ f.2.1)

end Verif.ParVerdict
