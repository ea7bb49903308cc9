import Verif.ParName
import Verif.RarRename
/-
Model of the renaming of files by par2-files: /repo/daemon/postprocess/ParRenamer.cpp.

One directory is renamed after the other; each is a list of entries with their contents. MD5, the reader of
par2-packets and the operating system are functions. The renaming is not cancelled. Paths are shorter than 1024 bytes.
-/
namespace Verif.ParRename
open CStr FileName Files RarRename

/-- What is not modelled. `setId`: the set of a file with a par2-header (CheckParFile, ParRenamer.cpp:316-355); `load`:
what LoadPacketsFromFile reads, `none` if it fails, each source file with its name made valid and the hash of its first
16 KiB, or `none` if it has no description; `hash`: the hash of the first 16 KiB; `ren`: the operating system permits the
renaming; `ignored`: the extension is in ParIgnoreExt. `junk`: the value of a variable which was not set. -/
structure Env where
  setId : Bytes → Option Bytes
  load : Bytes → Option (List (Option (Bytes × Bytes)))
  hash : Bytes → Bytes
  ren : Bytes → Bytes → Bool
  ignored : Bytes → Bool
  junk : Nat

/-- FileHash (ParRenamer.h:51-64). -/
structure Entry where
  name : Bytes
  hash : Bytes
  found : Bool
deriving DecidableEq, Repr

/-- `hashes`: m_fileHashList, `bad`: m_badParList, `loaded`: m_loadedParList, `count`: m_renamedCount, `damaged`:
m_hasDamagedParFiles, `missed`: m_hasMissedFiles. -/
structure St where
  dir : Dir
  hashes : List Entry
  bad : List Bytes
  loaded : List Bytes
  count : Nat
  damaged : Bool
  missed : Bool
deriving DecidableEq, Repr

/-- ParRenamer::RenameFile (ParRenamer.cpp:422-436). -/
def renameFile (env : Env) (st : St) (src dst : Bytes) : St :=
  match get st.dir src with
  | none => st
  | some x =>
    if env.ren src dst && renameOk (get st.dir dst) x then
      { st with dir := put (del st.dir src) dst x, count := st.count + 1 }
    else st

/-- The names of the files (CheckFiles, ParRenamer.cpp:198-225, passes over directories). -/
def fileNames (d : Dir) : List Bytes := (d.filter (fun e => isFile (some e.2))).map (·.1)

/-- The files with a par2-header with their sets: CheckFiles with CheckParFile (ParRenamer.cpp:198-225, 316-355). -/
def parInfos (env : Env) (d : Dir) : List (Bytes × Bytes) :=
  d.filterMap (fun e => match e.2 with
    | .file data => (env.setId data).map (fun i => (e.1, i))
    | .dir _ => none)

/-- The length of the base name (ParRenamer.cpp:383-384, 393-394): not set if the name is none of a par2-file. -/
def baseLen (env : Env) (n : Bytes) : Nat :=
  match ParName.parse true n with
  | some x => x.1
  | none => env.junk

/-- The inner loop of NeedRenameParFiles (ParRenamer.cpp:386-401). -/
def differs (env : Env) (p : Bytes × Bytes) : List (Bytes × Bytes) → Bool
  | [] => false
  | q :: l =>
    if p.2 = q.2 ∧ (baseLen env p.1 ≠ baseLen env q.1 ∨
      (p.1.take (baseLen env p.1)).map WildMask.lower ≠ (q.1.take (baseLen env p.1)).map WildMask.lower) then true
    else differs env p l

/-- The extension (`strrchr`) in lower case. -/
def ext (s : Bytes) : Option Bytes :=
  match lastIdx 46 s with
  | some p => some ((s.drop p).map WildMask.lower)
  | none => none

/-- ParRenamer::NeedRenameParFiles (ParRenamer.cpp:368-405). -/
def needRename (env : Env) : List (Bytes × Bytes) → Bool
  | [] => false
  | p :: l => if ext p.1 ≠ some (lit ".par2") then true else if differs env p l then true else needRename env l

/-- A name for a par2-file (ParRenamer.cpp:415). -/
def parDest (id : Bytes) (num : Nat) : Bytes := id ++ (lit ".vol" ++ (pad 3 num ++ lit "+01.PAR2"))

/-- The search for a free name (ParRenamer.cpp:411-417). -/
def freePar (d : Dir) (id : Bytes) : (fuel num : Nat) → Option Bytes
  | 0, _ => none
  | f + 1, num => if isFile (get d (parDest id num)) then freePar d id f (num + 1) else some (parDest id num)

/-- ParRenamer::RenameParFile for all (ParRenamer.cpp:357-366, 407-420). `none`: not finished. -/
def renamePars (env : Env) (fuel : Nat) : St → List (Bytes × Bytes) → Option St
  | st, [] => some st
  | st, p :: l =>
    match freePar st.dir p.2 fuel 1 with
    | none => none
    | some n => renamePars env fuel (renameFile env st p.1 n) l

/-- One source file of a par2-file (ParRenamer.cpp:164-195). -/
def addSource (par : Bytes) (st : St) : Option (Bytes × Bytes) → St
  | none => { st with bad := st.bad ++ [par], damaged := true }
  | some (name, hash) =>
    if st.hashes.any (fun e => e.hash == hash) then st
    else { st with hashes := st.hashes ++ [⟨name, hash, false⟩] }

/-- ParRenamer::LoadParFile (ParRenamer.cpp:150-196). -/
def loadPar (env : Env) (st : St) (n : Bytes) : St :=
  match get st.dir n with
  | some (.file data) =>
    match env.load data with
    | some l =>
      if data = [] then { st with bad := st.bad ++ [n], damaged := true }
      else l.foldl (addSource n) { st with loaded := st.loaded ++ [n] }
    | none => { st with bad := st.bad ++ [n], damaged := true }
  | _ => { st with bad := st.bad ++ [n], damaged := true }

/-- ParRenamer::LoadMainParFiles (ParRenamer.cpp:110-120). -/
def loadMain (env : Env) (st : St) : St := (ParName.findMain (st.dir.map (·.1)) []).foldl (loadPar env) st

/-- ParRenamer::LoadExtraParFiles (ParRenamer.cpp:122-148); the code parses the name with the path, here the path is
one character and a slash. -/
def loadExtra (env : Env) (st : St) : St :=
  (st.dir.map (·.1)).foldl (fun st n =>
    if (ParName.parse true (97 :: 47 :: n)).isSome && !st.bad.contains n && !st.loaded.contains n then loadPar env st n else st) st

/-- ParRenamer::IsSplittedFragment (ParRenamer.cpp:246-264). -/
def isSplit (name correct : Bytes) : Bool :=
  (lastIdx 46 name).isSome && (name.take correct.length).map WildMask.lower == correct.map WildMask.lower &&
    match name.drop correct.length with
    | 46 :: r => r.all isDigit && decide (ParName.atoi r ≤ 1)
    | _ => false

/-- The first entry with the hash is marked as found. -/
def setFound (h : Bytes) : List Entry → List Entry
  | [] => []
  | e :: l => if e.hash = h then { e with found := true } :: l else e :: setFound h l

/-- ParRenamer::CheckRegularFile (ParRenamer.cpp:266-314). -/
def checkFile (env : Env) (st : St) (n : Bytes) : St :=
  match get st.dir n with
  | some (.file data) =>
    match st.hashes.find? (fun e => e.hash == env.hash data) with
    | none => st
    | some e =>
      let st := { st with hashes := setFound (env.hash data) st.hashes }
      if !isFile (get st.dir e.name) && !isSplit n e.name then renameFile env st n e.name else st
  | _ => st

/-- CheckFiles for regular files (ParRenamer.cpp:198-225): the names are those at the begin. -/
def checkFiles (env : Env) (st : St) : St := (fileNames st.dir).foldl (checkFile env) st

/-- ParRenamer::CheckMissing (ParRenamer.cpp:227-244). -/
def checkMissing (env : Env) (st : St) : St :=
  if st.hashes.any (fun e => !e.found && !env.ignored e.name) then { st with missed := true } else st

/-- ParRenamer::RenameBadParFiles (ParRenamer.cpp:438-445). -/
def renameBad (env : Env) (st : St) : St := st.bad.foldl (fun st n => renameFile env st n (n ++ lit ".bad")) st

/-- The loop body of ParRenamer::Execute (ParRenamer.cpp:56-78) before bad par2-files are renamed. -/
def execFirst (env : Env) (fuel : Nat) (detect : Bool) (st : St) : Option St :=
  let infos := parInfos env st.dir
  match (if needRename env infos then renamePars env fuel { st with hashes := [], bad := [], loaded := [] } infos
    else some { st with hashes := [], bad := [], loaded := [] }) with
  | none => none
  | some st =>
    let st := loadMain env st
    let st := if st.damaged then loadExtra env st else st
    let st := checkFiles env st
    some (if detect then checkMissing env st else st)

/-- The loop body of ParRenamer::Execute (ParRenamer.cpp:56-84). -/
def execDir (env : Env) (fuel : Nat) (detect : Bool) (st : St) : Option St :=
  match execFirst env fuel detect st with
  | none => none
  | some st => some (if decide (st.count > 0) && !st.bad.isEmpty then renameBad env st else st)

end Verif.ParRename
