import Verif.Rar
import Verif.Files
import Verif.ParName
/-
Model of the renaming of rar-files: /repo/daemon/postprocess/RarRenamer.cpp (28-393).

The files of all directories are one list of full names with contents. Renaming within the destination directory
is within one device. The numbers of volumes in sets are below 2^31. `BString<1024>` for full names of files is not
modelled (full names are shorter), only for the new base name, which comes from within the archive.
-/
namespace Verif.RarRename
open CStr FileName Files Rar

/-- RarVolume as it is kept in m_volumes: the name with which it was read, the version and what was read. -/
structure Volume where
  path : Bytes
  version : Nat
  vol : Vol
deriving DecidableEq, Repr

/-- `%0wi` of a number which is not negative. -/
def pad (w n : Nat) : Bytes := List.replicate (w - (dec n).length) 48 ++ dec n

/-- RarRenamer::GenNewExtension (RarRenamer.cpp:180-183). -/
def newExt (n : Nat) : Bytes := lit "part" ++ (pad 4 (n + 1) ++ lit ".rar")

/-- The character `ch` (RarRenamer.cpp:193). -/
def oldChar (n : Nat) : UInt8 := UInt8.ofNat (114 + (n - 1) / 100)

/-- RarRenamer::GenOldExtension (RarRenamer.cpp:185-196): a zero character ends the text. -/
def oldExt (n : Nat) : Bytes :=
  if n = 0 then lit "rar" else if oldChar n = 0 then [] else oldChar n :: pad 2 ((n - 1) % 100)

/-- The extension of a volume (RarRenamer.cpp:176). -/
def ext (v : Vol) : Bytes := if v.newNaming then newExt v.volumeNo else oldExt v.volumeNo

/-- RarRenamer::GenNewVolumeFilename (RarRenamer.cpp:174-178). -/
def dest (dir base : Bytes) (v : Volume) : Bytes := dir ++ 47 :: (base ++ 46 :: ext v.vol)

/-- The begin of a set (RarRenamer.cpp:205-206). -/
def isFirst (v : Volume) : Bool :=
  match v.vol.files with
  | [] => false
  | f :: _ => v.vol.volumeNo == 0 && !f.splitBefore

/-- The test of the continuation of a file (RarRenamer.cpp:230-233). -/
def joins (a b : RFile) : Bool :=
  (b.splitBefore && a.splitAfter && b.name == a.name) || (!b.splitBefore && !a.splitAfter)

/-- The test for a candidate (RarRenamer.cpp:226-233). The list of files of `last` is never empty. -/
def follows (last v : Volume) : Bool :=
  match last.vol.files.getLast?, v.vol.files with
  | some a, b :: _ => v.vol.multi && v.vol.volumeNo == (last.vol.volumeNo + 1) % 2 ^ 32 && v.version == last.version &&
      last.vol.hasNext && joins a b
  | _, _ => false

/-- The name up to the last point, and the rest (`strrchr`). -/
def splitDot (s : Bytes) : Option (Bytes × Bytes) :=
  match lastIdx 46 s with
  | some p => some (s.take p, s.drop p)
  | none => none

/-- The second part of SameArchiveName (RarRenamer.cpp:304-318). -/
def sameNew (a b : Bytes × Bytes) : Bool :=
  match a.1, b.1 with
  | [], _ => false
  | _, [] => false
  | x, y =>
    match splitDot (x.take 1023), splitDot (y.take 1023) with
    | some (n1, e1), some (_, e2) => e1.length == e2.length && startsWith (lit ".part") e1 && startsWith (lit ".part") e2 &&
        (x.take 1023).take n1.length == (y.take 1023).take n1.length
    | _, _ => false

/-- RarRenamer::SameArchiveName (RarRenamer.cpp:289-323). -/
def sameArchive (f1 f2 : Bytes) (newNaming : Bool) : Bool :=
  f1.length == f2.length &&
    match splitDot f1, splitDot f2 with
    | some a, some b => a.2.length == b.2.length && (if newNaming then sameNew a b else f1.take a.1.length == f2.take a.1.length)
    | _, _ => false

/-- The next volume (RarRenamer.cpp:221-258). -/
def next (vols : List Volume) (first last : Volume) : Option Volume :=
  let c := vols.filter (follows last)
  let same := c.find? (fun v => sameArchive (baseName first.path) (baseName v.path) first.vol.newNaming)
  if 1 < c.length ∧ same.isSome then same else c.head?

/-- The loop which completes a set (RarRenamer.cpp:217-266) after the volume `last`: the volumes which are added. The
numbers of the volumes ascend, so there are no more rounds than volumes. -/
def extend (vols : List Volume) (first : Volume) : (fuel : Nat) → (last : Volume) → List Volume
  | 0, _ => []
  | k + 1, last =>
    match next vols first last with
    | some v => v :: extend vols first k v
    | none => []

/-- `completed` (RarRenamer.cpp:268-270). -/
def completed (last : Volume) : Bool :=
  !last.vol.hasNext &&
    match last.vol.files.getLast? with
    | some f => !f.splitAfter
    | none => true

def wholeSet (vols : List Volume) (first : Volume) : List Volume := first :: extend vols first vols.length first

def lastOf (first : Volume) (l : List Volume) : Volume := l.getLast?.getD first

/-- RarRenamer::MakeSets (RarRenamer.cpp:198-287). -/
def makeSets (vols : List Volume) : List (List Volume) :=
  ((vols.filter isFirst).map (wholeSet vols)).filter (fun s => match s with
    | [] => false
    | f :: _ => completed (lastOf f s))

/-- The match of `.*.part([0-9]+)\.rar$` without case (RarRenamer.cpp:327, 342-346): the text before the number, and
the number. -/
def partOf (name : Bytes) : Option (Bytes × Bytes) :=
  let r := name.reverse
  let d := (r.drop 4).takeWhile isDigit
  let rest := (r.drop 4).drop d.length
  if (lit "rar.").isPrefixOf (r.map WildMask.lower) ∧ d ≠ [] ∧ (lit "trap").isPrefixOf (rest.map WildMask.lower) ∧
    4 < rest.length then some (rest.reverse, d.reverse) else none

/-- The loop of IsSetProperlyNamed (RarRenamer.cpp:331-368). `len`: setPartLen. -/
def properLoop (base : Bytes) : (len : Nat) → List Volume → Bool
  | _, [] => true
  | len, v :: s =>
    let name := baseName v.path
    if base.length ≠ name.length then false
    else if v.vol.newNaming then
      match partOf name with
      | none => false
      | some (p, d) =>
        let len := if len = 0 then d.length else len
        if (ParName.atoi d % 2 ^ 32).toNat = (v.vol.volumeNo + 1) % 2 ^ 32 ∧ d.length = len ∧ base.take p.length = name.take p.length
        then properLoop base len s else false
    else
      match splitDot name with
      | none => false
      | some (p, e) =>
        if e.drop 1 = oldExt v.vol.volumeNo ∧ base.take p.length = name.take p.length then properLoop base len s else false

/-- RarRenamer::IsSetProperlyNamed (RarRenamer.cpp:325-371). -/
def isProper : List Volume → Bool
  | [] => true
  | f :: s => properLoop (baseName f.path) 0 (f :: s)

/-- The choice of `std::max_element`: the first of the largest. -/
def larger (a b : RFile) : RFile := if asInt64 a.size < asInt64 b.size then b else a

/-- RarRenamer::FindMainFile (RarRenamer.cpp:373-393). The first volume of a set has a file. -/
def mainFile : List RFile → Option RFile
  | [] => none
  | f :: l => some (l.foldl larger f)

/-- The new base name (RarRenamer.cpp:133-139). -/
def mainBase (name : Bytes) : Bytes :=
  let n := (baseName name).take 1023
  match splitDot n with
  | some (p, e) => if e.length = 4 then p else n
  | none => n

/-- The base name after `k` names would have overwritten files (RarRenamer.cpp:141-149). -/
def baseNo (main : Bytes) (k : Nat) : Bytes := if k = 0 then main else (main ++ 45 :: dec (k + 1)).take 1023

/-- `willOverwrite` for a base name (RarRenamer.cpp:151-159). -/
def willOverwrite (fs : Dir) (dir base : Bytes) (s : List Volume) : Bool :=
  s.any (fun v => v.path != dest dir base v && isFile (get fs (dest dir base v)))

/-- The loop over base names (RarRenamer.cpp:142-160). `none`: not finished. -/
def freshBase (fs : Dir) (dir main : Bytes) (s : List Volume) : (fuel k : Nat) → Option Bytes
  | 0, _ => none
  | f + 1, k => if willOverwrite fs dir (baseNo main k) s then freshBase fs dir main s f (k + 1) else some (baseNo main k)

/-- `rename` (FileSystem::MoveFile, FileSystem.cpp:477-489). `ok`: the operating system permits it. -/
def rename (ok : Bool) (fs : Dir) (src dst : Bytes) : Dir :=
  match get fs src with
  | none => fs
  | some x => if ok && renameOk (get fs dst) x then put (del fs src) dst x else fs

/-- The loop which renames the volumes of a set (RarRenamer.cpp:162-169). -/
def moveAll (ans : Bytes → Bool) (dir base : Bytes) (fs : Dir) (s : List Volume) : Dir :=
  s.foldl (fun fs v => if v.path = dest dir base v then fs else rename (ans v.path) fs v.path (dest dir base v)) fs

/-- The body of the loop of RarRenamer::RenameFiles (RarRenamer.cpp:130-170). -/
def renameSet (ans : Bytes → Bool) (dir : Bytes) (fuel : Nat) (fs : Dir) (s : List Volume) : Option Dir :=
  if isProper s then some fs
  else match mainFile (s.flatMap (·.vol.files)) with
    | none => some fs
    | some m =>
      match freshBase fs dir (mainBase m.name) s fuel 0 with
      | none => none
      | some base => some (moveAll ans dir base fs s)

/-- RarRenamer::RenameFiles (RarRenamer.cpp:124-172) for the sets. -/
def renameSets (ans : Bytes → Bool) (dir : Bytes) (fuel : Nat) : Dir → List (List Volume) → Option Dir
  | fs, [] => some fs
  | fs, s :: l =>
    match renameSet ans dir fuel fs s with
    | none => none
    | some fs => renameSets ans dir fuel fs l

/-- The files of a directory. -/
def listing (fs : Dir) (dir : Bytes) : List (Bytes × Node) :=
  fs.filter (fun e => (dir ++ [47]).isPrefixOf e.1 && !(e.1.drop (dir.length + 1)).contains 47)

/-- RarRenamer::CheckOneFile (RarRenamer.cpp:93-106). `rd`: RarVolume::Read of the contents; `ignored`: the
extension is in the list of extensions to ignore. -/
def checkFile (rd : Bytes → Option (Nat × Vol)) (ignored : Bytes → Bool) (e : Bytes × Node) : Option Volume :=
  match e.2 with
  | .dir _ => none
  | .file data =>
    if ignored (baseName e.1) then none
    else match rd data with
      | some (v, vol) => some ⟨e.1, v, vol⟩
      | none => none

/-- RarRenamer::CheckFiles (RarRenamer.cpp:66-91): m_volumes is not cleared. -/
def checkFiles (rd : Bytes → Option (Nat × Vol)) (ignored ans : Bytes → Bool) (fuel : Nat) (st : Dir × List Volume)
    (dir : Bytes) : Option (Dir × List Volume) :=
  let vols := st.2 ++ (listing st.1 dir).filterMap (checkFile rd ignored)
  match renameSets ans dir fuel st.1 (makeSets vols) with
  | none => none
  | some fs => some (fs, vols)

/-- RarRenamer::Execute (RarRenamer.cpp:28-41) for the directories of BuildDirList (43-64). -/
def execute (rd : Bytes → Option (Nat × Vol)) (ignored ans : Bytes → Bool) (fuel : Nat) :
    Dir × List Volume → List Bytes → Option (Dir × List Volume)
  | st, [] => some st
  | st, d :: l =>
    match checkFiles rd ignored ans fuel st d with
    | none => none
    | some st => execute rd ignored ans fuel st l

end Verif.RarRename
