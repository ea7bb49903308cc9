import Verif.RarRename
/-
Model of the watching of the directory for incoming nzb-files: /repo/daemon/queue/Scanner.cpp (75-359, 412-494).
-/
namespace Verif.Scan
open CStr FileName Files

/-- Scanner::FileData (Scanner.h:53-67). -/
structure FileData where
  name : Bytes
  size : Int
  last : Int
deriving DecidableEq, Repr

/-- The extension with its point (`strrchr`), in lower case for `strcasecmp`. -/
def ext (s : Bytes) : Option Bytes :=
  match lastIdx 46 s with
  | some p => some ((s.drop p).map WildMask.lower)
  | none => none

/-- The extensions which are never processed (Scanner.cpp:188-195).
The code looks at the whole path; a file without a point is left alone later (Scanner.cpp:269-273. -/
def excluded (name : Bytes) : Bool :=
  match ext name with
  | none => true
  | some e => e == lit ".queued" || e == lit ".error" || e == lit ".processed"

/-- The loop over m_fileList (Scanner.cpp:207-229): whether the file was found, whether it can be processed, and the
list. -/
def check (age now : Int) (name : Bytes) (size : Int) : List FileData → Bool × Bool × List FileData
  | [] => (false, false, [])
  | d :: l =>
    if d.name = name then
      if d.size = size ∧ now - d.last ≥ age then (true, true, l)
      else
        let d' := { d with size := size }
        let d'' := if d'.size ≠ size then { d' with last := now } else d'
        (true, false, d'' :: l)
    else
      let r := check age now name size l
      (r.1, r.2.1, d :: r.2.2)

/-- Scanner::CanProcessFile (Scanner.cpp:186-237). -/
def canProcess (age now : Int) (stat : Bool) (l : List FileData) (name : Bytes) (size : Int) : Bool × List FileData :=
  if excluded name then (false, l)
  else if !stat then (true, l)
  else
    let r := check age now name size l
    if r.1 then (r.2.1, r.2.2) else (false, l ++ [⟨name, size, now⟩])

/-- Scanner::DropOldFiles (Scanner.cpp:246-264). -/
def dropOld (interval age now : Int) (l : List FileData) : List FileData :=
  l.filter (fun d => !(decide (now - d.last ≥ (interval + age) * 2) || decide (now < d.last)))

/-- The files which are processed in one scan with the test of ages: the loop of CheckIncomingNzbs
(Scanner.cpp:149-179) over the files with their sizes. -/
def scanLoop (age now : Int) : List FileData → List (Bytes × Int) → List Bytes × List FileData
  | l, [] => ([], l)
  | l, f :: fs =>
    let r := canProcess age now true l f.1 f.2
    let q := scanLoop age now r.2 fs
    (if r.1 then f.1 :: q.1 else q.1, q.2)

/-- One scan: what is processed, and m_fileList afterwards (Scanner.cpp:107-142). -/
def scan (interval age : Int) (l : List FileData) (s : Int × List (Bytes × Int)) : List Bytes × List FileData :=
  let r := scanLoop age s.1 l s.2
  (r.1, dropOld interval age s.1 r.2)

/-- m_fileList after a history of scans, each with its time and the files with their sizes. -/
def watch (interval age : Int) (h : List (Int × List (Bytes × Int))) : List FileData :=
  h.foldl (fun l s => (scan interval age l s).2) []

/- ## Processing of a file -/

/-- The name of a backup (FileSystem::RenameBak, FileSystem.cpp:703-726): after `k` names were found to exist. -/
def bakName (name part : Bytes) (k : Nat) : Bytes :=
  if k = 0 then name ++ 46 :: part else name ++ 46 :: (dec (k + 1) ++ 46 :: part)

/-- FileSystem::RenameBak (FileSystem.cpp:703-726). `none`: not finished. -/
def renameBak (d : Dir) (name part : Bytes) : (fuel k : Nat) → Option Bytes
  | 0, _ => none
  | f + 1, k => if (get d (bakName name part k)).isSome then renameBak d name part f (k + 1) else some (bakName name part k)

/-- The name without its extension (FileSystem.cpp:707-715). -/
def stem (name : Bytes) : Bytes :=
  match lastIdx 46 name with
  | some p => name.take p
  | none => name

/-- A collection which is given to the queue: the file, its contents, and whether it could be read. -/
structure Added where
  name : Bytes
  data : Bytes
  ok : Bool
deriving DecidableEq, Repr

/-- What the processing works on. -/
structure St where
  dir : Dir
  added : List Added
deriving DecidableEq, Repr

/-- Scanner::AddFileToQueue (Scanner.cpp:412-494): `parse`: the file is a good nzb-file; `ren`: the file can be renamed.
If it can not be renamed, the collection goes to the history as failed. -/
def addFile (parse ren : Bytes → Bool) (fuel : Nat) (st : St) (name : Bytes) : Option St :=
  match get st.dir name with
  | some (.file data) =>
    match renameBak st.dir name (lit (if parse data then "queued" else "error")) fuel 0 with
    | none => none
    | some n =>
      if ren name then some ⟨put (del st.dir name) n (.file data), st.added ++ [⟨name, data, parse data⟩]⟩
      else some ⟨st.dir, st.added ++ [⟨name, data, false⟩]⟩
  | _ => some ⟨st.dir, st.added ++ [⟨name, [], false⟩]⟩

/-- Scanner::ProcessIncomingFile (Scanner.cpp:266-359) without scan-scripts. -/
def process (parse ren : Bytes → Bool) (fuel : Nat) (st : St) (name : Bytes) : Option St :=
  if ext name = some (lit ".nzb_processed") then
    match get st.dir name with
    | some (.file data) =>
      match renameBak st.dir (stem name) (lit "nzb") fuel 0 with
      | none => none
      | some n =>
        if ren name then addFile parse ren fuel { st with dir := put (del st.dir name) n (.file data) } n else some st
    | _ => some st
  else if ext name = some (lit ".nzb") then addFile parse ren fuel st name
  else some st

/-- The loop of CheckIncomingNzbs (Scanner.cpp:149-179) over one directory for a requested scan: the names are those
at the begin (DirBrowser reads them first, FileSystem.cpp:1042-1064). -/
def scanDir (parse ren : Bytes → Bool) (fuel : Nat) : St → List Bytes → Option St
  | st, [] => some st
  | st, n :: l =>
    if n.head? = some 46 then scanDir parse ren fuel st l
    else if !isDir (get st.dir n) && !excluded n then
      match process parse ren fuel st n with
      | none => none
      | some st => scanDir parse ren fuel st l
    else scanDir parse ren fuel st l

end Verif.Scan
