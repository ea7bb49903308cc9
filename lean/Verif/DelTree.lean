import Verif.CStr

/-
Model of deleting directories: /repo/daemon/util/FileSystem.cpp DeleteFile (520-527), DirectoryExists (549-574), RemoveDirectory (586-593),
DeleteDirectory (595-624), DeleteDirectoryWithContent (626-662), DirBrowser (1042-1127), for POSIX.

The file system is a list of entries with their paths, in the order in which directories are listed; a symbolic link has an absolute target. Not
modelled: `.` and `..` in paths, hard links to files (an entry is what is deleted), changes by other programs meanwhile, a slash at the end of
a path which is not a directory, Windows.
-/
namespace Verif.DelTree
open CStr

abbrev Name := Bytes
abbrev Path := List Name

inductive Kind where
  | file
  | dir
  | link (to : Path)
deriving DecidableEq, Repr

abbrev Fs := List (Path × Kind)

/-- What is at a place; the root is always there. -/
def kindOf (fs : Fs) (p : Path) : Option Kind :=
  if p = [] then some .dir else (fs.find? (fun e => e.1 == p)).map (·.2)

/-- The components of a path. -/
def parts (b : Bytes) : Path :=
  let r := b.foldr (fun c (r : Name × Path) => if c = 47 then ([], if r.1 = [] then r.2 else r.1 :: r.2) else (c :: r.1, r.2)) ([], [])
  if r.1 = [] then r.2 else r.1 :: r.2

/-- Resolving of paths, POSIX: `here` is a directory; a link on the way is followed by `k`, the last component only if `follow`. -/
def walkWith (k : Path → Option Path) (fs : Fs) (follow : Bool) : (here rest : Path) → Option Path
  | here, [] => some here
  | here, n :: rest =>
    match kindOf fs (here ++ [n]) with
    | none => none
    | some .dir => walkWith k fs follow (here ++ [n]) rest
    | some .file => if rest = [] then some (here ++ [n]) else none
    | some (.link to) => if rest = [] ∧ follow = false then some (here ++ [n]) else k (to ++ rest)

/-- The same with a limit for the number of links, 40 in Linux. -/
def walk (fs : Fs) (follow : Bool) : (links : Nat) → Path → Option Path
  | 0, p => walkWith (fun _ => none) fs follow [] p
  | n + 1, p => walkWith (walk fs follow n) fs follow [] p

def stat (fs : Fs) (b : Bytes) : Option Path := walk fs true 40 (parts b)

def lstat (fs : Fs) (b : Bytes) : Option Path := walk fs false 40 (parts b)

/-- DirectoryExists (FileSystem.cpp:549-574): `stat` follows links. -/
def isDir (fs : Fs) (b : Bytes) : Bool :=
  match stat fs b with
  | some p => kindOf fs p == some .dir
  | none => false

/-- The names in a directory. -/
def children (fs : Fs) (p : Path) : List Name :=
  fs.filterMap (fun e => match e.1.getLast? with
    | some n => if e.1.dropLast = p then some n else none
    | none => none)

/-- DirBrowser with a snapshot (FileSystem.cpp:1042-1127); nothing if the directory can't be opened. -/
def browse (fs : Fs) (b : Bytes) : List Name :=
  match stat fs b with
  | some p => if kindOf fs p = some .dir then children fs p else []
  | none => []

def unlink (fs : Fs) (p : Path) : Fs := fs.filter (fun e => e.1 != p)

/-- DeleteFile (FileSystem.cpp:520-527), `remove`: links are not followed; directories only if they are empty. `locked`: what can't be removed
for other reasons. -/
def removeFile (locked : Path → Bool) (fs : Fs) (b : Bytes) : Fs × Bool :=
  match lstat fs b with
  | none => (fs, false)
  | some p =>
    if p = [] ∨ locked p = true then (fs, false)
    else if kindOf fs p = some .dir ∧ children fs p ≠ [] then (fs, false)
    else (unlink fs p, true)

/-- RemoveDirectory (FileSystem.cpp:586-593), `rmdir`. -/
def removeDir (locked : Path → Bool) (fs : Fs) (b : Bytes) : Fs × Bool :=
  match lstat fs b with
  | none => (fs, false)
  | some p =>
    if p = [] ∨ locked p = true then (fs, false)
    else if kindOf fs p = some .dir ∧ children fs p = [] then (unlink fs p, true)
    else (fs, false)

/-- The path of an entry, formatted into 1024 bytes (FileSystem.cpp:637). -/
def fullName (b : Bytes) (n : Name) : Bytes := (b ++ 47 :: n).take 1023

/-- The loop of DeleteDirectoryWithContent (FileSystem.cpp:635-652). -/
def delNames (locked : Path → Bool) (del : Fs → Bytes → Option (Fs × Bool)) (b : Bytes) : List Name → Fs → Bool → Option (Fs × Bool)
  | [], fs, ok => some (fs, ok)
  | n :: ns, fs, ok =>
    if isDir fs (fullName b n) then
      match del fs (fullName b n) with
      | none => none
      | some r => delNames locked del b ns r.1 (ok && r.2)
    else
      let r := removeFile locked fs (fullName b n)
      delNames locked del b ns r.1 (ok && r.2)

/-- DeleteDirectoryWithContent (FileSystem.cpp:626-662), without the texts of errors. `depth`: how deep calls may be nested, `none`: deeper. -/
def delTree (locked : Path → Bool) : (depth : Nat) → Fs → Bytes → Option (Fs × Bool)
  | 0, _, _ => none
  | d + 1, fs, b =>
    match delNames locked (delTree locked d) b (browse fs b) fs true with
    | none => none
    | some r =>
      let e := removeDir locked r.1 b
      some (e.1, r.2 && e.2)

/-- DeleteDirectory (FileSystem.cpp:595-624): only if it is empty or contains only names with a dot. -/
def delDirectory (locked : Path → Bool) (depth : Nat) (fs : Fs) (b : Bytes) : Option (Fs × Bool) :=
  let r := removeDir locked fs b
  if r.2 then some r
  else if (browse fs b).any (fun n => n.head? != some 46) then some (removeDir locked fs b)
  else match delTree locked depth fs b with
    | none => none
    | some r => if r.2 then some r else some (removeDir locked r.1 b)

end Verif.DelTree
