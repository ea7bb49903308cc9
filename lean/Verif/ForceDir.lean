import Verif.DelTree

/-
Model of creating a directory with all directories above it: /repo/daemon/util/FileSystem.cpp ForceDirectories (122-182), for POSIX. It is used
for the configured directories at the start, for the directories of downloads and for everything which is moved.

The file system is the one of DelTree. Not modelled: `.` and `..` in paths, missing rights to search in directories (`stat` then fails with
another error than ENOENT, and so does ForceDirectories), names longer than the system allows, other programs which change something meanwhile,
the text of the error message.
-/
namespace Verif.ForceDir
open CStr DelTree

/-- What a search for a path ends with: a place or an error. -/
inductive Look where
  | found (p : Path)
  | noent
  | notdir
  | loop
deriving DecidableEq, Repr

/-- Resolving of paths, POSIX, as `walkWith` of DelTree, but with the errors. -/
def seekWith (k : Path → Look) (fs : Fs) : (here rest : Path) → Look
  | here, [] => .found here
  | here, n :: rest =>
    match kindOf fs (here ++ [n]) with
    | none => .noent
    | some .dir => seekWith k fs (here ++ [n]) rest
    | some .file => if rest = [] then .found (here ++ [n]) else .notdir
    | some (.link to) => k (to ++ rest)

/-- With a limit for the number of links. -/
def seek (fs : Fs) : (links : Nat) → Path → Look
  | 0, p => seekWith (fun _ => .loop) fs [] p
  | n + 1, p => seekWith (seek fs n) fs [] p

/-- The whole path of a text: a text without a slash at the front begins in the current directory. -/
def whole (cwd : Path) (b : Bytes) : Path := if b.head? = some 47 then parts b else cwd ++ parts b

/-- POSIX `stat`: an empty text is nothing; with a slash at the end it must be a directory. At most 40 links (Linux). -/
def stat (cwd : Path) (fs : Fs) (b : Bytes) : Look :=
  if b = [] then .noent
  else match seek fs 40 (whole cwd b) with
    | .found p => if b.getLast? = some 47 ∧ kindOf fs p ≠ some .dir then .notdir else .found p
    | e => e

inductive Made where
  | ok
  | exists
  | failed
deriving DecidableEq, Repr

/-- POSIX `mkdir`: what is above must be a directory (found through links), the last name must not be in use, not even by a link. `may`: where
the rights, the space and the kind of file system allow it. -/
def mkdir (may : Path → Bool) (cwd : Path) (fs : Fs) (b : Bytes) : Fs × Made :=
  if b = [] then (fs, .failed)
  else match (whole cwd b).getLast? with
    | none => (fs, .exists)
    | some n =>
      match seek fs 40 (whole cwd b).dropLast with
      | .found d =>
        if kindOf fs d ≠ some .dir then (fs, .failed)
        else if kindOf fs (d ++ [n]) ≠ none then (fs, .exists)
        else if may (d ++ [n]) then (fs ++ [(d ++ [n], .dir)], .ok)
        else (fs, .failed)
      | _ => (fs, .failed)

/-- FileSystem.cpp:125-131: copied into 1024 bytes, without one slash at the end. There are no other separators to normalise in POSIX. -/
def norm (b : Bytes) : Bytes :=
  if (b.take 1023).getLast? = some 47 then (b.take 1023).dropLast else b.take 1023

/-- FileSystem.cpp:150-154: up to the last slash, nothing without a slash. -/
def parent (b : Bytes) : Option Bytes :=
  if (47 : UInt8) ∈ b then some (b.reverse.dropWhile (fun c => c != 47)).tail.reverse else none

/-- Is it there and a directory? FileSystem.cpp:167-178. -/
def isDirectory (cwd : Path) (fs : Fs) (b : Bytes) : Bool :=
  match stat cwd fs b with
  | .found p => kindOf fs p == some .dir
  | _ => false

/-- FileSystem.cpp:161-178, for what is above already created. -/
def create (may : Path → Bool) (cwd : Path) (fs : Fs) (b : Bytes) : Fs × Bool :=
  let r := mkdir may cwd fs b
  if r.2 = .failed then (r.1, false) else (r.1, isDirectory cwd r.1 b)

/-- ForceDirectories (FileSystem.cpp:122-182). The number limits the depth of calls; `force_depth` shows that it is never reached. -/
def forceN (may : Path → Bool) (cwd : Path) : Nat → Fs → Bytes → Fs × Bool
  | 0, fs, _ => (fs, false)
  | depth + 1, fs, path =>
    match stat cwd fs (norm path) with
    | .found p => (fs, kindOf fs p == some .dir)
    | .notdir => (fs, false)
    | .loop => (fs, false)
    | .noent =>
      match parent (norm path) with
      | none => create may cwd fs (norm path)
      | some up =>
        if up.length ≠ path.length then
          let r := forceN may cwd depth fs up
          if r.2 then create may cwd r.1 (norm path) else (r.1, false)
        else create may cwd fs (norm path)

def force (may : Path → Bool) (cwd : Path) (fs : Fs) (path : Bytes) : Fs × Bool := forceN may cwd (path.length + 1) fs path

end Verif.ForceDir
