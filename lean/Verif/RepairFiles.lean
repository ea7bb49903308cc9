import Verif.CStr
/-
Model of what a par2 repair does with files: the part of Par2Repairer::Process which repairs (/repo/lib/par2/par2repairer.cpp:248-352 and
2016-2556, diskfile.cpp) and what ParChecker::RunParCheck does around it (/repo/daemon/postprocess/ParChecker.cpp:533-566, 1240-1286).

Simplified: sets without files which are not recoverable; all descriptions of files are there; the verification of a file finds the file
complete exactly if it has the content wanted (no collisions of hashes).
-/
namespace Verif.RepairFiles
open Verif.CStr

abbrev Path := Bytes
abbrev Content := Nat

/-- The files of the disk. -/
abbrev Fs := List (Path × Content)

/-- The content of a file; `none`: there is no such file. -/
def get (fs : Fs) (p : Path) : Option Content := (fs.find? (fun e => e.1 == p)).map (·.2)

/-- Deleting a file. -/
def del (fs : Fs) (p : Path) : Fs := fs.filter (fun e => !(e.1 == p))

/-- Writing a file. -/
def put (fs : Fs) (p : Path) (c : Content) : Fs := (p, c) :: del fs p

/-- An array after an assignment. -/
def upd {α : Type} (f : Nat → α) (i : Nat) (v : α) : Nat → α := fun j => if j = i then v else f j

/-- `Created`: what creating a file may come to, diskfile.cpp:389-431: done; not opened; removed again as its size can not be set. -/
inductive Created | ok | refused | removed
deriving DecidableEq

/-- What is decided by the disk and by the computation. `moves`: rename(2) succeeds; `computes`: the matrix (C133), the memory, reading and
writing succeed and the repair is not cancelled; `written`: the content which a created file then has; `opens`: it can be opened again;
`deletes`: unlink(2) succeeds. A failed move leaves all as it was. -/
structure Io where
  moves : Path → Path → Bool
  creates : Path → Created
  computes : Bool
  blank : Path → Content
  written : Path → Content
  opens : Path → Bool
  deletes : Path → Bool

/-- The files of the set: number, names (`TargetFileName`), content wanted, and for each the objects where its blocks were found
(`SourceBlocks`). -/
structure Par where
  count : Nat
  name : Nat → Path
  wanted : Nat → Content
  blocks : Nat → List (Option Nat)

/-- The state. Objects of class `DiskFile` are numbers below `next`, `names` are their file names. `target`, `complete`: `GetTargetFile` and
`GetCompleteFile` of each file of the set (par2repairersourcefile.h); `GetTargetExists` is always true exactly if there is a target file.
`made`: the file is in `verifylist`. -/
structure World where
  fs : Fs
  names : Nat → Path
  next : Nat
  target : Nat → Option Nat
  complete : Nat → Option Nat
  made : Nat → Bool

/-- The name with a number, diskfile.cpp:829. -/
def numbered (p : Path) (k : Nat) : Path := p ++ 46 :: CStr.dec k

/-- The loop of DiskFile::Rename, diskfile.cpp:822-836, with the number of iterations that may be left. -/
def search (fs : Fs) (p : Path) : Nat → Nat → Option Path
  | 0, _ => none
  | n + 1, index =>
    let q := numbered p (index + 1)
    if q.length ≥ 1024 then none
    else if (get fs q).isSome then search fs p n (index + 1)
    else some q

/-- The new name, or `none`, diskfile.cpp:822-836. As there are fewer files than iterations, the search is not cut short. -/
def freeName (fs : Fs) (p : Path) : Option Path := search fs p (fs.length + 1) 0

/-- DiskFile::Rename, diskfile.cpp:841-861. -/
def move (io : Io) (w : World) (f : Nat) (q : Path) : World × Bool :=
  match get w.fs (w.names f) with
  | some c =>
    if io.moves (w.names f) q then ({ w with fs := put (del w.fs (w.names f)) q c, names := upd w.names f q }, true) else (w, false)
  | none => (w, false)

/-- A loop over the files of the set which ends at the first failure, with the number of files left. -/
def each (body : Nat → World → World × Bool) : Nat → Nat → World → World × Bool
  | 0, _, w => (w, true)
  | k + 1, i, w =>
    let r := body i w
    if r.2 then each body k (i + 1) r.1 else r

/-- The body of the first loop of RenameTargetFiles, par2repairer.cpp:2022-2048. -/
def setAside (io : Io) (i : Nat) (w : World) : World × Bool :=
  match w.target i with
  | none => (w, true)
  | some t =>
    if w.target i ≠ w.complete i then
      match freeName w.fs (w.names t) with
      | none => (w, false)
      | some q =>
        let r := move io w t q
        if r.2 then ({ r.1 with target := upd r.1.target i none }, true) else r
    else (w, true)

/-- The body of the second loop of RenameTargetFiles, par2repairer.cpp:2054-2083. -/
def bringHome (par : Par) (io : Io) (i : Nat) (w : World) : World × Bool :=
  match w.target i, w.complete i with
  | none, some c =>
    let r := move io w c (par.name i)
    if r.2 then ({ r.1 with target := upd r.1.target i (some c) }, true) else r
  | _, _ => (w, true)

/-- The body of the loop of CreateTargetFiles, par2repairer.cpp:2096-2144. -/
def create (par : Par) (io : Io) (i : Nat) (w : World) : World × Bool :=
  match w.target i with
  | some _ => (w, true)
  | none =>
    match io.creates (par.name i) with
    | .refused => (w, false)
    | .removed => ({ w with fs := del w.fs (par.name i) }, false)
    | .ok =>
      ({ w with fs := put w.fs (par.name i) (io.blank (par.name i)), names := upd w.names w.next (par.name i), next := w.next + 1,
                target := upd w.target i (some w.next), made := upd w.made i true }, true)

/-- What ProcessData has written in the end (par2repairer.cpp:2276-2474), for one file. -/
def write (io : Io) (i : Nat) (w : World) : World × Bool :=
  match w.made i, w.target i with
  | true, some t => ({ w with fs := put w.fs (w.names t) (io.written (w.names t)) }, true)
  | _, _ => (w, true)

/-- The body of the loop of VerifyTargetFiles, par2repairer.cpp:2485-2523. `quick`: the file is taken as correct
(ParChecker.cpp:1305-1311). -/
def verify (par : Par) (io : Io) (quick : Bool) (i : Nat) (w : World) : World :=
  match w.made i, w.target i with
  | true, some t =>
    if io.opens (w.names t) && (quick || get w.fs (w.names t) == some (par.wanted i)) then { w with complete := upd w.complete i (some t) }
    else { w with complete := upd w.complete i none }
  | _, _ => w

/-- The result of VerifyTargetFiles, par2repairer.cpp:2479, 2509-2512. -/
def allOpen (par : Par) (io : Io) (w : World) : Bool :=
  (List.range par.count).all (fun i => match w.made i, w.target i with | true, some t => io.opens (w.names t) | _, _ => true)

/-- The body of the loop of DeleteIncompleteTargetFiles, par2repairer.cpp:2534-2553. -/
def discard (io : Io) (i : Nat) (w : World) : World × Bool :=
  match w.made i, w.target i with
  | true, some t =>
    ({ w with fs := if io.deletes (w.names t) then del w.fs (w.names t) else w.fs, target := upd w.target i none }, true)
  | _, _ => (w, true)

/-- `completefilecount == RecoverableFileCount()`, par2repairer.cpp:1894-1905, 2076 and 253, 269, 334. -/
def allDone (par : Par) (w : World) : Bool :=
  (List.range par.count).all (fun i => (w.complete i).isSome && w.complete i == w.target i)

/-- The results which matter here, par2cmdline.h:86-113. -/
inductive Result | success | ioError | repairFailed
deriving DecidableEq

/-- Process(true) behind the verification, par2repairer.cpp:252-352. -/
def process (par : Par) (io : Io) (quick : Bool) (w : World) : Result × World :=
  if allDone par w then (.success, w)
  else
    let a := each (setAside io) par.count 0 w
    if !a.2 then (.ioError, a.1)
    else
      let b := each (bringHome par io) par.count 0 a.1
      if !b.2 then (.ioError, b.1)
      else if allDone par b.1 then (.success, b.1)
      else
        let c := each (create par io) par.count 0 b.1
        if !c.2 then (.ioError, c.1)
        else if !io.computes then (.ioError, (each (discard io) par.count 0 c.1).1)
        else
          let d := (each (write io) par.count 0 c.1).1
          let e := (each (fun i w => (verify par io quick i w, true)) par.count 0 d).1
          if !allOpen par io d then (.ioError, (each (discard io) par.count 0 e).1)
          else if allDone par e then (.success, e) else (.repairFailed, e)

/-- An object is added to the list if it is not in it, ParChecker.cpp:1250-1254. -/
def note (l : List Nat) (b : Option Nat) : List Nat :=
  match b with
  | some f => if l.contains f then l else l ++ [f]
  | none => l

/-- SaveSourceList, ParChecker.cpp:1240-1258: each object in which a block was found, once. -/
def saved (par : Par) : List Nat := ((List.range par.count).flatMap par.blocks).foldl note []

/-- DeleteLeftovers, ParChecker.cpp:1260-1286, for the objects given. -/
def leftovers (par : Par) (io : Io) : List Nat → World → World
  | [], w => w
  | f :: l, w =>
    if (List.range par.count).any (fun i => w.target i == some f) then leftovers par io l w
    else leftovers par io l { w with fs := if io.deletes (w.names f) then del w.fs (w.names f) else w.fs }

/-- The repair, ParChecker.cpp:541-562. -/
def repair (par : Par) (io : Io) (quick : Bool) (w : World) : Result × World :=
  let r := process par io quick w
  if r.1 = .success then (.success, leftovers par io (saved par) r.2) else r

end Verif.RepairFiles
