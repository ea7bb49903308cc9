import Verif.Dupe
import Verif.Rpc
import Verif.FileName
/-
Model of the choice of other downloads whose files a par check searches for missing blocks (option ParScan=dupe): DupeCoordinator::ListHistoryDupes
(/repo/daemon/queue/DupeCoordinator.cpp:570-592), PostParChecker::RequestDupeSources (131-160) and StatDupeSources (162-184) of
/repo/daemon/postprocess/Repair.cpp, /repo/daemon/postprocess/DupeMatcher.cpp, and ParChecker::MaybeSplittedFragement
(/repo/daemon/postprocess/ParChecker.cpp:868-900).
-/
namespace Verif.DupeScan
open Verif.CStr

/-- DupeMatcher::SizeDiffOK, DupeMatcher.cpp:145-157. Simplified: no overflow (sizes below 92 petabytes). -/
def sizeDiffOK (size1 size2 : Int) (maxDiffPercent : Int) : Bool :=
  if size1 = 0 ∨ size2 = 0 then false
  else
    let diff := size1 - size2
    let diff := if diff > 0 then diff else -diff
    let max := if size1 > size2 then size1 else size2
    decide (Int.tdiv (diff * 100) max < maxDiffPercent)

/-- A line of the output of `unrar lt`: with the size of a file in the archive, with its compression (`m0`: it has " -m0", so the file is stored),
or another one. Simplified: how the lines are told apart (DupeMatcher.cpp:110-118, 132), and the name of the file, which is only printed. -/
inductive Line | size (n : Int) | compression (m0 : Bool) | other
deriving DecidableEq

/-- RarLister, DupeMatcher.cpp:30-41; `stopped`: unrar was ended because the largest file is found. -/
structure Lister where
  maxSize : Int := -1
  compressed : Bool := false
  lastMax : Bool := false
  stopped : Bool := false
deriving DecidableEq

/-- RarLister::AddMessage, DupeMatcher.cpp:108-142. After Terminate no more lines are read (Script.cpp:366). -/
def addMessage (expected : Int) (s : Lister) (l : Line) : Lister :=
  if s.stopped then s
  else match l with
  | .size n => if n > s.maxSize then { s with maxSize := n, lastMax := true } else { s with lastMax := false }
  | .compression m0 =>
    if s.lastMax then
      { s with compressed := !m0, stopped := decide (s.maxSize > expected) || sizeDiffOK s.maxSize expected 20 }
    else s
  | .other => s

/-- The condition to go on waiting for unrar, DupeMatcher.cpp:79-81. -/
def waits (running : Bool) (start timeout now : Int) : Bool := running && decide (start + timeout > now) && decide (start ≥ now)

/-- An entry of a directory: its size (-1: it can not be read) and if its name ends with ".rar". -/
structure Entry where
  size : Int
  rar : Bool

/-- DupeMatcher::FindLargestFile (181-207) with RarLister::FindLargestFile (52-101). `heard`: the lines which unrar wrote before it was ended because
of the time; `none`: there is no command for unrar. `mine`: m_maxSize, or `none` in Prepare: there `maxSize` points to m_maxSize itself. -/
def findLargest (mine : Option Int) (heard : Option (List Line)) : Int → List Entry → Int × Bool
  | max, [] => (max, false)
  | max, e :: es =>
    let max := if e.size > max then e.size else max
    if e.rar then
      match heard with
      | none => (max, false)
      | some ls =>
        let r := ls.foldl (addMessage (mine.getD max)) {}
        (r.maxSize, r.compressed)
    else findLargest mine heard max es

/-- The directory of a download as it is seen: its entries in their order, and the lines heard from unrar. -/
structure Dir where
  entries : List Entry
  heard : Option (List Line)

/-- DupeMatcher::Prepare, 159-167: size and compression of the main file, and if the size fits. -/
def prepare (expected : Int) (d : Dir) : Int × Bool × Bool :=
  let r := findLargest none d.heard 0 d.entries
  (r.1, r.2, sizeDiffOK r.1 expected 20)

/-- DupeMatcher::MatchDupeContent, 169-179. -/
def matches_ (main : Int × Bool) (d : Dir) : Bool := findLargest (some main.1) d.heard 0 d.entries == main

/-- An entry of the history; `nzb`: a download which is not hidden. -/
structure Hist where
  id : Nat
  nzb : Bool
  force : Bool
  name : String
  key : String
  dir : Dir
  extra : Int := 0

/-- ListHistoryDupes, DupeCoordinator.cpp:570-592. -/
def listDupes (force : Bool) (name key : String) (hist : List Hist) : List Hist :=
  if force then []
  else hist.filter fun h => h.nzb && !h.force && Dupe.sameNameOrKey h.name h.key name key

/-- RequestDupeSources, Repair.cpp:131-160: the entries whose directories are searched. `expected`: the size of the download without its par2-files (Repair.h:87-90). -/
def request (force : Bool) (name key : String) (expected : Int) (own : Dir) (hist : List Hist) : List Hist :=
  let dupes := listDupes force name key hist
  if dupes = [] then []
  else
    let r := prepare expected own
    dupes.filter fun h => !r.2.2 || matches_ (r.1, r.2.1) h.dir

/-- StatDupeSources, Repair.cpp:162-184: `used`: the ids of the sources with the blocks used from them; result: the history and the number of the download. -/
def stat (hist : List Hist) (own : Int) : List (Nat × Int) → List Hist × Int
  | [] => (hist, own)
  | (id, n) :: us =>
    let hist := if n > 0 then hist.map fun h => if h.nzb && h.id == id then { h with extra := h.extra - n } else h else hist
    stat hist (own + n) us

/-- All characters are digits. -/
def digits (s : Bytes) : Bool := s.all fun c => 48 ≤ c && c ≤ 57

/-- ParChecker::MaybeSplittedFragement, ParChecker.cpp:868-900, for names without NUL. `strncasecmp(a, b, n)` is 0 exactly if the first `n` characters, or all, are the same. -/
def maybeSplit (a b : Bytes) : Bool :=
  let same (n : Nat) := Rpc.eqNoCase (a.take n) (b.take n)
  (same b.length && (match a.drop b.length with | c :: r => c == 46 && digits r | [] => false)) ||
  (match FileName.lastIdx 46 a, FileName.lastIdx 46 b with
   | some i, some j => a.length - i == 4 && b.length - j == 4 && same i && digits (a.drop (i + 1)) && digits (b.drop (j + 1))
   | _, _ => false)

end Verif.DupeScan
