import Verif.Files
/-
Model of joining split files: /repo/daemon/postprocess/Unpack.cpp UnpackController::JoinFile (422-543), which is
called by JoinSplittedFiles (393-420) for every file whose name ends with `.xxx.001`.
-/
namespace Verif.Join
open CStr Files

/-- The files which match `.*\.[a-z,0-9]{3}\.[0-9]{3}$` and are no directories (Unpack.cpp:447-451), with their
contents. -/
def frags : Dir → List (Bytes × Bytes)
  | [] => []
  | (n, .file data) :: d => if isSplit n then (n, data) :: frags d else frags d
  | (_, .dir _) :: d => frags d

/-- `atoi(strrchr(filename, '.') + 1)` of such a name (Unpack.cpp:453-454): its last three digits. -/
def segNum (n : Bytes) : Nat :=
  match n.reverse with
  | a :: b :: c :: _ => (c.toNat - 48) * 100 + (b.toNat - 48) * 10 + (a.toNat - 48)
  | _ => 0

/-- The update of `min` (Unpack.cpp:456). -/
def stepMin (min : Int) (f : Bytes × Bytes) : Int :=
  if (segNum f.1 : Int) < min ∨ min = -1 then segNum f.1 else min

/-- The update of `max` (Unpack.cpp:457). -/
def stepMax (max : Int) (f : Bytes × Bytes) : Int := if (segNum f.1 : Int) > max then segNum f.1 else max

/-- The update of `difSizeMin` (Unpack.cpp:459-465). -/
def stepDif (first : Nat) (dif : Int) (f : Bytes × Bytes) : Int :=
  if f.2.length ≠ first then if (segNum f.1 : Int) < dif then segNum f.1 else dif else dif

/-- The variables after the loop (Unpack.cpp:435-467). The four updates are independent. `correctedCount` is
`corrected`. -/
structure Stat where
  count : Int
  min : Int
  max : Int
  dif : Int

def stat (first : Nat) (l : List (Bytes × Bytes)) : Stat :=
  ⟨l.length, l.foldl stepMin (-1), l.foldl stepMax (-1), l.foldl (stepDif first) 999999⟩

def corrected (s : Stat) : Int := s.count - (if s.min = 0 then 1 else 0)

/-- The test for missing fragments (Unpack.cpp:469-476). `par`: the par-status is psSuccess. -/
def refused (par : Bool) (s : Stat) : Bool :=
  decide (s.min > 1) || decide (corrected s ≠ s.max) ||
    ((decide (s.dif ≠ corrected s) || decide (s.dif > s.max)) && !par)

/-- `%.3i` of a number of at most three digits. -/
def pad3 (i : Nat) : Bytes := [UInt8.ofNat (48 + i / 100), UInt8.ofNat (48 + i / 10 % 10), UInt8.ofNat (48 + i % 10)]

/-- `destBaseName.%.3i` (Unpack.cpp:508, 529). -/
def fragName (base : Bytes) (i : Nat) : Bytes := base ++ 46 :: pad3 i

/-- The loop (Unpack.cpp:502-539) from fragment `i` on, for `k` fragments: the result, the joined data and the
names for m_joinedFiles. `opens`: the fragment can be opened; `arrived`: as many of its bytes were read and
written without an error (`none`: all); the code does not test this. -/
def joinLoop (d : Dir) (base : Bytes) (opens : Nat → Bool) (arrived : Nat → Option Nat) :
    (k i : Nat) → Bool × Bytes × List Bytes
  | 0, _ => (true, [], [])
  | k + 1, i =>
    match get d (fragName base i) with
    | some (.file data) =>
      if opens i then
        let r := joinLoop d base opens arrived k (i + 1)
        (r.1, copied (.file data) (arrived i) ++ r.2.1, fragName base i :: r.2.2)
      else (false, [], [])
    | _ => (true, [], [])

/-- UnpackController::JoinFile (Unpack.cpp:422-543) for the file `base.001` with the contents `first`. The
output file can be created. `none`: missing fragments were detected. -/
def joinFile (par : Bool) (d : Dir) (opens : Nat → Bool) (arrived : Nat → Option Nat) (base first : Bytes) :
    Option (Bool × Bytes × List Bytes) :=
  let s := stat first.length (frags d)
  if refused par s then none
  else some (joinLoop d base opens arrived (s.max + 1 - s.min).toNat s.min.toNat)

end Verif.Join
