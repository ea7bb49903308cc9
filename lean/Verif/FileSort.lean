import Verif.ParName
import Verif.Subject
/-
Model of sorting the files of an entry: /repo/daemon/queue/QueueEditor.cpp SortGroupFiles (1266-1312), with SameParCollection of
/repo/daemon/postprocess/ParParser.cpp (ParName).

`std::sort` is modelled by its contract: if the comparison is a strict weak order on the files, it gives the files in an order in which
none is less than an earlier one; else its behaviour is undefined and nothing is known about the result. Names have no byte 0.
-/
namespace Verif.FileSort
open CStr

/-- A file of an entry (FileInfo). -/
structure F where
  name : Bytes
  size : Nat
  par : Bool
  confirmed : Bool
deriving DecidableEq, Repr

/-- `strcmp(a, b) < 0`. -/
def strLt (a b : Bytes) : Bool := Subject.greater b a

/-- `strrchr(name, '.')`, empty if there is none (QueueEditor.cpp:1278-1281). -/
def ext (s : Bytes) : Bytes :=
  match FileName.lastIdx 46 s with
  | none => []
  | some i => s.drop i

/-- `ext[1] == 'r' && isdigit(ext[2]) && isdigit(ext[3])` for an extension of four characters (QueueEditor.cpp:1284-1285, 1289-1290). -/
def isRNum : Bytes → Bool
  | [_, r, d, e] => r == 114 && isDigit d && isDigit e
  | _ => false

/-- QueueEditor.cpp:1276-1285: the first is the `.rar` of the second. -/
def rarPair (a b : Bytes) : Bool :=
  a.length == b.length && (ext a).length == 4 && (ext b).length == 4 && a.take (a.length - 4) == b.take (a.length - 4) && ext a == lit ".rar" && isRNum (ext b)

/-- The comparison (QueueEditor.cpp:1271-1311). -/
def less (a b : F) : Bool :=
  if !a.par && !b.par then
    if rarPair a.name b.name then true
    else if rarPair b.name a.name then false
    else strLt a.name b.name
  else if a.par && b.par && ParName.same (a.confirmed && b.confirmed) a.name b.name then decide (a.size < b.size)
  else if !a.par && b.par then true
  else if a.par && !b.par then false
  else strLt a.name b.name

/-- What `std::sort` requires of the comparison: a strict weak order on the elements. -/
structure Weak (lt : F → F → Bool) (l : List F) : Prop where
  irrefl : ∀ x ∈ l, lt x x = false
  trans : ∀ x ∈ l, ∀ y ∈ l, ∀ z ∈ l, lt x y = true → lt y z = true → lt x z = true
  incomparable : ∀ x ∈ l, ∀ y ∈ l, ∀ z ∈ l, lt x y = false → lt y x = false → lt y z = false → lt z y = false → lt x z = false ∧ lt z x = false

/-- The possible results of QueueEditor::SortGroupFiles (QueueEditor.cpp:1266-1312). -/
def SortResult (l r : List F) : Prop := Weak less l → r.Perm l ∧ r.Pairwise (fun x y => less y x = false)

end Verif.FileSort
