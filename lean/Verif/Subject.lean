import Verif.NzbParse
/-
Model of the names and hashes which are computed for an nzb-file: /repo/daemon/queue/NzbFile.cpp ParseSubject (116-240),
HasDuplicateFilenames (242-271), BuildFilenames (276-299), CalcHashes (301-346), and /repo/daemon/util/Util.cpp HashBJ96
(481-544). `none` as result is a read outside of the buffer with the subject.
-/
namespace Verif.Subject
open CStr

/-- `while (strchr("0123456789", *end) && end > subject) end--` (NzbFile.cpp:132, 136) on the reversed text up to `end`. -/
def skipDigits : Bytes → Bytes
  | [] => []
  | [c] => [c]
  | c :: d :: r => if isDigit c then skipDigits (d :: r) else c :: d :: r

/-- The second number and the text before it (NzbFile.cpp:135-141), reversed. -/
def stripMore (t : Bytes) : Bytes → Option Bytes
  | [] => none
  | r =>
    let r3 := skipDigits r
    if 7 < r3.length ∧ r3.take 7 = (lit " yEnc (").reverse then some (r3.drop 7).reverse else some t

/-- Removal of the suffix with the numbers of parts (NzbFile.cpp:126-142). -/
def strip (t : Bytes) : Option Bytes :=
  match t.reverse with
  | [] => none
  | c :: r =>
    if c = 41 then
      if r = [] then none
      else
        match skipDigits r with
        | 47 :: r2 => stripMore t r2
        | _ => some t
    else some t

/-- The name in quotation marks (NzbFile.cpp:144-166). Behind the end of the text the buffer has zeros or the rest of the removed suffix,
in both there are no quotation marks; behind the end of the buffer nothing may be read. -/
def quoted (t : Bytes) : Option (Option Bytes) :=
  match t.dropWhile (fun c => c != 34) with
  | [] => some none
  | [_] => if t.length < 1023 then some none else none
  | _ :: c :: r =>
    if 34 ∈ r ∧ 46 ∈ r.takeWhile (fun c => c != 34) then some (some (c :: r.takeWhile (fun c => c != 34))) else some none

/-- A token is stored if it is not empty (NzbFile.cpp:186-190). -/
def emit (acc : Bytes) : List Bytes := if acc = [] then [] else [acc]

/-- The loop over the characters (NzbFile.cpp:179-216): `acc` is the text between `start` and `p`, then follows the text from `p` on. -/
def toks : Nat → Bool → Bytes → Bytes → List Bytes
  | 0, _, _, _ => []
  | _ + 1, _, acc, [] => emit acc
  | n + 1, quot, acc, c :: r =>
    if c = 34 ∨ (quot = false ∧ c = 32) then
      emit acc ++
        (match (if c ≠ 34 ∨ quot = true then r else c :: r) with
         | 34 :: s =>
           if 34 ∈ s then toks n true (s.takeWhile (fun c => c != 34)) (s.dropWhile (fun c => c != 34)) else toks n false [] r
         | _ => toks n false [] r)
    else toks n quot (acc ++ [c]) r

/-- All tokens (NzbFile.cpp:175-216). At the end of the text the byte after the terminating zero is read. -/
def tokens (t : Bytes) : Option (List Bytes) := if t.length < 1023 then some (toks (t.length + 1) false [] t) else none

/-- `p && (p[1] != '\0')` (NzbFile.cpp:225-226). -/
def hasExt (s : Bytes) : Bool :=
  match s.dropWhile (fun c => c != 46) with
  | _ :: _ :: _ => true
  | _ => false

/-- The best candidate (NzbFile.cpp:218-239). -/
def best (ts : List Bytes) : Option Bytes := (ts.reverse.find? hasExt).or ts.getLast?

/-- NzbFile::ParseSubject (NzbFile.cpp:116-240) for a file with a subject; it is cut to 1023 bytes (BString). -/
def parseSubject (tryQuotes : Bool) (subject : Bytes) : Option Bytes :=
  match strip (subject.take 1023) with
  | none => none
  | some t =>
    match (if tryQuotes then quoted t else some none) with
    | none => none
    | some (some name) => some name
    | some none =>
      match tokens t with
      | none => none
      | some ts => some ((best ts).getD subject)

/-- Files with the same name as this one, but another subject. -/
def others (x : Bytes × Bytes) (l : List (Bytes × Bytes)) : Nat := (l.filter (fun y => decide (y.1 = x.1 ∧ y.2 ≠ x.2))).length

/-- NzbFile::HasDuplicateFilenames (NzbFile.cpp:242-271) on pairs of name and subject; `n`: the number of all files. -/
def hasDup (n : Nat) : List (Bytes × Bytes) → Bool
  | [] => false
  | x :: l => if 2 < 1 + others x l ∨ (1 + others x l = 2 ∧ n = 2) then true else hasDup n l

/-- The names of all files. -/
def parseAll (tryQuotes : Bool) : List Bytes → Option (List Bytes)
  | [] => some []
  | s :: l =>
    match parseSubject tryQuotes s with
    | none => none
    | some x =>
      match parseAll tryQuotes l with
      | none => none
      | some xs => some (x :: xs)

/-- NzbFile::BuildFilenames (NzbFile.cpp:276-299): the names and the flag ManyDupeFiles. -/
def build (subjects : List Bytes) : Option (List Bytes × Bool) :=
  match parseAll true subjects with
  | none => none
  | some names =>
    if hasDup subjects.length (names.zip subjects) then
      match parseAll false subjects with
      | none => none
      | some names => if hasDup subjects.length (names.zip subjects) then some (subjects, true) else some (names, false)
    else some (names, false)

/-! ### Hashes -/

abbrev W := BitVec 32

/-- `mix` (Util.cpp:483-494). -/
def mix (a b c : W) : W × W × W :=
  let a := (a - b - c) ^^^ (c >>> 13)
  let b := (b - c - a) ^^^ (a <<< 8)
  let c := (c - a - b) ^^^ (b >>> 13)
  let a := (a - b - c) ^^^ (c >>> 12)
  let b := (b - c - a) ^^^ (a <<< 16)
  let c := (c - a - b) ^^^ (b >>> 5)
  let a := (a - b - c) ^^^ (c >>> 3)
  let b := (b - c - a) ^^^ (a <<< 10)
  let c := (c - a - b) ^^^ (b >>> 15)
  (a, b, c)

/-- A byte as number. -/
def w (b : UInt8) : W := BitVec.ofNat 32 b.toNat

/-- Four bytes, little endian (Util.cpp:511). -/
def word (k0 k1 k2 k3 : UInt8) : W := w k0 + (w k1 <<< 8) + (w k2 <<< 16) + (w k3 <<< 24)

/-- The end of the hash (Util.cpp:518-538): bytes which are not there add nothing. -/
def hashEnd (len : Nat) (a b c : W) (k : Bytes) : W :=
  let g := fun i => k.getD i 0
  (mix (a + word (g 0) (g 1) (g 2) (g 3)) (b + word (g 4) (g 5) (g 6) (g 7))
    (c + BitVec.ofNat 32 len + word 0 (g 8) (g 9) (g 10))).2.2

/-- The loop of the hash (Util.cpp:509-516). -/
def hashLoop (len : Nat) : W → W → W → Bytes → W
  | a, b, c, k0 :: k1 :: k2 :: k3 :: k4 :: k5 :: k6 :: k7 :: k8 :: k9 :: k10 :: k11 :: r =>
    let m := mix (a + word k0 k1 k2 k3) (b + word k4 k5 k6 k7) (c + word k8 k9 k10 k11)
    hashLoop len m.1 m.2.1 m.2.2 r
  | a, b, c, k => hashEnd len a b c k

/-- Util::HashBJ96 (Util.cpp:496-544). -/
def hashBJ96 (k : Bytes) (init : W) : W := hashLoop k.length 0x9e3779b9#32 0x9e3779b9#32 init k

/-- A file for the hashes: its name and the ids of its articles. -/
structure HFile where
  name : Bytes
  ids : List Bytes
deriving DecidableEq, Repr

/-- The comparison of names: `strcmp(first, second) > 0`. -/
def greater : Bytes → Bytes → Bool
  | [], _ => false
  | _ :: _, [] => true
  | a :: x, b :: y => if a = b then greater x y else decide (b.toNat < a.toNat)

/-- A hash over the articles of some files in their order (NzbFile.cpp:320-336). -/
def hashFiles (fs : List HFile) : W := (fs.flatMap HFile.ids).foldl (fun h i => hashBJ96 i h) 0

/-- NzbFile::CalcHashes (NzbFile.cpp:301-346). `sort` is `std::sort`; `ignored`: the file is not a par2-file and its extension is in the
option ParIgnoreExt. -/
def calcHashes (sort : List HFile → List HFile) (ignored : Bytes → Bool) (files : List HFile) : W × W :=
  let fs := sort files
  let used := fs.filter (fun f => !ignored f.name)
  (hashFiles fs, if (used.flatMap HFile.ids).length < fs.length / 2 then 0 else hashFiles used)

end Verif.Subject
