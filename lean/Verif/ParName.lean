import Verif.FileName
/-
Model of the names of par2-files: /repo/daemon/postprocess/ParParser.cpp.
-/
namespace Verif.ParName
open CStr WildMask

/-- `atoi` of glibc: strtol, cut to 32 bits. -/
def atoi (s : Bytes) : Int := (atoll s).bmod (2 ^ 32)

/-- What follows the last `.par2` (the loop of ParParser.cpp:86-87); the whole text if there is none. -/
def lastRest : Nat → Bytes → Bytes
  | 0, s => s
  | n + 1, s =>
    match after (lit ".par2") s with
    | some r => lastRest n r
    | none => s

/-- The text is cut after the last `.par2` (ParParser.cpp:83-89). -/
def trim (f : Bytes) : Bytes := f.take (f.length - (lastRest f.length f).length)

/-- The text without the extension (ParParser.cpp:91-101). -/
def stem (f : Bytes) : Option Bytes :=
  if f.length < 6 then none
  else if f.drop (f.length - 5) = lit ".par2" then some (f.take (f.length - 5)) else none

/-- The text after `+`, or `-` (ParParser.cpp:107-111). -/
def blockText (t : Bytes) : Option Bytes :=
  match after (lit "+") t with
  | some r => some r
  | none => after (lit "-") t

/-- The length of the base name and the number of blocks (ParParser.cpp:103-126). -/
def volume (f : Bytes) : Nat × Int :=
  match FileName.lastIdx 46 f with
  | none => (f.length, 0)
  | some p =>
    if startsWith (lit ".vol") (f.drop p) then
      match blockText (f.drop p) with
      | some b => (p, atoi b)
      | none => (f.length, 0)
    else (f.length, 0)

/-- ParParser::ParseParFilename (ParParser.cpp:70-129): the length of the base name and the number of blocks. -/
def parse (confirmed : Bool) (name : Bytes) : Option (Nat × Int) :=
  let f := (name.take 1023).map lower
  if f.length < 6 then none
  else
    match stem (if confirmed then f else trim f) with
    | none => none
    | some s => some (volume s)

/-- ParParser::SameParCollection (ParParser.cpp:61-68). -/
def same (confirmed : Bool) (a b : Bytes) : Bool :=
  match parse confirmed a, parse confirmed b with
  | some x, some y => x.1 == y.1 && (a.take x.1).map lower == (b.take x.1).map lower
  | _, _ => false

/-- The loop of ParParser::FindMainPars (ParParser.cpp:31-58) over the names in a directory. -/
def findMain : List Bytes → (found : List Bytes) → List Bytes
  | [], found => found
  | f :: l, found =>
    if (parse true f).isSome && !found.any (fun g => same true f g) then findMain l (found ++ [f])
    else findMain l found

end Verif.ParName
