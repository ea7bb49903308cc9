import Verif.OptStore
import Verif.Tokens
/-
Model of the reading and saving of the configuration file for the settings page: ScriptConfig::LoadConfig (54-84) and SaveConfig
(86-154) of /repo/daemon/extension/ScriptConfig.cpp, Options::ConvertOldOptions (1865-1937) of /repo/daemon/main/Options.cpp.

What is simplified: the file can be opened, read and written; an entry has a name and a value, which are not null (the commands of
the remote interface give texts, XmlRpc.cpp:2668-2688). `none` as a result means that a loop does not end.
-/
namespace Verif.SaveConf
open CStr OptStore

abbrev Entries := List (Bytes × Bytes)

/-- The loops over `ReadLine` (ScriptConfig.cpp:61-79, 103-106) where `n` is the size given to `fgets`. With the size 1 `fgets`
stores an empty text and reads nothing, at the end of the file too. The first argument bounds the number of turns. -/
def readLoop (n : Nat) : (fuel : Nat) → Bytes → Option (List Bytes)
  | 0, _ => none
  | f + 1, b =>
    if n = 1 then (readLoop n f b).map ([] :: ·)
    else if b = [] then some []
    else (readLoop n f (Text.fgets (n - 1) b).2).map ((Text.fgets (n - 1) b).1 :: ·)

/-- One line in LoadConfig (ScriptConfig.cpp:63-78). -/
def loadLine (raw : Bytes) : Option (Bytes × Bytes) :=
  let t := FeedFilter.trimRight (cstr raw)
  if t = [] ∨ t.head? = some 35 ∨ t.all (· == 32) then none else splitOption t

/-- OptEntries::FindOption (Options.cpp:226-242): the place of the first entry of that name. -/
def place (es : Entries) (n : Bytes) : Option Nat := es.findIdx? (fun e => Rpc.eqNoCase e.1 n)

/-- The separators of the lists of scripts. -/
def sep (b : UInt8) : Bool := b == 44 || b == 59

/-- Options::HasScript (Options.cpp:1926-1937). -/
def hasScript (list s : Bytes) : Bool := (Tokens.tokens sep list).any (fun t => Rpc.eqNoCase t s)

/-- The global list gets a script (Options.cpp:1892-1900). -/
def addGlobal (s v : Bytes) : Bytes := if hasScript v s then v else if v = [] then s else v ++ 44 :: s

/-- The list of a category gets a script, if it is not empty (Options.cpp:1914-1918). -/
def addCategory (s v : Bytes) : Bytes := if v = [] ∨ hasScript v s then v else v ++ 44 :: s

/-- An option with the scripts of a category (Options.cpp:1907-1912). -/
def isCategory (n : Bytes) : Bool :=
  match afterNoCase (lit "category") n with
  | none => false
  | some r => Rpc.eqNoCase (r.dropWhile isNum) (lit ".extensions")

/-- The value of the entry at that place is changed. -/
def modifyAt (f : Bytes → Bytes) : Nat → Entries → Entries
  | _, [] => []
  | 0, e :: es => (e.1, f e.2) :: es
  | i + 1, e :: es => e :: modifyAt f i es

/-- One script in MergeOldScriptOption (Options.cpp:1890-1923); `i` is the place of the option Extensions. -/
def mergeScript (cats : Bool) (i : Nat) (es : Entries) (s : Bytes) : Entries :=
  let es := modifyAt (addGlobal s) i es
  if cats then es.map (fun e => if isCategory e.1 then (e.1, addCategory s e.2) else e) else es

/-- Options::MergeOldScriptOption (Options.cpp:1872-1924). -/
def mergeOld (es : Entries) (opt : Bytes) (cats : Bool) : Entries :=
  match (place es opt).bind (fun i => es[i]?) with
  | none => es
  | some e =>
    if e.2 = [] then es
    else
      let es := if (place es (lit "Extensions")).isNone then es ++ [(lit "Extensions", [])] else es
      (Tokens.tokens sep e.2).foldl (mergeScript cats ((place es (lit "Extensions")).getD 0)) es

/-- Options::ConvertOldOptions (Options.cpp:1865-1870). -/
def convertAll (es : Entries) : Entries :=
  mergeOld (mergeOld (mergeOld es (lit "ScanScript") true) (lit "QueueScript") true) (lit "FeedScript") false

/-- ScriptConfig::LoadConfig (ScriptConfig.cpp:46-84) for a file with the content. -/
def load (fuel : Nat) (content : Bytes) : Option Entries :=
  (readLoop (content.length + 1) fuel content).map (fun ls => convertAll (ls.filterMap loadLine))

/-- A line of the configuration file (ScriptConfig.cpp:126, 143). -/
def optLine (e : Bytes × Bytes) : Bytes := e.1 ++ 61 :: e.2 ++ [10]

/-- The test whether a line is an option (ScriptConfig.cpp:113-114). -/
def isOpt (l : Bytes) : Bool := l.contains 61 && l.head? != some 35

/-- The place of the entry which a line sets (ScriptConfig.cpp:113-123). -/
def setBy (es : Entries) (l : Bytes) : Option Nat :=
  if isOpt l then (splitOption (FeedFilter.trimRight l)).bind (fun p => place es p.1) else none

/-- What is written for a line (ScriptConfig.cpp:111-135). -/
def saveLine (es : Entries) (l : Bytes) : Bytes :=
  if isOpt l then
    match (setBy es l).bind (fun i => es[i]?) with
    | none => []
    | some e => optLine e
  else l

/-- The entries which were not written with a line (ScriptConfig.cpp:137-145). -/
def fresh (es : Entries) (ls : List Bytes) : Entries :=
  (es.zipIdx.filter (fun p => !ls.any (fun l => setBy es l == some p.2))).map (·.1)

/-- The content which SaveConfig writes for these lines (ScriptConfig.cpp:109-145). -/
def saved (es : Entries) (ls : List Bytes) : Bytes := ls.flatMap (saveLine es) ++ (fresh es ls).flatMap optLine

/-- ScriptConfig::SaveConfig (ScriptConfig.cpp:86-154): the new content of the file. -/
def save (fuel : Nat) (es : Entries) (content : Bytes) : Option Bytes :=
  (readLoop (content.length + 2) fuel content).map (fun ls => saved es (ls.map cstr))

/-- What can be in the file while it is being saved: the new content is written over the old one from the begin (ScriptConfig.cpp:110-145),
and the end of the old one is cut off at last (147-151); `k` bytes have been written. -/
def during (old new : Bytes) (k : Nat) : Bytes := new.take k ++ old.drop k

end Verif.SaveConf
