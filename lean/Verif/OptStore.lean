import Verif.CStr
import Verif.Text
import Verif.Rpc
/-
Model of the options of the program and of the configuration file, /repo/daemon/main/Options.cpp.

What is external: the home directory (FileSystem::ExpandHomePath) is a parameter. What is simplified: the
messages and the line numbers of the entries are left out (an invalid line only counts an error); texts have
no NUL after `cstr`. Loops which need not end have a bound: `none` means that the bound was reached.
-/
namespace Verif.OptStore
open CStr

/-- Options::OptEntry (Options.h:100-121) without the number of its line. -/
structure Entry where
  name : Bytes
  value : Option Bytes
  dflt : Option Bytes
  deriving DecidableEq, Repr

abbrev Store := List Entry

/-- OptEntries::FindOption (Options.cpp:226-242): the first entry of that name, ignoring the case. -/
def lookup (s : Store) (n : Bytes) : Option Entry := s.find? (fun e => Rpc.eqNoCase e.name n)

/-- Options::FindOption (Options.cpp:934-945): the entry found is renamed to the spelling asked for. -/
def rename (n : Bytes) : Store → Store
  | [] => []
  | e :: s => if Rpc.eqNoCase e.name n then { e with name := n } :: s else e :: rename n s

/-- Options::GetOption (Options.cpp:947-959): the value, and the entries, of which one may be renamed. -/
def getOption (s : Store) (n : Bytes) : Store × Option Bytes := (rename n s, (lookup s n).bind (·.value))

/-- OptEntry::SetValue (Options.cpp:193-200) of the entry of that name: the first value is the default. -/
def setValue (n v : Bytes) : Store → Store
  | [] => []
  | e :: s =>
    if Rpc.eqNoCase e.name n then
      { e with value := some v, dflt := some (e.dflt.getD v) } :: s
    else e :: setValue n v s

/-- `strchr`: what is before and after the first `c`. -/
def splitAt (c : UInt8) : Bytes → Option (Bytes × Bytes)
  | [] => none
  | b :: l => if b = c then some ([], l) else (splitAt c l).map (fun p => (b :: p.1, p.2))

/-- `strstr(curvalue, "${")` (Options.cpp:907): what is before and after it. -/
def findVar : Bytes → Option (Bytes × Bytes)
  | [] => none
  | b :: l =>
    if b = 36 ∧ l.head? = some 123 then some ([], l.tail)
    else (findVar l).map (fun p => (b :: p.1, p.2))

/-- The name of the variable (Options.cpp:912-914): BString<100>::Set (NString.cpp:33-39) cuts it to 99 bytes;
a length of 0 means the whole rest of the text. -/
def varName (name post : Bytes) : Bytes := if name = [] then (125 :: post).take 99 else name.take 99

/-- The loop which expands the variables (Options.cpp:906-929). -/
def expand : (fuel : Nat) → Store → Bytes → Option (Store × Bytes)
  | 0, _, _ => none
  | k + 1, s, v =>
    match findVar v with
    | none => some (s, v)
    | some (pre, rest) =>
      match splitAt 125 rest with
      | none => some (s, v)
      | some (name, post) =>
        match (getOption s (varName name post)).2 with
        | none => some ((getOption s (varName name post)).1, v)
        | some x => expand k (getOption s (varName name post)).1 (pre ++ x ++ post)

/-- The first part of SetOption (Options.cpp:877-882): find the entry or add one without a value. -/
def findOrAdd (s : Store) (n : Bytes) : Store :=
  if (lookup s n).isSome then rename n s else s ++ [⟨n, none, none⟩]

/-- The home directory at the begin (Options.cpp:886-902, m_noDiskAccess is false). -/
def expandHome (home : Bytes → Bytes) (v : Bytes) : Bytes := if startsWith (lit "~/") v then home v else v

/-- Options::SetOption (Options.cpp:875-932). -/
def setOption (home : Bytes → Bytes) (k : Nat) (s : Store) (n v : Bytes) : Option Store :=
  match expand k (findOrAdd s n) (expandHome home v) with
  | none => none
  | some r => some (setValue n r.2 r.1)

/-! ### Names -/

/-- `strncasecmp(s, p, strlen(p)) == 0`, and what follows. -/
def afterNoCase (p s : Bytes) : Option Bytes :=
  if Rpc.eqNoCase (s.take p.length) p then some (s.drop p.length) else none

def isOneOf (n : Bytes) (l : List String) : Bool := l.any (fun t => Rpc.eqNoCase n (lit t))

def isNum (b : UInt8) : Bool := decide (48 ≤ b.toNat ∧ b.toNat ≤ 57)

/-- An option of a numbered section (Options.cpp:1527-1577): the word, digits (perhaps none) and one of the
given ends. -/
def numbered (word : String) (ends : List String) (n : Bytes) : Bool :=
  match afterNoCase (lit word) n with
  | none => false
  | some r => isOneOf (r.dropWhile isNum) ends

/-- The options which are set by the program only (Options.cpp:1513-1518). -/
def readOnly (n : Bytes) : Bool := isOneOf n ["ConfigFile", "AppBin", "AppDir", "Version"]

def serverEnds : List String := [".active", ".name", ".level", ".host", ".port", ".username", ".password",
  ".joingroup", ".encryption", ".connections", ".cipher", ".group", ".retention", ".optional", ".notes",
  ".ipversion"]

def taskEnds : List String := [".time", ".weekdays", ".command", ".param", ".downloadrate", ".process"]

def categoryEnds : List String := [".name", ".destdir", ".extensions", ".unpack", ".aliases"]

def feedEnds : List String := [".name", ".url", ".interval", ".filter", ".backlog", ".pausenzb", ".category",
  ".priority", ".extensions"]

/-- Old options which are accepted (Options.cpp:1586-1638). -/
def obsolete : List String := ["RetryOnCrcError", "AllowReProcess", "LoadPars", "ThreadLimit", "PostLogKind",
  "NZBLogKind", "ProcessLogKind", "AppendNzbDir", "RenameBroken", "MergeNzb", "StrictParName",
  "ReloadUrlQueue", "ReloadPostQueue", "ParCleanupQueue", "DeleteCleanupDisk", "HistoryCleanupDisk",
  "SaveQueue", "ReloadQueue", "TerminateTimeout", "AccurateRate", "CreateBrokenLog", "BrokenLog",
  "PostProcess", "NZBProcess", "NZBAddedProcess", "ScanScript", "QueueScript", "FeedScript", "CreateLog",
  "ResetLog"]

/-- The names which are accepted although no option has them yet (Options.cpp:1527-1638). -/
def newName (n : Bytes) : Bool :=
  numbered "server" serverEnds n || numbered "task" taskEnds n || numbered "category" categoryEnds n ||
  numbered "feed" feedEnds n || n.contains 58 || isOneOf n obsolete

/-- Options::ValidateOptionName (Options.cpp:1511-1641): the entries, of which one may be renamed, and the
answer. -/
def validName (s : Store) (n : Bytes) : Store × Bool :=
  if readOnly n then (s, false)
  else
    match (getOption s n).2 with
    | some _ => ((getOption s n).1, true)
    | none => ((getOption s n).1, newName n)

/-! ### Old names -/

/-- CString::Replace (NString.cpp:222-232). The first argument is the number of bytes of a match still to be
passed over. -/
def replaceAll (src dst : Bytes) : Nat → Bytes → Bytes
  | _, [] => []
  | k + 1, _ :: l => replaceAll src dst k l
  | 0, b :: l =>
    if startsWith src (b :: l) then dst ++ replaceAll src dst (src.length - 1) l
    else b :: replaceAll src dst 0 l

/-- Whether a text ends so, ignoring the case, and is longer. -/
def endsNoCase (n : Bytes) (t : String) : Bool :=
  decide (n.length > (lit t).length) && Rpc.eqNoCase (n.drop (n.length - (lit t).length)) (lit t)

/-- `(int)strtol(value, nullptr, 10)`. -/
def intOf (v : Bytes) : Int := (atoll v).bmod (2 ^ 32)

/-- Options which have another name today, in the order of the source (Options.cpp:1647-1670). -/
def oldNames1 : List (String × String) := [("$MAINDIR", "MainDir"), ("ServerIP", "ControlIP"),
  ("ServerPort", "ControlPort"), ("ServerPassword", "ControlPassword"), ("PostPauseQueue", "ScriptPauseQueue")]

/-- The same (Options.cpp:1687-1690). -/
def oldNames2 : List (String × String) := [("DefScript", "Extensions"), ("PostScript", "Extensions")]

/-- The same (Options.cpp:1713-1731). -/
def oldNames3 : List (String × String) := [("ConnectionTimeout", "ArticleTimeout"),
  ("Retries", "ArticleRetries"), ("RetryInterval", "ArticleInterval"), ("DumpCore", "CrashDump")]

/-- One `if` after the other. -/
def newNames (l : List (String × String)) (n : Bytes) : Bytes :=
  l.foldl (fun n p => if Rpc.eqNoCase n (lit p.1) then lit p.2 else n) n

/-- Values which have another name today (Options.cpp:1672-1685). -/
def oldValue (n v : Bytes) : Bytes :=
  if Rpc.eqNoCase n (lit "ParCheck") ∧ Rpc.eqNoCase v (lit "yes") then lit "always"
  else if Rpc.eqNoCase n (lit "ParCheck") ∧ Rpc.eqNoCase v (lit "no") then lit "auto"
  else if Rpc.eqNoCase n (lit "ParScan") ∧ Rpc.eqNoCase v (lit "auto") then lit "extended"
  else v

/-- Options of categories (Options.cpp:1692-1699). -/
def oldCategory (n : Bytes) : Bytes :=
  if (afterNoCase (lit "Category") n).isSome ∧ (endsNoCase n ".DefScript" ∨ endsNoCase n ".PostScript") then
    replaceAll (lit ".PostScript") (lit ".Extensions") 0 (replaceAll (lit ".DefScript") (lit ".Extensions") 0 n)
  else n

/-- Options of feeds (Options.cpp:1700-1703). -/
def oldFeed (n : Bytes) : Bytes :=
  if (afterNoCase (lit "Feed") n).isSome ∧ endsNoCase n ".FeedScript" then
    replaceAll (lit ".FeedScript") (lit ".Extensions") 0 n
  else n

/-- The size of the write buffer was given in bytes (Options.cpp:1705-1711). -/
def oldBuffer (p : Bytes × Bytes) : Bytes × Bytes :=
  if Rpc.eqNoCase p.1 (lit "WriteBufferSize") then
    (lit "WriteBuffer", decInt (if intOf p.2 = -1 then 1024 else (intOf p.2).tdiv 1024))
  else p

/-- Decoding was switched on, not off (Options.cpp:1733-1737). -/
def oldDecode (p : Bytes × Bytes) : Bytes × Bytes :=
  if Rpc.eqNoCase p.1 (lit "Decode") then
    (lit "RawArticle", if Rpc.eqNoCase p.2 (lit "no") then lit "yes" else lit "no")
  else p

/-- (Options.cpp:1739-1742) -/
def oldLog (p : Bytes × Bytes) : Bytes × Bytes :=
  if Rpc.eqNoCase p.1 (lit "LogBufferSize") then (lit "LogBuffer", p.2) else p

/-- Options::ConvertOldOption (Options.cpp:1643-1743). -/
def convertOld (n v : Bytes) : Bytes × Bytes :=
  let n1 := newNames oldNames1 n
  let v1 := oldValue n1 v
  let n2 := oldFeed (oldCategory (newNames oldNames2 n1))
  let p := oldBuffer (n2, v1)
  oldLog (oldDecode (newNames oldNames3 p.1, p.2))

/-- Options::SplitOptionString (Options.cpp:1495-1509). -/
def splitOption (line : Bytes) : Option (Bytes × Bytes) :=
  match splitAt 61 line with
  | none => none
  | some (n, v) => if n = [] then none else some (convertOld n v)

/-- The entries and the number of errors reported. -/
structure Opts where
  store : Store
  errors : Nat
  deriving DecidableEq, Repr

/-- Options::SetOptionString (Options.cpp:1466-1487). -/
def setString (home : Bytes → Bytes) (k : Nat) (o : Opts) (line : Bytes) : Option Opts :=
  match splitOption line with
  | none => some { o with errors := o.errors + 1 }
  | some (n, v) =>
    if (validName o.store n).2 then
      (setOption home k (validName o.store n).1 n v).map (fun s => { o with store := s })
    else some ⟨(validName o.store n).1, o.errors + 1⟩

/-- Options::InitCommandLineOptions (Options.cpp:1458-1464). -/
def setStrings (home : Bytes → Bytes) (k : Nat) : Opts → List Bytes → Option Opts
  | o, [] => some o
  | o, l :: ls =>
    match setString home k o l with
    | none => none
    | some o' => setStrings home k o' ls

/-! ### The file -/

/-- Remove one byte from the end, if it is there (Options.cpp:1434-1441). -/
def chomp (c : UInt8) (l : Bytes) : Bytes := if l.getLast? = some c then l.dropLast else l

/-- One line as it was read (Options.cpp:1432-1448). -/
def doLine (home : Bytes → Bytes) (k : Nat) (o : Opts) (raw : Bytes) : Option Opts :=
  let l := chomp 13 (chomp 10 (cstr raw))
  if l = [] ∨ l.head? = some 35 ∨ l.all (· == 32) then some o else setString home k o l

/-- The loop of LoadConfigFile (Options.cpp:1430-1449); `n` is the size given to `fgets`, the size of the file
(1427-1430). With a size of 1 `fgets` stores an empty text and reads nothing, at the end of the file too; with
a size of 0 it fails. -/
def loadLoop (home : Bytes → Bytes) (k n : Nat) : (fuel : Nat) → Opts → Bytes → Option Opts
  | 0, _, _ => none
  | f + 1, o, b =>
    if n = 0 then some o
    else if n = 1 then loadLoop home k n f o b
    else if b = [] then some o
    else
      match doLine home k o (Text.fgets (n - 1) b).1 with
      | none => none
      | some o' => loadLoop home k n f o' (Text.fgets (n - 1) b).2

/-- LoadConfigFile after the file was opened (Options.cpp:1426-1455). -/
def loadFile (home : Bytes → Bytes) (fuel : Nat) (o : Opts) (content : Bytes) : Option Opts :=
  loadLoop home fuel content.length fuel o content

/-! ### What a restricted user is shown -/

/-- Whether a text contains another one (`strstr`). -/
def contains (p s : Bytes) : Bool := (after p s).isSome

/-- OptEntry::Restricted (Options.cpp:202-224). The copy in small letters has 1023 bytes. -/
def restricted (n : Bytes) : Bool :=
  isOneOf n ["ControlIp", "ControlPort", "FormAuth", "SecureControl", "SecurePort", "SecureCert", "SecureKey",
    "CertStore", "CertCheck", "AuthorizedIP", "DaemonUsername", "UMask"] ||
  n.contains 58 || contains (lit "username") ((n.take 1023).map WildMask.lower) ||
  contains (lit "password") ((n.take 1023).map WildMask.lower)

/-- The list which the commands config and loadconfig return (XmlRpc.cpp:2615-2623, 2654-2662), before the
encoding. -/
def shown (restrictedUser : Bool) (s : Store) : List (Bytes × Option Bytes) :=
  s.map (fun e => (e.name, if restrictedUser && restricted e.name then some (lit "***") else e.value))

end Verif.OptStore
