import Verif.TaskDef
import Verif.FileName
/-
Model of the definitions of servers, categories and feeds in the options:
/repo/daemon/main/Options.cpp 245-275 (FindCategory), 597-650 (CheckDir), 961-1168 (InitServers, InitCategories,
InitFeeds), /repo/daemon/nntp/NewsServer.cpp:23-36, /repo/daemon/feed/FeedInfo.cpp:25-40. POSIX; with TLS support.

What is simplified: the messages are left out, whether an error was reported is kept. `CheckDir` creates no directory
here (its argument `create` is false for categories) and the option which it rewrites is not read again.
-/
namespace Verif.Section
open CStr OptStore OptValue TaskDef

/-- The pattern of Options.cpp:966-971 for an option with yes or no: the value, and whether an error was reported. -/
def flag (get : Env) (k : Bytes) (dflt : Bool) : Bool × Bool :=
  match get k with
  | none => (dflt, false)
  | some (v, d) =>
    match parseEnum boolTable v d with
    | some r => (r.num != 0, r.error)
    | none => (dflt, true)

/-- ServerN.IpVersion (Options.cpp:1011-1019). -/
def ipVersion (get : Env) (k : Bytes) : Int × Bool :=
  match get k with
  | none => (0, false)
  | some (v, d) =>
    match parseEnum ipTable v d with
    | some r => (r.num, r.error)
    | none => (0, true)

/-- `x ? atoi(x) : d`. -/
def number (get : Env) (k : Bytes) (d : Int) : Int :=
  match val get k with
  | none => d
  | some v => intOf v

/-- `x ? x : ""`. -/
def textOr (get : Env) (k : Bytes) : Bytes := (val get k).getD []

structure Server where
  id : Nat
  active : Bool
  name : Bytes
  host : Bytes
  port : Int
  ipVersion : Int
  user : Bytes
  password : Bytes
  joinGroup : Bool
  tls : Bool
  cipher : Bytes
  connections : Int
  retention : Int
  level : Int
  group : Int
  optional : Bool
  deriving DecidableEq, Repr

/-- `definition` (Options.cpp:1025-1026). -/
def serverDefined (get : Env) (n : Nat) : Bool :=
  [".Active", ".Name", ".Level", ".Group", ".Host", ".Port", ".Optional", ".Username", ".Password", ".Connections", ".JoinGroup",
    ".Encryption", ".Cipher", ".Retention"].any (fun e => (val get (key "Server" n e)).isSome)

/-- The name of a server or feed without one (NewsServer.cpp:31-34, FeedInfo.cpp:30-33). -/
def nameOr (get : Env) (k : Bytes) (word : String) (n : Nat) : Bytes :=
  if textOr get k = [] then lit word ++ dec n else textOr get k

/-- The body of the loop of Options::InitServers (Options.cpp:966-1054): the server which is added, if any, and whether an
error was reported. -/
def initServer (get : Env) (n : Nat) : Option Server × Bool :=
  let active := flag get (key "Server" n ".Active") true
  let join := flag get (key "Server" n ".JoinGroup") false
  let opt := flag get (key "Server" n ".Optional") false
  let tls := flag get (key "Server" n ".Encryption") false
  let ip := ipVersion get (key "Server" n ".IpVersion")
  let err := active.2 || join.2 || opt.2 || tls.2 || ip.2
  match val get (key "Server" n ".Host"), val get (key "Server" n ".Port"), val get (key "Server" n ".Connections") with
  | some host, some port, some conns =>
    (some { id := n, active := active.1, name := nameOr get (key "Server" n ".Name") "server" n, host := host, port := intOf port,
            ipVersion := ip.1, user := textOr get (key "Server" n ".Username"), password := textOr get (key "Server" n ".Password"),
            joinGroup := join.1, tls := tls.1, cipher := textOr get (key "Server" n ".Cipher"), connections := intOf conns,
            retention := number get (key "Server" n ".Retention") 0, level := number get (key "Server" n ".Level") 0,
            group := number get (key "Server" n ".Group") 0, optional := opt.1 }, err)
  | _, _, _ => (none, true)

/-- Options::InitServers (Options.cpp:961-1058). -/
def initServers (get : Env) (fuel : Nat) : List (Option Server × Bool) := sections (serverDefined get) (initServer get) fuel 1

structure Feed where
  id : Nat
  name : Bytes
  url : Bytes
  interval : Int
  filter : Bytes
  backlog : Bool
  pauseNzb : Bool
  category : Bytes
  priority : Int
  extensions : Bytes
  deriving DecidableEq, Repr

/-- `definition` (Options.cpp:1145-1146). -/
def feedDefined (get : Env) (n : Nat) : Bool :=
  [".Name", ".URL", ".Filter", ".Category", ".Backlog", ".PauseNzb", ".Interval", ".Priority", ".Extensions"].any
    (fun e => (val get (key "Feed" n e)).isSome)

/-- The body of the loop of Options::InitFeeds (Options.cpp:1121-1166). -/
def initFeed (get : Env) (n : Nat) : Option Feed × Bool :=
  let backlog := flag get (key "Feed" n ".Backlog") true
  let pause := flag get (key "Feed" n ".PauseNzb") false
  match val get (key "Feed" n ".URL") with
  | some url =>
    (some { id := n, name := nameOr get (key "Feed" n ".Name") "Feed" n, url := url, interval := number get (key "Feed" n ".Interval") 0,
            filter := textOr get (key "Feed" n ".Filter"), backlog := backlog.1, pauseNzb := pause.1,
            category := textOr get (key "Feed" n ".Category"), priority := number get (key "Feed" n ".Priority") 0,
            extensions := textOr get (key "Feed" n ".Extensions") }, backlog.2 || pause.2)
  | none => (none, true)

/-- Options::InitFeeds (Options.cpp:1116-1168). -/
def initFeeds (get : Env) (fuel : Nat) : List (Option Feed × Bool) := sections (feedDefined get) (initFeed get) fuel 1

/-- FileSystem::NormalizePathSeparators (FileSystem.cpp:46-55). -/
def normSep (s : Bytes) : Bytes := s.map (fun c => if c = 92 then 47 else c)

/-- The test of Options.cpp:624-626: the path is not taken as relative. -/
def looksAbsolute (d : Bytes) : Bool :=
  d.head? == some 47 || d.head? == some 92 || (d != [] && d[1]? == some 58)

/-- Options::CheckDir (Options.cpp:597-650) for an option which is not empty. `usedir2` is a `BString<1024>`. -/
def checkDir (value parent : Bytes) : Bytes :=
  let d := normSep value
  let d := if d.getLast? = some 47 then d.dropLast else d
  if !looksAbsolute d && parent != [] then
    let p := if parent.getLast? = some 47 ∨ parent.getLast? = some 92 then parent ++ d else parent ++ 47 :: d
    normSep (p.take 1023)
  else d

structure Category where
  name : Bytes
  destDir : Bytes
  unpack : Bool
  extensions : Bytes
  aliases : List Bytes
  deriving DecidableEq, Repr

/-- `definition` (Options.cpp:1078). -/
def categoryDefined (get : Env) (n : Nat) : Bool :=
  [".Name", ".DestDir", ".Unpack", ".Extensions", ".Aliases"].any (fun e => (val get (key "Category" n e)).isSome)

/-- The body of the loop of Options::InitCategories (Options.cpp:1065-1112). `destDir` is the option DestDir. -/
def initCategory (get : Env) (destDir : Bytes) (n : Nat) : Option Category × Bool :=
  let unpack := flag get (key "Category" n ".Unpack") true
  if textOr get (key "Category" n ".Name") = [] then (none, true)
  else
    let d := textOr get (key "Category" n ".DestDir")
    (some { name := textOr get (key "Category" n ".Name"), destDir := if d = [] then [] else checkDir d destDir,
            unpack := unpack.1, extensions := textOr get (key "Category" n ".Extensions"),
            aliases := Tokens.tokens timeSep (textOr get (key "Category" n ".Aliases")) }, unpack.2)

/-- Options::InitCategories (Options.cpp:1060-1114). -/
def initCategories (get : Env) (destDir : Bytes) (fuel : Nat) : List (Option Category × Bool) :=
  sections (categoryDefined get) (initCategory get destDir) fuel 1

/-- Categories::FindCategory (Options.cpp:245-275). -/
def findCategory (cats : List Category) (name : Bytes) (searchAliases : Bool) : Option Category :=
  match cats.find? (fun c => Rpc.eqNoCase c.name name) with
  | some c => some c
  | none => if searchAliases then cats.find? (fun c => c.aliases.any (fun a => WildMask.matches? a name)) else none

end Verif.Section
