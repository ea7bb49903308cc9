import Verif.WebAccess
import Verif.JsonText
import Verif.UrlText
/-! Remote calls: which command a request executes, with which access. XmlRpc.cpp:335-757, and the values of
options which are shown (XmlRpc.cpp:2597-2660, Options.cpp:202-224). -/
namespace Verif.Rpc
open CStr
open Verif.WebAccess (Access Method)

/-- The commands, one for each class and argument in XmlRpcProcessor::CreateCommand (XmlRpc.cpp:569-757). -/
inductive Cmd
  | error (code : Nat) | pause | resume | shutdown | reload | version | dump | rate | status | log | listFiles
  | listGroups | editQueue | append | postQueue | writeLog | clearLog | loadLog | scan | pausePost | resumePost
  | pauseScan | resumeScan | scheduleResume | history | urlQueue | config | loadConfig | saveConfig
  | configTemplates | viewFeed | previewFeed | fetchFeed | editServer | readUrl | checkUpdates | startUpdate
  | logUpdate | serverVolumes | resetServerVolume | testServer | startScript | logScript
deriving DecidableEq, Repr

/-- The names of the commands (XmlRpc.cpp:586-751), in the order they are compared. -/
def names : List (String × Cmd) :=
  [("pause", .pause), ("pausedownload", .pause), ("pausedownload2", .pause), ("resume", .resume),
   ("resumedownload", .resume), ("resumedownload2", .resume), ("shutdown", .shutdown), ("reload", .reload),
   ("version", .version), ("dump", .dump), ("rate", .rate), ("status", .status), ("log", .log),
   ("listfiles", .listFiles), ("listgroups", .listGroups), ("editqueue", .editQueue), ("append", .append),
   ("appendurl", .append), ("postqueue", .postQueue), ("writelog", .writeLog), ("clearlog", .clearLog),
   ("loadlog", .loadLog), ("scan", .scan), ("pausepost", .pausePost), ("resumepost", .resumePost),
   ("pausescan", .pauseScan), ("resumescan", .resumeScan), ("scheduleresume", .scheduleResume),
   ("history", .history), ("urlqueue", .urlQueue), ("config", .config), ("loadconfig", .loadConfig),
   ("saveconfig", .saveConfig), ("configtemplates", .configTemplates), ("viewfeed", .viewFeed),
   ("previewfeed", .previewFeed), ("fetchfeed", .fetchFeed), ("editserver", .editServer), ("readurl", .readUrl),
   ("checkupdates", .checkUpdates), ("startupdate", .startUpdate), ("logupdate", .logUpdate),
   ("servervolumes", .serverVolumes), ("resetservervolume", .resetServerVolume), ("testserver", .testServer),
   ("startscript", .startScript), ("logscript", .logScript)]

/-- `!strcasecmp(a, b)`. -/
def eqNoCase (a b : Bytes) : Bool := a.map WildMask.lower == b.map WildMask.lower

/-- The command of a name (XmlRpc.cpp:586-755). -/
def lookup (name : Bytes) : Cmd :=
  match names.find? (fun e => eqNoCase name (lit e.1)) with
  | some e => e.2
  | none => .error 1

/-- XmlRpcProcessor::CreateCommand (XmlRpc.cpp:569-757). -/
def create (a : Access) (name : Bytes) : Cmd :=
  if a = .add ∧ !(eqNoCase name (lit "append") || eqNoCase name (lit "appendurl") || eqNoCase name (lit "version")) then
    .error 401
  else if a = .restricted ∧ eqNoCase name (lit "saveconfig") then .error 401
  else lookup name

/-- IsSafeMethod: the classes derived from SafeXmlCommand (XmlRpc.cpp:43-330). -/
def safe : Cmd → Bool
  | .version | .dump | .status | .log | .listFiles | .listGroups | .postQueue | .history | .urlQueue | .config
  | .loadConfig | .configTemplates | .readUrl | .logUpdate | .serverVolumes | .loadLog | .logScript => true
  | _ => false

/-- IsError (XmlRpc.cpp:49-60). -/
def isError : Cmd → Bool
  | .error _ => true
  | _ => false

/-- XmlRpcProcessor::ERpcProtocol. -/
inductive Proto | xml | json | jsonp
deriving DecidableEq, Repr

/-- The protocol by the url, XmlRpc.cpp:350-368. `none`: internal error, nothing is executed. -/
def protocol (url : Bytes) : Option Proto :=
  if url = lit "/xmlrpc" ∨ startsWith (lit "/xmlrpc/") url then some .xml
  else if url = lit "/jsonrpc" ∨ startsWith (lit "/jsonrpc/") url then some .json
  else if url = lit "/jsonprpc" ∨ startsWith (lit "/jsonprpc/") url then some .jsonp
  else none

/-- `BString<100>::Set(text, len)` (NString.cpp:33-39): a length which is not positive means everything. -/
def bset (text : Bytes) (len : Int) : Bytes := text.take (if len > 0 then min 99 len.toNat else 99)

/-- `strstr`: the text before the first occurrence and the text behind it. -/
def split (p : Bytes) : Bytes → Option (Bytes × Bytes)
  | [] => if p = [] then some ([], []) else none
  | b :: s =>
    if startsWith p (b :: s) then some ([], (b :: s).drop p.length)
    else (split p s).map (fun r => (b :: r.1, r.2))

/-- WebUtil::XmlFindTag (Util.cpp:915-938): the text of the first such tag; empty for `<tag/>`. -/
def findTag (tag xml : Bytes) : Option Bytes :=
  let full := (split (lit "<" ++ tag ++ lit ">") xml)
  match split (lit "<" ++ tag ++ lit "/>") xml, full with
  | none, none => none
  | some _, none => some []
  | some e, some f => if e.1.length < f.1.length then some [] else (split (lit "</" ++ tag ++ lit ">") f.2).map (·.1)
  | none, some f => (split (lit "</" ++ tag ++ lit ">") f.2).map (·.1)

/-- WebUtil::XmlParseTagValue (Util.cpp:940-956) with a buffer of 100 bytes, empty if there is no such tag. -/
def tagValue (tag xml : Bytes) : Bytes := ((findTag tag xml).getD []).take 99

/-- The method name of a request in JSON, XmlRpc.cpp:402-408. -/
def jsonMethod (request : Bytes) : Bytes :=
  match split (lit "\"method\"") request with
  | none => []
  | some (_, s) =>
    match JsonText.nextValue s with
    | none => []
    | some (v, rest) => bset ((v ++ rest).drop 1) ((if v.length ≥ 100 then 99 else v.length : Int) - 2)

/-- The method name in an url, XmlRpc.cpp:378-396. -/
def urlMethod (url : Bytes) : Bytes :=
  match (url.drop 1).dropWhile (· != 47) with
  | [] => []
  | _ :: s =>
    if 63 ∈ s then bset s ((s.takeWhile (· != 63)).length : Int) else bset s 0

/-- A command which is executed: with the access which is given to it. `none`: the member is not set. -/
structure Call where
  cmd : Cmd
  access : Option Access
deriving DecidableEq, Repr

/-- XmlRpcProcessor::MutliCall (XmlRpc.cpp:448-505): SetUserAccess is not called. `fuel`: the length of the
request is enough. -/
def multiCall (a : Access) : Nat → Bytes → List Call
  | 0, _ => []
  | n + 1, s =>
    match split (lit "</struct>") s with
    | none => []
    | some (part, rest) =>
      match split (lit "</name>") part with
      | none => []
      | some (_, behind) => ⟨create a (tagValue (lit "string") behind), none⟩ :: multiCall a n rest

/-- The method name of a request, XmlRpc.cpp:373-414. -/
def methodName (m : Method) (p : Proto) (url request : Bytes) : Bytes :=
  if m = .get then urlMethod url
  else match p with
    | .xml => tagValue (lit "methodName") request
    | .json => jsonMethod request
    | .jsonp => []

/-- XmlRpcProcessor::Dispatch (XmlRpc.cpp:372-444): the commands which are executed. -/
def dispatch (a : Access) (m : Method) (p : Proto) (url request : Bytes) : List Call :=
  let name := methodName m p url request
  if eqNoCase name (lit "system.multicall") ∧ p = .xml ∧ m ≠ .get then multiCall a request.length request
  else
    let c := create a name
    if safe c ∨ m ≠ .get ∨ p = .jsonp ∨ isError c then [⟨c, some a⟩] else []

/-- The call of XmlRpcProcessor by the web server (WebServer.cpp:318-328): SetUrl (XmlRpc.cpp:335-339) decodes
the url; Execute (350-369). `none`: reads behind the url. -/
def rpc (a : Access) (m : Method) (url request : Bytes) : Option (List Call) :=
  (UrlText.urlDecode url).map (fun u =>
    match protocol u with
    | none => []
    | some p => dispatch a m p u request)

/-- Options::OptEntry::Restricted (Options.cpp:202-224). `loName` is a `BString<1024>`. -/
def restricted (name : Bytes) : Bool :=
  let lo := (name.take 1023).map WildMask.lower
  ["ControlIp", "ControlPort", "FormAuth", "SecureControl", "SecurePort", "SecureCert", "SecureKey", "CertStore",
   "CertCheck", "AuthorizedIP", "DaemonUsername", "UMask"].any (fun o => eqNoCase name (lit o)) ||
    name.contains 58 || (split (lit "username") lo).isSome || (split (lit "password") lo).isSome

/-- The names and values of options in the answers of `config` and `loadconfig` (XmlRpc.cpp:2597-2660).
`junk`: what the member `m_userAccess` has if it is not set. -/
def shown (junk : Access) (access : Option Access) (opts : List (Bytes × Bytes)) : List (Bytes × Bytes) :=
  opts.map (fun o => (o.1, if access.getD junk = .restricted ∧ restricted o.1 then lit "***" else o.2))

/-- The options in the answer of a call. -/
def answer (junk : Access) (opts file : List (Bytes × Bytes)) (c : Call) : List (Bytes × Bytes) :=
  match c.cmd with
  | .config => shown junk c.access opts
  | .loadConfig => shown junk c.access file
  | _ => []

end Verif.Rpc
