import Verif.ConnProps
import Verif.Base64
import Verif.UrlText
import Verif.Tokens
import Verif.WildMask
/-
Model of the web server: /repo/daemon/remote/RemoteServer.cpp:182-277 (RequestProcessor) and
/repo/daemon/remote/WebServer.cpp:77-362 (WebProcessor), with SendSingleFileResponse and
SendMultiFileResponse (545-612) as far as the names of the opened files are concerned.

The connection is the stream of bytes the client sends; that ReadLine and Recv deliver exactly this is
proved in ConnProps (`readLine_spec`, `recv_spec`). `none` stands for undefined behaviour (reading
behind the end of a text). The content of answers, gzip, entity tags and the log are not modelled.
-/
namespace Verif.WebAccess
open CStr

/-- WebProcessor::EUserAccess (WebServer.h:44-49). -/
inductive Access where | control | restricted | add
deriving DecidableEq, Repr

/-- WebProcessor::EHttpMethod (WebServer.h:30-35). -/
inductive Method where | post | get | options
deriving DecidableEq, Repr

/-- The options used by the web server, and m_serverAuthToken (three texts of 48 letters and digits,
WebServer.cpp:47-75). -/
structure Config where
  controlUsername : Bytes := []
  controlPassword : Bytes := []
  restrictedUsername : Bytes := []
  restrictedPassword : Bytes := []
  addUsername : Bytes := []
  addPassword : Bytes := []
  authorizedIp : Bytes := []
  webDir : Bytes := []
  formAuth : Bool := false
  token : Access → Bytes

/-- The members of WebProcessor set by ParseHeaders. -/
structure Hdr where
  authInfo : Bytes := []
  authToken : Bytes := []
  contentLen : Int := 0
  keepAlive : Bool := false
deriving DecidableEq, Repr

/-- `!strncasecmp(s, p, strlen(p))`. -/
def startsNoCase (p s : Bytes) : Bool := (p.map WildMask.lower).isPrefixOf (s.map WildMask.lower)

/-- `atoi`: strtol, then the lowest 32 bits. -/
def atoi (s : Bytes) : Int := (atoll s + 2 ^ 31) % 2 ^ 32 - 2 ^ 31

/-- `strrchr(p, '\r')` and the cut there (WebServer.cpp:135). -/
def cutCr (s : Bytes) : Bytes :=
  if 13 ∈ s then ((s.reverse.dropWhile (· != 13)).drop 1).reverse else s

/-- sizeof(m_authInfo) (WebServer.h:62). -/
def authInfoSize : Nat := 257

/-- What one header line does (WebServer.cpp:138-195): continue, stop reading (also if the credentials
are too long: `return`, 145-149 and 155-159). Headers without influence on access are left out:
Accept-Encoding, Origin, X-Forwarded-For and If-None-Match are no prefixes of each other or of the
ones below. -/
inductive Step where | go (h : Hdr) | stop (h : Hdr)
deriving DecidableEq, Repr

/-- The cookie: the first 48 characters after the first "Auth-Token=" (WebServer.cpp:170-179). -/
def cookie (h : Hdr) (p : Bytes) : Hdr :=
  match after (lit "Auth-Token=") p with
  | none => h
  | some [] => h
  | some (c :: t) => if c = 59 then h else { h with authToken := (c :: t).take 48 }

/-- Credentials in base64 (WebServer.cpp:144-150, 154-160). -/
def basic (h : Hdr) (p64 : Bytes) : Option Step :=
  if p64.length > authInfoSize then some (.stop h)
  else (Base64.decode p64).map (fun d => .go { h with authInfo := cstr d })

/-- One pass of the loop of ParseHeaders (WebServer.cpp:133-196), `p` being the line without its end. -/
def headerLine (h : Hdr) (p : Bytes) : Option Step :=
  if startsNoCase (lit "Content-Length: ") p then
    some (.go { h with contentLen := atoi (p.drop 16) })
  else if startsNoCase (lit "Authorization: Basic ") p ∧ h.authInfo = [] then basic h (p.drop 21)
  else if startsNoCase (lit "X-Authorization: Basic ") p then basic h (p.drop 23)
  else if startsNoCase (lit "Accept-Encoding: ") p then some (.go h)
  else if startsNoCase (lit "Origin: ") p then some (.go h)
  else if startsNoCase (lit "Cookie: ") p then some (.go (cookie h p))
  else if startsNoCase (lit "X-Forwarded-For: ") p then some (.go h)
  else if startsNoCase (lit "If-None-Match: ") p then some (.go h)
  else if startsNoCase (lit "Connection: keep-alive") p then some (.go { h with keepAlive := true })
  else if p = [] then some (.stop h)
  else some (.go h)

/-- `m_connection->ReadLine(buffer, 1024, nullptr)`: the line and the rest of the stream; `none` at the
end of the stream. -/
def readLine (s : Bytes) : Option (Bytes × Bytes) :=
  let l := Conn.firstLine 1023 s
  if l = [] then none else some (l, s.drop l.length)

/-- WebProcessor::ParseHeaders (WebServer.cpp:128-201): the members and the rest of the stream. `fuel`
bounds the number of lines (the length of the stream is enough). -/
def parseHeaders : Nat → Hdr → Bytes → Option (Hdr × Bytes)
  | 0, h, s => some (h, s)
  | n + 1, h, s =>
    match readLine s with
    | none => some (h, s)
    | some (l, rest) =>
      match headerLine h (cutCr (cstr l)) with
      | none => none
      | some (.stop h') => some (h', rest)
      | some (.go h') => parseHeaders n h' rest

/-- The credentials in the url (WebServer.cpp:218-231): a colon before the next slash, both searched
behind the first character. -/
def urlAuth (h : Hdr) (url : Bytes) : Option (Hdr × Bytes) :=
  match url with
  | [] => none
  | _ :: t =>
    let seg := t.takeWhile (· != 47)
    if 58 ∈ seg ∧ 47 ∈ t then
      (UrlText.urlDecode (seg.take (authInfoSize - 1))).map
        (fun d => ({ h with authInfo := d }, t.dropWhile (· != 47)))
    else some (h, url)

/-- Answers of the web server. `rpc` stands for the execution of a remote call with the given access
(XmlRpcProcessor), `file` and `files` for sending the named files (or an error if they cannot be read). -/
inductive Answer where
  | unauthorized | options | redirect | badRequest | unavailable | notFound
  | rpc (a : Access) (m : Method) (url request : Bytes)
  | file (name : Bytes)
  | files (names : List Bytes)
deriving DecidableEq, Repr

/-- WebProcessor::ParseUrl (WebServer.cpp:203-234). -/
def parseUrl (h : Hdr) (url : Bytes) : Option (List Answer × Hdr × Bytes) :=
  let url := if startsWith (lit "/nzbget/") url then url.drop 7 else url
  if url = lit "/nzbget" then some ([.redirect], h, url)
  else (urlAuth h url).map (fun r => ([], r.1, r.2))

/-- XmlRpcProcessor::IsRpcRequest (XmlRpc.cpp:340-345). -/
def isRpc (url : Bytes) : Bool :=
  url == lit "/xmlrpc" || startsWith (lit "/xmlrpc/") url ||
  url == lit "/jsonrpc" || startsWith (lit "/jsonrpc/") url ||
  url == lit "/jsonprpc" || startsWith (lit "/jsonprpc/") url

/-- Tokenizer(..., ",;"). -/
def ipSep (c : UInt8) : Bool := c == 44 || c == 59

/-- WebProcessor::IsAuthorizedIp (WebServer.cpp:290-308). -/
def isAuthorizedIp (authorizedIp remote : Bytes) : Bool :=
  (Tokens.tokens ipSep authorizedIp).any (fun m => WildMask.matches? m remote)

/-- Authorization via X-Auth-Token (WebServer.cpp:244-252). -/
def byToken (cfg : Config) (tok : Bytes) : Option Access :=
  if tok = cfg.token .control then some .control
  else if tok = cfg.token .restricted then some .restricted
  else if tok = cfg.token .add then some .add
  else none

/-- Authorization via username:password (WebServer.cpp:256-284); `pw` is null without a colon. -/
def byPassword (cfg : Config) (info : Bytes) : Option Access :=
  let user := info.takeWhile (· != 58)
  let pw : Option Bytes := if 58 ∈ info then some ((info.dropWhile (· != 58)).drop 1) else none
  if (cfg.controlUsername = [] ∨ user = cfg.controlUsername) ∧ pw = some cfg.controlPassword then some .control
  else if cfg.restrictedUsername ≠ [] ∧ user = cfg.restrictedUsername ∧ pw = some cfg.restrictedPassword then
    some .restricted
  else if cfg.addUsername ≠ [] ∧ user = cfg.addUsername ∧ pw = some cfg.addPassword then some .add
  else none

/-- WebProcessor::CheckCredentials (WebServer.cpp:236-288): `none` is `return false`; m_userAccess is
control if nothing is checked (80). -/
def checkCredentials (cfg : Config) (remote : Bytes) (h : Hdr) : Option Access :=
  if cfg.controlPassword ≠ [] ∧ ¬ (cfg.authorizedIp ≠ [] ∧ isAuthorizedIp cfg.authorizedIp remote = true) then
    if h.authInfo = [] then byToken cfg h.authToken else byPassword cfg h.authInfo
  else some .control

/-- The characters allowed in urls (WebServer.cpp:346-347). -/
def safeChar (c : UInt8) : Bool :=
  (48 ≤ c.toNat && c.toNat ≤ 57) || (65 ≤ c.toNat && c.toNat ≤ 90) || (97 ≤ c.toNat && c.toNat ≤ 122) ||
  c == 46 || c == 45 || c == 43 || c == 63 || c == 95 || c == 47

/-- The loop which checks the url (WebServer.cpp:344-352). -/
def safeUrl : Bytes → Bool
  | [] => true
  | c :: s => safeChar c && !(c == 46 && s.head? == some 46) && safeUrl s

/-- `BString<1024>` keeps 1023 characters. -/
def bstr (s : Bytes) : Bytes := s.take 1023

/-- The file of SendSingleFileResponse (WebServer.cpp:547-554). -/
def singleFile (cfg : Config) (url : Bytes) : Bytes :=
  bstr (cfg.webDir ++ url ++ (if url.getLast? = some 47 then lit "index.html" else []))

/-- The files of SendMultiFileResponse (WebServer.cpp:591-598). -/
def multiFiles (cfg : Config) (url : Bytes) : List Bytes :=
  (Tokens.tokens (· == 43) ((url.dropWhile (· != 63)).drop 1)).map (fun f => bstr (cfg.webDir ++ [47] ++ f))

/-- WebProcessor::Dispatch (WebServer.cpp:310-362). `m_url[0]` of an empty url is its terminating zero. -/
def dispatch (cfg : Config) (a : Access) (m : Method) (rpc : Bool) (url request : Bytes) : Answer :=
  if url.head? ≠ some 47 then .badRequest
  else if rpc then .rpc a m url request
  else if cfg.webDir = [] then .unavailable
  else if m ≠ .get then .badRequest
  else if safeUrl url = false then .notFound
  else if startsWith (lit "/combined.") url ∧ 63 ∈ url then .files (multiFiles cfg url)
  else .file (singleFile cfg url)

/-- WebProcessor::Execute from ParseUrl on (WebServer.cpp:98-126), without reading the content: what is
answered so far, and whether the request goes on with which access. `m_userAccess` of a request which is
not authorized stays control (80), its token is not sent. -/
structure Gate where
  answers : List Answer
  url : Bytes
  rpc : Bool
  auth : Option Access
deriving DecidableEq, Repr

def gate (cfg : Config) (remote : Bytes) (h : Hdr) (url : Bytes) : Option Gate :=
  (parseUrl h url).map (fun r =>
    { answers := r.1, url := r.2.2, rpc := isRpc r.2.2, auth := checkCredentials cfg remote r.2.1 })

/-- WebProcessor::Execute (WebServer.cpp:77-126): the answers and the rest of the stream. The content is
read with Recv; if the stream is shorter nothing is answered. `Reserve(m_contentLen)` adds one to the
length in int; for the largest int this overflows. -/
def execute (cfg : Config) (remote : Bytes) (m : Method) (url s : Bytes) : Option (List Answer × Bool × Bytes) :=
  match parseHeaders s.length {} s with
  | none => none
  | some (h, rest) =>
    if m = .post ∧ h.contentLen ≤ 0 then some ([], h.keepAlive, rest)
    else if m = .options then some ([.options], h.keepAlive, rest)
    else
      match gate cfg remote h url with
      | none => none
      | some g =>
        if (cfg.formAuth = false ∨ g.rpc = true) ∧ g.auth = none then
          some (g.answers ++ [.unauthorized], h.keepAlive, rest)
        else if m = .post then
          if h.contentLen = 2 ^ 31 - 1 then none
          else if rest.length < h.contentLen.toNat then some (g.answers, h.keepAlive, [])
          else some (g.answers ++ [dispatch cfg (g.auth.getD .control) m g.rpc g.url
                       (cstr (rest.take h.contentLen.toNat))], h.keepAlive, rest.drop h.contentLen.toNat)
        else some (g.answers ++ [dispatch cfg (g.auth.getD .control) m g.rpc g.url []], h.keepAlive, rest)

/-- RequestProcessor::ServWebRequest (RemoteServer.cpp:240-277) after the first four bytes `sig`. `none` in
the second place: return false without a request. -/
def serve (cfg : Config) (remote : Bytes) (sig s : Bytes) : Option (Option (List Answer × Bool × Bytes)) :=
  match readLine s with
  | none => some none
  | some (l, rest) =>
    let cut (u : Bytes) : Bytes := (cstr u).takeWhile (· != 32)
    if sig = lit "POST" then (execute cfg remote .post (cut (l.drop 1)) rest).map some
    else if sig = lit "OPTI" ∧ (cstr l).length > 4 then (execute cfg remote .options (cut (l.drop 4)) rest).map some
    else if sig = lit "GET " then (execute cfg remote .get (cut l) rest).map some
    else some none

/-- The loop of RequestProcessor::Execute (RemoteServer.cpp:196-231) over the requests of a connection: all
answers sent. Requests in the binary protocol are not modelled here. `fuel`: the length of the stream
is enough. -/
def session (cfg : Config) (remote : Bytes) : Nat → Bytes → Option (List Answer)
  | 0, _ => some []
  | n + 1, s =>
    if s.length < 4 then some []
    else
      match serve cfg remote (s.take 4) (s.drop 4) with
      | none => none
      | some none => some []
      | some (some (as, keep, rest)) => if keep then (session cfg remote n rest).map (as ++ ·) else some as

end Verif.WebAccess
