import Verif.OptStore
import Verif.FileName
import Verif.UrlText
import Verif.FeedFilter
/-
Model of addresses of web-downloads: URL::ParseUrl (/repo/daemon/util/Util.cpp:1409-1489), and of
/repo/daemon/connect/WebDownloader.cpp: SendHeaders (245-267), ParseFilename (487-522), ParseRedirect (524-573), and the choice of
the port in CreateConnection (206-243). POSIX; with TLS and gzip support.
-/
namespace Verif.WebUrl
open CStr OptStore

/-- CString::Set(str, len) (NString.cpp:108-119) for a length which does not exceed that of the text: the length 0 stands
for the whole text. -/
def setLen (s : Bytes) (n : Nat) : Bytes := if n = 0 then s else s.take n

/-- `strstr(s, p)`: what stands before and behind the first occurrence. -/
def cutAt (p : Bytes) : Bytes → Option (Bytes × Bytes)
  | [] => if p = [] then some ([], []) else none
  | b :: s =>
    if startsWith p (b :: s) then some ([], (b :: s).drop p.length)
    else (cutAt p s).map (fun r => (b :: r.1, r.2))

/-- The members of URL (Util.h:198-206). -/
structure Url where
  protocol : Bytes
  user : Option Bytes
  password : Option Bytes
  host : Bytes
  port : Int
  resource : Bytes
  deriving DecidableEq, Repr

/-- URL::ParseUrl (Util.cpp:1418-1489), `none` if the URL is not valid. `auth` is the text from `hostStart` to `slash` or to the
end, `slash` what follows; `hp` and `full` are the same after the user was passed over (1462). -/
def parse (a : Bytes) : Option Url :=
  match cutAt (lit "://") a with
  | none => none
  | some (proto, rest) =>
    let auth := rest.takeWhile (· ≠ 47)
    let slash := rest.dropWhile (· ≠ 47)
    let at? := auth.contains 64
    let up := auth.takeWhile (· ≠ 64)
    let user := up.takeWhile (· ≠ 58)
    let pass := (up.dropWhile (· ≠ 58)).drop 1
    let hp := if at? then (auth.dropWhile (· ≠ 64)).drop 1 else auth
    let full := hp ++ slash
    let c := (full.takeWhile (· ≠ 58)).length
    let colon := if slash = [] then decide (c < hp.length) else decide (c + 1 < hp.length)
    some { protocol := setLen a proto.length
           user := if at? && user != [] then some user else none
           password := if at? && pass != [] then some pass else none
           host := setLen full (if colon then c else hp.length)
           port := if colon then intOf (full.drop (c + 1)) else 0
           resource := if slash = [] then lit "/" else slash }

/-- WebDownloader::CreateConnection (WebDownloader.cpp:206-243): host, port and whether TLS is used; `none` if the address is
refused (adFatalError). -/
def target (a : Bytes) : Option (Bytes × Int × Bool) :=
  match parse a with
  | none => none
  | some u =>
    let http := Rpc.eqNoCase u.protocol (lit "http")
    let https := Rpc.eqNoCase u.protocol (lit "https")
    let port := if u.port = 0 ∧ http then 80 else u.port
    let port := if port = 0 ∧ https then 443 else port
    if !http && !https then none else some (u.host, port, https)

/-- `BString<1024>(format, …)`. -/
def b1024 (s : Bytes) : Bytes := s.take 1023

/-- WebDownloader::SendHeaders (WebDownloader.cpp:245-267). -/
def request (version : Bytes) (u : Url) : Bytes :=
  b1024 (lit "GET " ++ u.resource ++ lit " HTTP/1.0\r\n") ++
  b1024 (lit "User-Agent: nzbget/" ++ version ++ lit "\r\n") ++
  (if (Rpc.eqNoCase u.protocol (lit "http") ∧ (u.port = 80 ∨ u.port = 0)) ∨ (Rpc.eqNoCase u.protocol (lit "https") ∧ (u.port = 443 ∨ u.port = 0)) then
    b1024 (lit "Host: " ++ u.host ++ lit "\r\n")
   else b1024 (lit "Host: " ++ u.host ++ lit ":" ++ decInt u.port ++ lit "\r\n")) ++
  lit "Accept: */*\r\n" ++ lit "Accept-Encoding: gzip\r\n" ++ lit "Connection: close\r\n" ++ lit "\r\n"

/-- The bytes removed from the end of a file name (WebDownloader.cpp:512). -/
def tailByte (b : UInt8) : Bool := b == 32 || b == 10 || b == 13 || b == 59

/-- The loop WebDownloader.cpp:511-515 for a text which is not empty: the first byte is kept. -/
def trimTail (s : Bytes) : Bytes := s.take 1 ++ ((s.drop 1).reverse.dropWhile tailByte).reverse

/-- WebDownloader::ParseFilename (WebDownloader.cpp:487-522): outer `none` if no name is set, inner `none` if the byte before the
text is read (undefined behaviour), which happens for an empty name. -/
def parseFilename (line : Bytes) : Option (Option Bytes) :=
  match after (lit "filename") line with
  | none => none
  | some t =>
    if !t.contains 61 then none
    else
      let p := ((t.dropWhile (· ≠ 61)).drop 1).dropWhile (· = 32)
      let f := p.take 1023
      if f = [] then some none else some (some (FileName.baseName (UrlText.httpUnquote (trimTail f))))

/-- What `strrchr(resource, '/')` leaves (WebDownloader.cpp:552-556): the text up to the last slash. -/
def dirOf (s : Bytes) : Bytes := if s.contains 47 then (s.reverse.dropWhile (· ≠ 47)).reverse else s

/-- WebDownloader::ParseRedirect (WebDownloader.cpp:524-573): the new address. The address of a download has a protocol, see
`target`; for others, which are never fetched, `location` itself is given here. -/
def redirect (url location : Bytes) : Bytes :=
  match parse location with
  | some _ => UrlText.urlEncode location
  | none =>
    match parse url with
    | none => UrlText.urlEncode location
    | some o =>
      let res :=
        if location.head? = some 47 then b1024 location
        else b1024 (dirOf ((b1024 o.resource).takeWhile (· ≠ 63)) ++ location)
      UrlText.urlEncode (b1024 (
        if 0 < o.port then o.protocol ++ lit "://" ++ o.host ++ lit ":" ++ decInt o.port ++ res
        else o.protocol ++ lit "://" ++ o.host ++ res))

end Verif.WebUrl
