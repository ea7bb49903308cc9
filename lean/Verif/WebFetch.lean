import Verif.WebUrl
/-
Model of the fetching of a URL, /repo/daemon/connect/WebDownloader.cpp: Run (52-134), Download (136-185), DownloadWithRedirects
(187-204), DownloadHeaders (269-329), DownloadBody (331-413), CheckResponse (415-463), ProcessHeader (465-485), Write (575-615).

The network, zlib and the disk are parameters: for each request a `Reply`. What is simplified: the waits and messages are left
out; a stop in the middle of a request is known only by its effect at the end of the request (171-174); a stop or pause between
requests is a parameter. Undefined behaviour (an uninitialised buffer which is read, `int` overflow) is the status `undefined`.
-/
namespace Verif.WebFetch
open CStr OptStore WebUrl

/-- EStatus (WebDownloader.h:34-45), as far as a request ends with it. -/
inductive Status where
  | running | finished | failed | retry | notFound | redirect | connectError | fatalError | undefined
  deriving DecidableEq, Repr

/-- What zlib says after a piece of the compressed data: all it has given until now, and its state. -/
inductive Gz where
  | more (out : Bytes)
  | done (out : Bytes)
  | error
  deriving DecidableEq, Repr

/-- How the world answers to one request. -/
structure Reply where
  /-- The connection was established (WebDownloader.cpp:152-157). -/
  connects : Bool
  /-- One of the lines of the request could not be sent: the connection is broken afterwards (Connection.cpp:359-363). -/
  sendFails : Bool
  /-- All the bytes which are received. -/
  stream : Bytes
  /-- The sizes less one of the pieces in which the body arrives; what is left after them is one more piece. -/
  sizes : List Nat
  /-- Behind the last byte the connection is closed properly; otherwise there is an error or a timeout. -/
  closed : Bool
  /-- What zlib makes of the pieces received until now. -/
  unzip : List Bytes → Gz
  /-- Writing of the piece with this number to the disk succeeds. -/
  canWrite : Nat → Bool
  /-- The download was stopped before the end of the request. -/
  stopped : Bool

/-- Connection::ReadLine (Connection.cpp:392-471) with a buffer of 10240 bytes: the line and what follows; nothing can be read
if the line is empty. -/
def readLine (s : Bytes) : Bytes × Bytes :=
  let n := min ((s.takeWhile (· ≠ 10)).length + 1) 10239
  (s.take n, s.drop n)

/-- `!strncasecmp(s, p, strlen(p))`: what follows. -/
def cutNoCase (p s : Bytes) : Option Bytes := if Rpc.eqNoCase (s.take p.length) p then some (s.drop p.length) else none

/-- What is known after some of the headers. -/
structure Head where
  url : Bytes
  len : Int := -1
  confirmed : Bool := false
  gzip : Bool := false
  redirecting : Bool := false
  redirected : Bool := false
  name : Option Bytes := none
  undef : Bool := false
  deriving DecidableEq, Repr

/-- WebDownloader::CheckResponse (WebDownloader.cpp:415-463) for a text: the status, and whether it is a redirection. -/
def checkResponse (line : Bytes) : Status × Bool :=
  if !startsWith (lit "HTTP") line || !line.contains 32 then (.failed, false)
  else
    let c := (line.dropWhile (· ≠ 32)).drop 1
    if startsWith (lit "400") c || startsWith (lit "499") c then (.connectError, false)
    else if startsWith (lit "404") c then (.notFound, false)
    else if startsWith (lit "301") c || startsWith (lit "302") c || startsWith (lit "303") c || startsWith (lit "307") c ||
        startsWith (lit "308") c then (.running, true)
    else if startsWith (lit "200") c then (.running, false)
    else (.failed, false)

/-- WebDownloader::ProcessHeader (WebDownloader.cpp:465-485). -/
def processHeader (h : Head) (line : Bytes) : Head :=
  match cutNoCase (lit "Content-Length: ") line with
  | some v => { h with len := intOf v, confirmed := true }
  | none =>
  match cutNoCase (lit "Content-Encoding: gzip") line with
  | some _ => { h with gzip := true }
  | none =>
  match cutNoCase (lit "Content-Disposition: ") line with
  | some _ =>
    match parseFilename line with
    | none => h
    | some none => { h with undef := true }
    | some (some n) => { h with name := some n }
  | none =>
    if h.redirecting then
      match cutNoCase (lit "Location: ") line with
      | some v => { h with url := redirect h.url v, redirected := true }
      | none => h
    else h

/-- The loop of DownloadHeaders (WebDownloader.cpp:282-326) after the first line was checked, beginning
with this line. The first argument bounds the number of turns. -/
def headerLoop : Nat → Head → Bytes → Status × Head × Bytes
  | 0, h, s => (.failed, h, s)
  | f + 1, h, s =>
    let l := readLine s
    if l.1 = [] then (.failed, h, l.2)
    else if l.1.head? = some 13 ∨ l.1.head? = some 10 then (.running, h, l.2)
    else
      let h := processHeader h (FeedFilter.trimRight (cstr l.1))
      if h.redirected then (.redirect, h, l.2) else headerLoop f h l.2

/-- WebDownloader::DownloadHeaders (WebDownloader.cpp:269-329). The name given by an earlier reply is kept (`name`). The check of
the first line comes before the test whether there is a line: the buffer holds an empty text if the connection was closed. -/
def headers (url : Bytes) (name : Option Bytes) (s : Bytes) : Status × Head × Bytes :=
  let c := checkResponse (cstr (readLine s).1)
  let h : Head := { url := url, name := name, redirecting := c.2 }
  if c.1 ≠ .running then (c.1, h, s) else headerLoop (s.length + 1) h s

/-- The pieces in which the body arrives. -/
def chunks : List Nat → Bytes → List Bytes
  | _, [] => []
  | [], s => [s]
  | n :: ns, b :: s => (b :: s).take (n + 1) :: chunks ns ((b :: s).drop (n + 1))

/-- Whether zlib has seen the end of the compressed data (WebDownloader.cpp:603-607). -/
def Gz.isDone : Gz → Bool
  | .done _ => true
  | _ => false

def Gz.out : Gz → Bytes
  | .more b => b
  | .done b => b
  | .error => []

/-- The loop of DownloadBody (WebDownloader.cpp:349-394) with Write (575-615): the status and the pieces written. `got` are the
pieces written before. `writtenLen` is an `int`. -/
def body (r : Reply) (len : Int) (gzip : Bool) : Bool → (got todo : List Bytes) → (written : Nat) → Status × List Bytes
  | _, got, [], written => (if r.closed ∧ len = -1 ∧ 0 < written then .finished else .failed, got)
  | conf, got, c :: cs, written =>
    if !r.canWrite got.length then (.fatalError, got)
    else if gzip ∧ r.unzip (got ++ [c]) = .error then (.fatalError, got)
    else if 2 ^ 31 ≤ written + c.length then (.undefined, got)
    else
      let conf := conf || (gzip && (r.unzip (got ++ [c])).isDone)
      if ((written + c.length : Nat) : Int) = len ∨ (len = -1 ∧ gzip ∧ conf) then (.finished, got ++ [c])
      else body r len gzip conf (got ++ [c]) cs (written + c.length)

/-- What is left of a request: its status, the address for the next one, the content of the output file if there is one, and
the name of the file. -/
structure Result where
  status : Status
  url : Bytes
  file : Option Bytes
  name : Option Bytes
  deriving DecidableEq, Repr

/-- WebDownloader::Download (WebDownloader.cpp:136-185). `file` and `name` are what earlier requests have left. If the request could
not be sent, the first line is looked for in a buffer which was never written (Connection.cpp:394-397). -/
def download (url : Bytes) (file name : Option Bytes) (r : Reply) : Result :=
  if (target url).isNone then ⟨.fatalError, url, file, name⟩
  else if !r.connects then ⟨.connectError, url, file, name⟩
  else if r.sendFails then ⟨.undefined, url, file, name⟩
  else
    let h := headers url name r.stream
    if h.2.1.undef then ⟨.undefined, url, file, name⟩
    else if h.1 ≠ .running then ⟨if r.stopped then .failed else h.1, h.2.1.url, none, h.2.1.name⟩
    else
      let b := body r h.2.1.len h.2.1.gzip h.2.1.confirmed [] (chunks r.sizes h.2.2) 0
      let st := if r.stopped then .failed else b.1
      ⟨st, h.2.1.url, if st = .finished then some (if h.2.1.gzip then (r.unzip b.2).out else b.2.flatten) else none, h.2.1.name⟩

/-- WebDownloader::DownloadWithRedirects (WebDownloader.cpp:187-204) with `k` more requests allowed; `n` is the number of requests
made before, which tells what the network answers. The number of requests made is returned, too. -/
def follow (net : Nat → Reply) : (k n : Nat) → (url : Bytes) → (file name : Option Bytes) → Result × Nat
  | 0, n, url, file, name => (⟨.failed, url, file, name⟩, n)
  | k + 1, n, url, file, name =>
    let r := download url file name (net n)
    if r.status = .redirect then follow net k (n + 1) r.url r.file r.name else (r, n + 1)

/-- When the download is stopped: before the turn with this number, or after it; the second includes a pause (WebDownloader.cpp:68,
88). -/
structure Stops where
  before : Nat → Bool
  after : Nat → Bool

/-- The status after the loop (WebDownloader.cpp:109-112). -/
def final (s : Status) : Status :=
  if s = .undefined then .undefined else if s ≠ .finished ∧ s ≠ .retry then .failed else s

/-- The loop of WebDownloader::Run (WebDownloader.cpp:68-107) with `dl` and `cn` retries left, in turn `i`; `last` is what was the
result before. The result also tells the number of requests made. The first argument bounds the number of turns. -/
def attempts (net : Nat → Reply) (stops : Stops) : (fuel i n dl cn : Nat) → Result → Result × Nat
  | 0, _, n, _, _, last => (last, n)
  | f + 1, i, n, dl, cn, last =>
    if stops.before i ∨ dl = 0 ∨ cn = 0 then (last, n)
    else
      let r := follow net 6 n last.url last.file last.name
      if r.1.status = .undefined then r
      else if stops.after i then ({ r.1 with status := .retry }, r.2)
      else if r.1.status = .finished ∨ r.1.status = .fatalError ∨ r.1.status = .notFound then r
      else if r.1.status = .connectError then attempts net stops f (i + 1) r.2 dl (cn - 1) r.1
      else attempts net stops f (i + 1) r.2 (dl - 1) cn r.1

/-- The numbers of retries (WebDownloader.cpp:58-64). -/
def retries (urlRetries : Int) (retry : Bool) : Nat × Nat :=
  let d := if 0 < urlRetries then urlRetries.toNat else 1
  if retry then (d, if 10 < d then d else 10) else (1, 1)

/-- WebDownloader::SetUrl and Run (WebDownloader.cpp:36-39, 52-134): the result and the number of requests. -/
def run (net : Nat → Reply) (stops : Stops) (urlRetries : Int) (retry : Bool) (url : Bytes) : Result × Nat :=
  let k := retries urlRetries retry
  let r := attempts net stops (k.1 + k.2) 0 0 k.1 k.2 ⟨.failed, UrlText.urlEncode url, none, none⟩
  ({ r.1 with status := final r.1.status }, r.2)

end Verif.WebFetch
