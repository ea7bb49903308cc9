import Verif.CStr
/-!
Model of the dialogue with a news server: daemon/nntp/NntpConnection.cpp (39-234) and the part of `ArticleDownloader::Download` (ArticleDownloader.cpp:292-335) and
`CheckResponse` (414-446) before the body of the article. The server and the network are arbitrary: `env` says what happens each time an answer is awaited.
Sending a line and reading the answer are one step; how a line is read from the socket is the model of C02 (Conn.lean). Messages to the user are left out.
-/
namespace Verif.Nntp
open CStr

/-- Connection::EStatus (Connection.h:39-46) without `csListening`, which is for servers. -/
inductive Status where
  | disconnected | connected | broken | cancelled
deriving DecidableEq, Repr

/-- What happens when an answer is awaited: a line comes; the server has closed the connection (`recv` gives 0; Connection.cpp:415-418 leaves the status); sending or
receiving fails (360-363, 409-414); another thread has cancelled the connection (Connection.cpp:899-918). -/
inductive Reply where
  | answer (a : Bytes) | closed | broken | cancelled
deriving DecidableEq, Repr

/-- What was said on the current connection. -/
inductive Ev where
  | greeting (a : Option Bytes)
  | line (l : Bytes) (a : Option Bytes)
deriving DecidableEq, Repr

/-- The user name and the password of the server. -/
structure Cfg where
  user : Bytes
  pass : Bytes
deriving DecidableEq, Repr

/-- A connection: `group` is `m_activeGroup`, `log` what was said since the connection was opened (it is not in the program). -/
structure St where
  status : Status
  group : Bytes
  authError : Bool
  log : List Ev
  env : List Reply
deriving DecidableEq, Repr

/-- ReadLine (Connection.cpp:392-472), after WriteLine (350-366) if something is said: both do nothing if the connection is not established. `mk` makes the entry of the log. -/
def await (mk : Option Bytes → Ev) (st : St) : Option Bytes × St :=
  if st.status ≠ .connected then (none, st)
  else
    match st.env with
    | [] => (none, { st with log := st.log ++ [mk none] })
    | .answer a :: e => (some a, { st with log := st.log ++ [mk (some a)], env := e })
    | .closed :: e => (none, { st with log := st.log ++ [mk none], env := e })
    | .broken :: e => (none, { st with status := .broken, log := st.log ++ [mk none], env := e })
    | .cancelled :: e => (none, { st with status := .cancelled, log := st.log ++ [mk none], env := e })

def say (l : Bytes) (st : St) : Option Bytes × St := await (.line l) st

def crlf : Bytes := [13, 10]

/-- `BString<1024>` keeps 1023 bytes. -/
def bstr (b : Bytes) : Bytes := b.take 1023

/-- The lines of NntpConnection.cpp:95 and 134. -/
def userLine (cfg : Cfg) : Bytes := bstr (lit "AUTHINFO USER " ++ cfg.user ++ crlf)
def passLine (cfg : Cfg) : Bytes := bstr (lit "AUTHINFO PASS " ++ cfg.pass ++ crlf)

/-- AuthInfoUser (NntpConnection.cpp:88-125; `pass = false`) and AuthInfoPass (127-159; `pass = true`). The first argument is 11 minus `recur`. -/
def auth (cfg : Cfg) : Nat → (pass : Bool) → St → Bool × St
  | 0, _, st => (false, st)
  | n + 1, false, st =>
    match say (userLine cfg) st with
    | (none, st) => (false, st)
    | (some a, st) =>
      if startsWith (lit "281") a then (true, st)
      else if startsWith (lit "381") a then auth cfg n true st
      else if startsWith (lit "480") a then auth cfg n false st
      else (false, st)
  | n + 1, true, st =>
    match say (passLine cfg) st with
    | (none, st) => (false, st)
    | (some a, st) =>
      if startsWith (lit "2") a then (true, st)
      else if startsWith (lit "381") a then auth cfg n true st
      else (false, st)

/-- Authenticate (NntpConnection.cpp:74-86). -/
def authenticate (cfg : Cfg) (st : St) : Bool × St :=
  if cfg.user = [] ∨ cfg.pass = [] then (false, { st with authError := true })
  else
    let r := auth cfg 11 false st
    (r.1, { r.2 with authError := !r.1 })

/-- Request (NntpConnection.cpp:39-72). -/
def request (cfg : Cfg) (req : Bytes) (st : St) : Option Bytes × St :=
  match say req { st with authError := false } with
  | (none, st) => (none, st)
  | (some a, st) =>
    if startsWith (lit "480") a then
      match authenticate cfg st with
      | (false, st) => (none, st)
      | (true, st) => say req st
    else (some a, st)

/-- The line of NntpConnection.cpp:170. -/
def groupLine (g : Bytes) : Bytes := bstr (lit "GROUP " ++ g ++ crlf)

/-- JoinGroup (NntpConnection.cpp:161-183). -/
def joinGroup (cfg : Cfg) (g : Bytes) (st : St) : Option Bytes × St :=
  if st.group ≠ [] ∧ st.group = g then (some (lit "211 "), st)
  else
    match request cfg (groupLine g) st with
    | (none, st) => (none, st)
    | (some a, st) => if startsWith (lit "2") a then (some a, { st with group := g }) else (some a, st)

/-- Connection::Disconnect (Connection.cpp:185-201). -/
def shut (st : St) : St := { st with status := .disconnected }

/-- Disconnect (NntpConnection.cpp:226-234). -/
def disconnect (cfg : Cfg) (st : St) : St :=
  if st.status = .connected then
    let r := request cfg (lit "quit" ++ crlf) st
    shut { r.2 with group := [] }
  else shut st

/-- Connect (NntpConnection.cpp:185-224; Connection.cpp:162-183). `opened`: whether the socket could be opened. -/
def connect (cfg : Cfg) (opened : Bool) (st : St) : Bool × St :=
  if st.status = .connected then (true, st)
  else if !opened then (false, shut st)
  else
    match await .greeting { st with status := .connected, log := [] } with
    | (none, st) => (false, disconnect cfg st)
    | (some a, st) =>
      if !startsWith (lit "2") a then (false, disconnect cfg st)
      else if cfg.user ≠ [] ∧ cfg.pass ≠ [] then authenticate cfg st
      else (true, st)

/-- Cancel (Connection.cpp:899-918). -/
def cancel (st : St) : St := if st.status = .disconnected then st else { st with status := .cancelled }

/-- What a download can come to before the article is read (ArticleDownloader.h:46-57). -/
inductive Dl where
  | ok | connectError | notFound | failed
deriving DecidableEq, Repr

/-- CheckResponse (ArticleDownloader.cpp:414-446). -/
def checkResponse (st : St) : Option Bytes → Dl
  | none => .connectError
  | some a =>
    if st.authError || startsWith (lit "400") a || startsWith (lit "499") a then .connectError
    else if startsWith (lit "41") a || startsWith (lit "42") a || startsWith (lit "43") a then .notFound
    else if startsWith (lit "2") a then .ok
    else .failed

/-- The loop over the groups of the file (ArticleDownloader.cpp:307-314). -/
def joinLoop (cfg : Cfg) : List Bytes → Option Bytes → St → Option Bytes × St
  | [], response, st => (response, st)
  | g :: gs, _, st =>
    match joinGroup cfg g st with
    | (some a, st) => if startsWith (lit "2") a then (some a, st) else joinLoop cfg gs (some a) st
    | (none, st) => joinLoop cfg gs none st

/-- The line which asks for an article (ArticleDownloader.cpp:324-325). -/
def articleLine (raw : Bool) (id : Bytes) : Bytes := bstr ((if raw then lit "ARTICLE" else lit "BODY") ++ 32 :: id ++ crlf)

/-- The begin of ArticleDownloader::Download (ArticleDownloader.cpp:304-331): `join` is the option JoinGroup of the server. -/
def fetch (cfg : Cfg) (join : Bool) (groups : List Bytes) (raw : Bool) (id : Bytes) (st : St) : Dl × St :=
  let j := if join then joinLoop cfg groups none st else (none, st)
  if join = true ∧ checkResponse j.2 j.1 ≠ .ok then (checkResponse j.2 j.1, j.2)
  else
    let r := request cfg (articleLine raw id) j.2
    (checkResponse r.2 r.1, r.2)

end Verif.Nntp
