import Verif.CStr
/-
Model of the log: /repo/daemon/util/Log.cpp error, warn, info, detail (184-274), Clear (277-281), AddMessage (283-294), Filelog (56-114,
only what is written), InitOptions (369-424); /repo/daemon/remote/XmlRpc.cpp LogXmlCommand::Execute (1384-1451, which messages are sent);
/repo/daemon/remote/BinRpc.cpp LogBinCommand::Execute (708-787, which messages are sent and the size of the buffer).

What is simplified: texts have no byte 0; the log file is not rotated (its deletions are messages of their own); writing to it succeeds;
ids and the number of messages fit into `int`.
-/
namespace Verif.MsgLog
open CStr

inductive Kind where
  | info | warning | error | debug | detail
deriving DecidableEq, Repr

inductive Target where
  | none | screen | log | both
deriving DecidableEq, Repr

/-- A message (Log.h:45-62). -/
structure Msg where
  id : Nat
  kind : Kind
  time : Int
  text : Bytes
deriving DecidableEq, Repr

/-- The options: LogBuffer (as `uint32`), the targets, whether a log file is written. -/
structure Cfg where
  buffer : Nat
  target : Kind → Target
  writeLog : Bool

/-- The log: the messages in memory, the last id, the lines written to the file, the options (`g_Options`), whether InitOptions was
called (`m_optInit`) and whether the log file has a name. -/
structure Log where
  msgs : List Msg := []
  gen : Nat := 0
  file : List (Kind × Bytes) := []
  opts : Option Cfg := none
  ready : Bool := false
  named : Bool := false

def toScreen (t : Target) : Bool := t == .screen || t == .both
def toFile (t : Target) : Bool := t == .log || t == .both

/-- The loop Log.cpp:289-292. -/
def trim (n : Nat) (l : List Msg) : List Msg := l.drop (l.length - n)

/-- Log::AddMessage (Log.cpp:283-294). -/
def addMessage (k : Kind) (time : Int) (text : Bytes) (s : Log) : Log :=
  let msgs := s.msgs ++ [⟨s.gen + 1, k, time, text⟩]
  { s with
    gen := s.gen + 1
    msgs := match s.ready, s.opts with
      | true, some c => trim c.buffer msgs
      | _, _ => msgs }

/-- The line of a message in the log file, after the time (Log.cpp:63-68, 203). -/
def tag : Kind → Bytes
  | .info => lit "INFO"
  | .warning => lit "WARNING"
  | .error => lit "ERROR"
  | .debug => lit "DEBUG"
  | .detail => lit "DETAIL"

def line (k : Kind) (text : Bytes) : Bytes := (tag k ++ [9] ++ text).take 1023

/-- Log::Filelog (Log.cpp:56-114). -/
def filelog (k : Kind) (text : Bytes) (s : Log) : Log := if s.named then { s with file := s.file ++ [(k, line k text)] } else s

/-- The target of a message (Log.cpp:196, 219, 242, 265). -/
def targetOf (s : Log) (k : Kind) : Target :=
  match s.opts with
  | some c => c.target k
  | none => if k = .error then .both else .screen

/-- error, warn, info, detail (Log.cpp:184-274). -/
def write (k : Kind) (time : Int) (text : Bytes) (s : Log) : Log :=
  let t := text.take 1023
  let s1 := if toScreen (targetOf s k) then addMessage k time t s else s
  if toFile (targetOf s k) then filelog k t s1 else s1

/-- The loop of Log::InitOptions (Log.cpp:382-421): the messages which stay and the lines which are written. -/
def initLoop (c : Cfg) : List Msg → (gen : Nat) → List Msg × List (Kind × Bytes)
  | [], _ => ([], [])
  | m :: ms, gen =>
    let t := c.target m.kind
    if toScreen t then
      let r := initLoop c ms (gen + 1)
      ({ m with id := gen + 1 } :: r.1, if toFile t then (m.kind, line m.kind m.text) :: r.2 else r.2)
    else
      let r := initLoop c ms gen
      (r.1, if toFile t then (m.kind, line m.kind m.text) :: r.2 else r.2)

/-- Log::InitOptions (Log.cpp:369-424). -/
def init (c : Cfg) (s : Log) : Log :=
  let r := initLoop c s.msgs 0
  { msgs := r.1, gen := r.1.length, file := if c.writeLog then s.file ++ r.2 else s.file, opts := some c, ready := true, named := c.writeLog }

/-- What happens to the log. `options`: the options are read, or some of them (Options.cpp:293, 797-801). -/
inductive Event where
  | write (k : Kind) (time : Int) (text : Bytes)
  | clear
  | options (c : Cfg)
  | init (c : Cfg)

def step (s : Log) : Event → Log
  | .write k t x => write k t x s
  | .clear => { s with msgs := [] }
  | .options c => { s with opts := some c }
  | .init c => init c s

def run (s : Log) (es : List Event) : Log := es.foldl step s

/-- The start with an id (XmlRpc.cpp:1409-1416). -/
def startFrom (idFrom start : Int) : List Msg → Int
  | [] => start
  | m :: _ => if idFrom > 0 then (if idFrom - m.id < 0 then 0 else idFrom - m.id) else start

/-- LogXmlCommand::Execute (XmlRpc.cpp:1384-1451): the messages which are sent. `none`: error. -/
def query (idFrom nr : Int) (msgs : List Msg) : Option (List Msg) :=
  if nr > 0 ∧ idFrom > 0 then none
  else
    let start : Int := if nr > 0 then (msgs.length : Int) - (if nr > msgs.length then (msgs.length : Int) else nr) else msgs.length
    some (msgs.drop (startFrom idFrom start msgs).toNat)

/-- LogBinCommand::Execute (BinRpc.cpp:720-746): the number of messages which is announced and those which are sent; the numbers of the request
are `int` and `uint32`. -/
def binQuery (lines : Int) (idFrom : Nat) (msgs : List Msg) : Int × List Msg :=
  let nr : Int := if lines > 0 then (if lines > msgs.length then (msgs.length : Int) else lines) else lines
  let start : Int := if lines > 0 then (msgs.length : Int) - nr else msgs.length
  match msgs with
  | [] => (nr, msgs.drop start.toNat)
  | m :: _ =>
    if idFrom > 0 then
      let start : Int := ((idFrom : Int) - m.id).bmod (2 ^ 32)
      let start := if start < 0 then 0 else start
      let nr := (msgs.length : Int) - start
      (if nr < 0 then 0 else nr, msgs.drop start.toNat)
    else (nr, msgs.drop start.toNat)

def align (n : Int) : Int := n + (if n % 4 > 0 then 4 - n % 4 else 0)

/-- The size of the buffer (BinRpc.cpp:748-756). -/
def bufSize (nr : Int) (msgs : List Msg) : Int := msgs.foldl (fun n m => align (n + m.text.length + 1)) (nr * 16)

/-- What is written to it (BinRpc.cpp:760-781): the end of the last entry. -/
def written (msgs : List Msg) : Int := msgs.foldl (fun n m => align (n + 16 + (m.text.length + 1))) 0

end Verif.MsgLog
