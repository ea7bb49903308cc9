import Verif.PpParam
import Verif.MsgLog
import Verif.QueueScript
/-
Model of running scripts: /repo/daemon/util/Script.cpp InitFromCurrentProcess (86-100), PrepareEnvOptions (195-212), SetEnvVarSpecial
(214-235), PrepareArgs (237-260), Execute (304-435: the loop over the output and the exit code), WaitProcess (682-700), ProcessOutput
(795-833), PrintMessage (861-878); /repo/daemon/extension/NzbScript.cpp (32-86); /repo/daemon/extension/PostScript.cpp Run (45-70),
ExecuteScript (72-110), AnalyseExitCode (180-221), AddMessage (223-275); /repo/daemon/queue/DownloadInfo.cpp CalcTotalStatus (82-97).
POSIX: SameFilename is strcmp.

What is simplified: texts of names and settings have no byte 0; the script is not terminated by the user and the process could be started or
not (`End`); a hanging child process (ChildWatchDog) is restarted by the program and only its last start is seen; the label of the progress and
waiting while post-processing is paused (PostScript.cpp:276-301) are left out; the messages of an entry are kept without ids and times.
-/
namespace Verif.ScriptRun
open CStr
open MsgLog (Kind)
open PpParam (Params cut)

/-! ### The output of a script -/

/-- `fgets(buf, 10 * 1024, stream)` until the end (Script.cpp:361-387, 790-793): a piece ends with an end of line or when the buffer is full.
`left` is the room which is left, `acc` the piece so far. -/
def pieces : (left : Nat) → (acc : Bytes) → Bytes → List Bytes
  | _, acc, [] => if acc = [] then [] else [acc]
  | left, acc, b :: l => if b = 10 ∨ left ≤ 1 then (acc ++ [b]) :: pieces 10239 [] l else pieces (left - 1) (acc ++ [b]) l

/-- What is read from the process: the child writes an end of line before the script is started (Script.cpp:635-638), which is not processed
(Script.cpp:370-378). -/
def received (out : Bytes) : List Bytes := (pieces 10239 [] (10 :: out)).drop 1

def isEnd (b : UInt8) : Bool := b == 10 || b == 13 || b == 32

/-- The loop of Script.cpp:799. -/
def trimEnd (s : Bytes) : Bytes := (s.reverse.dropWhile isEnd).reverse

/-- ScriptController::ProcessOutput (Script.cpp:795-833): the message, `none` for an empty line. -/
def processOutput (piece : Bytes) : Option (Kind × Bytes) :=
  let t := trimEnd (cstr piece)
  if t = [] then none
  else
    some <| match cut (lit "[INFO] ") t with
    | some m => (.info, m)
    | none =>
    match cut (lit "[WARNING] ") t with
    | some m => (.warning, m)
    | none =>
    match cut (lit "[ERROR] ") t with
    | some m => (.error, m)
    | none =>
    match cut (lit "[DETAIL] ") t with
    | some m => (.detail, m)
    | none =>
    match cut (lit "[DEBUG] ") t with
    | some m => (.debug, m)
    | none => (.info, t)

/-- ScriptController::PrintMessage (Script.cpp:861-878): the text which is passed to AddMessage. -/
def printMessage (logPrefix : Option Bytes) (text : Bytes) : Bytes :=
  match logPrefix with
  | some d => (d ++ lit ": " ++ text.take 1023).take 1023
  | none => text.take 1023

/-! ### Commands of post-processing scripts -/

/-- What a post-processing script can change of an entry, and the messages of the entry. -/
structure Item where
  name : Bytes
  finalDir : Bytes
  destDir : Bytes
  params : Params
  bad : Bool
  log : List (Kind × Bytes)
deriving DecidableEq, Repr

/-- NzbInfo::AddMessage (DownloadInfo.cpp:349-393), the list only. -/
def Item.say (i : Item) (k : Kind) (t : Bytes) : Item := { i with log := i.log ++ [(k, t)] }

/-- `wild`: the text is read behind its end. `endless`: the calls are nested deeper than the stack allows. -/
inductive Res (α : Type) where
  | done (a : α)
  | wild
  | endless
deriving DecidableEq, Repr

def Res.bind {α β : Type} (r : Res α) (f : α → Res β) : Res β :=
  match r with
  | .done a => f a
  | .wild => .wild
  | .endless => .endless

/-- The text of PostScript.cpp:252-253 and 265-266. -/
def invalid (infoName msg : Bytes) : Bytes := (lit "Invalid command \"" ++ msg ++ lit "\" received from " ++ infoName).take 1023

/-- The text of PostScript.cpp:259. -/
def marking (name : Bytes) : Bytes := lit "Marking " ++ name ++ lit " as bad"

/-- PostScriptController::AddMessage (PostScript.cpp:223-275). `n` is `m_prefixLen`; `depth` is the number of nested calls for which there is
room on the stack: marking as bad calls PrintMessage, which calls AddMessage. -/
def addMessage (n : Nat) (infoName : Bytes) : (depth : Nat) → Kind → Bytes → Item → Res Item
  | 0, _, _, _ => .endless
  | depth + 1, kind, text, i =>
    if text.length < n then .wild
    else
      let msg := text.drop n
      match cut (lit "[NZB] ") msg with
      | none => .done (i.say kind text)
      | some t =>
        match cut (lit "FINALDIR=") t with
        | some v => .done { i with finalDir := v }
        | none =>
        match cut (lit "DIRECTORY=") t with
        | some v => .done { i with destDir := v }
        | none =>
        match cut (lit "NZBPR_") t with
        | some p =>
          if p.contains 61 then .done { i with params := PpParam.set i.params (p.takeWhile (· ≠ 61)) ((p.dropWhile (· ≠ 61)).drop 1) }
          else .done (i.say .error (invalid infoName msg))
        | none =>
        match cut (lit "MARK=BAD") t with
        | some _ => (addMessage n infoName depth .warning (printMessage none (marking i.name)) i).bind (fun i => .done { i with bad := true })
        | none => .done (i.say .error (invalid infoName msg))

/-- A script: its name, the name for the log and whether it is a post-processing script (ScriptConfig.h:30-70). -/
structure Script where
  name : Bytes
  display : Bytes
  post : Bool
deriving DecidableEq, Repr

/-- `m_prefixLen` while the script runs (PostScript.cpp:96). -/
def Script.prefixLen (s : Script) : Nat := s.display.length + 2

/-- `m_infoName` (PostScript.cpp:91-92). -/
def Script.info (s : Script) (name : Bytes) : Bytes := (lit "post-process-script " ++ s.name ++ lit " for " ++ name).take 1023

/-- One piece of the output (Script.cpp:383). -/
def onPiece (s : Script) (info : Bytes) (depth : Nat) (i : Item) (piece : Bytes) : Res Item :=
  match processOutput piece with
  | none => .done i
  | some (k, t) => addMessage s.prefixLen info depth k (printMessage (some s.display) t) i

/-- The loop over the output (Script.cpp:361-387). -/
def onPieces (s : Script) (info : Bytes) (depth : Nat) : List Bytes → Item → Res Item
  | [], i => .done i
  | p :: ps, i => (onPiece s info depth i p).bind (onPieces s info depth ps)

/-- The whole output of the script. -/
def onOutput (s : Script) (info : Bytes) (depth : Nat) (out : Bytes) (i : Item) : Res Item := onPieces s info depth (received out) i

/-! ### The end of a script -/

/-- How the process ended: there was no process, it has ended with a code (0 to 255), or it was ended by a signal. -/
inductive End where
  | notStarted
  | exited (code : Nat)
  | killed
deriving DecidableEq, Repr

/-- What Execute returns (Script.cpp:326-331, 379-382, 413-423, 682-700): a process which could not execute the script says so and ends
with 254. -/
def exitCode (e : End) (out : Bytes) : Int :=
  match e with
  | .notStarted => -1
  | .killed => 0
  | .exited c => if c = 254 ∧ ((received out).head?.any (fun p => startsWith (lit "[ERROR] Could not start ") p)) = true then -1 else c

inductive Status where
  | none | failure | success
deriving DecidableEq, Repr

/-- PostScriptController::AnalyseExitCode (PostScript.cpp:180-221): the status, whether a par-check is requested, and the message. `checked`:
the par-status is above psSkipped. -/
def analyse (checked : Bool) (code : Int) : Status × Bool × Kind × Bytes :=
  if code = 93 then (.success, false, .info, lit " successful")
  else if code = 94 ∨ code = -1 then (.failure, false, .error, lit " failed")
  else if code = 95 then (.none, false, .info, lit " skipped")
  else if code = 92 then
    if checked then (.failure, false, .error, lit " requested par-check/repair, but the collection was already checked")
    else (.success, true, .info, lit " requested par-check/repair")
  else (.failure, false, .error, lit " failed (terminated with unknown status)")

/-- The post-processing job in the stage of scripts. `requested`: the flags RequestParCheck and ForceRepair; `prefixLen` is `m_prefixLen`. -/
structure Post where
  item : Item
  checked : Bool
  requested : Bool
  statuses : List (Bytes × Status)
  prefixLen : Nat
deriving DecidableEq, Repr

/-- What a script does when it is executed. -/
structure Run where
  out : Bytes
  ends : End

/-- PostScriptController::ExecuteScript (PostScript.cpp:72-110). The name of the script in a complaint about the first message, which would be the one of
the script before, is left out. -/
def execScript (depth : Nat) (s : Script) (r : Run) (p : Post) : Res Post :=
  if s.post = false ∨ p.requested = true then .done p
  else
    (addMessage p.prefixLen [] depth .info (printMessage none (lit "Executing post-process-script " ++ s.name ++ lit " for " ++ p.item.name)) p.item).bind fun i =>
    (onOutput s (s.info i.name) depth r.out i).bind fun j =>
    let a := analyse p.checked (exitCode r.ends r.out)
    (addMessage s.prefixLen (s.info i.name) depth a.2.2.1 (printMessage none (lit "P" ++ (s.info i.name).drop 1 ++ a.2.2.2)) j).bind fun k =>
    .done { p with item := k, requested := a.2.1, statuses := p.statuses ++ [(s.name, a.1)], prefixLen := s.prefixLen }

/-- The list of scripts of an entry (PostScript.cpp:49-63). -/
def wanted (ps : Params) : Bytes :=
  ps.flatMap (fun p => if p.1 ≠ [] ∧ p.1.head? ≠ some 42 ∧ p.1.getLast? = some 58 ∧ QueueScript.isOn p.2 = true then p.1.dropLast ++ [44] else [])

/-- NzbScriptController::ExecuteScriptList (NzbScript.cpp:68-86); with each script what it does when it is executed. -/
def execList (depth : Nat) (list : Bytes) : List (Script × Run) → Post → Res Post
  | [], p => .done p
  | (s, r) :: ss, p =>
    (if (PpParam.names list).contains s.name then execScript depth s r p else .done p).bind (execList depth list ss)

/-- PostScriptController::Run (PostScript.cpp:45-70); `m_prefixLen` is 0 at the start (PostScript.cpp:38). -/
def runAll (depth : Nat) (scripts : List (Script × Run)) (i : Item) (checked : Bool) : Res Post :=
  execList depth (wanted i.params) scripts ⟨i, checked, false, [], 0⟩

/-- ScriptStatusList::CalcTotalStatus (DownloadInfo.cpp:82-97). -/
def total (l : List Status) : Status :=
  l.foldl (fun st x => if (x = .success ∧ st = .none) ∨ x = .failure then x else st) .none

/-! ### The environment of a script -/

/-- The characters of Script.cpp:226. -/
def special (b : UInt8) : Bool := (lit ".:*!\"$%&/()=`+~#'{}[]@- ").contains b

/-- `toupper` in the C locale. -/
def upper (b : UInt8) : UInt8 := if 97 ≤ b.toNat ∧ b.toNat ≤ 122 then b - 32 else b

def norm (b : UInt8) : UInt8 := upper (if special b then 95 else b)

/-- ScriptController::SetEnvVar (Script.cpp:179-182). -/
def var (name value : Bytes) : Bytes := name ++ lit "=" ++ value

/-- ScriptController::SetEnvVarSpecial (Script.cpp:214-235). -/
def setSpecial (pre name value : Bytes) : List Bytes :=
  let v := (pre ++ lit "_" ++ name).take 1023
  let w := v.map norm
  var v value :: if v ≠ w then [var w value] else []

/-- EnvironmentStrings::InitFromCurrentProcess (Script.cpp:86-100). -/
def inherited (env : List Bytes) : List Bytes :=
  env.filter (fun v => !(startsWith (lit "NZB") v && decide (5 < v.length) && v[5]? == some 95))

/-- The settings with a name behind the prefix, without the prefix (NzbScript.cpp:40-43, Script.cpp:202-206). -/
def stripped (pre : Bytes) (l : List (Bytes × Bytes)) : List (Bytes × Bytes) :=
  l.filterMap (fun p => if startsWith pre p.1 = true ∧ pre.length < p.1.length then some (p.1.drop pre.length, p.2) else none)

def vars (pre : Bytes) (l : List (Bytes × Bytes)) : List Bytes := l.flatMap (fun p => setSpecial pre p.1 p.2)

/-- The environment: ResetEnv, the variables of the kind of script (`own`), PrepareEnvScript (NzbScript.cpp:51-66) and PrepareEnvOptions(nullptr)
(Script.cpp:306). -/
def environment (parent own : List Bytes) (params opts : List (Bytes × Bytes)) (script : Bytes) : List Bytes :=
  inherited parent ++ own ++ vars (lit "NZBPR") params ++ vars (lit "NZBPR") (stripped (PpParam.paramName script) params) ++
    vars (lit "NZBPO") (stripped (PpParam.paramName script) opts) ++ vars (lit "NZBOP") opts

/-! ### Arguments -/

/-- `strrchr(path, '.')`. -/
def extension (path : Bytes) : Option Bytes := if path.contains 46 then some (46 :: (path.reverse.takeWhile (· ≠ 46)).reverse) else none

/-- The loop of Script.cpp:243-259: `none` when a null pointer is passed to strcasecmp. -/
def overrideLoop (path : Bytes) : List Bytes → Option (List Bytes)
  | [] => some [path]
  | t :: ts =>
    if t.contains 61 then
      match extension path with
      | none => none
      | some e => if Rpc.eqNoCase e (t.takeWhile (· ≠ 61)) then some [(t.dropWhile (· ≠ 61)).drop 1, path] else overrideLoop path ts
    else overrideLoop path ts

/-- ScriptController::PrepareArgs (Script.cpp:237-260). -/
def prepareArgs (shellOverride : Bytes) (args : List Bytes) : Option (List Bytes) :=
  match args with
  | [path] => if shellOverride = [] then some args else overrideLoop path (PpParam.names shellOverride)
  | _ => some args

end Verif.ScriptRun
