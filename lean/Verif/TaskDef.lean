import Verif.OptValue
import Verif.Tokens
import Verif.CmdLine
/-
Model of the definition of tasks by options, /repo/daemon/main/Options.cpp:1170-1412.

What is simplified: the messages are left out; whether an error was reported is kept. The options are given by a function
from names to value and default (`get`): the case of the names and their renaming are the subject of OptStore, and no
option is read twice in a way which depends on the normalisation of its value.
-/
namespace Verif.TaskDef
open CStr OptStore OptValue

/-- `strchr("0123456789: *", c)` for a byte which is not NUL (Options.cpp:1315). -/
def timeChar (c : UInt8) : Bool := (lit "0123456789: *").contains c

/-- Options::ParseTime (Options.cpp:1303-1361): hours and minutes, `none` if the time is invalid. `m0` is what the variable
for the minutes holds before, `none` if it was never written. -/
def parseTime (m0 : Option Int) (s : Bytes) : Option (Int × Option Int) :=
  if s = lit "*" then some (-1, m0)
  else if !s.all timeChar then none
  else if s.count 58 ≠ 1 then none
  else
    match splitAt 58 s with
    | none => none
    | some (_, rest) =>
      let h := if s.head? = some 42 then -2 else intOf s
      if s.head? ≠ some 42 ∧ (h < 0 ∨ 23 < h) then none
      else if rest.head? = some 42 then none
      else
        let m := intOf rest
        if m < 0 ∨ 59 < m then none else some (h, some m)

/-- The loop Options.cpp:1380-1383: the bits of `n` days from the day `a` on. -/
def rangeBits (a : Nat) : (n bits : Nat) → Nat
  | 0, bits => bits
  | n + 1, bits => rangeBits (a + 1) n (bits ||| 1 <<< (a - 1))

/-- The variables of Options::ParseWeekDays (Options.cpp:1365-1368). -/
structure Days where
  bits : Nat
  first : Nat
  range : Bool
  deriving DecidableEq, Repr

/-- One turn of the loop of Options::ParseWeekDays (Options.cpp:1371-1409), `none` if it returns false. -/
def dayStep (d : Days) (c : UInt8) : Option Days :=
  if 49 ≤ c.toNat ∧ c.toNat ≤ 55 then
    let day := c.toNat - 48
    if d.range then
      if day ≤ d.first ∨ d.first = 0 then none
      else some ⟨rangeBits d.first (day - d.first + 1) d.bits, 0, false⟩
    else some ⟨d.bits ||| 1 <<< (day - 1), day, false⟩
  else if c = 44 then some { d with range := false }
  else if c = 45 then some { d with range := true }
  else if c = 32 then some d
  else none

def dayLoop : Days → Bytes → Option Days
  | d, [] => some d
  | d, c :: s =>
    match dayStep d c with
    | none => none
    | some d' => dayLoop d' s

/-- Options::ParseWeekDays (Options.cpp:1363-1412). -/
def parseWeekDays (s : Bytes) : Option Nat := (dayLoop ⟨0, 0, false⟩ s).map (·.bits)

/-- A call of Extender::AddTask (NZBGet::AddTask, nzbget.cpp:1024-1029). -/
structure NewTask where
  id : Nat
  hours : Int
  minutes : Option Int
  days : Nat
  command : Int
  param : Option Bytes
  deriving DecidableEq, Repr

/-- What a definition leads to: the tasks added, whether an error was reported, and whether a message was made with a null
pointer for a text (undefined behaviour). -/
structure Outcome where
  added : List NewTask
  error : Bool
  nullText : Bool
  deriving DecidableEq, Repr

/-- Options.cpp:1286-1299: the calls for one time. -/
def tasksAt (id : Nat) (h : Int) (m : Option Int) (days : Nat) (cmd : Int) (param : Option Bytes) : List NewTask :=
  if h = -2 then (List.range 24).map (fun (k : Nat) => ⟨id, k, m, days, cmd, param⟩)
  else [⟨id, h, m, days, cmd, param⟩]

/-- The loop over the times (Options.cpp:1277-1300). -/
def timeLoop (id days : Nat) (cmd : Int) (param : Option Bytes) : Option Int → List Bytes → List NewTask × Bool
  | _, [] => ([], false)
  | m0, t :: ts =>
    match parseTime m0 t with
    | none => ([], true)
    | some (h, m) =>
      let r := timeLoop id days cmd param m ts
      (tasksAt id h m days cmd param ++ r.1, r.2)

/-- The separators `;,` of times (Options.cpp:1277). -/
def timeSep (c : UInt8) : Bool := c == 59 || c == 44

/-- Options::CreateSchedulerTask (Options.cpp:1261-1301). -/
def createTask (id : Nat) (time : Bytes) (weekDays : Option Bytes) (cmd : Int) (param : Option Bytes) : List NewTask × Bool :=
  match weekDays with
  | none => timeLoop id 0 cmd param none (Tokens.tokens timeSep time)
  | some w =>
    match parseWeekDays w with
    | none => ([], true)
    | some b => timeLoop id b cmd param none (Tokens.tokens timeSep time)

/-- The commands (Options.cpp:1204-1216) with the numbers of ESchedulerCommand (Options.h:73-87), which are those of
Scheduler::ECommand (Scheduler.h:31-45). -/
def commandTable : Table :=
  ⟨["pausedownload", "pause", "unpausedownload", "resumedownload", "unpause", "resume", "pausepostprocess",
    "unpausepostprocess", "resumepostprocess", "pausepost", "unpausepost", "resumepost", "downloadrate", "setdownloadrate",
    "rate", "speed", "script", "process", "pausescan", "unpausescan", "resumescan", "activateserver", "activateservers",
    "deactivateserver", "deactivateservers", "fetchfeed", "fetchfeeds"].map lit,
   [0, 0, 1, 1, 1, 1, 2, 3, 3, 2, 3, 3, 4, 4, 4, 4, 5, 6, 7, 8, 8, 9, 9, 10, 10, 11, 11], 27⟩

/-- Util::EmptyStr. -/
def emptyStr (v : Option Bytes) : Bool := v.getD [] == []

/-- The name of an option of a section: `BString<100>("Task%i.Time", n)`. -/
def key (word : String) (n : Nat) (e : String) : Bytes := lit word ++ dec n ++ lit e

/-- The options: value and default of each one which is set. -/
abbrev Env := Bytes → Option (Bytes × Bytes)

def val (get : Env) (n : Bytes) : Option Bytes := (get n).map (·.1)

/-- The parameter of a task (Options.cpp:1177-1188). -/
def taskParam (get : Env) (n : Nat) : Option Bytes :=
  let param := val get (key "Task" n ".Param")
  let process := val get (key "Task" n ".Process")
  let rate := val get (key "Task" n ".DownloadRate")
  let param := if emptyStr param && !emptyStr process then process else param
  if emptyStr param && !emptyStr rate then rate else param

/-- `definition` (Options.cpp:1190). -/
def taskDefined (get : Env) (n : Nat) : Bool :=
  (val get (key "Task" n ".Time")).isSome || (val get (key "Task" n ".WeekDays")).isSome ||
  (val get (key "Task" n ".Command")).isSome || (val get (key "Task" n ".DownloadRate")).isSome || (taskParam get n).isSome

/-- Options.cpp:1232-1234: whether a speed limit is invalid. -/
def badRate (p : Bytes) : Bool := decide ((strtol 10 p).2 ≠ []) || decide (toInt32 (strtol 10 p).1 < 0)

/-- The body of the loop of Options::InitScheduler (Options.cpp:1191-1257) for a definition. -/
def initTask (get : Env) (n : Nat) : Outcome :=
  match val get (key "Task" n ".Time"), get (key "Task" n ".Command") with
  | some time, some (cv, cd) =>
    match parseEnum commandTable cv cd with
    | none => ⟨[], true, true⟩
    | some r =>
      let param := taskParam get n
      let cmd := r.num
      if !emptyStr param && decide (cmd = 6) && (CmdLine.split (param.getD [])).isEmpty then ⟨[], true, false⟩
      else if cmd = 4 ∧ param = none then ⟨[], true, false⟩
      else if cmd = 4 ∧ badRate (param.getD []) = true then
        ⟨[], true, (val get (key "Task" n ".DownloadRate")).isNone⟩
      else if (cmd = 5 ∨ cmd = 6 ∨ cmd = 9 ∨ cmd = 10 ∨ cmd = 11) ∧ emptyStr param = true then ⟨[], true, false⟩
      else
        let c := createTask n time (val get (key "Task" n ".WeekDays")) cmd param
        ⟨c.1, r.error || c.2, false⟩
  | _, _ => ⟨[], true, false⟩

/-- The loop over the numbers of the sections, as in Options::InitScheduler, InitServers, InitCategories and InitFeeds: it
ends at the first number without a definition. The first argument bounds the number of turns. -/
def sections {α : Type} (defined : Nat → Bool) (act : Nat → α) : (fuel n : Nat) → List α
  | 0, _ => []
  | f + 1, n => if defined n then act n :: sections defined act f (n + 1) else []

/-- Options::InitScheduler (Options.cpp:1170-1259). -/
def initScheduler (get : Env) (fuel : Nat) : List Outcome := sections (taskDefined get) (initTask get) fuel 1

end Verif.TaskDef
