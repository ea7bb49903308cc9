import Verif.CmdLine
import Verif.DirectUnpack
import Verif.PostJob

/-
Model of running the unpackers in post-processing: /repo/daemon/postprocess/Unpack.cpp UnpackController::Run (98-146, the calls), UnpackArchives
(186-244), ExecuteUnrar (260-316), ExecuteSevenZip (318-369), PrepareCmdParams (371-391), ReadLine (791-845), AddMessage (847-921), Stop
(923-928); /repo/daemon/util/Script.cpp Execute (304-436), Terminate (702-729), Resume (783-788), ProcessOutput (795-833), PrintMessage
(861-878).

What a process prints and returns, and when the user stops it, is given from outside (`Run`); every theorem holds for all of them. Not modelled:
the messages about files unpacked during the download (Unpack.cpp:108-127, fixed texts which have no effect here), the texts shown as
progress (849-882), the messages of joining and
of Cleanup (they come after the result is known), progress, the restart of children which hang before exec (Script.cpp:37-87), Windows. `Stop`
(923-928) is one step: the two flags it sets are not seen apart by the thread.
-/
namespace Verif.UnpackRun
open CStr

inductive Unpacker where
  | unrar
  | sevenZip
deriving DecidableEq, Repr

/-- The prefix of messages (Unpack.cpp:296, 356). -/
def label : Unpacker → Bytes
  | .unrar => lit "Unrar"
  | .sevenZip => lit "7-Zip"

/-! ### Messages -/

/-- What is processed of a line (UnpackController::ReadLine, Unpack.cpp:791-845, and Script.cpp:366-386): with the first backspace the text
before it is processed, and the rest is not. -/
def lineText (piece : Bytes) : Bytes :=
  let t := cstr piece
  if t.contains 8 then if startsWith (lit "...") t then [] else (t.takeWhile (· ≠ 8)).take 1023
  else t

/-- The text which AddMessage gets for a line (Script.cpp:795-833, 861-878). -/
def message (p : Unpacker) (piece : Bytes) : Option Bytes :=
  (ScriptRun.processOutput (lineText piece)).map (fun m => ScriptRun.printMessage (some (label p)) m.2)

/-- `m_unpackDecryptError` by unrar (Unpack.cpp:884-889). -/
def saysDecrypt (text : Bytes) : Bool :=
  startsWith ((lit "Unrar: Checksum error in the encrypted file").take 42) text || startsWith (lit "Unrar: CRC failed in the encrypted file") text

/-- `m_unpackPasswordError` (Unpack.cpp:891-895). -/
def saysPassword (text : Bytes) : Bool :=
  startsWith (lit "Unrar: The specified password is incorrect.") text || startsWith (lit "Unrar: Incorrect password for") text

def dataError : Bytes := lit "Data Error in encrypted file. Wrong password?"

/-- `m_unpackDecryptError` by 7-Zip (Unpack.cpp:897-901), for a text with all 45 bytes. -/
def saysData (text : Bytes) : Bool := dataError.isSuffixOf text

/-- The other messages which stop unpacking (Unpack.cpp:904-908). -/
def saysDamage (text : Bytes) : Bool :=
  OptStore.contains (lit " : packed data CRC failed in volume") text ||
  OptStore.contains (lit " : packed data checksum error in volume") text ||
  DirectUnpack.endsMore (lit " - CRC failed") text ||
  DirectUnpack.endsMore (lit " - checksum failed") text ||
  startsWith (lit "Unrar: WARNING: You need to start extraction from a previous volume") text

/-- `m_allOkMessageReceived` (Unpack.cpp:916-920). -/
def saysOk (p : Unpacker) (text : Bytes) : Bool :=
  match p with
  | .unrar => startsWith (lit "Unrar: All OK") text
  | .sevenZip => startsWith (lit "7-Zip: Everything is Ok") text

/-! ### State -/

/-- A process which was started: `said` are the messages which were processed, `cut`: it was terminated before its result was looked at. -/
structure Ran where
  unpacker : Unpacker
  args : List Bytes
  password : Bytes
  said : List Bytes
  code : Int
  cut : Bool
deriving DecidableEq, Repr

/-- The fields of UnpackController, Thread and ScriptController (Unpack.h:71-91, Thread.h, Script.h). `pid`: `m_processId` is set; `alive`: this
process runs or was not waited for. Only for the statements: `said` (messages of this process), `runs` (all processes), `asked` (the user has stopped the job),
`staleKill` (a signal was sent to the number of a process which has ended), `outside` (a byte before the text was read), `next` (the number of
calls of Execute). -/
structure U where
  cur : Unpacker
  ok : Bool
  startErr : Bool
  spaceErr : Bool
  decryptErr : Bool
  passErr : Bool
  autoTerm : Bool
  stopped : Bool
  terminated : Bool
  allOk : Bool
  listTried : Bool
  pid : Bool
  alive : Bool
  said : List Bytes
  runs : List Ran
  asked : Bool
  staleKill : Bool
  outside : Bool
  next : Nat
deriving DecidableEq, Repr

/-- At the begin of Run (Unpack.cpp:53, Unpack.h:73-91; `new UnpackController()` sets m_unpacker to 0). -/
def init : U :=
  { cur := .unrar, ok := true, startErr := false, spaceErr := false, decryptErr := false, passErr := false, autoTerm := false, stopped := false,
    terminated := false, allOk := false, listTried := false, pid := false, alive := false, said := [], runs := [], asked := false,
    staleKill := false, outside := false, next := 0 }

/-- UnpackController::Stop (Unpack.cpp:923-928, Thread.cpp:71-76, Script.cpp:702-729). -/
def stop (u : U) : U :=
  { u with stopped := true, terminated := true, staleKill := u.staleKill || (u.pid && !u.alive) }

/-- The user stops the job (PrePostProcessor.cpp:938-943, 164-167). -/
def userStop (u : U) : U := { stop u with asked := true }

def userStopIf (b : Bool) (u : U) : U := if b then userStop u else u

/-- Unpack.cpp:884-901. -/
def noteErrors (text : Bytes) (u : U) : U :=
  match u.cur with
  | .unrar => { u with decryptErr := u.decryptErr || saysDecrypt text, passErr := u.passErr || saysPassword text }
  | .sevenZip =>
    { u with decryptErr := u.decryptErr || (decide (45 ≤ text.length) && saysData text)
             outside := u.outside || (decide (18 < text.length) && decide (text.length < 45)) }

/-- Unpack.cpp:903-914. -/
def checkDamage (text : Bytes) (u : U) : U :=
  if !u.stopped && (u.decryptErr || u.passErr || saysDamage text) then stop { u with autoTerm := true } else u

/-- Unpack.cpp:916-920. -/
def noteOk (text : Bytes) (u : U) : U := { u with allOk := u.allOk || saysOk u.cur text }

/-- UnpackController::AddMessage (Unpack.cpp:847-921). -/
def addMessage (text : Bytes) (u : U) : U := noteOk text (checkDamage text (noteErrors text u))

/-- PrintMessage without prefix (Script.cpp:861-878). -/
def say (text : Bytes) (u : U) : U := addMessage (text.take 1023) u

/-! ### A process -/

/-- A line of the process; the user may stop the job before or after the line is processed. -/
structure Line where
  before : Bool
  piece : Bytes
  after : Bool
deriving DecidableEq, Repr

/-- A process: the user may stop the job between the two parts of Resume (`torn`), before the process is started (`early`) and after its end
(`late`). `code`: the exit code, -1: it could not be started (Script.cpp:318-324, 421-426). -/
structure Run where
  torn : Bool
  early : Bool
  lines : List Line
  late : Bool
  code : Int
deriving DecidableEq, Repr

/-- A line (Script.cpp:366-386). -/
def onLine (p : Unpacker) (u : U) (l : Line) : U :=
  if u.terminated then u
  else
    let u := userStopIf l.before u
    let u := match message p l.piece with
      | none => u
      | some t => addMessage t { u with said := u.said ++ [t] }
    userStopIf l.after u

/-- ScriptController::Execute (Script.cpp:304-436). Nothing is started if the job was terminated before (Script.cpp:312-315). -/
def execute (p : Unpacker) (args : List Bytes) (password : Bytes) (r : Run) (u : U) : U × Int :=
  let u := userStopIf r.early { u with next := u.next + 1 }
  if u.terminated then (u, 0)
  else
    let u := r.lines.foldl (onLine p) { u with pid := true, alive := true, said := [] }
    let u := userStopIf r.late { u with alive := false }
    ({ u with runs := u.runs ++ [⟨p, args, password, u.said, r.code, u.terminated⟩] }, r.code)

/-! ### Commands -/

/-- The options and the job. `unrarFile`, `sevenZipFile`: the option is the name of a file (Unpack.cpp:373). `passFile`: the file with passwords;
`passOpt`: the option is set. `tried`: `GetUnpackTried() && !GetParRepaired()`; `lastPassword`: the last status is usPassword. -/
structure Cfg where
  name : Bytes
  unrarCmd : Bytes
  unrarFile : Bool
  sevenZipCmd : Bytes
  sevenZipFile : Bool
  unpackDir : Bytes
  password : Bytes
  passOpt : Bytes
  passFile : Option Bytes
  tried : Bool
  lastPassword : Bool
  hasPars : Bool
  unchecked : Bool
deriving DecidableEq, Repr

/-- UnpackController::PrepareCmdParams (Unpack.cpp:371-391). -/
def cmdParams (isFile : Bool) (cmd : Bytes) : Option (List Bytes) :=
  if isFile then some [cmd]
  else if CmdLine.split cmd = [] then none
  else some (CmdLine.split cmd)

/-- Unpack.cpp:278-285, 338-345. -/
def passwordArg (password : Bytes) : Bytes := if password = [] then lit "-p-" else lit "-p" ++ password

/-- Unpack.cpp:271-274, 331-334. -/
def withCommand (params : List Bytes) : List Bytes :=
  if lit "x" ∉ params ∧ lit "e" ∉ params then params ++ [lit "x"] else params

/-- The arguments of unrar (Unpack.cpp:265-295). The directory is formatted into 1024 bytes. -/
def unrarArgs (params : List Bytes) (password dir : Bytes) : List Bytes :=
  let params := withCommand params ++ [lit "-y", passwordArg password]
  let params := if lit "-o+" ∉ params ∧ lit "-o-" ∉ params then params ++ [lit "-o+"] else params
  params ++ [lit "*.rar", (dir ++ lit "/").take 1023]

/-- The arguments of 7-Zip (Unpack.cpp:325-349). -/
def sevenZipArgs (params : List Bytes) (password dir : Bytes) (multi : Bool) : List Bytes :=
  withCommand params ++ [lit "-y", passwordArg password, lit "-o" ++ dir, if multi then lit "*.7z.001" else lit "*.7z"]

/-- Unpack.cpp:380-386. -/
def noCommand (info cmd : Bytes) (u : U) : U :=
  { say (lit "Could not start " ++ info ++ lit ", failed to parse command line: " ++ cmd) u with ok := false, startErr := true }

/-- Unpack.cpp:307-310. -/
def unrarResult (r : U × Int) : U :=
  { r.1 with ok := decide (r.2 = 0) && r.1.allOk && !r.1.terminated
             startErr := decide (r.2 = -1) && !r.1.autoTerm
             spaceErr := decide (r.2 = 5)
             passErr := r.1.passErr || decide (r.2 = 11) }

/-- Unpack.cpp:362-363. -/
def sevenZipResult (r : U × Int) : U :=
  { r.1 with ok := decide (r.2 = 0) && r.1.allOk && !r.1.terminated
             startErr := decide (r.2 = -1) && !r.1.autoTerm }

/-- Unpack.cpp:312-315, 365-368. -/
def sayCode (text : Bytes) (code : Int) (u : U) : U :=
  if !u.ok && decide (0 < code) then say (text ++ decInt code) u else u

/-- UnpackController::ExecuteUnrar (Unpack.cpp:260-316). -/
def executeUnrar (c : Cfg) (password : Bytes) (r : Run) (u : U) : U :=
  match cmdParams c.unrarFile c.unrarCmd with
  | none => noCommand (lit "unrar") c.unrarCmd u
  | some params =>
    let e := execute .unrar (unrarArgs params password c.unpackDir) password r { u with allOk := false, cur := .unrar }
    sayCode (lit "Unrar error code: ") e.2 (unrarResult e)

/-- UnpackController::ExecuteSevenZip (Unpack.cpp:318-369). -/
def executeSevenZip (c : Cfg) (password : Bytes) (multi : Bool) (r : Run) (u : U) : U :=
  match cmdParams c.sevenZipFile c.sevenZipCmd with
  | none => noCommand (lit "7-Zip") c.sevenZipCmd u
  | some params =>
    let u := say (lit "Executing 7-Zip") { u with allOk := false, cur := .sevenZip }
    let e := execute .sevenZip (sevenZipArgs params password c.unpackDir multi) password r u
    sayCode (lit "7-Zip error code: ") e.2 (sevenZipResult e)

/-- UnpackController::ExecuteUnpack (Unpack.cpp:246-258). `rs` are the processes, by the number of the call. -/
def executeUnpack (c : Cfg) (rs : Nat → Run) (p : Unpacker) (multi : Bool) (password : Bytes) (u : U) : U :=
  match p with
  | .unrar => executeUnrar c password (rs u.next) u
  | .sevenZip => executeSevenZip c password multi (rs u.next) u

/-! ### The list of passwords -/

/-- `fgets(password, 511, file)` until the end (Unpack.cpp:216-219, FileSystem.cpp:1183-1186); `fuel`: more than the length of the file. -/
def fileLines : (fuel : Nat) → Bytes → List Bytes
  | 0, _ => []
  | fuel + 1, b => if b = [] then [] else (Text.fgets 510 b).1 :: fileLines fuel (Text.fgets 510 b).2

/-- Unpack.cpp:222-224: only ends of line are removed. -/
def trimLine (l : Bytes) : Bytes := ((cstr l).reverse.dropWhile (fun b => b == 10 || b == 13)).reverse

/-- Unpack.cpp:228-232, and the flags 233-235. -/
def resume (torn : Bool) (u : U) : U :=
  let u := if u.stopped && u.autoTerm then
      let u := { u with terminated := false, pid := false }
      let u := userStopIf torn u
      { u with stopped := false }
    else u
  { u with decryptErr := false, passErr := false, autoTerm := false }

/-- The condition of the loop (Unpack.cpp:217-218). -/
def goesOn (u : U) : Bool := !u.ok && !u.startErr && !u.spaceErr && (u.decryptErr || u.passErr)

/-- Unpack.cpp:226-238. -/
def tryOne (c : Cfg) (rs : Nat → Run) (p : Unpacker) (multi : Bool) (password : Bytes) (u : U) : U :=
  let u := resume (rs u.next).torn u
  let u := say (lit "Trying password " ++ password ++ lit " for " ++ c.name) u
  executeUnpack c rs p multi password u

/-- The loop of UnpackArchives (Unpack.cpp:217-239) over the lines. -/
def tryList (c : Cfg) (rs : Nat → Run) (p : Unpacker) (multi : Bool) : List Bytes → U → U
  | [], u => u
  | l :: ls, u =>
    if goesOn u then
      if trimLine l = [] then tryList c rs p multi ls u
      else tryList c rs p multi ls (tryOne c rs p multi (trimLine l) u)
    else u

/-- Unpack.cpp:204-207. -/
def wantsList (c : Cfg) (u : U) : Bool :=
  goesOn u && (!u.terminated || u.autoTerm) && decide (c.password = []) && decide (c.passOpt ≠ [])

/-- Unpack.cpp:209-243. -/
def passwordList (c : Cfg) (rs : Nat → Run) (p : Unpacker) (multi : Bool) (u : U) : U :=
  if wantsList c u then
    match c.passFile with
    | none => say (lit "Could not open file " ++ c.passOpt) u
    | some b =>
      let u := tryList c rs p multi (fileLines (b.length + 1) b) u
      { u with listTried := !u.stopped || u.autoTerm }
  else u

/-- Unpack.cpp:191-192. -/
def parFirst (c : Cfg) (u : U) : Bool := !u.ok && c.hasPars && !u.passErr && c.unchecked

/-- UnpackController::UnpackArchives (Unpack.cpp:186-244). -/
def unpackArchives (c : Cfg) (rs : Nat → Run) (p : Unpacker) (multi : Bool) (u : U) : U :=
  if !c.tried then
    let u := executeUnpack c rs p multi c.password u
    if parFirst c u then u else passwordList c rs p multi u
  else passwordList c rs p multi { u with ok := false, decryptErr := c.lastPassword }

/-! ### All archives -/

/-- What is in the directory (CheckArchiveFiles, Unpack.cpp:632-679). `direct`: the files unpacked during the download are used (Unpack.cpp:106,
125-128). -/
structure Has where
  rar : Bool
  direct : Bool
  sevenZip : Bool
  sevenZipMulti : Bool
  splitted : Bool
deriving DecidableEq, Repr

def Has.any (h : Has) : Bool := h.rar || h.sevenZip || h.sevenZipMulti || h.splitted

/-- One of the steps of Run (Unpack.cpp:104-144). -/
def stage (b : Bool) (f : U → U) (u : U) : U := if b && u.ok then f u else u

/-- Unpacking (Unpack.cpp:98-144). `joinOk`: the result of JoinSplittedFiles (C90). -/
def runAll (c : Cfg) (h : Has) (rs : Nat → Run) (joinOk : Bool) : U :=
  let u := say (lit "Unpacking " ++ c.name) init
  let u := stage (h.rar && !h.direct) (unpackArchives c rs .unrar false) u
  let u := stage h.sevenZip (unpackArchives c rs .sevenZip false) u
  let u := stage h.sevenZipMulti (unpackArchives c rs .sevenZip true) u
  stage h.splitted (fun u => { u with ok := joinOk }) u

/-- What the stage reports to post-processing (PostJob). -/
def work (u : U) (h : Has) (hidden movedOk : Bool) : PostJob.UnpackWork :=
  { hasFiles := h.any, hidden := hidden, ok := u.ok, startErr := u.startErr, spaceErr := u.spaceErr, passErr := u.passErr
    decryptErr := u.decryptErr, stopped := u.terminated && !u.autoTerm, listTried := u.listTried, movedOk := movedOk }

end Verif.UnpackRun
