import Verif.OptStore
import Verif.Tokens
/-
Model of the command line of the program: /repo/daemon/main/CommandLineParser.cpp:63-704 and 815-956.
Words are bytes without the final zero; the first word (the name of the program) is left out, so `optind` of
the source is the number of words taken plus one.

getopt_long is modelled as glibc documents it: words which are no switches are put behind the others in the
COPY of the words which InitCommandLine hands to it (CommandLineParser.cpp:83-88, 99), the words behind the
current one are not moved yet.

Not modelled (outcome `other`): several switches in one word (`-sD`), abbreviated long names, the switch -B
for developers (320-367), POSIXLY_CORRECT. The number of -R is kept as text (atof).
-/
namespace Verif.CmdArgs
open CStr

/-- enum EClientOperation, CommandLineParser.h:29-55 (without the dump for developers). -/
inductive Op
  | none | download | listFiles | listGroups | listStatus | setRate | edit | log | shutdown | reload | version
  | postQueue | writeLog | scanSync | scanAsync | downloadPause | downloadUnpause | postPause | postUnpause
  | scanPause | scanUnpause | history | historyAll
  deriving DecidableEq, Repr

/-- The actions of DownloadQueue::EEditAction which the command line knows (DownloadInfo.h:956-1007). -/
inductive Action
  | fileMoveOffset | fileMoveTop | fileMoveBottom | filePause | fileResume | fileDelete | filePauseAllPars
  | filePauseExtraPars | fileSplit
  | groupMoveOffset | groupMoveTop | groupMoveBottom | groupPause | groupResume | groupDelete | groupParkDelete
  | groupPauseAllPars | groupPauseExtraPars | groupSetPriority | groupSetCategory | groupApplyCategory
  | groupMerge | groupSetParameter | groupSetName | groupSortFiles
  | postDelete
  | historyDelete | historyReturn | historyProcess | historyRedownload | historyRetryFailed
  | historySetParameter | historyMarkBad | historyMarkGood | historyMarkSuccess
  deriving DecidableEq, Repr

/-- enum EMatchMode, CommandLineParser.h:56-61. -/
inductive Match | id | name | regEx
  deriving DecidableEq, Repr

/-- enum EDupeMode (DownloadInfo.h). -/
inductive DupeMode | score | all | force
  deriving DecidableEq, Repr

/-- The kinds of messages of -W. -/
inductive LogKind | info | warning | error | detail | debug
  deriving DecidableEq, Repr

/-- The members of the parser (CommandLineParser.h:107-145), without those of -B. -/
structure Cmd where
  noConfig : Bool := false
  config : Option Bytes := none
  options : List Bytes := []
  server : Bool := false
  daemon : Bool := false
  client : Bool := false
  printOptions : Bool := false
  op : Op := .none
  action : Option Action := none
  offset : Int := 0
  ids : List Int := []
  names : List Bytes := []
  mode : Match := .id
  text : Option Bytes := none
  argFile : Option Bytes := none
  lastArg : Option Bytes := none
  category : Option Bytes := none
  priority : Int := 0
  paused : Bool := false
  top : Bool := false
  nzbName : Option Bytes := none
  dupeKey : Option Bytes := none
  dupeScore : Int := 0
  dupeMode : DupeMode := .score
  rate : Option Bytes := none
  logLines : Int := 0
  logKind : Option LogKind := none
  pauseDownload : Bool := false
  deriving DecidableEq, Repr

/-- `!strcasecmp(w, "…")`. -/
def isW (w : Bytes) (s : String) : Bool := Rpc.eqNoCase w (lit s)

/-- The words behind -A (CommandLineParser.cpp:137-236). `none`: an error is reported. -/
def append : (c : Cmd) → List Bytes → Option (Cmd × List Bytes)
  | c, [] => some (c, [])
  | c, w :: rest =>
    if isW w "F" || isW w "U" then append c rest
    else if isW w "T" then append { c with top := true } rest
    else if isW w "P" then append { c with paused := true } rest
    else if isW w "I" then
      match rest with
      | [] => none
      | v :: rest => append { c with priority := OptStore.intOf v } rest
    else if isW w "C" then
      match rest with
      | [] => none
      | v :: rest => append { c with category := some v } rest
    else if isW w "N" then
      match rest with
      | [] => none
      | v :: rest => append { c with nzbName := some v } rest
    else if isW w "DK" then
      match rest with
      | [] => none
      | v :: rest => append { c with dupeKey := some v } rest
    else if isW w "DS" then
      match rest with
      | [] => none
      | v :: rest => append { c with dupeScore := OptStore.intOf v } rest
    else if isW w "DM" then
      match rest with
      | [] => none
      | v :: rest =>
        if isW v "score" then append { c with dupeMode := .score } rest
        else if isW v "all" then append { c with dupeMode := .all } rest
        else if isW v "force" then append { c with dupeMode := .force } rest
        else none
    else some (c, w :: rest)

/-- `strncmp(optarg, "-", 1)` is 0. -/
def dash (w : Bytes) : Bool := w.head? == some 45

/-- The word behind -L (CommandLineParser.cpp:239-287). -/
def list (c : Cmd) : List Bytes → Option (Cmd × List Bytes)
  | [] => some ({ c with op := .listFiles }, [])
  | w :: rest =>
    if dash w then some ({ c with op := .listFiles }, w :: rest)
    else if isW w "F" then some ({ c with op := .listFiles }, rest)
    else if isW w "FR" then
      match rest with
      | [] => none
      | v :: rest => some ({ c with op := .listFiles, mode := .regEx, text := some v }, rest)
    else if isW w "G" then some ({ c with op := .listGroups }, rest)
    else if isW w "GR" then
      match rest with
      | [] => none
      | v :: rest => some ({ c with op := .listGroups, mode := .regEx, text := some v }, rest)
    else if isW w "O" then some ({ c with op := .postQueue }, rest)
    else if isW w "S" then some ({ c with op := .listStatus }, rest)
    else if isW w "H" then some ({ c with op := .history }, rest)
    else if isW w "HA" then some ({ c with op := .historyAll }, rest)
    else none

/-- The word behind -P and -U (CommandLineParser.cpp:291-314). -/
def pause (p : Bool) (c : Cmd) : List Bytes → Option (Cmd × List Bytes)
  | [] => some ({ c with op := if p then .downloadPause else .downloadUnpause }, [])
  | w :: rest =>
    if dash w then some ({ c with op := if p then .downloadPause else .downloadUnpause }, w :: rest)
    else if isW w "D" then some ({ c with op := if p then .downloadPause else .downloadUnpause }, rest)
    else if isW w "O" then some ({ c with op := if p then .postPause else .postUnpause }, rest)
    else if isW w "S" then some ({ c with op := if p then .scanPause else .scanUnpause }, rest)
    else none

/-- The word behind -S (CommandLineParser.cpp:676-691). -/
def scanDir (c : Cmd) : List Bytes → Option (Cmd × List Bytes)
  | [] => some ({ c with op := .scanAsync }, [])
  | w :: rest =>
    if dash w then some ({ c with op := .scanAsync }, w :: rest)
    else if isW w "W" then some ({ c with op := .scanSync }, rest)
    else none

/-- The value of -W (CommandLineParser.cpp:650-669). -/
def writeLog (c : Cmd) (w : Bytes) : Option Cmd :=
  if isW w "I" then some { c with op := .writeLog, logKind := some .info }
  else if isW w "W" then some { c with op := .writeLog, logKind := some .warning }
  else if isW w "E" then some { c with op := .writeLog, logKind := some .error }
  else if isW w "D" then some { c with op := .writeLog, logKind := some .detail }
  else if isW w "G" then some { c with op := .writeLog, logKind := some .debug }
  else none

/-- A text behind the action, `none` if there is none (e.g. CommandLineParser.cpp:534-540). -/
def withText (c : Cmd) (a : Action) (ok : Bytes → Bool) : List Bytes → Option (Cmd × List Bytes)
  | [] => none
  | v :: rest => if ok v then some ({ c with action := some a, text := some v }, rest) else none

/-- The actions of the history (CommandLineParser.cpp:429-483). -/
def editHistory (c : Cmd) (w : Bytes) (rest : List Bytes) : Option (Cmd × List Bytes) :=
  if isW w "D" then some ({ c with action := some .historyDelete }, rest)
  else if isW w "R" then some ({ c with action := some .historyReturn }, rest)
  else if isW w "P" then some ({ c with action := some .historyProcess }, rest)
  else if isW w "A" then some ({ c with action := some .historyRedownload }, rest)
  else if isW w "F" then some ({ c with action := some .historyRetryFailed }, rest)
  else if isW w "O" then withText c .historySetParameter (fun v => v.contains 61) rest
  else if isW w "B" then some ({ c with action := some .historyMarkBad }, rest)
  else if isW w "G" then some ({ c with action := some .historyMarkGood }, rest)
  else if isW w "S" then some ({ c with action := some .historyMarkSuccess }, rest)
  else none

/-- The actions of the queue (CommandLineParser.cpp:488-635). -/
def editQueue (group : Bool) (c : Cmd) (w : Bytes) (rest : List Bytes) : Option (Cmd × List Bytes) :=
  if isW w "T" then some ({ c with action := some (if group then .groupMoveTop else .fileMoveTop) }, rest)
  else if isW w "B" then some ({ c with action := some (if group then .groupMoveBottom else .fileMoveBottom) }, rest)
  else if isW w "P" then some ({ c with action := some (if group then .groupPause else .filePause) }, rest)
  else if isW w "A" then some ({ c with action := some (if group then .groupPauseAllPars else .filePauseAllPars) }, rest)
  else if isW w "R" then
    some ({ c with action := some (if group then .groupPauseExtraPars else .filePauseExtraPars) }, rest)
  else if isW w "U" then some ({ c with action := some (if group then .groupResume else .fileResume) }, rest)
  else if isW w "D" then some ({ c with action := some (if group then .groupDelete else .fileDelete) }, rest)
  else if isW w "DP" then some ({ c with action := some .groupParkDelete }, rest)
  else if isW w "SF" then some ({ c with action := some .groupSortFiles }, rest)
  else if isW w "C" || isW w "K" || isW w "CP" then
    if group then
      withText c (if isW w "CP" then .groupApplyCategory else .groupSetCategory) (fun _ => true) rest
    else none
  else if isW w "N" then
    if group then withText c .groupSetName (fun _ => true) rest else none
  else if isW w "M" then
    if group then some ({ c with action := some .groupMerge }, rest) else none
  else if isW w "S" then withText c .fileSplit (fun _ => true) rest
  else if isW w "O" then
    if group then withText c .groupSetParameter (fun v => v.contains 61) rest else none
  else if isW w "I" then
    if group then withText c .groupSetPriority (fun v => OptStore.intOf v != 0 || v == lit "0") rest else none
  else if OptStore.intOf w = 0 then none
  else some ({ c with offset := OptStore.intOf w,
                      action := some (if group then .groupMoveOffset else .fileMoveOffset) }, rest)

/-- -E with its value (CommandLineParser.cpp:383-638). -/
def edit (c : Cmd) (w : Bytes) (rest : List Bytes) : Option (Cmd × List Bytes) :=
  let group := isW w "G" || isW w "GN" || isW w "GR"
  let file := isW w "F" || isW w "FN" || isW w "FR"
  let c := { c with op := .edit,
                    mode := if isW w "GN" || isW w "FN" then Match.name
                            else if isW w "GR" || isW w "FR" then Match.regEx else Match.id }
  let post := isW w "O"
  let history := isW w "H"
  if group || file || post || history then
    match rest with
    | [] => none
    | a :: rest =>
      if post then
        if isW a "D" then some ({ c with action := some .postDelete }, rest) else none
      else if history then editHistory c a rest
      else editQueue group c a rest
  else editQueue group c w rest

/-- One switch as getopt returns it: its letter and its value. -/
inductive Switch
  | opt (letter : UInt8) (value : Option Bytes) (rest : List Bytes)
  | stop
  | operand
  | bad
  | other

/-- The letters with a value and those without (short_options, CommandLineParser.cpp:60). -/
def withValue : Bytes := lit "coBEGKRW"
def plain : Bytes := lit "hnpsvADCLPSTUQOV"

/-- long_options (CommandLineParser.cpp:30-57). -/
def longNames : List (String × String) := [("help", "h"), ("configfile", "c"), ("noconfigfile", "n"), ("printconfig", "p"),
  ("server", "s"), ("daemon", "D"), ("version", "v"), ("serverversion", "V"), ("option", "o"), ("append", "A"),
  ("list", "L"), ("pause", "P"), ("unpause", "U"), ("rate", "R"), ("system", "B"), ("log", "G"), ("top", "T"),
  ("edit", "E"), ("connect", "C"), ("quit", "Q"), ("reload", "O"), ("write", "W"), ("category", "K"), ("scan", "S")]

/-- A letter with value: the rest of the word, or the next word. -/
def value (letter : UInt8) (attached : Option Bytes) (rest : List Bytes) : Switch :=
  match attached, rest with
  | some v, rest => .opt letter (some v) rest
  | none, v :: rest => .opt letter (some v) rest
  | none, [] => .bad

/-- getopt_long at the word `w` (see the head of this file). The long name "system" takes no value although
its letter needs one; the switch is not modelled. -/
def switch (w : Bytes) (rest : List Bytes) : Switch :=
  match w with
  | 45 :: 45 :: [] => .stop
  | 45 :: 45 :: name =>
    let n := name.takeWhile (· != 61)
    match longNames.find? (fun e => n == lit e.1) with
    | some e =>
      match lit e.2 with
      | letter :: _ =>
        if withValue.contains letter then
          value letter (if name.contains 61 then some (name.drop (n.length + 1)) else none) rest
        else if name.contains 61 then .bad
        else .opt letter none rest
      | [] => .other
    | none => .other
  | 45 :: letter :: more =>
    if withValue.contains letter then value letter (if more = [] then none else some more) rest
    else if plain.contains letter then
      if more = [] then .opt letter none rest else .other
    else .bad
  | _ => .operand

/-- What the parser leaves behind. -/
inductive Outcome
  | usage | version | error | other
  | run (c : Cmd)
  deriving DecidableEq, Repr

/-- What one switch does (CommandLineParser.cpp:106-696). -/
inductive Effect
  | go (c : Cmd) (rest : List Bytes)
  | fin (o : Outcome)

/-- From the result of a reader of words. -/
def Effect.ofOption : Option (Cmd × List Bytes) → Effect
  | some (c, rest) => .go c rest
  | none => .fin .error

/-- The switch statement (CommandLineParser.cpp:106-696). -/
def apply (c : Cmd) (letter : UInt8) (v : Option Bytes) (rest : List Bytes) : Effect :=
  let val := v.getD []
  if letter = 99 then .go { c with config := some val } rest
  else if letter = 110 then .go { c with config := none, noConfig := true } rest
  else if letter = 104 then .fin .usage
  else if letter = 118 then .fin .version
  else if letter = 112 then .go { c with printOptions := true } rest
  else if letter = 111 then .go { c with options := c.options ++ [val] } rest
  else if letter = 115 then .go { c with server := true } rest
  else if letter = 68 then .go { c with server := true, daemon := true } rest
  else if letter = 65 then Effect.ofOption (append { c with op := .download } rest)
  else if letter = 76 then Effect.ofOption (list c rest)
  else if letter = 80 then Effect.ofOption (pause true c rest)
  else if letter = 85 then Effect.ofOption (pause false c rest)
  else if letter = 82 then .go { c with op := .setRate, rate := some val } rest
  else if letter = 66 then .fin .other
  else if letter = 71 then
    if OptStore.intOf val = 0 then .fin .error
    else .go { c with op := .log, logLines := OptStore.intOf val } rest
  else if letter = 84 then .go { c with top := true } rest
  else if letter = 67 then .go { c with client := true } rest
  else if letter = 69 then Effect.ofOption (edit c val rest)
  else if letter = 81 then .go { c with op := .shutdown } rest
  else if letter = 79 then .go { c with op := .reload } rest
  else if letter = 86 then .go { c with op := .version } rest
  else if letter = 87 then
    match writeLog c val with
    | some c => .go c rest
    | none => .fin .error
  else if letter = 75 then .go { c with category := some val } rest
  else Effect.ofOption (scanDir c rest)

/-- The loop over the switches (CommandLineParser.cpp:93-697): the members, and how many words belong to
switches (`optind` is one more: getopt moves the other words behind them). -/
def loop : (fuel : Nat) → (c : Cmd) → (taken : Nat) → List Bytes → Except Outcome (Cmd × Nat)
  | 0, c, taken, _ => .ok (c, taken)
  | _ + 1, c, taken, [] => .ok (c, taken)
  | fuel + 1, c, taken, w :: rest =>
    match switch w rest with
    | .operand => loop fuel c taken rest
    | .stop => .ok (c, taken + 1)
    | .bad => .error .error
    | .other => .error .other
    | .opt letter v rest' =>
      match apply c letter v rest' with
      | .fin o => .error o
      | .go c rest'' => loop fuel c (taken + ((w :: rest).length - rest''.length)) rest''

/-- From one number to another, upwards or downwards (CommandLineParser.cpp:900-937); `none`: an error is
reported. -/
def range (a b : Int) : Option (List Int) :=
  if a ≤ 0 ∨ b ≤ 0 then none
  else if a < b then some ((List.range (b - a + 1).toNat).map (fun (i : Nat) => a + (i : Int)))
  else some ((List.range (a - b + 1).toNat).map (fun (i : Nat) => a - (i : Int)))

/-- One entry of the list of ids (CommandLineParser.cpp:891-937). BString::Set with length 0 copies all. -/
def idsOf (w : Bytes) : Option (List Int) :=
  if w.contains 45 then
    let first := w.takeWhile (· != 45)
    range (OptStore.intOf ((if first = [] then w else first).take 99)) (OptStore.intOf ((w.dropWhile (· != 45)).drop 1))
  else range (OptStore.intOf w) (OptStore.intOf w)

/-- All entries; an error ends the reading. -/
def idList : List Bytes → Option (List Int)
  | [] => some []
  | w :: l =>
    match idsOf w with
    | none => none
    | some a =>
      match idList l with
      | none => none
      | some b => some (a ++ b)

/-- ParseFileIdList (CommandLineParser.cpp:880-942): strtok with ", " over every word. -/
def parseIds (words : List Bytes) : Option (List Int) :=
  idList ((words.map (Tokens.pieces (fun b => b == 44 || b == 32) [])).flatten)

/-- The name of the file (CommandLineParser.cpp:857-867); `cwd` is the working directory. Only the first 6 and 7
characters of the two prefixes are compared. -/
def fileArg (cwd f : Bytes) : Bytes :=
  if f.head? = some 47 || Rpc.eqNoCase (f.take 6) (lit "http:/") || Rpc.eqNoCase (f.take 7) (lit "https:/") then f
  else cwd ++ 47 :: f

/-- Operations which take a file or text. -/
def takesArg (o : Op) : Bool := o == .none || o == .download || o == .writeLog

/-- InitFileArg (CommandLineParser.cpp:815-878): `words` are the words behind `optind` in the words as the
program got them. -/
def fileArgs (cwd : Bytes) (c : Cmd) (words : List Bytes) : Outcome :=
  match words with
  | [] => if !c.server && !c.client && takesArg c.op then .error else .run c
  | f :: _ =>
    if c.op = .edit then
      if c.mode = .id then
        match parseIds words with
        | some ids => .run { c with ids := ids }
        | none => .error
      else .run { c with names := words }
    else if c.server || c.client || !takesArg c.op then .error
    else .run { c with lastArg := some f, argFile := some (fileArg cwd f) }

/-- The end of InitCommandLine (CommandLineParser.cpp:699-703). -/
def finish (c : Cmd) : Cmd :=
  if c.server ∧ c.op = .downloadPause then { c with pauseDownload := true, op := .none } else c

/-- The constructor (CommandLineParser.cpp:63-77) and what the program does with errors (nzbget.cpp:408-417). The
words behind the switches are looked up in the words as they were given, not in those which getopt has put in
order. -/
def parse (cwd : Bytes) (words : List Bytes) : Outcome :=
  if words = [] then .usage
  else match loop words.length {} 0 words with
    | .error o => o
    | .ok (c, taken) =>
      if c.printOptions then .run (finish c)
      else fileArgs cwd (finish c) (words.drop taken)

end Verif.CmdArgs
