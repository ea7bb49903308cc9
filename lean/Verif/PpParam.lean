import Verif.Section
import Verif.Record
/-
Model of the post-processing parameters of a download:
/repo/daemon/queue/DownloadInfo.cpp:60-71 (Find; SetParameter is Record.setParameter),
/repo/daemon/queue/Scanner.cpp:361-409 (InitPPParameters), /repo/daemon/queue/QueueEditor.cpp:906-989 (SetNzbCategory),
/repo/daemon/extension/NzbScript.cpp:68-86 (ExecuteScriptList), /repo/daemon/extension/ScanScript.cpp:37-76 (HasScripts,
ExecuteScripts), 130-200 (AddMessage). POSIX: SameFilename is strcmp.

What is simplified: the messages are left out; whether an error was reported is kept where it matters.
-/
namespace Verif.PpParam
open CStr OptStore TaskDef Section

abbrev Params := List (Bytes × Bytes)

/-- NzbParameterList::Find (DownloadInfo.cpp:60-71): the value. -/
def find (ps : Params) (name : Bytes) : Option Bytes := (ps.find? (fun p => Rpc.eqNoCase p.1 name)).map (·.2)

/-- NzbParameterList::SetParameter (DownloadInfo.cpp:36-58). -/
def set (ps : Params) (name value : Bytes) : Params := Record.setParameter ps name value

/-- What is used of a script (ScriptConfig.h:30-70). -/
structure Script where
  name : Bytes
  post : Bool
  queue : Bool
  scan : Bool
  deriving DecidableEq, Repr

/-- The options: Unpack, Extensions, the categories, and the scripts in their order. -/
structure Config where
  unpack : Bool
  extensions : Bytes
  cats : List Category
  scripts : List Script

/-- Scanner.cpp:363-378, QueueEditor.cpp:910-923 and 931-944: what holds for a category. -/
def effective (c : Config) (category : Bytes) : Bool × Bytes :=
  if category = [] then (c.unpack, c.extensions)
  else
    match findCategory c.cats category false with
    | none => (c.unpack, c.extensions)
    | some cat => (cat.unpack, if cat.extensions = [] then c.extensions else cat.extensions)

/-- The name of the parameter of a script: `BString<1024>("%s:", name)`. -/
def paramName (script : Bytes) : Bytes := (script ++ [58]).take 1023

/-- `Tokenizer tok(extensions, ",;")`. -/
def names (extensions : Bytes) : List Bytes := Tokens.tokens (fun b => b == 44 || b == 59) extensions

def yesNo (b : Bool) : Bytes := if b then lit "yes" else lit "no"

/-- The inner loop of Scanner.cpp:396-406 for the token `n`. -/
def addScript (n : Bytes) (ps : Params) (s : Script) : Params :=
  if (s.post || s.queue) && (find ps (paramName n)).isNone && n == s.name then set ps (paramName n) (lit "yes") else ps

/-- Scanner::InitPPParameters (Scanner.cpp:361-409). -/
def initParams (c : Config) (category : Bytes) (ps : Params) (reset : Bool) : Params :=
  let e := effective c category
  let ps := if reset then c.scripts.foldl (fun ps s => set ps (paramName s.name) []) ps else ps
  let ps := if (find ps (lit "*Unpack:")).isNone then set ps (lit "*Unpack:") (yesNo e.1) else ps
  (names e.2).foldl (fun ps n => c.scripts.foldl (addScript n) ps) ps

/-- The search of QueueEditor.cpp:957-964. -/
def listed (n : Bytes) (l : List Bytes) : Bool := l.any (fun o => Rpc.eqNoCase n o)

/-- QueueEditor::SetNzbCategory (QueueEditor.cpp:906-989): the category and parameters of the download afterwards. `post`:
it is in post-processing (QueueCoordinator.cpp:1099-1103). -/
def setCategory (c : Config) (post : Bool) (old new : Bytes) (apply : Bool) (ps : Params) : Bytes × Params :=
  let cat := if post then old else new
  if !apply then (cat, ps)
  else
    let o := effective c old
    let n := effective c cat
    let ps := if o.1 != n.1 then set ps (lit "*Unpack:") (yesNo n.1) else ps
    if Rpc.eqNoCase o.2 n.2 then (cat, ps)
    else
      let ps := (names n.2).foldl (fun ps x => if listed x (names o.2) then ps else set ps (paramName x) (lit "yes")) ps
      let ps := (names o.2).foldl (fun ps x => if listed x (names n.2) then ps else set ps (paramName x) (lit "no")) ps
      (cat, ps)

/-- NzbScriptController::ExecuteScriptList (NzbScript.cpp:68-86): the scripts which are run, in their order. -/
def scriptList (scripts : List Script) (list : Bytes) : List Script := scripts.filter (fun s => (names list).contains s.name)

/-- ScanScriptController::HasScripts (ScanScript.cpp:37-42), as the scanner keeps it (Scanner.cpp:78). -/
def hasScanScripts (c : Config) : Bool := (scriptList c.scripts c.extensions).any (·.scan)

/-- The scan-scripts which are run for a new nzb-file of the category (Scanner.cpp:311-317, ScanScript.cpp:44-83; the file
exists all the time). -/
def scanScripts (c : Config) (category : Bytes) : List Script :=
  if hasScanScripts c then (scriptList c.scripts (effective c category).2).filter (·.scan) else []

inductive DupeMode where
  | score
  | all
  | force
  deriving DecidableEq, Repr

/-- What a scan-script can change. -/
structure Job where
  nzbName : Bytes
  category : Bytes
  params : Params
  priority : Int
  addTop : Bool
  addPaused : Bool
  dupeKey : Bytes
  dupeScore : Int
  dupeMode : DupeMode
  deriving DecidableEq, Repr

/-- `!strncmp(s, p, strlen(p))`: what follows the word. -/
def cut (p s : Bytes) : Option Bytes := if startsWith p s then some (s.drop p.length) else none

/-- ScanScriptController::AddMessage (ScanScript.cpp:130-200) for the text after the name of the script: the job afterwards and
whether an error was reported. -/
def message (c : Config) (j : Job) (msg : Bytes) : Job × Bool :=
  match cut (lit "[NZB] ") msg with
  | none => (j, false)
  | some t =>
    match cut (lit "NZBNAME=") t with
    | some v => ({ j with nzbName := v }, false)
    | none =>
    match cut (lit "CATEGORY=") t with
    | some v => ({ j with category := v, params := initParams c v j.params true }, false)
    | none =>
    match cut (lit "NZBPR_") t with
    | some p =>
      if p.contains 61 then ({ j with params := set j.params (p.takeWhile (· ≠ 61)) ((p.dropWhile (· ≠ 61)).drop 1) }, false) else (j, true)
    | none =>
    match cut (lit "PRIORITY=") t with
    | some v => ({ j with priority := intOf v }, false)
    | none =>
    match cut (lit "TOP=") t with
    | some v => ({ j with addTop := intOf v != 0 }, false)
    | none =>
    match cut (lit "PAUSED=") t with
    | some v => ({ j with addPaused := intOf v != 0 }, false)
    | none =>
    match cut (lit "DUPEKEY=") t with
    | some v => ({ j with dupeKey := v }, false)
    | none =>
    match cut (lit "DUPESCORE=") t with
    | some v => ({ j with dupeScore := intOf v }, false)
    | none =>
    match cut (lit "DUPEMODE=") t with
    | some v =>
      if Rpc.eqNoCase v (lit "score") then ({ j with dupeMode := .score }, false)
      else if Rpc.eqNoCase v (lit "all") then ({ j with dupeMode := .all }, false)
      else if Rpc.eqNoCase v (lit "force") then ({ j with dupeMode := .force }, false)
      else (j, true)
    | none => (j, true)

end Verif.PpParam
