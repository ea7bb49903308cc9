import Verif.Rpc
import Verif.OptStore
import Verif.Record
import Verif.FileName
/-
Model of the edits of the queue which change properties of files and entries: /repo/daemon/queue/QueueEditor.cpp EditList (302-331),
InternEditList (333-454), the last two branches of PrepareList (582-648), BuildIdListFromNameList (650-714), EditGroup for pausing
(716-789), PauseParsInGroups (791-825), PausePars (835-896), SetNzbPriority (898-904), SetNzbParameter (1204-1220), SetNzbDupeParam
(1222-1264) and the deletion of whole entries (370-447).

What is simplified: files and entries are referred to by their ids, which are unique among the files and among the entries; regular
expressions are a parameter. Moves of entries are in QueueEdit, categories in PpParam and MoveDone, names in MoveDone, the order of files
in FileSort.
-/
namespace Verif.GroupEdit
open CStr

/-- A file in the queue (FileInfo). -/
structure F where
  id : Nat
  name : Bytes
  size : Nat
  par : Bool
  paused : Bool
deriving DecidableEq, Repr

/-- An entry of the queue (NzbInfo). -/
structure G where
  id : Nat
  name : Bytes
  priority : Int
  dupeKey : Bytes
  dupeScore : Int
  dupeMode : String
  params : List (Bytes × Bytes)
  files : List F
deriving DecidableEq, Repr

inductive Act where
  | filePause (on : Bool)
  | filePars (extra : Bool)
  | groupPause (on : Bool)
  | groupPars (extra : Bool)
  | priority
  | parameter
  | dupeKey
  | dupeScore
  | dupeMode
deriving DecidableEq, Repr

/-- `action < eaGroupMoveOffset`. -/
def Act.isFile : Act → Bool
  | .filePause _ => true
  | .filePars _ => true
  | _ => false

/-- The range of ids (QueueEditor.cpp:584-601, 619-631). -/
def inRange (all : List Nat) (id : Nat) : Bool :=
  decide (all.foldl (fun m x => if x < m then x else m) 1000000000 ≤ id ∧ id ≤ all.foldl (fun m x => if x > m then x else m) 0)

/-- PrepareList for files (QueueEditor.cpp:582-615) with FindFileInfo (201-212): the files, with the ids of their entries. -/
def fileItems (q : List G) (ids : List Nat) : List (Nat × F) :=
  let files := q.flatMap (fun g => g.files.map (fun f => (g.id, f)))
  ids.filterMap fun id => if inRange (files.map (·.2.id)) id then files.find? (fun p => p.2.id == id) else none

/-- PrepareList for entries (QueueEditor.cpp:616-647). -/
def groupItems (q : List G) (ids : List Nat) : List Nat :=
  ids.flatMap fun id => if inRange (q.map (·.id)) id then (q.map (·.id)).filter (· == id) else []

/-- `SetPaused` for the file with this id. -/
def setPaused (on : Bool) (id : Nat) (q : List G) : List G :=
  q.map fun g => { g with files := g.files.map fun f => if f.id = id then { f with paused := on } else f }

/-- `strstr(loFileName, ".vol")` (QueueEditor.cpp:851-853). -/
def isVol (name : Bytes) : Bool := (Rpc.split (lit ".vol") ((name.take 1023).map WildMask.lower)).isSome

/-- The loop QueueEditor.cpp:877-893: the files which are paused, in order. -/
def pauseVols : Option F → List F → List Nat
  | _, [] => []
  | none, f :: fs => pauseVols (some f) fs
  | some s, f :: fs => if s.size > f.size then s.id :: pauseVols (some f) fs else f.id :: pauseVols (some s) fs

/-- QueueEditor::PausePars (QueueEditor.cpp:835-896): the ids of the files which are paused. -/
def pausePars (extra : Bool) (fs : List F) : List Nat :=
  let pars := fs.filter (·.par)
  if !extra then pars.map (·.id)
  else
    let vols := pars.filter (fun f => isVol f.name)
    if (pars.filter (fun f => !isVol f.name)).isEmpty then pauseVols none vols else vols.map (·.id)

/-- QueueEditor::PauseParsInGroups (QueueEditor.cpp:791-825): the files of the first entry, then those of the next one. -/
def parsInGroups (extra : Bool) : (fuel : Nat) → List (Nat × F) → List Nat
  | 0, _ => []
  | _, [] => []
  | k + 1, (g, f) :: items =>
    pausePars extra (f :: (items.filter (fun p => p.1 == g)).map (·.2)) ++ parsInGroups extra k (items.filter (fun p => p.1 != g))

/-- A file action for some files (QueueEditor.cpp:345-379). -/
def fileAct (a : Act) (items : List (Nat × F)) (q : List G) : List G :=
  match a with
  | .filePause on => items.foldl (fun q p => setPaused on p.2.id q) q
  | .filePars extra => (parsInGroups extra items.length items).foldl (fun q id => setPaused true id q) q
  | _ => q

/-- The entry with this id. -/
def onGroup (f : G → G) (id : Nat) (q : List G) : List G := q.map fun g => if g.id = id then f g else g

/-- EditGroup for pausing (QueueEditor.cpp:716-789): the action for all files of the entry. -/
def editGroup (a : Act) (id : Nat) (q : List G) : List G :=
  let items := (q.filter (fun g => g.id == id)).flatMap (fun g => g.files.map (fun f => (g.id, f)))
  match a with
  | .groupPause on => fileAct (.filePause on) items q
  | .groupPars extra => fileAct (.filePars extra) items q
  | _ => q

/-- QueueEditor::SetNzbParameter (QueueEditor.cpp:1204-1220). -/
def setParam (args : Bytes) (g : G) : G :=
  match args.dropWhile (· != 61) with
  | [] => g
  | _ :: v => { g with params := Record.setParameter g.params (args.takeWhile (· != 61)) v }

/-- The mode of QueueEditor::SetNzbDupeParam (QueueEditor.cpp:1237-1257). -/
def setMode (args : Bytes) (g : G) : G :=
  if Rpc.eqNoCase args (lit "SCORE") then { g with dupeMode := "score" }
  else if Rpc.eqNoCase args (lit "ALL") then { g with dupeMode := "all" }
  else if Rpc.eqNoCase args (lit "FORCE") then { g with dupeMode := "force" }
  else g

/-- One entry (QueueEditor.cpp:388-447). -/
def groupAct (a : Act) (args : Bytes) (id : Nat) (q : List G) : List G :=
  match a with
  | .priority => onGroup (fun g => { g with priority := OptStore.intOf args }) id q
  | .parameter => onGroup (setParam args) id q
  | .dupeKey => onGroup (fun g => { g with dupeKey := args }) id q
  | .dupeScore => onGroup (fun g => { g with dupeScore := OptStore.intOf args }) id q
  | .dupeMode => onGroup (setMode args) id q
  | _ => editGroup a id q

/-- QueueEditor::InternEditList (QueueEditor.cpp:333-454): the queue and whether success is reported. PauseParsInGroups takes all items
out of the list, whose size is the result. -/
def editIds (a : Act) (args : Bytes) (ids : List Nat) (q : List G) : List G × Bool :=
  if a.isFile then
    let items := fileItems q ids
    (fileAct a items q, match a with
      | .filePars _ => false
      | _ => decide (0 < items.length))
  else
    let items := groupItems q ids
    (items.foldl (fun q id => groupAct a args id q) q, decide (0 < items.length))

/-- How entries are named. `rx`: the regular expression, if it is valid. -/
inductive Match where
  | name
  | regex (rx : Bytes → Option (Bytes → Bool))

/-- What can be named: in a command for files the files, in the order of the queue, else the entries; with their ids. -/
def candidates (a : Act) (q : List G) : List (Nat × Bytes) :=
  if a.isFile then q.flatMap fun g => g.files.map fun f => (f.id, (g.name ++ lit "/" ++ FileName.baseName f.name).take 1023)
  else q.map fun g => (g.id, g.name)

/-- The loop over the queue for one name (QueueEditor.cpp:677-705): the ids which are added. -/
def addNamed (p : Bytes → Bool) : List (Nat × Bytes) → List Nat → List Nat
  | [], _ => []
  | (id, n) :: cs, used => if p n && !used.contains id then id :: addNamed p cs (id :: used) else addNamed p cs used

/-- QueueEditor::BuildIdListFromNameList (QueueEditor.cpp:650-714). `none`: failure. -/
def namedIds (m : Match) (cs : List (Nat × Bytes)) : List Bytes → List Nat → Option (List Nat)
  | [], used => some used
  | n :: ns, used =>
    match m with
    | .name =>
      let new := addNamed (· == n) cs used
      if new.isEmpty then none else namedIds m cs ns (used ++ new)
    | .regex rx =>
      match rx n with
      | none => none
      | some p => namedIds m cs ns (used ++ addNamed p cs used)

/-- QueueEditor::EditList with names (QueueEditor.cpp:302-331). -/
def editNames (m : Match) (a : Act) (args : Bytes) (names : List Bytes) (q : List G) : List G × Bool :=
  match namedIds m (candidates a q) names [] with
  | none => (q, false)
  | some ids =>
    let r := editIds a args ids q
    (r.1, match m with
      | .name => r.2
      | .regex _ => true)

/-- The loop over entries to delete finally (QueueEditor.cpp:370-447 with 716-789 and PrePostProcessor.cpp:438-442), if nothing is being
downloaded: an entry is destroyed at once. `none`: an entry is used after it was destroyed. -/
def finalDelete : List Nat → List G → Option (List G)
  | [], q => some q
  | id :: items, q => if (q.map (·.id)).contains id then finalDelete items (q.filter (fun g => g.id != id)) else none

end Verif.GroupEdit
