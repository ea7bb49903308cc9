import Verif.FileState
/-
Model of the start of the program with the state directory: daemon/queue/DiskState.cpp:127-254 `StateFile`, 321-423
`LoadDownloadQueue`, 472-491 `LoadQueue`, 1094-1148 `LoadFileInfo` without articles, 1365-1473 `SaveDupInfo`,
`LoadDupInfo`, `SaveHistory`, `LoadHistory`, 1478-1515 `DiscardDownloadQueue`, 1551-1659 `CleanupTempDir`,
`CleanupQueueDir`, 1841-1946 `SaveAllFileInfos`, `LoadAllFileInfos`, 1954-1995 `LoadAllFileStates`, and
daemon/queue/QueueCoordinator.cpp:112-137 `Load`.

The state directory is a list of names with contents, in the order in which it is listed. Files can be read and deleted
without errors. Reading of formats of older versions and of the progress file (see C15, C52) is given by parameters.
-/
namespace Verif.StartUp
open Verif.Text Verif.Record Verif.FileState

/-- The state directory. -/
abbrev Dir := List (Bytes × Bytes)

def get (d : Dir) (n : Bytes) : Option Bytes := (d.find? (fun e => e.1 == n)).map (·.2)

/-- `FileSystem::FileExists`. -/
def has (d : Dir) (n : Bytes) : Bool := (get d n).isSome

/-- `FileSystem::DeleteFile`. -/
def del (d : Dir) (n : Bytes) : Dir := d.filter (fun e => e.1 != n)

/-- `FileSystem::MoveFile` to a name which does not exist. -/
def move (d : Dir) (a b : Bytes) : Dir := d.map (fun e => if e.1 == a then (b, e.2) else e)

/-- "queue", "history", "progress", "files", "acache" and ".new". -/
def nQueue : Bytes := [113, 117, 101, 117, 101]
def nHistory : Bytes := [104, 105, 115, 116, 111, 114, 121]
def nProgress : Bytes := [112, 114, 111, 103, 114, 101, 115, 115]
def nFiles : Bytes := [102, 105, 108, 101, 115]
def nCache : Bytes := [97, 99, 97, 99, 104, 101]
def dotNew : Bytes := [46, 110, 101, 119]

/-- `FORMATVERSION_SIGNATURE` (29): "nzbget diskstate file version ". -/
def signature : Bytes :=
  [110, 122, 98, 103, 101, 116, 32, 100, 105, 115, 107, 115, 116, 97, 116, 101, 32, 102, 105, 108, 101, 32, 118, 101,
   114, 115, 105, 111, 110, 32]

/-- The first line of a state file (172). -/
def head (v : Int) : Bytes := signature ++ showInt v

/-- `ParseFormatVersion` (148-156). -/
def parseVersion (l : Bytes) : Int :=
  if signature.isPrefixOf l then ((scanNum .u (l.drop signature.length)).map (·.1.toInt)).getD 0 else 0

/-- Open a file and read its first line (237-250): version and the rest. `none`: `nullptr`. The version of an empty file is
read from an uninitialised buffer, here it is 0. -/
def openRead (cur : Int) (content : Bytes) : Option (Int × Bytes) :=
  let r := (readLine 128 content).getD ([], [])
  if parseVersion r.1 > cur then none else some (parseVersion r.1, r.2)

/-- `StateFile::FileExists` (158-161) for a file which is saved in two steps. -/
def there (d : Dir) (n : Bytes) : Bool := has d n || has d (n ++ dotNew)

/-- The recovery in `BeginRead` (224-235). -/
def recover (d : Dir) (n : Bytes) : Dir :=
  if !has d n && has d (n ++ dotNew) then move d (n ++ dotNew) n else d

/-! ### History -/

/-- A hidden record (`DupInfo`). -/
structure Dup where
  status : I32
  size : I64
  fullHash : I32
  filteredHash : I32
  score : I32
  mode : I32
  name : Bytes
  key : Bytes
  deriving DecidableEq, Repr

/-- `HistoryInfo`; the kind of an entry with a record is the kind of the record (DownloadInfo.h:903-904). -/
inductive What
  | item (r : Rec)
  | dup (id : I32) (u : Dup)
  deriving DecidableEq, Repr

structure Entry where
  time : I64
  what : What
  deriving DecidableEq, Repr

/-- `HistoryInfo::GetId`. -/
def Entry.id (e : Entry) : I32 := match e.what with | .item r => r.texts.id | .dup id _ => id

/-- `HistoryInfo::GetKind`: 1 `hkNzb`, 2 `hkUrl`, 3 `hkDup`. -/
def Entry.kind (e : Entry) : I32 := match e.what with
  | .item r => if r.texts.kind = 0 then 1 else 2
  | .dup _ _ => 3

/-- `SaveDupInfo` (1365-1374). -/
def saveDup (u : Dup) : List Bytes :=
  [showNums ([(.i, u.status)] ++ halves u.size ++ [(.u, u.fullHash), (.u, u.filteredHash), (.i, u.score), (.i, u.mode)]),
   u.name, u.key]

/-- `LoadDupInfo` (1376-1403). -/
def loadDup : Reader Dup := fun b => do
  let ([status, h, l, full, filtered, score, mode], b) ← scanLine [.i, .u, .u, .u, .u, .i, .i] b | none
  let (name, b) ← readLine 1024 b
  let (key, b) ← readLine 1024 b
  some (⟨status, joinInt64 h l, full, filtered, score, mode, name, key⟩, b)

/-- One entry of `SaveHistory` (1410-1422). -/
def saveEntry (e : Entry) : List Bytes :=
  showNums [(.i, e.id), (.i, e.kind), (.i, timeToInt e.time)] ::
    match e.what with
    | .item r => saveLines r
    | .dup _ u => saveDup u

/-- `SaveHistory` (1405-1423). -/
def saveHistory (h : List Entry) : List Bytes := countLine h.length :: h.flatMap saveEntry

inductive Status | ok | error | crash
  deriving DecidableEq, Repr

/-- One entry of `LoadHistory` (1432-1465). `none`: `goto error`; `some none`: an unknown kind leaves a null pointer, which
is used at 1463. `LeavePostProcess` (1447) drops the state of post-processing. -/
def loadEntry (nice : Bytes → Bytes → Bytes) (servers : List (I32 × I32)) (b : Bytes) : Option (Option (Entry × Bytes)) :=
  match scanLine [.i, .i, .i] b with
  | some ([id, kind, time], b) =>
    if kind = 1 then
      (loadRec nice servers b).map (fun r =>
        some (⟨intToTime time, .item { r.1 with settings := { r.1.settings with post := none } }⟩, r.2))
    else if kind = 2 then (loadRec nice servers b).map (fun r => some (⟨intToTime time, .item r.1⟩, r.2))
    else if kind = 3 then (loadDup b).map (fun r => some (⟨intToTime time, .dup id r.1⟩, r.2))
    else some none
  | _ => none

/-- The loop of `LoadHistory`: the entries before an error are in the history. -/
def loadEntries (nice : Bytes → Bytes → Bytes) (servers : List (I32 × I32)) : Nat → Bytes → List Entry × Status
  | 0, _ => ([], .ok)
  | n + 1, b => match loadEntry nice servers b with
    | none => ([], .error)
    | some none => ([], .crash)
    | some (some (e, b)) => let r := loadEntries nice servers n b; (e :: r.1, r.2)

def loadHistory (nice : Bytes → Bytes → Bytes) (servers : List (I32 × I32)) (b : Bytes) : List Entry × Status :=
  match scanLine [.i] b with
  | some ([n], b) => loadEntries nice servers n.toInt.toNat b
  | _ => ([], .error)

/-! ### Queue -/

/-- The loop of `LoadQueue` (480-485). -/
def loadItems (nice : Bytes → Bytes → Bytes) (servers : List (I32 × I32)) : Nat → Bytes → List Rec × Bool
  | 0, _ => ([], true)
  | n + 1, b => match loadRec nice servers b with
    | none => ([], false)
    | some (r, b) => let s := loadItems nice servers n b; (r :: s.1, s.2)

def loadList (nice : Bytes → Bytes → Bytes) (servers : List (I32 × I32)) (b : Bytes) : List Rec × Bool :=
  match scanLine [.i] b with
  | some ([n], b) => loadItems nice servers n.toInt.toNat b
  | _ => ([], false)

/-- A file of an item of the queue. `info`: what its own state file says, with the remaining size (`none`: not loaded).
`state`: its progress, whether it is the state of a completed file, and the number of completed articles. -/
structure File where
  ref : FileRef
  info : Option (Info × I64)
  state : Option (Bool × State × Nat)
  deriving DecidableEq, Repr

structure Item where
  record : Rec
  files : List File
  deriving DecidableEq, Repr

def itemOf (r : Rec) : Item := ⟨r, r.lists.files.map (fun f => ⟨f, none, none⟩)⟩

/-- What the program is given. `nice`: see `loadTexts`. `oldX`: reading of the formats of older versions. `progress`:
`LoadProgress` (508-535), of any version. `afterError`: where reading of the file "files" goes on after an error. -/
structure Config where
  nice : Bytes → Bytes → Bytes
  servers : List (I32 × I32)
  continuePartial : Bool
  oldQueue : Int → Bytes → List Rec × List Entry × Status
  oldHistory : Int → Bytes → List Entry × Status
  oldInfo : Int → Bytes → Option (Info × I64)
  oldState : Int → Bool → Bytes → Outcome (State × Nat)
  progress : Int → Bytes → List Rec → List Rec × Bool
  afterError : Bytes → Bytes

/-! ### File infos -/

/-- The lines of `SaveFileInfo` with `articles = false` (1036-1057). -/
def saveSummary (f : Info) : List Bytes :=
  [f.subject, f.filename, f.origname,
   showNums [(.i, ofBool f.filenameConfirmed), (.i, timeToInt f.time)],
   showNums (halves f.size), showNums (halves f.missedSize), showNums [(.i, ofBool f.parFile)],
   showNums [(.i, f.totalArticles), (.i, f.missedArticles)],
   countLine f.groups.length] ++ f.groups

/-- `LoadFileInfo` (1094-1173) with `fileSummary = true`, `articles = false`. -/
def loadSummary : Reader (Info × I64) := fun b => do
  let (subject, b) ← readLine 1024 b
  let (filename, b) ← readLine 1024 b
  let (origname, b) ← readLine 1024 b
  let ([confirmed, time], b) ← scanLine [.i, .i] b | none
  let ([h1, l1], b) ← scanLine [.u, .u] b | none
  let ([h2, l2], b) ← scanLine [.u, .u] b | none
  let ([parFile], b) ← scanLine [.i] b | none
  let ([total, missed], b) ← scanLine [.i, .i] b | none
  let (groups, b) ← readList (readLine 1024) b
  some (({
    subject, filename, origname, filenameConfirmed := toBool confirmed, time := intToTime time,
    size := joinInt64 h1 l1, missedSize := joinInt64 h2 l2, parFile := toBool parFile, totalArticles := total,
    missedArticles := missed, groups, articles := [] }, joinInt64 h1 l1 - joinInt64 h2 l2), b)

/-- The names of the state files of a file: "%i" and "%is" or "%ic" (1082, 1179, 1223). -/
def nameOf (id : I32) : Bytes := showInt id.toInt
def stateName (id : I32) (completed : Bool) : Bytes := nameOf id ++ [if completed then 99 else 115]

/-- The name of the log of an item: "n%i.log" (1360). -/
def logName (id : I32) : Bytes := 110 :: nameOf id ++ [46, 108, 111, 103]

/-- `LoadFile` (1078-1092) as called at 1935. -/
def loadFile (c : Config) (d : Dir) (id : I32) : Option (Info × I64) := do
  let b ← get d (nameOf id)
  let (v, b) ← openRead 6 b
  if v = 6 then (loadSummary b).map (·.1) else c.oldInfo v b

/-- The number of files in the queue (1848-1852, 1901-1905). -/
def fileCount (q : List Item) : Nat := (q.map (fun i => i.files.length)).sum

/-- `SaveAllFileInfos` (1841-1880), the lines. -/
def saveFiles (q : List (I32 × Info)) : List Bytes :=
  countLine q.length :: q.flatMap (fun f => showNums [(.i, f.1)] :: saveSummary f.2)

/-- Opening of the file "files" (1893-1914): its version and what follows the count, if it is used. -/
def openFiles (d : Dir) (count : Nat) : Option (Int × Bytes) := do
  let b ← get d nFiles
  let (v, b) ← openRead 6 b
  match scanLine [.i] b with
  | some ([n], b) => if n.toInt = count then some (v, b) else none
  | _ => none

/-- 1907-1912: a file "files" which is not used is deleted. -/
def dropFiles (d : Dir) (count : Nat) : Dir := if (openFiles d count).isSome then d else del d nFiles

/-- The infos of one file (1921-1940): with them what is left of the file "files". -/
def loadOne (c : Config) (d : Dir) (id : I32) : Option (Int × Bytes) → Option (Info × I64) × Option (Int × Bytes)
  | none => (loadFile c d id, none)
  | some (v, b) =>
    let line := (readLine 1024 b).getD ([], [])
    if (((scanNums [.i] line.1).map (·.headD 0)).getD 0) = id then
      if v = 6 then
        match loadSummary line.2 with
        | some (r, b) => (some r, some (v, b))
        | none => (loadFile c d id, some (v, c.afterError line.2))
      else ((c.oldInfo v line.2).or (loadFile c d id), some (v, c.afterError line.2))
    else (loadFile c d id, some (v, line.2))

/-- The files of one item (1917-1944): those which cannot be read are removed from the item. -/
def loadFilesOf (c : Config) (d : Dir) : List File → Option (Int × Bytes) → List File × Option (Int × Bytes)
  | [], s => ([], s)
  | f :: fs, s =>
    let r := loadOne c d f.ref.id s
    let t := loadFilesOf c d fs r.2
    match r.1 with
    | some i => ({ f with info := some i } :: t.1, t.2)
    | none => t

/-- `LoadAllFileInfos` (1882-1946). -/
def loadInfosOf (c : Config) (d : Dir) : List Item → Option (Int × Bytes) → List Item
  | [], _ => []
  | i :: q, s =>
    let r := loadFilesOf c d i.files s
    { i with files := r.1 } :: loadInfosOf c d q r.2

def loadInfos (c : Config) (d : Dir) (q : List Item) : List Item × Dir :=
  if q = [] then ([], d) else (loadInfosOf c d q (openFiles d (fileCount q)), dropFiles d (fileCount q))

/-! ### Cleanup -/

/-- The ids which are in use (1587-1625). -/
def fileIds (q : List Item) (h : List Entry) : List I32 :=
  q.flatMap (fun i => i.files.map (·.ref.id) ++ i.record.lists.completed.map (·.id)) ++
  h.flatMap (fun e => match e.what with
    | .item r => r.lists.completed.map (·.id)
    | .dup _ _ => [])

def nzbIds (q : List Item) (h : List Entry) : List I32 :=
  q.map (·.record.texts.id) ++ h.flatMap (fun e => match e.what with
    | .item r => [r.texts.id]
    | .dup _ _ => [])

/-- The first test (1641-1645): `sscanf(filename, "%i%c", …) == 2` with one of the letters, or `sscanf(filename, "%i", …) == 1`
and no point in the name. The value is the id. -/
def fileIdOf (n : Bytes) : Option I32 :=
  match scanNum .i n with
  | some (id, c :: _) => if c = 115 ∨ c = 99 then some id else if n.contains 46 then none else some id
  | some (id, []) => if n.contains 46 then none else some id
  | none => none

/-- `sscanf(filename, "n%i.log", &id) == 1` (1648): the text behind the number does not matter. -/
def logIdOf (n : Bytes) : Option I32 :=
  match n with
  | 110 :: r => (scanNum .i r).map (·.1)
  | _ => none

/-- `del` (1634-1651). -/
def orphan (files nzbs : List I32) (n : Bytes) : Bool :=
  (match fileIdOf n with | some id => !files.contains id | none => false) ||
  (match logIdOf n with | some id => !nzbs.contains id | none => false)

/-- `CleanupQueueDir` (1580-1665). -/
def cleanup (q : List Item) (h : List Entry) (d : Dir) : Dir :=
  d.filter (fun e => !orphan (fileIds q h) (nzbIds q h) e.1)

/-- `strstr`. -/
def contains (t : Bytes) : Bytes → Bool
  | [] => t.isEmpty
  | s@(_ :: r) => t.isPrefixOf s || contains t r

/-- `sscanf(filename, "%i.%i", &id, &part) == 2` (1559). -/
def partIdOf (n : Bytes) : Option I32 :=
  match scanNum .i n with
  | some (id, 46 :: r) => (scanNum .i r).map (fun _ => id)
  | _ => none

/-- `garbage` (1556-1571). -/
def garbage (q : List Item) (n : Bytes) : Bool :=
  contains [46, 116, 109, 112] n || contains [46, 100, 101, 99] n ||
    match partIdOf n with
    | some id => !q.any (fun i => i.files.any (fun f => f.ref.id == id))
    | none => false

/-- `CleanupTempDir` (1551-1578). -/
def cleanupTemp (q : List Item) (temp : Dir) : Dir := temp.filter (fun e => !garbage q e.1)

/-! ### Progress of files -/

/-- `LoadFileState` (1219-1233) as called at 1974. There are no articles in memory. -/
def loadProgressOf (c : Config) (d : Dir) (id : I32) (completed : Bool) : Option (State × Nat) :=
  match get d (stateName id completed) with
  | none => none
  | some b => match openRead 6 b with
    | none => none
    | some (v, b) => match if v = 6 then loadState c.servers none completed b else c.oldState v completed b with
      | .ok r => some r
      | _ => none

/-- The first file with the id (1968-1981). -/
def setState (id : I32) (s : Bool × State × Nat) : List File → List File
  | [] => []
  | f :: fs => if f.ref.id = id then { f with state := some s } :: fs else f :: setState id s fs

def setStates (id : I32) (s : Bool × State × Nat) : List Item → List Item
  | [] => []
  | i :: q => if i.files.any (fun f => f.ref.id == id) then { i with files := setState id s i.files } :: q
    else i :: setStates id s q

/-- The loop over the names (1959-1990). The fields which are read before an error are not modelled. -/
def loadStates (c : Config) (active : Bool) : List Bytes → List Item → Dir → List Item × Dir × Bool
  | [], q, d => (q, d, true)
  | n :: ns, q, d =>
    match scanNum .i n with
    | some (id, x :: _) =>
      if x = 99 ∨ (x = 115 ∧ c.continuePartial ∧ !active) then
        if q.any (fun i => i.files.any (fun f => f.ref.id == id)) then
          match loadProgressOf c d id (x == 99) with
          | some s => loadStates c active ns (setStates id (x == 99, s) q) d
          | none => (q, d, false)
        else loadStates c active ns q d
      else loadStates c active ns q (del d n)
    | _ => loadStates c active ns q d

/-- `LoadAllFileStates` (1954-1995). -/
def loadAllStates (c : Config) (q : List Item) (d : Dir) : List Item × Dir × Bool :=
  loadStates c (has d nCache) (d.map (·.1)) q d

/-! ### The whole -/

structure Loaded where
  queue : List Item
  history : List Entry
  dir : Dir
  ok : Bool
  deriving DecidableEq, Repr

/-- 403-411. -/
def loadRest (c : Config) (q : List Item) (h : List Entry) (d : Dir) : Loaded :=
  let r := loadInfos c d q
  let s := loadAllStates c r.1 (cleanup r.1 h r.2)
  ⟨s.1, h, s.2.1, s.2.2⟩

/-- The file "history" (381-401); `v` is the version of the file "queue". -/
def loadSaved (c : Config) (v : Int) (q : List Item) (h : List Entry) (d : Dir) : Option Loaded :=
  if v = 0 ∨ v ≥ 57 then
    if there d nHistory then
      let d := recover d nHistory
      match openRead 62 ((get d nHistory).getD []) with
      | none => some ⟨q, h, d, false⟩
      | some (w, b) =>
        if w ≤ 0 then some ⟨q, h, d, false⟩
        else
          let r := if w = 62 then loadHistory c.nice c.servers b else c.oldHistory w b
          match r.2 with
          | .ok => some (loadRest c q (h ++ r.1) d)
          | .error => some ⟨q, h ++ r.1, d, false⟩
          | .crash => none
    else some (loadRest c q h d)
  else some (loadRest c q h d)

/-- The file "progress" (361-379). -/
def loadProgress (c : Config) (v : Int) (q : List Rec) (h : List Entry) (d : Dir) : Option Loaded :=
  if there d nProgress then
    let d := recover d nProgress
    match openRead 62 ((get d nProgress).getD []) with
    | none => some ⟨q.map itemOf, h, d, false⟩
    | some (w, b) =>
      if w ≤ 0 then some ⟨q.map itemOf, h, d, false⟩
      else
        let r := c.progress w b q
        if r.2 then loadSaved c v (r.1.map itemOf) h d else some ⟨r.1.map itemOf, h, d, false⟩
  else loadSaved c v (q.map itemOf) h d

/-- `LoadDownloadQueue` (321-423); `none`: the program crashes. -/
def load (c : Config) (d : Dir) : Option Loaded :=
  if there d nQueue then
    let d := recover d nQueue
    match openRead 62 ((get d nQueue).getD []) with
    | none => some ⟨[], [], d, false⟩
    | some (v, b) =>
      if v < 47 then some ⟨[], [], d, false⟩
      else
        let r : List Rec × List Entry × Status :=
          if v = 62 then
            let s := loadList c.nice c.servers b
            (s.1, [], if s.2 then .ok else .error)
          else c.oldQueue v b
        match r.2.2 with
        | .ok => loadProgress c v r.1 r.2.1 d
        | .error => some ⟨r.1.map itemOf, r.2.1, d, false⟩
        | .crash => none
  else loadProgress c 0 [] [] d

/-- `DiscardDownloadQueue` (1478-1515): with the names of digits those with the letters. -/
def discard (d : Dir) : Dir :=
  let nums := (d.map (·.1)).filter (fun n => n.all (fun c => 48 ≤ c && c ≤ 57))
  d.filter (fun e => !(e.1 == nQueue || e.1 == nHistory || nums.any (fun n => e.1 == n || e.1 == n ++ [115] || e.1 == n ++ [99])))

/-- `QueueCoordinator::Load` (112-137): the directories of the state and of temporary files. `stats`: the statistics were
loaded. -/
def start (c : Config) (stats : Bool) (d temp : Dir) : Option (Loaded × Dir) :=
  if has d nQueue || has d nHistory then
    (load c d).map (fun l => (l, if l.ok && stats then cleanupTemp l.queue temp else temp))
  else some (⟨[], [], discard d, false⟩, temp)

end Verif.StartUp
