import Verif.Text
/-
Model of the records of the queue file: daemon/queue/DiskState.cpp:537-630 `SaveNzbInfo`, 632-980 `LoadNzbInfo`
(for the format version which is written, 62), 982-1018 `SaveServerStats`/`LoadServerStats`, with
daemon/queue/DownloadInfo.cpp:36-58 `SetParameter`, 100-135 `StatOp`, 173-194 `SetUrl`/`SetFilename`, and
daemon/postprocess/PrePostProcessor.cpp:189-210 `SanitisePostQueue`.

The record is loaded into a new `NzbInfo`. A null string and the empty string are the same here. Fields are
grouped in the order of the file.
-/
namespace Verif.Record
open Verif.Text

/-- A reader consumes a part of the file; `none` is `goto error`. -/
abbrev Reader (α : Type) := Bytes → Option (α × Bytes)

/-! ### Texts (SaveNzbInfo 539-547, LoadNzbInfo 636-666) -/

structure Texts where
  id : I32
  kind : I32            -- 0 `nkNzb`, 1 `nkUrl`
  url : Bytes
  filename : Bytes
  destDir : Bytes
  finalDir : Bytes
  queuedFilename : Bytes
  name : Bytes
  category : Bytes
  deriving DecidableEq, Repr

def saveTexts (t : Texts) : List Bytes :=
  [showNums [(.i, t.id)], showNums [(.i, t.kind)], t.url, t.filename, t.destDir, t.finalDir, t.queuedFilename,
   t.name, t.category]

/-- `nice`: the name that `SetUrl`/`SetFilename` derive; it stays if the stored name is empty (660-663). -/
def loadTexts (nice : Bytes → Bytes → Bytes) : Reader Texts := fun b => do
  let ([id], b) ← scanLine [.i] b | none
  let ([kind], b) ← scanLine [.i] b | none
  let (url, b) ← readLine 10240 b
  let (filename, b) ← readLine 10240 b
  let (destDir, b) ← readLine 10240 b
  let (finalDir, b) ← readLine 10240 b
  let (queuedFilename, b) ← readLine 10240 b
  let (name, b) ← readLine 10240 b
  let (category, b) ← readLine 10240 b
  some (⟨id, kind, url, filename, destDir, finalDir, queuedFilename,
    if name.length > 0 then name else nice url filename, category⟩, b)

/-! ### Settings and statuses (SaveNzbInfo 548-563, LoadNzbInfo 668-775) -/

/-- The post-processing state of an item (`PostInfo`). -/
structure Post where
  stage : I32
  forceParFull : Bool
  forceRepair : Bool
  deriving DecidableEq, Repr

structure Settings where
  priority : I32
  deletePaused : Bool
  manyDupeFiles : Bool
  feedId : I32
  parStatus : I32
  unpackStatus : I32
  moveStatus : I32
  parRenameStatus : I32
  rarRenameStatus : I32
  directRenameStatus : I32
  deleteStatus : I32
  markStatus : I32
  urlStatus : I32
  unpackCleanedUpDisk : Bool
  healthPaused : Bool
  addUrlPaused : Bool
  fileCount : I32
  parkedFileCount : I32
  messageCount : I32
  minTime : I64
  maxTime : I64
  parFull : Bool
  extraParBlocks : I32
  post : Option Post
  deriving DecidableEq, Repr

/-- `nzbInfo->GetPostInfo() ? (int)nzbInfo->GetPostInfo()->GetStage() + 1 : 0` (549). -/
def stageToSave : Option Post → I32
  | none => 0
  | some p => p.stage + 1

def flagToSave (f : Post → Bool) : Option Post → I32
  | none => 0
  | some p => ofBool (f p)

def saveSettings (s : Settings) : List Bytes :=
  [showNums [(.i, s.priority), (.i, stageToSave s.post), (.i, ofBool s.deletePaused),
      (.i, ofBool s.manyDupeFiles), (.i, s.feedId)],
   showNums [(.i, s.parStatus), (.i, s.unpackStatus), (.i, s.moveStatus), (.i, s.parRenameStatus),
      (.i, s.rarRenameStatus), (.i, s.directRenameStatus), (.i, s.deleteStatus), (.i, s.markStatus),
      (.i, s.urlStatus)],
   showNums [(.i, ofBool s.unpackCleanedUpDisk), (.i, ofBool s.healthPaused), (.i, ofBool s.addUrlPaused)],
   showNums [(.i, s.fileCount), (.i, s.parkedFileCount), (.i, s.messageCount)],
   showNums [(.i, timeToInt s.minTime), (.i, timeToInt s.maxTime)],
   showNums [(.i, ofBool s.parFull), (.i, flagToSave (·.forceParFull) s.post),
      (.i, flagToSave (·.forceRepair) s.post), (.i, s.extraParBlocks)]]

/-- 681-693 and 770-774: the stored number is taken as stage without the decrement. -/
def postOf (postStage forceParFull forceRepair : I32) : Option Post :=
  if postStage.toInt > 0 then some ⟨postStage, toBool forceParFull, toBool forceRepair⟩ else none

/-- 725-730: for an item of kind `nkUrl` only the statuses from `lsFailed` (3) on are restored. -/
def urlStatusOf (kind urlStatus : I32) : I32 :=
  if kind = 0 ∨ urlStatus.toInt ≥ 3 ∨ urlStatus.toInt ≥ 5 then urlStatus else 0

def loadSettings (kind : I32) : Reader Settings := fun b => do
  let ([priority, postStage, deletePaused, manyDupeFiles, feedId], b) ← scanLine [.i, .i, .i, .i, .i] b | none
  let ([parStatus, unpackStatus, moveStatus, parRenameStatus, rarRenameStatus, directRenameStatus, deleteStatus,
    markStatus, urlStatus], b) ← scanLine [.i, .i, .i, .i, .i, .i, .i, .i, .i] b | none
  let ([cleaned, healthPaused, addUrlPaused], b) ← scanLine [.i, .i, .i] b | none
  let ([fileCount, parkedFileCount, messageCount], b) ← scanLine [.i, .i, .i] b | none
  let ([minTime, maxTime], b) ← scanLine [.i, .i] b | none
  let ([parFull, forceParFull, forceRepair, extraParBlocks], b) ← scanLine [.i, .i, .i, .i] b | none
  some ({
    priority, deletePaused := toBool deletePaused, manyDupeFiles := toBool manyDupeFiles, feedId, parStatus,
    unpackStatus, moveStatus, parRenameStatus, rarRenameStatus, directRenameStatus, deleteStatus, markStatus,
    urlStatus := urlStatusOf kind urlStatus, unpackCleanedUpDisk := toBool cleaned,
    healthPaused := toBool healthPaused, addUrlPaused := toBool addUrlPaused, fileCount, parkedFileCount,
    messageCount, minTime := intToTime minTime, maxTime := intToTime maxTime, parFull := toBool parFull,
    extraParBlocks, post := postOf postStage forceParFull forceRepair }, b)

/-! ### Sizes and counters (SaveNzbInfo 565-578, LoadNzbInfo 777-803) -/

structure Sizes where
  fullContentHash : I32
  filteredContentHash : I32
  size : I64
  successSize : I64
  failedSize : I64
  parSize : I64
  parSuccessSize : I64
  parFailedSize : I64
  totalArticles : I32
  successArticles : I32
  failedArticles : I32
  deriving DecidableEq, Repr

/-- The numbers for `%u,%u` of a 64 bit number. -/
def halves (x : I64) : List (Conv × I32) := [(.u, splitHi x), (.u, splitLo x)]

def saveSizes (s : Sizes) : List Bytes :=
  [showNums [(.u, s.fullContentHash), (.u, s.filteredContentHash)],
   showNums (halves s.size ++ halves s.successSize ++ halves s.failedSize),
   showNums (halves s.parSize ++ halves s.parSuccessSize ++ halves s.parFailedSize),
   showNums [(.i, s.totalArticles), (.i, s.successArticles), (.i, s.failedArticles)]]

def loadSizes : Reader Sizes := fun b => do
  let ([full, filtered], b) ← scanLine [.u, .u] b | none
  let ([h1, l1, h2, l2, h3, l3], b) ← scanLine [.u, .u, .u, .u, .u, .u] b | none
  let ([h4, l4, h5, l5, h6, l6], b) ← scanLine [.u, .u, .u, .u, .u, .u] b | none
  let ([total, success, failed], b) ← scanLine [.i, .i, .i] b | none
  some (⟨full, filtered, joinInt64 h1 l1, joinInt64 h2 l2, joinInt64 h3 l3, joinInt64 h4 l4, joinInt64 h5 l5,
    joinInt64 h6 l6, total, success, failed⟩, b)

/-! ### Duplicate handling and durations (SaveNzbInfo 580-585, LoadNzbInfo 805-832) -/

structure Dupe where
  dupeKey : Bytes
  dupeMode : I32
  dupeScore : I32
  dupeHint : I32
  downloadedSize : I64
  downloadSec : I32
  postTotalSec : I32
  parSec : I32
  repairSec : I32
  unpackSec : I32
  deriving DecidableEq, Repr

def saveDupe (d : Dupe) : List Bytes :=
  [d.dupeKey,
   showNums [(.i, d.dupeMode), (.i, d.dupeScore), (.i, d.dupeHint)],
   showNums (halves d.downloadedSize ++ [(.i, d.downloadSec), (.i, d.postTotalSec), (.i, d.parSec),
     (.i, d.repairSec), (.i, d.unpackSec)])]

/-- 818-820: `SetDupeMode(dupeMode); SetDupeScore(dupeScore); SetDupeMode((EDupeMode)dupeHint)`. The dupe hint of
a new item is `dhNone` (0). -/
def loadDupe : Reader Dupe := fun b => do
  let (dupeKey, b) ← readLine 10240 b
  let ([_dupeMode, dupeScore, dupeHint], b) ← scanLine [.i, .i, .i] b | none
  let ([h, l, downloadSec, postTotalSec, parSec, repairSec, unpackSec], b) ←
    scanLine [.u, .u, .i, .i, .i, .i, .i] b | none
  some (⟨dupeKey, dupeHint, dupeScore, 0, joinInt64 h l, downloadSec, postTotalSec, parSec, repairSec,
    unpackSec⟩, b)

/-! ### Lists (SaveNzbInfo 587-629, LoadNzbInfo 834-973) -/

/-- Read `n` entries. -/
def readN {α : Type} (one : Reader α) : Nat → Reader (List α)
  | 0, b => some ([], b)
  | n + 1, b => match one b with
    | none => none
    | some (x, b) => (readN one n b).map (fun r => (x :: r.1, r.2))

/-- A count and the loop `for (int i = 0; i < count; i++)`. -/
def readList {α : Type} (one : Reader α) : Reader (List α) := fun b =>
  match scanLine [.i] b with
  | some ([n], b) => readN one n.toInt.toNat b
  | _ => none

/-- The line with the number of entries: `PrintLine("%i", (int)list.size())`. -/
def countLine (n : Nat) : Bytes := showNums [(.i, BitVec.ofNat 32 n)]

/-- `strchr(s, c)`, then one further: what follows the first `c`. -/
def after (c : UInt8) : Bytes → Option Bytes
  | [] => none
  | x :: r => if x = c then some r else after c r

/-- The text before the first `c`. -/
def upTo (c : UInt8) (s : Bytes) : Bytes := s.takeWhile (· != c)

structure Completed where
  id : I32
  status : I32
  crc : I32
  parFile : Bool
  hash16k : Bytes
  parSetId : Bytes
  filename : Bytes
  origname : Bytes
  deriving DecidableEq, Repr

/-- 590-595. -/
def saveCompleted (c : Completed) : List Bytes :=
  [showNums [(.i, c.id), (.i, c.status), (.u, c.crc), (.i, ofBool c.parFile)] ++ 44 :: (c.hash16k ++ 44 :: c.parSetId),
   c.filename, c.origname]

/-- 838-898: the texts after the fourth and the fifth comma. -/
def loadCompleted : Reader Completed := fun b => do
  let (buf, b) ← readLine 10240 b
  let [id, status, crc, parFile] ← scanNums [.i, .i, .u, .i] buf | none
  let tail := (after 44 buf).bind (fun s => (after 44 s).bind (fun s => (after 44 s).bind (after 44)))
  let hash := (tail.map (upTo 44)).getD []
  let parSet := ((tail.bind (after 44)).map (upTo 44)).getD []
  let (filename, b) ← readLine 1024 b
  let (origname, b) ← readLine 1024 b
  some (⟨id, status, crc, toBool parFile, hash, parSet, filename, origname⟩, b)

def lower (c : UInt8) : UInt8 := if 65 ≤ c ∧ c ≤ 90 then c + 32 else c

/-- `!strcasecmp(a, b)`. -/
def sameName (a b : Bytes) : Bool := a.map lower == b.map lower

/-- `NzbParameterList::SetParameter` (DownloadInfo.cpp:36-58). -/
def setParameter (ps : List (Bytes × Bytes)) (name value : Bytes) : List (Bytes × Bytes) :=
  if ps.any (fun p => sameName p.1 name) then
    if value.isEmpty then ps.eraseP (fun p => sameName p.1 name)
    else
      let i := ps.findIdx (fun p => sameName p.1 name)
      ps.modify i (fun p => (p.1, value))
  else if value.isEmpty then ps else ps ++ [(name, value)]

/-- 906-914: name and value of one line, if it has an equals sign. -/
def loadParameter : Reader (Option (Bytes × Bytes)) := fun b => do
  let (buf, b) ← readLine 10240 b
  some ((after 61 buf).map (fun v => (upTo 61 buf, v)), b)

def addParameter (ps : List (Bytes × Bytes)) : Option (Bytes × Bytes) → List (Bytes × Bytes)
  | none => ps
  | some (n, v) => setParameter ps n v

/-- 922-931: status and name of one script; `atoi` reads the number at the beginning. -/
def loadScript : Reader (Option (I32 × Bytes)) := fun b => do
  let (buf, b) ← readLine 10240 b
  some ((after 44 buf).map (fun n => (((scanNum .i buf).map (·.1)).getD 0, n)), b)

structure Stat where
  server : I32
  success : I32
  failed : I32
  deriving DecidableEq, Repr

/-- `StatOp` with `soSet` (DownloadInfo.cpp:100-135). -/
def setStat (l : List Stat) (s : Stat) : List Stat :=
  if l.any (·.server == s.server) then
    l.modify (l.findIdx (·.server == s.server)) (fun _ => s)
  else l ++ [s]

/-- 1002-1009: `servers` are the configured servers as (state id, id). -/
def applyStat (servers : List (I32 × I32)) (l : List Stat) (s : Stat) : List Stat :=
  servers.foldl (fun l v => if v.1 == s.server then setStat l { s with server := v.2 } else l) l

def loadStat : Reader Stat := fun b =>
  match scanLine [.i, .i, .i] b with
  | some ([a, s, f], b) => some (⟨a, s, f⟩, b)
  | _ => none

/-- `LoadServerStats` (991-1018) into an empty list. -/
def loadStats (servers : List (I32 × I32)) : Reader (List Stat) := fun b =>
  (readList loadStat b).map (fun r => (r.1.foldl (applyStat servers) [], r.2))

/-- `SaveServerStats` (982-989). -/
def saveStats (l : List Stat) : List Bytes :=
  countLine l.length :: l.map (fun s => showNums [(.i, s.server), (.i, s.success), (.i, s.failed)])

/-- The entry of a file of the item in the queue. -/
structure FileRef where
  id : I32
  paused : Bool
  extraPriority : Bool
  deriving DecidableEq, Repr

def loadFileRef : Reader FileRef := fun b =>
  match scanLine [.i, .i, .i] b with
  | some ([i, p, e], b) => some (⟨i, toBool p, toBool e⟩, b)
  | _ => none

structure Lists where
  completed : List Completed
  parameters : List (Bytes × Bytes)
  scripts : List (I32 × Bytes)
  stats : List Stat
  files : List FileRef   -- the files which are not marked as deleted
  deriving DecidableEq, Repr

def saveLists (l : Lists) : List Bytes :=
  countLine l.completed.length :: l.completed.flatMap saveCompleted ++
  (countLine l.parameters.length :: l.parameters.map (fun p => p.1 ++ 61 :: p.2)) ++
  (countLine l.scripts.length :: l.scripts.map (fun s => showNums [(.i, s.1)] ++ 44 :: s.2)) ++
  saveStats l.stats ++
  (countLine l.files.length ::
    l.files.map (fun f => showNums [(.i, f.id), (.i, ofBool f.paused), (.i, ofBool f.extraPriority)]))

def loadLists (servers : List (I32 × I32)) : Reader Lists := fun b => do
  let (completed, b) ← readList loadCompleted b
  let (ps, b) ← readList loadParameter b
  let (scripts, b) ← readList loadScript b
  let (stats, b) ← loadStats servers b
  let (files, b) ← readList loadFileRef b
  some (⟨completed, ps.foldl addParameter [], scripts.filterMap id, stats, files⟩, b)

/-! ### The record -/

structure Rec where
  texts : Texts
  settings : Settings
  sizes : Sizes
  dupe : Dupe
  lists : Lists
  deriving DecidableEq, Repr

/-- The lines of `SaveNzbInfo` (537-630). -/
def saveLines (r : Rec) : List Bytes :=
  saveTexts r.texts ++ saveSettings r.settings ++ saveSizes r.sizes ++ saveDupe r.dupe ++ saveLists r.lists

/-- `SaveNzbInfo`; `none`: write beyond the line buffer. -/
def saveRec (r : Rec) : Option Bytes := printLines (saveLines r)

/-- `LoadNzbInfo` (632-980). -/
def loadRec (nice : Bytes → Bytes → Bytes) (servers : List (I32 × I32)) : Reader Rec := fun b => do
  let (texts, b) ← loadTexts nice b
  let (settings, b) ← loadSettings texts.kind b
  let (sizes, b) ← loadSizes b
  let (dupe, b) ← loadDupe b
  let (lists, b) ← loadLists servers b
  some (⟨texts, settings, sizes, dupe, lists⟩, b)

/-- `SaveQueue` (461-470) and `LoadQueue` (472-491). -/
def saveQueue (rs : List Rec) : Option Bytes :=
  printLines (countLine rs.length :: rs.flatMap saveLines)

def loadQueue (nice : Bytes → Bytes → Bytes) (servers : List (I32 × I32)) : Reader (List Rec) :=
  readList (loadRec nice servers)

/-- The stage after the start (PrePostProcessor.cpp:189-210). Stages: 0 `ptQueued`, 9 `ptMoving`,
10 `ptExecutingScript`, 11 `ptFinished`. -/
def sanitise (dirExists : Bool) (p : Post) : Post :=
  if p.stage = 10 ∨ dirExists = false then { p with stage := 11 } else { p with stage := 0 }

end Verif.Record
