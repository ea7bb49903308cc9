import Verif.Record
/-
Model of the files of the state directory which belong to one file of the queue: the article list ("N"),
daemon/queue/DiskState.cpp:1036-1071 `SaveFileInfo`, 1094-1173 `LoadFileInfo` (both for the format version which is
written), and the progress of a partly downloaded ("Ns") or completed ("Nc") file, 1191-1217 `SaveFileState`,
1235-1340 `LoadFileState`.
-/
namespace Verif.FileState
open Verif.Text Verif.Record

/-! ### Article list -/

structure Article where
  partNumber : I32
  size : I32
  messageId : Bytes
  deriving DecidableEq, Repr

/-- The part of `FileInfo` stored in the file "N". A null `origname` is the empty string. -/
structure Info where
  subject : Bytes
  filename : Bytes
  origname : Bytes
  filenameConfirmed : Bool
  time : I64
  size : I64
  missedSize : I64
  parFile : Bool
  totalArticles : I32
  missedArticles : I32
  groups : List Bytes
  articles : List Article
  deriving DecidableEq, Repr

/-- 1063-1067. -/
def saveArticle (a : Article) : List Bytes := [showNums [(.i, a.partNumber), (.i, a.size)], a.messageId]

/-- 1036-1071 with `articles = true`. -/
def saveInfo (f : Info) : List Bytes :=
  [f.subject, f.filename, f.origname,
   showNums [(.i, ofBool f.filenameConfirmed), (.i, timeToInt f.time)],
   showNums (halves f.size), showNums (halves f.missedSize), showNums [(.i, ofBool f.parFile)],
   showNums [(.i, f.totalArticles), (.i, f.missedArticles)],
   countLine f.groups.length] ++ f.groups ++
  countLine f.articles.length :: f.articles.flatMap saveArticle

/-- 1155-1164. -/
def loadArticle : Reader Article := fun b => do
  let ([partNumber, size], b) ← scanLine [.i, .i] b | none
  let (messageId, b) ← readLine 1024 b
  some (⟨partNumber, size, messageId⟩, b)

/-- 1094-1173 with `fileSummary = articles = true`; the second component is the remaining size which is set at
1131. -/
def loadInfo : Reader (Info × I64) := fun b => do
  let (subject, b) ← readLine 1024 b
  let (filename, b) ← readLine 1024 b
  let (origname, b) ← readLine 1024 b
  let ([confirmed, time], b) ← scanLine [.i, .i] b | none
  let ([h1, l1], b) ← scanLine [.u, .u] b | none
  let ([h2, l2], b) ← scanLine [.u, .u] b | none
  let ([parFile], b) ← scanLine [.i] b | none
  let ([total, missed], b) ← scanLine [.i, .i] b | none
  let (groups, b) ← readList (readLine 1024) b
  let (articles, b) ← readList loadArticle b
  some (({
    subject, filename, origname, filenameConfirmed := toBool confirmed, time := intToTime time,
    size := joinInt64 h1 l1, missedSize := joinInt64 h2 l2, parFile := toBool parFile, totalArticles := total,
    missedArticles := missed, groups, articles }, joinInt64 h1 l1 - joinInt64 h2 l2), b)

/-! ### Progress -/

/-- `ArticleInfo::EStatus` (daemon/queue/DownloadInfo.h:77-83). -/
def aiUndefined : I32 := 0
def aiRunning : I32 := 1
def aiFinished : I32 := 2
def aiFailed : I32 := 3

/-- What is stored for one article. -/
structure Part where
  status : I32
  segmentOffset : I64
  segmentSize : I32
  crc : I32
  deriving DecidableEq, Repr

structure State where
  successArticles : I32
  failedArticles : I32
  remainingSize : I64
  successSize : I64
  failedSize : I64
  filename : Bytes
  hash16k : Bytes
  parSetId : Bytes
  parFile : Bool
  stats : List Stat
  parts : List Part
  deriving DecidableEq, Repr

/-- 1211-1212: the offset is cast to 32 bits. -/
def savePart (p : Part) : Bytes :=
  showNums [(.i, p.status), (.u, p.segmentOffset.setWidth 32), (.i, p.segmentSize), (.u, p.crc)]

/-- 1191-1217. -/
def saveState (s : State) : List Bytes :=
  [showNums [(.i, s.successArticles), (.i, s.failedArticles)],
   showNums (halves s.remainingSize ++ halves s.successSize ++ halves s.failedSize),
   s.filename, s.hash16k, s.parSetId, showNums [(.i, ofBool s.parFile)]] ++ saveStats s.stats ++
  countLine s.parts.length :: s.parts.map savePart

/-- `none` in a `Reader` is `goto error`; here there is also the exception thrown by `at(i)`. -/
inductive Outcome (α : Type)
  | ok (a : α)
  | error
  | exception
  deriving DecidableEq, Repr

/-- The status that one article gets (1303-1321): `all` is the test of 1319. -/
def statusOf (status : I32) (last : Bool) : I32 :=
  if last then aiUndefined else if status = aiRunning then aiUndefined else status

/-- `at(i)` throws: there were articles, but not that many (1281-1285). -/
def beyond : Option Nat → Nat → Bool
  | none, _ => false
  | some k, i => decide (k ≤ i)

/-- The loop 1279-1329: `n` iterations are left, `i` is the index, `done` is `completedArticles`. `present` is the number
of articles in memory if there are any (`hasArticles`). Not modelled: the name of the temporary file (1310-1315). -/
def loadParts (present : Option Nat) (size : Nat) (completed : Bool) :
    Nat → Nat → Nat → Bytes → Outcome (List Part × Nat × Bytes)
  | 0, _, done, b => .ok ([], done, b)
  | n + 1, i, done, b =>
    if beyond present i then .exception
    else
      match scanLine [.i, .u, .i, .u] b with
      | some ([st, off, sz, crc], b) =>
        let status := statusOf st (decide ((done : Int) = (size : Int) - 1) && !completed)
        match loadParts present size completed n (i + 1) (if status ≠ aiUndefined then done + 1 else done) b with
        | .ok (ps, done, b) => .ok (⟨status, off.setWidth 64, sz, crc⟩ :: ps, done, b)
        | .error => .error
        | .exception => .exception
      | _ => .error

/-- 1237-1278. -/
def loadHead (servers : List (I32 × I32)) : Reader (State × Nat) := fun b => do
  let ([success, failed], b) ← scanLine [.i, .i] b | none
  let ([h1, l1, h2, l2, h3, l3], b) ← scanLine [.u, .u, .u, .u, .u, .u] b | none
  let (filename, b) ← readLine 1024 b
  let (hash16k, b) ← readLine 1024 b
  let (parSetId, b) ← readLine 1024 b
  let ([parFile], b) ← scanLine [.i] b | none
  let (stats, b) ← loadStats servers b
  let ([size], b) ← scanLine [.i] b | none
  some (({
    successArticles := success, failedArticles := failed, remainingSize := joinInt64 h1 l1,
    successSize := joinInt64 h2 l2, failedSize := joinInt64 h3 l3, filename, hash16k, parSetId,
    parFile := toBool parFile, stats, parts := [] }, size.toInt.toNat), b)

/-- 1235-1340; the number is `completedArticles`. -/
def loadState (servers : List (I32 × I32)) (present : Option Nat) (completed : Bool) (b : Bytes) :
    Outcome (State × Nat) :=
  match loadHead servers b with
  | none => .error
  | some ((s, size), b) =>
    match loadParts present size completed size 0 0 b with
    | .ok (ps, done, _) => .ok ({ s with parts := ps }, done)
    | .error => .error
    | .exception => .exception

end Verif.FileState
