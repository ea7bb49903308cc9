import Verif.Crc
import Verif.CStr
/-
Model of putting a file together from its articles: where `ArticleWriter::Start`/`Finish` put a received
article (daemon/nntp/ArticleWriter.cpp:60-234), `FlushCache` (571-692) and `CompleteFileParts` (294-560).
Not modelled: raw mode, option SkipWrite, disk errors, the names of the files, parking and deletion while
the cache is flushed, and articles larger than announced (Writer.lean).
-/
namespace Verif.Assemble
open CStr

/-- `direct`: option DirectWrite; `force`: the file was put back from the history and is written
directly into its (already complete) output file (`GetForceDirectWrite`, QueueCoordinator.cpp:970-986). -/
structure Opt where
  direct : Bool
  force : Bool

/-- An article of the file. `content` is the segment in the cache (`GetSegmentContent`), `result` the
article file in the temporary directory, if it exists. -/
structure Art where
  finished : Bool := false
  off : Nat := 0
  size : Nat := 0
  content : Option Bytes := none
  result : Option Bytes := none
  crc : BitVec 32 := 0
  deriving DecidableEq, Repr

/-- The file being downloaded. `out` is the output file, present once `outInit` (`GetOutputInitialized`)
in direct write mode. `cached` is `GetCachedArticles`. -/
structure File where
  outInit : Bool := false
  out : Bytes := []
  arts : List Art := []
  cached : Int := 0
  deriving DecidableEq, Repr

/-- What `fseek(pos)` and `fwrite(data)` make of a file: a gap before `pos` reads as zeros. -/
def writeAt (f : Bytes) (pos : Nat) (data : Bytes) : Bytes :=
  if data = [] then f
  else f.take pos ++ List.replicate (pos - f.length) 0 ++ data ++ f.drop (pos + data.length)

/-- ArticleWriter.cpp:95-106 with `CreateOutputFile` (236-272): an existing file of the right size is
kept, otherwise a file of zeros is created (`FileSystem::AllocateFile`, FileSystem.cpp:255-330). Only the
first yEnc article in direct write mode does it. -/
def createOutput (o : Opt) (f : File) (yenc : Bool) (fileSize : Nat) : File :=
  if yenc && o.direct && !f.outInit then
    { f with outInit := true,
             out := if f.out.length = fileSize then f.out else List.replicate fileSize 0 }
  else f

/-- Does an article without cache buffer go directly into the output file? (ArticleWriter.cpp:128,189) -/
def directArticle (o : Opt) (yenc : Bool) : Bool := (o.direct || o.force) && yenc

/-- The article is recorded: ArticleWriter.cpp:202-219, status and checksum by
ArticleDownloader.cpp:512-516 and its caller. -/
def setArt (f : File) (i : Nat) (g : Art → Art) : File := { f with arts := f.arts.modify i g }

/-- An article was received completely and accepted: `Start`, `Write`, `Finish(true)`. `buffered`: the
cache had room. The cache is not used for other formats than yEnc in direct write mode (113-114). -/
def received (o : Opt) (f : File) (i : Nat) (yenc buffered : Bool) (fileSize off : Nat) (data : Bytes) (crc : BitVec 32) : File :=
  let f := createOutput o f yenc fileSize
  if buffered && (!o.direct || yenc) then
    { setArt f i (fun a => { a with finished := true, off := off, size := data.length, crc := crc, content := some data }) with
      cached := f.cached + 1 }                                             -- 202-213
  else if directArticle o yenc then
    let f := { f with out := writeAt f.out off data }                      -- 135-139, 172
    setArt f i (fun a => { a with finished := true, off := off, size := data.length, crc := crc })
  else
    setArt f i (fun a => { a with finished := true, off := off, size := data.length, crc := crc, result := some data })

/-- An article failed after `data` was received: `Finish(false)` (175-185) removes the article file; the
buffer goes back to the cache; but what was written directly into the output file stays there. -/
def broken (o : Opt) (f : File) (i : Nat) (yenc buffered : Bool) (fileSize off : Nat) (data : Bytes) : File :=
  let f := createOutput o f yenc fileSize
  if buffered && (!o.direct || yenc) then setArt f i (fun a => { a with result := none })
  else if directArticle o yenc then
    setArt { f with out := writeAt f.out off data } i (fun a => { a with result := none })
  else setArt f i (fun a => { a with result := none })

/-- ArticleWriter.cpp:571-692 `FlushCache`, one article: `direct` is the decision of line 575, which looks
at the option only. -/
def flushArt (direct : Bool) (out : Bytes) (a : Art) : Bytes × Art :=
  match a.content with
  | none => (out, a)
  | some d => if direct then (writeAt out a.off d, { a with content := none })
    else (out, { a with content := none, result := some d })

def flushArts (direct : Bool) : Bytes → List Art → Bytes × List Art
  | out, [] => (out, [])
  | out, a :: as =>
    ((flushArts direct (flushArt direct out a).1 as).1, (flushArt direct out a).2 :: (flushArts direct (flushArt direct out a).1 as).2)

/-- Number of articles in the cache. -/
def inCache (as : List Art) : Nat := as.countP (fun a => a.content.isSome)

def flush (o : Opt) (f : File) : File :=
  { f with out := (flushArts (o.direct && f.outInit) f.out f.arts).1,
           arts := (flushArts (o.direct && f.outInit) f.out f.arts).2,
           cached := f.cached - inCache f.arts }

/-- `(int)gap` (ArticleWriter.cpp:423). -/
def toInt32 (n : Nat) : Int := (n : Int).bmod (2 ^ 32)

/-- ArticleWriter.cpp:420-424: zeros are written in pieces of at most 64 KB until the position is
reached. The distance is converted to `int`: if that is negative `fwrite` gets a huge length (`none`,
undefined), if it is zero the loop ends. -/
def fillGap : Nat → Bytes → Nat → Nat → Option (Bytes × Nat)
  | 0, f, pos, _ => some (f, pos)
  | fuel + 1, f, pos, off =>
    if pos < off then
      if toInt32 (off - pos) < 0 then none
      else if toInt32 (off - pos) = 0 then some (f, pos)
      else
        fillGap fuel (writeAt f pos (List.replicate (min (toInt32 (off - pos)).toNat 65536) 0))
          (pos + min (toInt32 (off - pos)).toNat 65536) off
    else some (f, pos)

/-- ArticleWriter.cpp:427-457: writing the article; the article file is copied in pieces of 64 KB
(441-446), here at once. -/
def place (f : Bytes) (pos : Nat) (a : Art) : Bytes × Nat :=
  match a.content with
  | some d => (writeAt f a.off d, a.off + d.length)                       -- 427-434
  | none =>
    match a.result with
    | some d => (writeAt f pos d, pos + d.length)                         -- 435-447
    | none => (f, pos)                                                    -- 448-457

/-- ArticleWriter.cpp:409-467, one finished article when the articles are joined (no direct write):
output file and position in it. -/
def joinArt (f : Bytes) (pos : Nat) (a : Art) : Option (Bytes × Nat) :=
  (fillGap (a.off + 1) f pos a.off).map (fun r => place r.1 r.2 a)        -- 416-425

def join : Bytes → Nat → List Art → Option Bytes
  | f, _, [] => some f
  | f, pos, a :: as => if a.finished then (joinArt f pos a).bind (fun r => join r.1 r.2 as) else join f pos as

/-- The same loop in direct write mode: only the segments still in the cache are written. `none`: the
output file was not opened because the counter of cached articles is not positive (372-383), although an
article is in the cache. -/
def writeCached (opened : Bool) : Bytes → List Art → Option Bytes
  | f, [] => some f
  | f, a :: as =>
    if a.finished && a.content.isSome then
      if opened then writeCached opened (writeAt f a.off (a.content.getD [])) as else none
    else writeCached opened f as

/-- ArticleWriter.cpp:294-560 `CompleteFileParts`: the bytes of the completed file. -/
def complete (o : Opt) (f : File) : Option Bytes :=
  if (o.direct || o.force) && f.outInit then writeCached (decide (f.cached > 0)) f.out f.arts
  else join [] 0 f.arts

/-- ArticleWriter.cpp:396, 470-474: the checksum of the completed file. -/
def fileCrc : Bool → BitVec 32 → List Art → Option (BitVec 32)
  | _, crc, [] => some crc
  | first, crc, a :: as =>
    if a.finished then
      if first then fileCrc false a.crc as
      else (Crc.combine crc a.crc a.size).bind (fun c => fileCrc false c as)
    else fileCrc first crc as

/-- What happens while a file is downloaded. -/
inductive Ev where
  | received (i : Nat) (yenc buffered : Bool) (off : Nat) (data : Bytes) (crc : BitVec 32)
  | broken (i : Nat) (yenc buffered : Bool) (off : Nat) (data : Bytes)
  | flush
  deriving DecidableEq

/-- One event; `fileSize` is the size announced in the articles (the same in all). -/
def step (o : Opt) (fileSize : Nat) (f : File) : Ev → File
  | .received i y b off d c => received o f i y b fileSize off d c
  | .broken i y b off d => broken o f i y b fileSize off d
  | .flush => flush o f

def run (o : Opt) (fileSize : Nat) (f : File) (evs : List Ev) : File := evs.foldl (step o fileSize) f

end Verif.Assemble
