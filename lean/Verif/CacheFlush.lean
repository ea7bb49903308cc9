/-
Model of the thread which writes the article cache to disk: ArticleCache::Run and CheckFlush (/repo/daemon/nntp/ArticleWriter.cpp:820-848, 859-899)
and ArticleWriter::FlushCache (571-692) as far as it decides what becomes of the cached articles. Where on disk an article is written is the subject of
Verif.Assemble, the accounting of memory that of Verif.Cache.

The downloads run between the passes of the loop, in any order. The downloads of a file which is being flushed wait for the flush at the points where it
matters (GuardFlush, GuardContent), so that a flush is one step here. No other thread locks the file against flushing (FlushLocked is also set by
DiscardDownloadedArticles, QueueCoordinator.cpp:1396-1415, for the time of its work).
-/
namespace Verif.CacheFlush

structure Art where
  id : Nat
  size : Nat
deriving DecidableEq, Repr

/-- A file of the queue: the articles whose content is in the cache, the number of them which is kept in the file (CachedArticles), the articles which are being
downloaded into memory of the cache, the number of further active downloads, and whether the file is deleted. -/
structure File where
  cached : List Art := []
  counter : Nat := 0
  loading : List Art := []
  others : Nat := 0
  deleted : Bool := false
deriving DecidableEq, Repr

/-- What the disk does with an article: it is written; the file can't be opened or created (614-625, 632-643); it can't be written or renamed, which is not looked at or
only reported (658-661, 672-677). -/
inductive Io where
  | ok | noOpen | noWrite
deriving DecidableEq, Repr

structure Flushed where
  left : List Art
  disk : List Art
  lost : List Art
  count : Nat
deriving DecidableEq, Repr

/-- The loop of FlushCache (606-679). -/
def flushArts (io : Art → Io) : List Art → Flushed
  | [] => ⟨[], [], [], 0⟩
  | a :: l =>
    match io a with
    | .noOpen => ⟨l, [], [a], 1⟩                                                 -- 621-624
    | .noWrite => let r := flushArts io l; ⟨r.left, r.disk, a :: r.lost, r.count + 1⟩
    | .ok => let r := flushArts io l; ⟨r.left, a :: r.disk, r.lost, r.count + 1⟩  -- 658-666

/-- FlushCache (571-692) of one file. A deleted file is left as it is (608-612). -/
def flushFile (io : Art → Io) (f : File) : File × Flushed :=
  if f.deleted then (f, ⟨f.cached, [], [], 0⟩)
  else
    let r := flushArts io f.cached
    ({ f with cached := r.left, counter := f.counter - r.count }, r)              -- 685

def File.idle (f : File) : Bool := f.loading.length + f.others == 0

/-- CheckFlush (859-899): the first file with cached articles, which is not being downloaded unless everything has to be flushed. -/
def checkFlush (io : Art → Io) (everything : Bool) : List File → Option (List File × Flushed)
  | [] => none
  | f :: fs =>
    if 0 < f.counter && (f.idle || everything) then let r := flushFile io f; some (r.1 :: fs, r.2)   -- 876
    else (checkFlush io everything fs).map (fun r => (f :: r.1, r.2))

def sizes (l : List Art) : Nat := (l.map Art.size).sum

/-- The memory of the cache in use. -/
def allocated (fs : List File) : Nat := (fs.map (fun f => sizes f.cached + sizes f.loading)).sum

/-- The options ArticleCache, in megabytes, and DirectWrite. -/
structure Cfg where
  megabytes : Nat
  direct : Bool

/-- 823 -/
def Cfg.threshold (c : Cfg) : Nat := c.megabytes * 1024 * 1024 / 100 * 90

structure State where
  files : List File
  disk : List Art := []
  lost : List Art := []
  just : Bool := false
  reset : Nat := 0
  stopped : Bool := false
deriving DecidableEq, Repr

/-- The condition of the loop (827). -/
def State.ended (s : State) : Bool := s.stopped && allocated s.files == 0

/-- One pass of the loop of Run (827-847). -/
def pass (c : Cfg) (io : Art → Io) (s : State) : State :=
  if s.ended then s
  else if (s.just || decide (1000 ≤ s.reset) || s.stopped || (c.direct && decide (c.threshold ≤ allocated s.files))) && decide (0 < allocated s.files) then
    match checkFlush io (decide (c.threshold ≤ allocated s.files)) s.files with
    | none => { s with just := false, reset := 0 }
    | some (fs, r) => { s with files := fs, disk := s.disk ++ r.disk, lost := s.lost ++ r.lost, just := true, reset := 0 }
  else if allocated s.files = 0 then { s with reset := 0 }
  else { s with reset := s.reset + 5 }

def passes (c : Cfg) (io : Art → Io) : Nat → State → State
  | 0, s => s
  | n + 1, s => passes c io n (pass c io s)

/-- What happens: a pass of the loop, the beginning of a download of file `i` into the cache (Alloc, 112, 117), its completion (204-213), its end without an article, or the
stop of the program. -/
inductive Event where
  | pass
  | start (i : Nat) (a : Art)
  | finish (i : Nat)
  | abort (i : Nat)
  | stop

/-- ArticleWriter::Finish (178-230, of it 204-213): the content belongs to the article now, and is counted. -/
def finishOne (f : File) : File :=
  match f.loading with
  | [] => f
  | a :: l => { f with loading := l, cached := f.cached ++ [a], counter := f.counter + 1 }

def abortOne (f : File) : File := { f with loading := f.loading.tail }

def step (c : Cfg) (io : Art → Io) (s : State) : Event → State
  | .pass => pass c io s
  | .start i a => { s with files := s.files.modify i (fun f => { f with loading := f.loading ++ [a] }) }
  | .finish i => { s with files := s.files.modify i finishOne }
  | .abort i => { s with files := s.files.modify i abortOne }
  | .stop => { s with stopped := true }

end Verif.CacheFlush
