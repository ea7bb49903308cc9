/-
Model of the accounting of the article cache: `ArticleCache::Alloc`, `Realloc` and `Free` in
daemon/nntp/ArticleWriter.cpp:763-818, and of the flag file that tells the next program start that the
cache was not empty (daemon/queue/DiskState.cpp:2387-2405). Each operation runs under `m_allocMutex`, so
a history is a sequence of operations, whatever the threads do.
-/
namespace Verif.Cache

/-- `limit`: option ArticleCache in bytes (megabytes times 1024*1024, ArticleWriter.cpp:769); `server`:
options ServerMode and ContinuePartial are both on (774). -/
structure Cfg where
  limit : Nat
  server : Bool

/-- `allocated` is `m_allocated` (an integer here, so that a wrong subtraction would show), `flag` tells
if the flag file exists, `segs` are the sizes of the segments holding memory of the cache, `leaked`
counts the blocks whose segment is gone but which were never given back. -/
structure Cache where
  allocated : Int := 0
  flag : Bool := false
  segs : List Nat := []
  leaked : Nat := 0
  deriving DecidableEq, Repr

/-- The operations; `mem` tells if the C library had memory. `i` is the position of a live segment. -/
inductive Op where
  | alloc (size : Nat) (mem : Bool)
  | realloc (i newSize : Nat) (mem : Bool)
  | free (i : Nat)

/-- ArticleWriter.cpp:763-788 `Alloc`. A negative size never gets memory (the conversion to `size_t`
makes it huge) and is not modelled. The notification of the flushing thread (778-782) is left out. -/
def alloc (c : Cfg) (s : Cache) (size : Nat) (mem : Bool) : Cache × Bool :=
  if s.allocated + size ≤ c.limit ∧ mem then                                -- 769-772
    ({ s with flag := s.flag || (decide (s.allocated = 0) && c.server),     -- 774-777
              allocated := s.allocated + size,                              -- 783
              segs := s.segs ++ [size] }, true)
  else (s, false)

/-- ArticleWriter.cpp:790-803 `Realloc`. A new size of 0, for which the C library may give the block back
and report nothing, does not happen: the writer only finishes after at least one byte was received
(ArticleDownloader.cpp:383-387,401). -/
def realloc (s : Cache) (i newSize : Nat) (mem : Bool) : Cache × Bool :=
  match s.segs[i]? with
  | none => (s, false)
  | some size =>
    if mem then
      ({ s with allocated := s.allocated + ((newSize : Int) - size),        -- 797
                segs := s.segs.set i newSize }, true)                       -- 798-799
    else (s, false)

/-- ArticleWriter.cpp:805-818 `Free`, called when a segment is destroyed or overwritten (29-42). -/
def free (c : Cfg) (s : Cache) (i : Nat) : Cache :=
  match s.segs[i]? with
  | none => s
  | some size =>
    if size ≠ 0 then
      { s with allocated := s.allocated - size,                             -- 812
               flag := if s.allocated - size = 0 ∧ c.server then false else s.flag,  -- 813-816
               segs := s.segs.eraseIdx i }
    else { s with segs := s.segs.eraseIdx i, leaked := s.leaked + 1 }

/-- One operation. -/
def step (c : Cfg) (s : Cache) : Op → Cache
  | .alloc size mem => (alloc c s size mem).1
  | .realloc i n mem => (realloc s i n mem).1
  | .free i => free c s i

/-- A history, starting with an empty cache (no flag file: it is removed when the saved state is read). -/
def run (c : Cfg) (ops : List Op) : Cache := ops.foldl (step c) {}

end Verif.Cache
