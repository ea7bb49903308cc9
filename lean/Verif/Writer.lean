import Verif.Decoder
/-
Model of writing one article, daemon/nntp/ArticleWriter.cpp:60-234 `Start`, `Write` and `Finish`, and of
the choice of the segment size in daemon/nntp/ArticleDownloader.cpp:448-492. Raw mode and the option
SkipWrite are not modelled; disk errors neither. Numbers are unbounded: the counter of received bytes
(`int m_articlePtr`) would overflow only after 2 GB of one article.
-/
namespace Verif.Writer
open Verif.Decoder CStr

/-- A cell of memory from `malloc`: `none` until something is stored there. -/
abbrev Cell := Option UInt8

/-- The writer of one article. `size` is `m_articleSize`, `ptr` is `m_articlePtr`; `buf` is the buffer
from the cache, if there is one; `file` is what was written to the file otherwise. -/
structure W where
  size : Nat
  ptr : Nat := 0
  buf : Option (List Cell) := none
  file : Bytes := []
  deriving DecidableEq, Repr

/-- ArticleDownloader.cpp:455-480: size of the segment for a yEnc article, from the announced positions;
`none` means that the article is refused. Line 469 converts the difference to `int`. -/
def yencSize (beginPos endPos : Int) : Option Nat :=
  if beginPos = 0 ∨ endPos = 0 then none                                   -- 463-466
  else
    let n := (endPos - beginPos + 1).bmod (2 ^ 32)                         -- 469
    if n ≤ 0 ∨ n > 1024 * 1024 * 1024 then none else some n.toNat          -- 470-474

/-- ArticleWriter.cpp:60-143 `Start`: `cached` tells if the cache had room for the segment. -/
def start (size : Nat) (cached : Bool) : W :=
  { size := size, buf := if cached then some (List.replicate size none) else none }

/-- `memcpy(data + at, chunk, len)`; `none` if that would leave the buffer. -/
def memcpy (buf : List Cell) (at_ : Nat) (chunk : Bytes) : Option (List Cell) :=
  if at_ + chunk.length ≤ buf.length then
    some (buf.take at_ ++ chunk.map some ++ buf.drop (at_ + chunk.length))
  else none

/-- ArticleWriter.cpp:145-173 `Write`; `none` is an access outside of the buffer. -/
def write (w : W) (chunk : Bytes) : Option W :=
  let w := { w with ptr := w.ptr + chunk.length }                          -- 149
  if w.ptr > w.size then some w                                            -- 152-159
  else match w.buf with
    | some b => (memcpy b (w.ptr - chunk.length) chunk).map (fun b => { w with buf := some b })  -- 161-165
    | none => some { w with file := w.file ++ chunk }                      -- 172

/-- The writes of one article. -/
def writes (w : W) : List Bytes → Option W
  | [] => some w
  | c :: cs => do let w ← write w c; writes w cs

/-- `realloc` of the buffer: kept up to the smaller size, new memory has no value. -/
def resize (b : List Cell) (n : Nat) : List Cell := b.take n ++ List.replicate (n - b.length) none

/-- ArticleWriter.cpp:202-213 `Finish(true)` for a cached article: the content attached to the article;
its size is `m_articlePtr`. -/
def finishCached (w : W) : Option (List Cell) :=
  w.buf.map (fun b => if w.size ≠ w.ptr then resize b w.ptr else b)

end Verif.Writer
