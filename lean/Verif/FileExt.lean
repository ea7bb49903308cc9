import Verif.Tokens
import Verif.WildMask
/-
Model of /repo/daemon/util/Util.cpp Util::MatchFileExt (291-314) and of
/repo/daemon/postprocess/Cleanup.cpp CleanupController::Cleanup (190-222).
-/
namespace Verif.FileExt
open CStr FeedFilter

/-- The separators `,;` of all lists of extensions in options. -/
def comma (c : UInt8) : Bool := c == 44 || c == 59

/-- The test for one extension (Util.cpp:298-309): the end of the name or, if it has `*` or `?`, a mask for the
whole name. -/
def matchOne (name ext : Bytes) : Bool :=
  (decide (ext.length ≤ name.length) &&
    (ext.map WildMask.lower == (name.drop (name.length - ext.length)).map WildMask.lower)) ||
  ((ext.contains 42 || ext.contains 63) && WildMask.matches? ext name)

/-- Util::MatchFileExt (Util.cpp:291-314). -/
def matchFileExt (name list : Bytes) : Bool := (Tokens.tokens comma list).any (matchOne name)

/-- A directory with all subdirectories: entries one after the other. -/
inductive Tree where
  | nil
  | file (name data : Bytes) (rest : Tree)
  | dir (name : Bytes) (inner rest : Tree)
deriving DecidableEq, Repr

/-- CleanupController::Cleanup (Cleanup.cpp:190-222): the result and the directory afterwards. `list`: the option
ExtCleanupDisk; `delOk`: which files (given by their path) can be deleted; `path`: the directory. -/
def cleanup (list : Bytes) (delOk : List Bytes → Bool) : (path : List Bytes) → Tree → Bool × Tree
  | _, .nil => (true, .nil)
  | path, .file n data rest =>
    let r := cleanup list delOk path rest
    if matchFileExt n list then
      if delOk (path ++ [n]) then r else (false, .file n data r.2)
    else (r.1, .file n data r.2)
  | path, .dir n inner rest =>
    let i := cleanup list delOk (path ++ [n]) inner
    let r := cleanup list delOk path rest
    (i.1 && r.1, .dir n i.2 r.2)

end Verif.FileExt
