import Verif.CStr
import Verif.FeedFilter
/-
Model of /repo/daemon/util/Util.cpp:1801-1847 (Tokenizer) with any set of separators. `FeedFilter.words`
is the special case of the words of a text. `trim` is Util::Trim.
-/
namespace Verif.Tokens
open CStr FeedFilter

/-- The tokens of strtok_r: the longest pieces without a separator. `cur` is the piece being read, in
reverse. -/
def pieces (sep : UInt8 → Bool) : (cur : Bytes) → Bytes → List Bytes
  | cur, [] => if cur = [] then [] else [cur.reverse]
  | cur, c :: s =>
    if sep c then (if cur = [] then [] else [cur.reverse]) ++ pieces sep [] s
    else pieces sep (c :: cur) s

/-- Tokenizer::Next until the end (Util.cpp:1833-1848): trimmed tokens which are not empty. -/
def tokens (sep : UInt8 → Bool) (s : Bytes) : List Bytes :=
  ((pieces sep [] s).map trim).filter (fun w => !w.isEmpty)

end Verif.Tokens
