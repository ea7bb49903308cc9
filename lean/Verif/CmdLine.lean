import Verif.CStr
/-
Model of the splitting of a command line into arguments, /repo/daemon/util/Util.cpp:316-382.
-/
namespace Verif.CmdLine
open CStr

/-- The two flags `escaping` and `space` (Util.cpp:321-322). They are never both set: `space` is cleared where `escaping` is
set (356-357), and set where it is cleared (339-340). -/
inductive Mode where
  | word | space | quote
  deriving DecidableEq, Repr

/-- `if (len < sizeof(buf) - 1) buf[len++] = c` with `char buf[1024]` (Util.cpp:319, 343-346, 359-363). -/
def push (buf : Bytes) (c : UInt8) : Bytes := if buf.length < 1023 then buf ++ [c] else buf

/-- The token which is added (Util.cpp:367-373) before the others. -/
def emit (buf : Bytes) (rest : List Bytes) : List Bytes := if buf = [] then rest else buf :: rest

/-- The loop (Util.cpp:323-379). `buf` are the first `len` bytes of the buffer. In the mode `space` the buffer is empty, since
it was emptied at the end of the turn before (367-373), so that the test for a full buffer at 359 matters only in a
word. -/
def loop : Bytes → (buf : Bytes) → Mode → List Bytes
  | [], buf, _ => emit buf []
  | c :: r, buf, .quote =>
    if c = 39 then
      match r with
      | [] => emit buf (loop [] [] .space)
      | d :: r' =>
        if d = 39 ∧ buf.length < 1023 then loop r' (buf ++ [c]) .quote
        else emit buf (loop (d :: r') [] .space)
    else loop r (push buf c) .quote
  | c :: r, buf, .space =>
    if c = 32 then emit buf (loop r [] .space)
    else if c = 39 then loop r buf .quote
    else loop r (push buf c) .word
  | c :: r, buf, .word =>
    if c = 32 then emit buf (loop r [] .space)
    else loop r (push buf c) .word

/-- Util::SplitCommandLine (Util.cpp:316-382). -/
def split (s : Bytes) : List Bytes := loop s [] .space

end Verif.CmdLine
