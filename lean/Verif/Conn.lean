import Verif.CStr
/-
Model of the buffered reader of daemon/connect/Connection.cpp.
-/
namespace Verif.Conn
open CStr

/-- Connection.h `EStatus`, the part relevant for reading. -/
inductive Status where | connected | broken
  deriving DecidableEq, Repr

/-- A connection: `buf` is the unread part of `m_readBuf` (`m_bufAvail` bytes from `m_bufPtr` on);
`sock` is what the peer still sends, cut into the pieces in which the socket delivers it; after the
last piece `recv` reports end of stream, or an error if `err`. -/
structure Conn where
  status : Status := .connected
  buf : Bytes := []
  sock : List Bytes
  err : Bool := false
  deriving DecidableEq, Repr

/-- Result of the `recv` system call. -/
inductive Recv where | data (b : Bytes) (sock : List Bytes) | eof | error
  deriving DecidableEq, Repr

/-- The `recv` system call with a buffer of `n` bytes: at most `n` bytes of the next piece. -/
def recvSock (sock : List Bytes) (err : Bool) (n : Nat) : Recv :=
  match sock with
  | [] => if err then .error else .eof
  | c :: cs => if c = [] then .eof else if c.length ≤ n then .data c cs else .data (c.take n) (c.drop n :: cs)

/-- `memchr(bufPtr, '\n', bufAvail)` and the length computed from it (Connection.cpp:427-436):
the length up to and including the newline, or everything; and whether a newline was found. -/
def lineLen : Bytes → Nat × Bool
  | [] => (0, false)
  | b :: l => if b = 10 then (1, true) else let r := lineLen l; (r.1 + 1, r.2)

/-- Connection.cpp:27 and 122: size passed to `recv`, CONNECTION_READBUFFER_SIZE. -/
def readBufSize : Nat := 1024

/-- Connection.cpp:404-454, the loop of `ReadLine`; `fuel` bounds the iterations (each copies at least
one byte). Returns the bytes copied and the connection. -/
def readLoop : Nat → Nat → Conn → Bytes → Option (Bytes × Conn)
  | 0, _, _, _ => none
  | fuel + 1, size, c, out =>
    if size = 0 then some (out, c) else                            -- 404
    let step (c : Conn) :=                                         -- 427-453
      let (len, p) := lineLen c.buf
      let len := if len > size then size else len
      let out := out ++ c.buf.take len
      let c := { c with buf := c.buf.drop len }
      if p then some (out, c) else readLoop fuel (size - len) c out
    if c.buf = [] then                                             -- 406
      match recvSock c.sock c.err readBufSize with
      | .error => some (out, { c with status := .broken })         -- 409-414
      | .eof => some (out, c)                                      -- 415-418
      | .data b s => step { c with buf := b, sock := s }           -- 423
    else step c

/-- Connection.cpp:392-471 `ReadLine` with a buffer of `size` bytes; `none`: nullptr. -/
def readLine (c : Conn) (size : Nat) : Option (Option Bytes × Conn) :=
  if c.status ≠ .connected then some (none, c) else
  (readLoop size (size - 1) c []).map (fun r => (if r.1 = [] then none else some r.1, r.2))

/-- Connection.cpp:537-549, the loop of `Recv`. -/
def recvLoop : Nat → Nat → Conn → Bytes → Option (Option Bytes × Conn)
  | 0, _, _, _ => none
  | fuel + 1, need, c, out =>
    if need = 0 then some (some out, c) else
    match recvSock c.sock c.err need with
    | .data b s => recvLoop fuel (need - b.length) { c with sock := s } (out ++ b)
    | .eof => some (none, c)
    | .error => some (none, c)

/-- Connection.cpp:517-551 `Recv`: exactly `size` bytes, or `none` (false). -/
def recvAll (c : Conn) (size : Nat) : Option (Option Bytes × Conn) :=
  let len := if size > c.buf.length then c.buf.length else size    -- 528
  recvLoop (size - len + 1) (size - len) { c with buf := c.buf.drop len } (c.buf.take len)

/-- Connection.cpp:892-897 `ReadBuffer`. -/
def readBuffer (c : Conn) : Bytes × Conn := (c.buf, { c with buf := [] })

/-- Connection.cpp:497-515 `TryRecv`. -/
def tryRecv (c : Conn) (size : Nat) : Option Bytes × Conn :=
  match recvSock c.sock c.err size with
  | .data b s => (some b, { c with sock := s })
  | .eof => (some [], c)
  | .error => (none, c)

/-- ArticleDownloader.cpp:353-360: one buffer of article data: what is left in the read buffer, else
what the socket gives. -/
def nextBuffer (c : Conn) (size : Nat) : Option Bytes × Conn :=
  let (b, c) := readBuffer c
  if b.length = 0 then tryRecv c size else (some b, c)

end Verif.Conn
