import Verif.Text
import Verif.WildMask
/-!
Model of the binary protocol between `nzbget` on the command line and the running server, requests: daemon/remote/RemoteClient.cpp (64-75, 111-185, 273-292, 607-622, 690-836, 838-910, 979-1040), daemon/remote/RemoteServer.cpp (199-214) and daemon/remote/BinRpc.cpp (43-60, 170-305, 309-449, 797-882, 983-1035), structs of daemon/remote/MessageBase.h.
What the server sends back is the model of C119 (BinResp.lean). A connection is the list of all bytes which arrive on it. Reading or writing outside of a buffer is `ub`.
Simplified: the memory for a request can be had (`malloc` with less than 2 GB succeeds, with a negative size fails); `int32` has no padding in structs.
-/
namespace Verif.BinReq
open CStr
open Text (I32)

/-! ### Bytes -/

/-- `htonl` and the memory of the result. -/
def be (w : I32) : Bytes :=
  [UInt8.ofNat (w.toNat / 2 ^ 24), UInt8.ofNat (w.toNat / 2 ^ 16), UInt8.ofNat (w.toNat / 2 ^ 8), UInt8.ofNat w.toNat]

/-- `ntohl` of the four bytes at a pointer. -/
def u32 : Bytes → I32
  | a :: b :: c :: d :: _ => BitVec.ofNat 32 (a.toNat * 2 ^ 24 + b.toNat * 2 ^ 16 + c.toNat * 2 ^ 8 + d.toNat)
  | _ => 0

/-- The C string at a pointer into a buffer, `none` if it does not end within the buffer. -/
def str (b : Bytes) : Option Bytes := if b.contains 0 then some (cstr b) else none

/-- `strcmp(b, s) == 0` for a buffer `b` and a string `s`; `none` if it reads behind the buffer. -/
def strEq : Bytes → Bytes → Option Bool
  | [], _ => none
  | b :: _, [] => some (b == 0)
  | b :: bs, c :: cs => if b == c then strEq bs cs else some false

/-- `strncasecmp(b, s, n) == 0` for a buffer `b` and a literal `s` of at least `n` characters; `none` if it reads behind the buffer. -/
def nEqCase : Nat → Bytes → Bytes → Option Bool
  | 0, _, _ => some true
  | _ + 1, [], _ => none
  | _ + 1, _ :: _, [] => some false
  | n + 1, b :: bs, c :: cs => if WildMask.lower b == WildMask.lower c then nEqCase n bs cs else some false

/-- The test for addresses, `!strncasecmp(s, "http://", 6) || !strncasecmp(s, "https://", 7)` (BinRpc.cpp:421, RemoteClient.cpp:118). -/
def isUrl (b : Bytes) : Option Bool :=
  match nEqCase 6 b (lit "http://") with
  | none => none
  | some true => some true
  | some false => nEqCase 7 b (lit "https://")

/-- `Connection::Recv` with a buffer of known size (Connection.cpp:517-551): all `n` bytes or failure. -/
def recv (n : Nat) (s : Bytes) : Option (Bytes × Bytes) := if n ≤ s.length then some (s.take n, s.drop n) else none

/-! ### The server -/

/-- ControlUsername and ControlPassword. -/
structure Cfg where
  user : Bytes
  pass : Bytes

/-- What a request makes the server do. -/
inductive Cmd where
  | add (url : Bool) (content filename category dupeKey : Bytes) (top paused : Bool) (priority dupeScore dupeMode : Int)
  | pause (action : Nat) (on : Bool)
  | list (files state : Bool) (matchMode : Nat) (matchGroup : Bool) (pattern : Bytes)
  | rate (bytesPerSec : Int)
  | dumpDebug
  | edit (action matchMode : Int) (ids : List Int) (names : List Bytes) (args : Option Bytes)
  | log (lines : Int) (idFrom : Nat)
  | shutdown
  | reload
  | version
  | postQueue
  | writeLog (kind : Nat) (text : Bytes)
  | scan (sync : Bool)
  | history (hidden : Bool)
deriving DecidableEq, Repr

/-- `other`: not this protocol (the bytes are for the web server); `closed`: the connection is closed without an answer; `refused`: the answer is a failure, nothing is
done; `run c`: the command is executed and answered. -/
inductive Out where
  | other | closed | ub | refused | run (c : Cmd)
deriving DecidableEq, Repr

/-- `g_MessageRequestSizes` (BinRpc.cpp:43-60) with `sizeof` of the structs of MessageBase.h; `none` for types outside of the range of Dispatch (193-195, 262-264). -/
def size : Nat → Option Nat
  | 1 => some 1636
  | 2 => some 84
  | 3 => some 604
  | 4 => some 80
  | 5 => some 76
  | 6 => some 108
  | 7 => some 84
  | 8 => some 76
  | 9 => some 76
  | 10 => some 76
  | 11 => some 76
  | 12 => some 84
  | 13 => some 80
  | 14 => some 80
  | _ => none

/-- The check of name and password (BinRpc.cpp:179-184) in the 72 bytes of `SNzbRequestBase` after the signature (MessageBase.h:79-86). -/
def auth (cfg : Cfg) (h : Bytes) : Option Bool :=
  match (if cfg.user = [] then some true else strEq (h.drop 8) cfg.user) with
  | none => none
  | some false => some false
  | some true => strEq (h.drop 40) cfg.pass

/-- `DownloadBinCommand::Execute` (BinRpc.cpp:396-449); `b` is the request after its base, `s` what follows on the connection. -/
def download (b s : Bytes) : Out :=
  let b1 := b.drop 512
  let b2 := b1.drop 512
  let b3 := b2.drop 4
  let b4 := b3.drop 4
  let b5 := b4.drop 4
  let b6 := b5.drop 4
  let b7 := b6.drop 4
  let len := (u32 (b7.drop 512)).toInt
  if len < 0 then .ub
  else match recv len.toNat s with
  | none => .closed
  | some (content, _) =>
    match isUrl content, str b, str b1, str b7 with
    | some url, some filename, some category, some dupeKey =>
      match (if url then str content else some content) with
      | none => .ub
      | some c => .run (.add url c filename category dupeKey (u32 b2 != 0) (u32 b3 != 0) (u32 b4).toInt (u32 b5).toInt (u32 b6).toInt)
    | _, _, _, _ => .ub

/-- The loop over the ids (BinRpc.cpp:841-848); `n` integers from the pointer `p` on. -/
def readIds (buf : Bytes) : Nat → Int → Option (List Int)
  | 0, _ => some []
  | n + 1, p =>
    if p < 0 ∨ buf.length < p + 4 then none
    else match readIds buf n (p + 4) with
      | none => none
      | some l => some ((u32 (buf.drop p.toNat)).toInt :: l)

/-- The loop over the names (BinRpc.cpp:850-858); `n` strings from the pointer `p` on. -/
def readNames (buf : Bytes) : Nat → Int → Option (List Bytes)
  | 0, _ => some []
  | n + 1, p =>
    if p < 0 ∨ buf.length < p then none
    else match str (buf.drop p.toNat) with
      | none => none
      | some x => match readNames buf n (p + x.length + 1) with
        | none => none
        | some l => some (x :: l)

/-- eaFileMoveOffset and eaGroupMoveOffset (DownloadInfo.h:956-966). -/
def moveOffset (action : Int) : Bool := action == 1 || action == 11

/-- `EditQueueBinCommand::Execute` (BinRpc.cpp:797-866) up to the call of `EditList`. The sum of 814 is of type `size_t`, the buffer has `int` size. Simplified: a text
without end counts as undefined even if the action does not use it. -/
def edit (b s : Bytes) : Out :=
  let action := (u32 b).toInt
  let b1 := b.drop 4
  let b2 := b1.drop 4
  let b3 := b2.drop 4
  let b4 := b3.drop 4
  let b5 := b4.drop 4
  let b6 := b5.drop 4
  let b7 := b6.drop 4
  let offset := (u32 b1).toInt
  let matchMode := (u32 b2).toInt
  let nrIds := (u32 b3).toInt
  let nrNames := (u32 b4).toInt
  let namesLen := (u32 b5).toInt
  let textLen := (u32 b6).toInt
  let bufLen := u32 b7
  if (nrIds * 4 + textLen + namesLen) % 2 ^ 64 ≠ bufLen.toNat then .closed
  else if bufLen.toInt < 0 then .ub
  else match recv bufLen.toNat s with
  | none => .closed
  | some (buf, _) =>
    if nrIds ≤ 0 ∧ nrNames ≤ 0 then .refused
    else match readIds buf nrIds.toNat textLen, readNames buf nrNames.toNat (textLen + nrIds * 4),
        (if moveOffset action then some (some (decInt offset)) else if textLen > 0 then (str buf).map some else some none) with
      | some ids, some names, some args => .run (.edit action matchMode ids names args)
      | _, _, _ => .ub

/-- `WriteLogBinCommand::Execute` (BinRpc.cpp:983-1021); the kinds are those of Log.h:44-51. -/
def writeLog (b s : Bytes) : Out :=
  let kind := (u32 b).toNat
  let len := (u32 (b.drop 4)).toInt
  if len < 0 then .ub
  else match recv len.toNat s with
  | none => .closed
  | some (text, _) =>
    if kind ≤ 4 then
      match str text with
      | none => .ub
      | some t => .run (.writeLog kind t)
    else .refused

/-- The commands (BinRpc.cpp:204-267, 309-394, the arguments of list 451-480, of log 707-722, of the others 884-890, 1023-1035, 1037-1045). -/
def command (type : Nat) (b s : Bytes) : Out :=
  match type with
  | 1 => download b s
  | 2 => .run (.pause (u32 (b.drop 4)).toNat (u32 b != 0))
  | 3 => match str (b.drop 16) with
    | some pattern => .run (.list (u32 b != 0) (u32 (b.drop 4) != 0) (u32 (b.drop 8)).toNat (u32 (b.drop 12) != 0) pattern)
    | none => if u32 b != 0 && (u32 (b.drop 8)).toNat == 3 then .ub
      else .run (.list (u32 b != 0) (u32 (b.drop 4) != 0) (u32 (b.drop 8)).toNat (u32 (b.drop 12) != 0) [])
  | 4 => .run (.rate (u32 b).toInt)
  | 5 => .run .dumpDebug
  | 6 => edit b s
  | 7 => .run (.log (u32 (b.drop 4)).toInt (u32 b).toNat)
  | 8 => .run .shutdown
  | 9 => .run .reload
  | 10 => .run .version
  | 11 => .run .postQueue
  | 12 => writeLog b s
  | 13 => .run (.scan (u32 b != 0))
  | 14 => .run (.history (u32 b != 0))
  | _ => .closed

/-- `BinRpcProcessor::Dispatch` (BinRpc.cpp:191-273) and `ReceiveRequest` (294-307). -/
def dispatch (h s : Bytes) : Out :=
  match size (u32 (h.drop 4)).toNat with
  | none => .closed
  | some n =>
    if n ≠ (u32 h).toNat then .closed
    else match recv (n - 76) s with
    | none => .closed
    | some (b, s') => command (u32 (h.drop 4)).toNat b s'

/-- NZBMESSAGE_SIGNATURE (MessageBase.h:25). -/
def signature : I32 := 0x6E7A6231

/-- The first bytes of a connection (RemoteServer.cpp:199-214) and `BinRpcProcessor::Execute` (BinRpc.cpp:170-189). -/
def serve (cfg : Cfg) (s : Bytes) : Out :=
  match recv 4 s with
  | none => .other
  | some (sig, s1) =>
    if u32 sig ≠ signature then .other
    else match recv 72 s1 with
    | none => .closed
    | some (h, s2) =>
      match auth cfg h with
      | none => .ub
      | some false => .closed
      | some true => dispatch h s2

/-! ### The client -/

/-- `strncpy(field, s, n - 1); field[n - 1] = '\0'`. -/
def field (n : Nat) (s : Bytes) : Bytes := s.take (n - 1) ++ List.replicate (n - min s.length (n - 1)) 0

/-- `field[0] = '\0'; field[n - 1] = '\0'`, the rest is whatever was in the memory. -/
def blank (junk : Nat → UInt8) (n : Nat) : Bytes := 0 :: ((List.range (n - 2)).map junk ++ [0])

/-- `htonl` of an `int`. -/
def beI (i : Int) : Bytes := be (BitVec.ofInt 32 i)

/-- `htonl` of a `bool`. -/
def beB (b : Bool) : Bytes := be (if b then 1 else 0)

/-- `RemoteClient::InitMessageBase` (RemoteClient.cpp:64-75). -/
def base (cfg : Cfg) (type size : Nat) : Bytes :=
  be signature ++ (be (BitVec.ofNat 32 size) ++ (be (BitVec.ofNat 32 type) ++ (field 32 cfg.user ++ field 32 cfg.pass)))

/-- What is asked of the client on the command line. -/
structure Add where
  content : Bytes
  filename : Bytes
  category : Option Bytes
  dupeKey : Bytes
  top : Bool
  paused : Bool
  priority : Int
  dupeScore : Int
  dupeMode : Int

/-- `RemoteClient::RequestServerDownload` (RemoteClient.cpp:111-185) after the file is read: `a.content` is the address with `url`, else the bytes of the file; `path` is the
argument of the command line. -/
def sendAdd (cfg : Cfg) (junk : Nat → UInt8) (url : Bool) (path : Bytes) (a : Add) : Bytes :=
  let data := if url then a.content ++ [0] else a.content
  base cfg 1 1636 ++
    ((if a.filename ≠ [] then field 512 a.filename else if !url then field 512 path else blank junk 512) ++
    ((match a.category with | some c => field 512 c | none => blank junk 512) ++
    (beB a.top ++ (beB a.paused ++ (beI a.priority ++ (beI a.dupeScore ++ (beI a.dupeMode ++
    ((if a.dupeKey ≠ [] then field 512 a.dupeKey else blank junk 512) ++
    (beI data.length ++ data)))))))))

/-- `x += x % 4 > 0 ? 4 - x % 4 : 0`. -/
def align (n : Nat) : Nat := n + if n % 4 > 0 then 4 - n % 4 else 0

/-- The bytes of names: each with its end. -/
def nameBytes (names : List Bytes) : Bytes := names.flatMap (· ++ [0])

/-- `RemoteClient::RequestServerEditQueue` (RemoteClient.cpp:753-836) with at least one id or name. Simplified: `strnlen` (816) gives the length of the name, there is
always room for it. -/
def sendEdit (cfg : Cfg) (junk : Nat → UInt8) (action offset : Int) (text : Option Bytes) (ids : List Int) (names : List Bytes) (matchMode : Int) : Bytes :=
  let namesLen : Nat := align (nameBytes names).length
  let textLen : Nat := match text with | some t => align (t.length + 1) | none => 0
  let textData := match text with | some t => t ++ List.replicate (textLen - t.length) 0 | none => []
  let nameData := nameBytes names ++ (List.range (namesLen - (nameBytes names).length)).map junk
  base cfg 6 108 ++
    (beI action ++ (beI offset ++ (beI matchMode ++ (beI ids.length ++ (beI names.length ++ (beI namesLen ++ (beI textLen ++
    (beI (textLen + 4 * ids.length + namesLen : Nat) ++
    (textData ++ (ids.flatMap beI ++ nameData))))))))))

/-- `RemoteClient::RequestWriteLog` (RemoteClient.cpp:979-999). -/
def sendWriteLog (cfg : Cfg) (kind : Int) (text : Bytes) : Bytes :=
  base cfg 12 84 ++ (beI kind ++ (beI (text.length + 1 : Nat) ++ (text ++ [0])))

/-- `RequestServerPauseUnpause` (RemoteClient.cpp:690-710), `RequestServerSetDownloadRate` (712-731), `RequestServerLog` (607-622), `RequestScan` (1001-1022),
`RequestHistory` (1024-1035), `RequestServerList` (273-292) and the requests without arguments (733-751, 838-910). -/
def sendPause (cfg : Cfg) (pause : Bool) (action : Nat) : Bytes := base cfg 2 84 ++ (beB pause ++ be (BitVec.ofNat 32 action))
def sendRate (cfg : Cfg) (rate : Int) : Bytes := base cfg 4 80 ++ beI rate
def sendLog (cfg : Cfg) (lines : Int) : Bytes := base cfg 7 84 ++ (be 0 ++ beI lines)
def sendScan (cfg : Cfg) (sync : Bool) : Bytes := base cfg 13 80 ++ beB sync
def sendHistory (cfg : Cfg) (hidden : Bool) : Bytes := base cfg 14 80 ++ beB hidden
def sendPlain (cfg : Cfg) (type : Nat) : Bytes := base cfg type 76
def sendList (cfg : Cfg) (junk : Nat → UInt8) (groups : Bool) (pattern : Option Bytes) : Bytes :=
  base cfg 3 604 ++ (beB true ++ (beB true ++ (be (if pattern.isSome then 3 else 1) ++ (beB groups ++
    (match pattern with | some p => field 512 p | none => (List.range 512).map junk)))))

end Verif.BinReq
