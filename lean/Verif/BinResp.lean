import Verif.BinReq
import Verif.Record
import Verif.MsgLog
/-!
Model of the binary protocol, answers: daemon/remote/BinRpc.cpp (278-292, 451-705, 884-981, 1037-1145) and what the client makes of them,
daemon/remote/RemoteClient.cpp (77-106, 186-274, 297-324, 517-595, 915-977, 1040-1113), structs of daemon/remote/MessageBase.h. Which messages of the
log are sent and the size of that answer are modelled in MsgLog.lean (C113). The queue, the history and the state of the program are given; the bytes go through unchanged. Fields which the server does not set hold whatever was in
the memory (`junk`). Reading behind the received data is `none`. Simplified: lengths fit into `int`; `malloc` returns aligned memory, so that the alignment of pointers is
that of offsets. Of what the client prints, the lines of the history and of post-processing are modelled.
-/
namespace Verif.BinResp
open CStr BinReq
open Text (I32 I64 splitHi splitLo joinInt64)

/-! ### Records -/

/-- The number of bytes to the next multiple of four, `4 - (size_t)bufptr % 4` if it is not one. -/
def pad (n : Nat) : Nat := if n % 4 > 0 then 4 - n % 4 else 0

/-- `strlen(s) + 1` of each text, with `p` added to the last one. -/
def lens (p : Nat) : List Bytes → List Nat
  | [] => []
  | [s] => [s.length + 1 + p]
  | s :: t :: l => (s.length + 1) :: lens p (t :: l)

/-- The bytes of integers and of texts. -/
def wordsB (l : List I32) : Bytes := l.flatMap be
def textsB (l : List Bytes) : Bytes := l.flatMap (· ++ [0])

/-- One entry written at the offset `pos`: integers, the lengths of the texts, integers, the texts; padded, with the padding counted to the last text. This is the common
form of BinRpc.cpp:528-573 (nzb), 575-599 (parameter), 601-652 (file), 932-968 (post), 1084-1133 (history). -/
def record (pos : Nat) (pre : List I32) (texts : List Bytes) (post : List I32) : Bytes :=
  let p := pad (pos + (4 * (pre.length + texts.length + post.length) + (textsB texts).length))
  wordsB (pre ++ ((lens p texts).map (BitVec.ofNat 32) ++ post)) ++ (textsB texts ++ List.replicate p 0)

/-- `k` integers at a pointer. -/
def readWords : Nat → Bytes → Option (List I32 × Bytes)
  | 0, b => some ([], b)
  | k + 1, b =>
    if b.length < 4 then none
    else match readWords k (b.drop 4) with
      | none => none
      | some (l, r) => some (u32 b :: l, r)

/-- The texts of given lengths at a pointer, each used as C string. -/
def readTexts : List I32 → Bytes → Option (List Bytes × Bytes)
  | [], b => some ([], b)
  | n :: l, b =>
    match str b with
    | none => none
    | some s =>
      if b.length < n.toNat then none
      else match readTexts l (b.drop n.toNat) with
        | none => none
        | some (t, r) => some (s :: t, r)

/-- One entry read by the client. -/
def readRecord (npre ntexts npost : Nat) (b : Bytes) : Option ((List I32 × List Bytes × List I32) × Bytes) :=
  match readWords (npre + ntexts + npost) b with
  | none => none
  | some (w, r) =>
    match readTexts ((w.drop npre).take ntexts) r with
    | none => none
    | some (t, r) => some ((w.take npre, t, w.drop (npre + ntexts)), r)

/-- A loop over `n` entries. -/
def readMany (npre ntexts npost : Nat) : Nat → Bytes → Option (List (List I32 × List Bytes × List I32) × Bytes)
  | 0, b => some ([], b)
  | n + 1, b =>
    match readRecord npre ntexts npost b with
    | none => none
    | some (e, r) =>
      match readMany npre ntexts npost n r with
      | none => none
      | some (l, r) => some (e :: l, r)

/-- Entries written one after another to a buffer. -/
def writeMany {α : Type} (f : Nat → α → Bytes) : List α → Bytes → Bytes
  | [], buf => buf
  | a :: l, buf => writeMany f l (buf ++ f buf.length a)

/-! ### Simple answers -/

/-- `BinCommand::SendBoolResponse` (BinRpc.cpp:278-292). -/
def sendBool (success : Bool) (text : Bytes) : Bytes :=
  wordsB [signature, 16, if success then 1 else 0, BitVec.ofNat 32 (text.length + 1)] ++ (text ++ [0])

/-- `RemoteClient::ReceiveBoolResponse` (RemoteClient.cpp:77-106): the result and the text. -/
def receiveBool (s : Bytes) : Option (Bool × Bytes) :=
  match readWords 4 s with
  | some ([sig, size, success, len], r) =>
    if sig ≠ signature ∨ size ≠ 16 then none
    else match recv len.toNat r with
      | none => none
      | some (buf, _) => (str buf).map (fun t => (success != 0, t))
  | _ => none

/-! ### The queue -/

/-- A file and a group of the queue, as far as they are sent. -/
structure File where
  id : I32
  size : I64
  remaining : I64
  paused : Bool
  confirmed : Bool
  active : I32
  subject : Bytes
  filename : Bytes
deriving DecidableEq, Repr

structure Nzb where
  id : I32
  kind : I32
  size : I64
  remaining : I64
  pausedSize : I64
  pausedCount : I32
  remainingPars : I32
  priority : I32
  filename : Bytes
  name : Bytes
  destDir : Bytes
  category : Bytes
  queuedFilename : Bytes
  params : List (Bytes × Bytes)
  files : List File
deriving DecidableEq, Repr

/-- `htonl(bool)`. -/
def bit (b : Bool) : I32 := if b then 1 else 0

/-- The entry of a group (BinRpc.cpp:531-572, MessageBase.h:162-186); `m` is the result of the match. -/
def nzbEntry (m : Nzb → Bool) (pos : Nat) (n : Nzb) : Bytes :=
  record pos [n.id, n.kind, splitLo n.size, splitHi n.size, splitLo n.remaining, splitHi n.remaining, splitLo n.pausedSize, splitHi n.pausedSize, n.pausedCount,
    n.remainingPars, n.priority, bit (m n)] [n.filename, n.name, n.destDir, n.category, n.queuedFilename] []

/-- The entry of a parameter (BinRpc.cpp:582-597, MessageBase.h:189-196); the index of the group begins with 1. -/
def paramEntry (pos : Nat) (p : Nat × (Bytes × Bytes)) : Bytes := record pos [BitVec.ofNat 32 p.1] [p.2.1, p.2.2] []

/-- The entry of a file (BinRpc.cpp:606-650, MessageBase.h:199-215). `m` is the result of the match, or junk if there is none (621-626). -/
def fileEntry (m : File → I32) (pos : Nat) (p : Nat × File) : Bytes :=
  let f := p.2
  record pos [f.id, BitVec.ofNat 32 p.1, splitLo f.size, splitHi f.size, splitLo f.remaining, splitHi f.remaining, bit f.paused, bit f.confirmed, f.active, m f]
    [f.subject, f.filename] []

/-- The parameters of all groups with the index of the group (576-582). -/
def allParams : Nat → List Nzb → List (Nat × (Bytes × Bytes))
  | _, [] => []
  | i, n :: q => n.params.map (fun p => (i, p)) ++ allParams (i + 1) q

/-- The files of all groups with the index of the group. Simplified: the search for the group by its address (610-618) gives its position. -/
def allFiles : Nat → List Nzb → List (Nat × File)
  | _, [] => []
  | i, n :: q => n.files.map (fun f => (i, f)) ++ allFiles (i + 1) q

/-- The calculation of the size of the buffer (BinRpc.cpp:484-523). -/
def sizeParam (n : Nat) (p : Bytes × Bytes) : Nat := align (n + (12 + (p.1.length + 1) + (p.2.length + 1)))
def sizeNzb (n : Nat) (z : Nzb) : Nat :=
  z.params.foldl sizeParam
    (align (n + ((z.filename.length + 1) + (z.name.length + 1) + (z.destDir.length + 1) + (z.category.length + 1) + (z.queuedFilename.length + 1))))
def sizeFile (n : Nat) (f : File) : Nat := align (n + (48 + (f.subject.length + 1) + (f.filename.length + 1)))
def listSize (q : List Nzb) : Nat := q.foldl (fun n z => z.files.foldl sizeFile n) (q.foldl sizeNzb (q.length * 68))

/-- What is written to the buffer (BinRpc.cpp:525-652). -/
def listData (mn : Nzb → Bool) (mf : File → I32) (q : List Nzb) : Bytes :=
  writeMany (fileEntry mf) (allFiles 1 q) (writeMany paramEntry (allParams 1 q) (writeMany (nzbEntry mn) q []))

/-- The state of the program in the answer (BinRpc.cpp:660-694). -/
structure State where
  remaining : I64
  rate : I32
  limit : I32
  paused : Bool
  standBy : Bool
  postPaused : Bool
  scanPaused : Bool
  threads : I32
  postJobs : I32
  upTime : I32
  downloadTime : I32
  downloaded : I64
deriving DecidableEq, Repr

/-- `SNzbListResponse` (MessageBase.h:131-158, BinRpc.cpp:459-464, 654-657, 674-693). `regExValid` (479) is stored without `htonl`. -/
def listHeader (st : State) (valid : Bool) (q : List Nzb) (len : Nat) : List I32 :=
  [signature, 92, 48, splitLo st.remaining, splitHi st.remaining, st.rate, st.limit, bit st.paused, 0, bit st.standBy, bit st.postPaused, bit st.scanPaused,
    st.threads, st.postJobs, st.upTime, st.downloadTime, splitLo st.downloaded, splitHi st.downloaded, if valid then 0x01000000 else 0,
    BitVec.ofNat 32 q.length, BitVec.ofNat 32 (allParams 1 q).length, BitVec.ofNat 32 (allFiles 1 q).length, BitVec.ofNat 32 len]

/-- `ListBinCommand::Execute` (BinRpc.cpp:451-705) with files and state: what is sent; only the calculated number of bytes of the buffer. -/
def sendList (st : State) (valid : Bool) (mn : Nzb → Bool) (mf : File → I32) (q : List Nzb) : Bytes :=
  wordsB (listHeader st valid q (listSize q)) ++ (listData mn mf q).take (listSize q)

/-- A group as the client builds it (RemoteClient.cpp:193-227). -/
structure Seen where
  nzb : Nzb
  hit : Bool
  hits : List Bool
deriving DecidableEq, Repr

def ofNzbEntry (e : List I32 × List Bytes × List I32) : Option Seen :=
  match e with
  | ([id, kind, sizeLo, sizeHi, remLo, remHi, paLo, paHi, paCount, remPars, prio, m], [filename, name, destDir, category, queued], _) =>
    some ⟨⟨id, kind, joinInt64 sizeHi sizeLo, joinInt64 remHi remLo, joinInt64 paHi paLo, paCount, remPars, prio, filename, name, destDir, category, queued, [], []⟩, m != 0, []⟩
  | _ => none

/-- `queue->at(index - 1)` (RemoteClient.cpp:237, 263): `none` is an exception. -/
def onNzb (q : List Seen) (index : I32) (f : Seen → Seen) : Option (List Seen) :=
  let i := (index - 1).toNat
  if i < q.length then some (q.modify i f) else none

/-- One parameter (RemoteClient.cpp:230-242). -/
def addParam (q : List Seen) (e : List I32 × List Bytes × List I32) : Option (List Seen) :=
  match e with
  | ([index], [name, value], _) => onNzb q index (fun s => { s with nzb := { s.nzb with params := Record.setParameter s.nzb.params name value } })
  | _ => none

/-- One file (RemoteClient.cpp:245-269). -/
def addFile (q : List Seen) (e : List I32 × List Bytes × List I32) : Option (List Seen) :=
  match e with
  | ([id, index, sizeLo, sizeHi, remLo, remHi, paused, confirmed, active, m], [subject, filename], _) =>
    onNzb q index (fun s => { s with
      nzb := { s.nzb with files := s.nzb.files ++ [⟨id, joinInt64 sizeHi sizeLo, joinInt64 remHi remLo, paused != 0, confirmed != 0, active, subject, filename⟩] }
      hits := s.hits ++ [m != 0] })
  | _ => none

/-- A loop which stops with the first failure. -/
def foldAll {α β : Type} (f : β → α → Option β) : List α → β → Option β
  | [], b => some b
  | a :: l, b => match f b a with
    | none => none
    | some b => foldAll f l b

/-- `RemoteClient::BuildFileList` (RemoteClient.cpp:186-272). -/
def buildList (nrNzb nrParams nrFiles len : I32) (data : Bytes) : Option (List Seen) :=
  if len = 0 then some []
  else match readMany 12 5 0 nrNzb.toNat data with
  | none => none
  | some (l, r) =>
    match foldAll (fun q e => (ofNzbEntry e).map (fun s => q ++ [s])) l [] with
    | none => none
    | some q => match readMany 1 2 0 nrParams.toNat r with
      | none => none
      | some (l, r) => match foldAll addParam l q with
        | none => none
        | some q => match readMany 10 2 0 nrFiles.toNat r with
          | none => none
          | some (l, _) => foldAll addFile l q

/-- The client after a request for the list (RemoteClient.cpp:297-324, 517-595): the state, whether the pattern is valid, and the groups. -/
def receiveList (s : Bytes) : Option (State × Bool × List Seen) :=
  match readWords 23 s with
  | some ([sig, size, _, remLo, remHi, rate, limit, paused, _, standBy, postPaused, scanPaused, threads, postJobs, up, down, allLo, allHi, valid, n, p, f, len], r) =>
    if sig ≠ signature ∨ size ≠ 92 then none
    else match recv len.toNat r with
      | none => none
      | some (buf, _) => match buildList n p f len buf with
        | none => none
        | some q => some (⟨joinInt64 remHi remLo, rate, limit, paused != 0, standBy != 0, postPaused != 0, scanPaused != 0, threads, postJobs, up, down,
            joinInt64 allHi allLo⟩, valid != 0, q)
  | _ => none

/-! ### Post-processing and history -/

/-- A job in post-processing. -/
structure Post where
  id : I32
  stage : I32
  stageProgress : I32
  fileProgress : I32
  totalTime : I32
  stageTime : I32
  filename : Bytes
  name : Bytes
  destDir : Bytes
  label : Bytes
deriving DecidableEq, Repr

/-- `PostQueueBinCommand::Execute` (BinRpc.cpp:884-981). -/
def postEntry (pos : Nat) (p : Post) : Bytes :=
  record pos [p.id, p.stage, p.stageProgress, p.fileProgress, p.totalTime, p.stageTime] [p.filename, p.name, p.destDir, p.label] []
def postSize (q : List Post) : Nat :=
  q.foldl (fun n p => align (n + (40 + (p.filename.length + 1) + (p.name.length + 1) + (p.destDir.length + 1) + (p.label.length + 1)))) 0
def sendPost (q : List Post) : Bytes :=
  wordsB [signature, 20, 40, BitVec.ofNat 32 q.length, BitVec.ofNat 32 (postSize q)] ++ (writeMany postEntry q []).take (postSize q)

/-- The client reads the answer with entries of a kind (RemoteClient.cpp:915-972, 1040-1107). -/
def receiveMany (npre ntexts npost : Nat) (s : Bytes) : Option (List (List I32 × List Bytes × List I32)) :=
  match readWords 5 s with
  | some ([sig, size, _, n, len], r) =>
    if sig ≠ signature ∨ size ≠ 20 then none
    else if len = 0 then some []
    else match recv len.toNat r with
      | none => none
      | some (buf, _) => (readMany npre ntexts npost n.toNat buf).map (·.1)
  | _ => none

/-- The line of a job which the client prints (RemoteClient.cpp:951-971): number, name, text of the stage, progress. -/
def stageText : List String :=
  ["", ", Loading Pars", ", Verifying source files", ", Repairing", ", Verifying repaired files", ", Par-Renaming", ", Rar-Renaming", ", Unpacking", ", Cleaning up",
    ", Moving", ", Executing postprocess-script", ""]

def postLine (e : List I32 × List Bytes × List I32) : Option (I32 × Bytes × String × Option Int) :=
  match e with
  | ([id, stage, progress, _, _, _], [_, name, _, _], _) =>
    (stageText[stage.toNat]?).map (fun t => (id, name, t, if progress.toInt > 0 ∧ stage ≠ 10 then some (progress.toInt / 10) else none))
  | _ => none

def receivePost (s : Bytes) : Option (List (I32 × Bytes × String × Option Int)) := (receiveMany 6 4 0 s).bind (fun l => l.mapM postLine)

/-- HistoryInfo::EKind without `hkUnknown` (DownloadInfo.h:895-901), with what is sent of each kind. -/
inductive Item where
  | nzb (size : I64) (fileCount parStatus scriptStatus : I32)
  | url (urlStatus : I32)
  | dup (size : I64)
deriving DecidableEq, Repr

structure Hist where
  id : I32
  time : I32
  name : Bytes
  item : Item
deriving DecidableEq, Repr

def isDup (h : Hist) : Bool := match h.item with | .dup _ => true | _ => false

/-- One entry of the history (BinRpc.cpp:1089-1130, MessageBase.h:450-467); `junk` are the fields which are not set for the kind. -/
def histEntry (junk : Nat → I32) (pos : Nat) (h : Hist) : Bytes :=
  match h.item with
  | .nzb size files par script => record pos [h.id, 1, h.time] [h.name] [splitLo size, splitHi size, files, par, script, junk 0]
  | .url status => record pos [h.id, 2, h.time] [h.name] [junk 1, junk 2, junk 3, junk 4, junk 5, status]
  | .dup size => record pos [h.id, 3, h.time] [h.name] [splitLo size, splitHi size, junk 6, junk 7, junk 8, junk 9]

/-- `HistoryBinCommand::Execute` (BinRpc.cpp:1037-1145). -/
def shown (hidden : Bool) (q : List Hist) : List Hist := q.filter (fun h => !isDup h || hidden)
def histSize (q : List Hist) : Nat := q.foldl (fun n h => align (n + (h.name.length + 1))) (q.length * 40)
def sendHistory (junk : Nat → I32) (hidden : Bool) (q : List Hist) : Bytes :=
  let l := shown hidden q
  wordsB [signature, 20, 40, BitVec.ofNat 32 l.length, BitVec.ofNat 32 (histSize l)] ++ (writeMany (histEntry junk) l []).take (histSize l)

/-- The line of an item which the client prints (RemoteClient.cpp:1075-1103), with texts for the numbers. -/
inductive Line where
  | nzb (id : I32) (name : Bytes) (files : I32) (size : I64) (par script : String)
  | dup (id : I32) (name : Bytes) (size : I64)
  | url (id : I32) (name : Bytes) (status : String)
deriving DecidableEq, Repr

/-- The texts of RemoteClient.cpp:1085-1086 and 1098. -/
def parText : List String := ["", "", ", Par failed", ", Par successful", ", Repair possible", ", Repair needed"]
def scriptText : List String := ["", ", Script status unknown", ", Script failed", ", Script successful"]
def urlText : List String := ["", "", "Url download successful", "Url download failed", "", "Nzb scan skipped", "Nzb scan failed"]

def lineOf (e : List I32 × List Bytes × List I32) : Option Line :=
  match e with
  | ([id, kind, _], [name], [lo, hi, files, par, script, url]) =>
    if kind = 1 then
      match parText[par.toNat]?, scriptText[script.toNat]? with
      | some p, some s => some (.nzb id name files (joinInt64 hi lo) p s)
      | _, _ => none
    else if kind = 3 then some (.dup id name (joinInt64 hi lo))
    else if kind = 2 then (urlText[url.toNat]?).map (.url id name ·)
    else none
  | _ => none

/-- The lines for the history. -/
def receiveHistory (s : Bytes) : Option (List Line) := (receiveMany 3 1 6 s).bind (fun l => l.mapM lineOf)

/-! ### The log -/

/-- Message::EKind (Log.h:44-51). -/
def kindCode : MsgLog.Kind → I32
  | .info => 0 | .warning => 1 | .error => 2 | .debug => 3 | .detail => 4

/-- One message (BinRpc.cpp:762-779, MessageBase.h:236-243). -/
def logEntry (pos : Nat) (m : MsgLog.Msg) : Bytes := record pos [BitVec.ofNat 32 m.id, kindCode m.kind, BitVec.ofInt 32 m.time] [m.text] []

/-- `LogBinCommand::Execute` (BinRpc.cpp:707-795). -/
def sendLog (lines : Int) (idFrom : Nat) (msgs : List MsgLog.Msg) : Bytes :=
  let q := MsgLog.binQuery lines idFrom msgs
  let n := MsgLog.bufSize q.1 q.2
  wordsB [signature, 20, 16, BitVec.ofInt 32 q.1, BitVec.ofInt 32 n] ++ (writeMany logEntry q.2 []).take n.toNat

/-- The line the client prints (RemoteClient.cpp:659-679); nothing for other kinds. -/
def logLine (e : List I32 × List Bytes × List I32) : Option (String × Bytes) :=
  match e with
  | ([_, kind, _], [text], _) =>
    if kind = 3 then some ("[DEBUG] ", text) else if kind = 2 then some ("[ERROR] ", text) else if kind = 1 then some ("[WARNING] ", text)
    else if kind = 0 then some ("[INFO] ", text) else if kind = 4 then some ("[DETAIL] ", text) else none
  | _ => none

/-- `RemoteClient::RequestServerLog` after the request (RemoteClient.cpp:624-688). -/
def receiveLog (s : Bytes) : Option (List (String × Bytes)) := (receiveMany 3 1 0 s).map (·.filterMap logLine)

end Verif.BinResp
