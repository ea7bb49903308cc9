import Verif.ScriptRun
import Verif.RarRename
import Verif.Rpc
/-
Model of unpacking during the download: /repo/daemon/postprocess/DirectUnpack.cpp (StartJob 28-38, Run 40-152, ExecuteUnrar 154-208,
PrepareCmdParams 210-229, CreateUnpackDir 231-251, FindArchiveFiles 253-268, IsMainArchive 270-276, ReadLine 282-328, AddMessage 330-392, Stop
394-417, WaitNextVolume 419-452, FileDownloaded 454-474, NzbDownloaded 476-497, NzbDeleted 499-506, Cleanup 509-524, IsArchiveFilename
546-555); /repo/daemon/postprocess/PrePostProcessor.cpp NzbDownloaded (347-377), NzbDeleted (381-386), Stop (170-176), QueueDelete (943-947),
FileDownloaded (983-1010), PickNextJob (605-625); /repo/daemon/postprocess/Unpack.cpp Run (99-127), CheckArchiveFiles (632-657);
/repo/daemon/util/Script.cpp Execute (304-435), Terminate (702-729).

Two threads: the one which unpacks, and whichever thread holds the queue. A step of the model is what is done between taking and releasing a
lock, or a look at a variable or at the disk without one. The program unrar is any process: it prints any lines, waits after it has asked for a
volume, ends at any time with any code.

What is simplified: the times and the label of the progress are left out; the messages of the entry are left out; the disconnecting of threads
five seconds after the begin of the shutdown (PrePostProcessor.cpp:144-150) is left out; the end of the process, closing of its pipes and
`m_unpacking = false` (DirectUnpack.cpp:197-199) are one step; the directories are looked at as lists of names.
-/
namespace Verif.DirectUnpack
open CStr
open Rpc (eqNoCase)

/-! ### Names -/

/-- The number in a name which matches `.*\.part([0-9]+)\.rar$` without case (DirectUnpack.cpp:272). -/
def partNo (name : Bytes) : Option Bytes :=
  match RarRename.partOf name with
  | some (stem, d) => if stem.reverse[4]? = some 46 then some d else none
  | none => none

/-- DirectUnpack::IsMainArchive (DirectUnpack.cpp:270-276). -/
def isMain (name : Bytes) : Bool :=
  (lit ".rar").isSuffixOf (name.map WildMask.lower) &&
    match partNo name with
    | none => true
    | some d => ParName.atoi d == 1

/-- DirectUnpack::IsArchiveFilename (DirectUnpack.cpp:546-555). -/
def isArchive (name : Bytes) : Bool :=
  (lit ".rar").isSuffixOf (name.map WildMask.lower) || Files.isRarSeq name

/-! ### The output of unrar -/

def mark : Bytes := lit " [C]ontinue, [Q]uit"

/-- The end of a line in DirectUnpack::ReadLine (DirectUnpack.cpp:303-313): the byte `c` was read as number `i`. -/
def lineEnds (buf : Bytes) (i : Nat) (c : UInt8) : Bool :=
  c == 10 || (decide (35 < i) && c == 32 && startsWith (lit "Insert disk with") (cstr buf) && OptStore.contains (mark ++ [32]) (cstr buf))

/-- The loop of DirectUnpack::ReadLine (DirectUnpack.cpp:287-314). `left`: the room which is left; `back`: a backspace was read; `buf`: the
whole buffer, with what it had before. Result: `i`, the buffer and what is not read. -/
def readLoop : (left : Nat) → (i : Nat) → (back : Bool) → (buf : Bytes) → (input : Bytes) → Nat × Bytes × Bytes
  | 0, i, _, buf, input => (i, buf, input)
  | _ + 1, i, back, buf, [] => (i, if back then buf else (buf.set i 255).set (i + 1) 0, [])
  | left + 1, i, back, buf, c :: input =>
    let back := back || c == 8
    let buf := if back then buf else (buf.set i c).set (i + 1) 0
    if lineEnds buf i c then (i + 1, buf, input) else readLoop left (i + 1) back buf input

/-- DirectUnpack::ReadLine (DirectUnpack.cpp:282-328). `buf` is the buffer; the result says if there is a line, what is in the buffer then and
what is not read yet. -/
def readLine (buf input : Bytes) : Bool × Bytes × Bytes :=
  let (i, buf, rest) := readLoop (buf.length - 1) 0 false buf input
  let buf := if startsWith (lit "...") (cstr buf) then buf.set 0 0 else buf
  (decide (0 < i), buf.set i 0, rest)

/-- The text which AddMessage gets for a line (Script.cpp:795-833, 861-878, with the prefix of DirectUnpack.cpp:190). -/
def message (buf : Bytes) : Option Bytes :=
  (ScriptRun.processOutput buf).map (fun m => ScriptRun.printMessage (some (lit "Unrar")) m.2)

/-- The position of the first occurrence (strstr). -/
def find (p : Bytes) : Bytes → Option Nat
  | [] => if p = [] then some 0 else none
  | b :: s => if startsWith p (b :: s) then some 0 else (find p s).map (· + 1)

/-- The volume which unrar asks for (DirectUnpack.cpp:345-351; BString::Set, NString.cpp:33-39: a length which is not positive means as much as
fits). -/
def asksFor (text : Bytes) : Option Bytes :=
  if startsWith (lit "Unrar: Insert disk with") text then
    match find mark text with
    | some n => some ((text.drop 24).take (if 24 < n then min 1023 (n - 24) else 1023))
    | none => none
  else none

/-- The volume named by `Extracting from` (DirectUnpack.cpp:368-372). -/
def extractsFrom (text : Bytes) : Option Bytes :=
  if startsWith (lit "Unrar: Extracting from ") text then some (text.drop 23) else none

/-- Does the text end with `p`, with something before (DirectUnpack.cpp:380-381). -/
def endsMore (p text : Bytes) : Bool := decide (p.length < text.length) && p.isSuffixOf text

/-- The messages which stop unpacking (DirectUnpack.cpp:374-382). -/
def isDamage (text : Bytes) : Bool :=
  startsWith ((lit "Unrar: Checksum error in the encrypted file").take 42) text ||
  startsWith (lit "Unrar: CRC failed in the encrypted file") text ||
  startsWith (lit "Unrar: The specified password is incorrect.") text ||
  OptStore.contains (lit " : packed data CRC failed in volume") text ||
  OptStore.contains (lit " : packed data checksum error in volume") text ||
  endsMore (lit " - CRC failed") text ||
  endsMore (lit " - checksum failed") text ||
  startsWith (lit "Unrar: WARNING: You need to start extraction from a previous volume") text

/-- The message of success (DirectUnpack.cpp:387-390). -/
def isAllOk (text : Bytes) : Bool := startsWith (lit "Unrar: All OK") text

/-! ### The threads -/

/-- NzbInfo::EDirectUnpackStatus (DownloadInfo.h:386-392). -/
inductive Status where
  | none | running | success | failure
deriving DecidableEq, Repr

/-- What a thread does to the job with the queue and then the mutex of the volumes locked: FileDownloaded of a file (without failed articles), or
NzbDownloaded. -/
inductive Call where
  | file (name : Bytes)
  | nzb
deriving DecidableEq, Repr

/-- Where the unpacking thread is (DirectUnpack::Run). -/
inductive Pc where
  /-- Before the first locking of the queue (44-66). -/
  | start
  /-- Before FindArchiveFiles (71). -/
  | scan
  /-- Before `!IsStopped()` (76). -/
  | top
  /-- Before the list of archives is locked (78-85). -/
  | pick
  /-- The list was empty, before `m_nzbCompleted` is looked at (105-109). -/
  | idle
  /-- An archive was taken (87-95). -/
  | prepare (a : Bytes)
  /-- Before ExecuteUnrar (97). -/
  | launch (a : Bytes)
  /-- Reading the output of unrar (Script.cpp:366-387). -/
  | reading (a : Bytes)
  /-- A line was read and is about to be given to AddMessage. -/
  | line (a text : Bytes)
  /-- WaitNextVolume before FileExists (436). -/
  | look (a f : Bytes)
  /-- WaitNextVolume before locking the mutex of the volumes (442). -/
  | absent (a f : Bytes)
  /-- WaitNextVolume with the mutex of the volumes, before locking the queue (447-448). -/
  | give (a f : Bytes)
  /-- After the loop (114-117). -/
  | leave
  /-- Before the last locking of the queue (119-149). -/
  | finish
  | exited
deriving DecidableEq, Repr

/-- Undefined behaviour: `Stop` with no entry (DirectUnpack.cpp:408-409), `Write` to a pipe which was closed (Script.cpp:880-884). -/
inductive Crash where
  | noEntry
  | closedPipe
deriving DecidableEq, Repr

structure S where
  pc : Pc
  /-- The thread which holds the queue and is about to call the job. -/
  caller : Option Call
  /-- Names in the directory of the download. -/
  disk : List Bytes
  /-- Names in the directory `_unpack`. -/
  unpacked : List Bytes
  /-- `m_unpackDir` is set. -/
  dirSet : Bool
  archives : List Bytes
  waiting : Option Bytes
  completed : Bool
  stopped : Bool
  processed : Bool
  unpackOk : Bool
  allOk : Bool
  unpacking : Bool
  terminated : Bool
  extracted : List Bytes
  /-- unrar has asked for a volume and waits for an answer. -/
  asking : Bool
  /-- The entry is in the queue. -/
  inQueue : Bool
  /-- The entry refers to this thread. -/
  attached : Bool
  status : Status
  /-- The directory of the entry was changed. -/
  relocated : Bool
  /-- The entry is in post-processing (has PostInfo), and PostInfo::GetWorking. -/
  post : Bool
  working : Bool
  postExtracted : List Bytes
  crash : Option Crash
  /-- What has happened, not used by the program: archives which were given to unrar, with success or not; archives found in the directory at
  the beginning; files reported as downloaded; volumes asked for which got the answer to continue, with the file because of which; a file with
  failed articles was reported; unrar has ended while it asked. -/
  ran : List (Bytes × Bool)
  found : List Bytes
  reported : List Bytes
  answers : List (Bytes × Bytes)
  failedSeen : Bool
  diedAsking : Bool
deriving DecidableEq, Repr

/-- After StartJob (DirectUnpack.cpp:28-38). -/
def init (disk left : List Bytes) : S :=
  { pc := .start, caller := none, disk, unpacked := left, dirSet := false, archives := [], waiting := none, completed := false, stopped := false,
    processed := false, unpackOk := false, allOk := false, unpacking := false, terminated := false, extracted := [], asking := false,
    inQueue := true, attached := true, status := .running, relocated := false, post := false, working := false, postExtracted := [],
    crash := none, ran := [], found := [], reported := [], answers := [], failedSeen := false, diedAsking := false }

/-- DirectUnpack::Stop (DirectUnpack.cpp:394-417) with an entry. -/
def stop (s : S) : S :=
  { s with stopped := true, working := false, terminated := s.terminated || s.unpacking }

/-- DirectUnpack::Stop with the entry which is found in the queue, or with none. -/
def stopFound (s : S) : S := if s.inQueue then stop s else { s with crash := some .noEntry }

/-- `Write("\n")`: unrar continues; `g` is the file because of which. -/
def answer (s : S) (f g : Bytes) : S :=
  if s.unpacking then { s with asking := false, answers := s.answers ++ [(f, g)] } else { s with crash := some .closedPipe }

/-- Continuing with the volume unrar waits for (DirectUnpack.cpp:465-469). -/
def wake (s : S) (g : Bytes) : S :=
  match s.waiting with
  | some f => if eqNoCase g f then answer { s with waiting := none } f g else s
  | none => s

/-- DirectUnpack::FileDownloaded (DirectUnpack.cpp:464-473). -/
def fileDownloaded (s : S) (g : Bytes) : S :=
  let s := wake s g
  { s with reported := s.reported ++ [g], archives := if isMain g then s.archives ++ [g] else s.archives }

/-- PrePostProcessor::NzbDownloaded (PrePostProcessor.cpp:347-377) and DirectUnpack::NzbDownloaded (DirectUnpack.cpp:476-497). -/
def nzbDownloaded (s : S) : S :=
  let s := { s with post := true, working := if s.post then s.working else true, completed := true }
  if s.waiting = none then s else stop s

/-- Remembering of extracted archives (DirectUnpack.cpp:368-372). -/
def noteVolume (text : Bytes) (s : S) : S :=
  match extractsFrom text with
  | some v => if s.inQueue then { s with extracted := s.extracted ++ [v] } else s
  | none => s

/-- Messages about damages (DirectUnpack.cpp:374-385). -/
def checkDamage (text : Bytes) (s : S) : S := if !s.stopped && isDamage text then stopFound s else s

/-- DirectUnpack.cpp:387-390. -/
def checkAllOk (text : Bytes) (s : S) : S := { s with allOk := s.allOk || isAllOk text }

/-- The first part of WaitNextVolume (DirectUnpack.cpp:423-433). -/
def checkDir (s : S) : S := if s.inQueue ∧ s.relocated then stop s else s

/-- AddMessage (DirectUnpack.cpp:330-392) with the queue locked; a prompt goes on with WaitNextVolume. -/
def addMessage (s : S) (a text : Bytes) : S :=
  match asksFor text with
  | some f => { checkDir s with pc := .look a f }
  | none => checkAllOk text (checkDamage text (noteVolume text { s with pc := .reading a }))

/-- The next step of the unpacking thread, `none` if it must wait. `cmdOk` is the result of PrepareCmdParams. -/
def threadStep (cmdOk : Bool) (s : S) : Option S :=
  match s.pc with
  | .start => if s.caller.isSome then none else some { s with pc := if s.inQueue then .scan else .exited }
  | .scan => some { s with pc := .top, archives := s.archives ++ s.disk.filter isMain, found := s.disk.filter isMain }
  | .top => some { s with pc := if s.stopped then .leave else .pick }
  | .pick =>
    match s.archives with
    | [] => some { s with pc := .idle }
    | a :: r => some { s with pc := .prepare a, archives := r }
  | .idle => some { s with pc := if s.completed then .leave else .top }
  | .prepare a =>
    if s.processed then some { s with pc := .launch a }
    else if s.caller.isSome then none
    else some { s with pc := .launch a, processed := true, unpacked := if s.dirSet then [] else s.unpacked, dirSet := true }
  | .launch a =>
    if cmdOk then some { s with pc := .reading a, allOk := false, unpacking := true }
    else some { s with pc := .leave, unpackOk := false, ran := s.ran ++ [(a, false)] }
  | .reading _ => none
  | .line a text => if s.caller.isSome then none else some (addMessage s a text)
  | .look a f =>
    if f ∈ s.disk then some (answer { s with pc := .reading a } f f) else some { s with pc := .absent a f }
  | .absent a f => some { s with waiting := some f, pc := if s.completed then .give a f else .reading a }
  | .give a _ => if s.caller.isSome then none else some (stopFound { s with pc := .reading a })
  | .leave => some { s with pc := .finish, unpacked := if !s.unpackOk && s.dirSet then [] else s.unpacked }
  | .finish =>
    if s.caller.isSome then none
    else if !s.inQueue || !s.attached then some { s with pc := .exited }
    else
      let st := if s.processed then (if s.unpackOk && !s.stopped then .success else .failure) else .none
      some { s with pc := .exited, attached := false, status := st, working := false,
                    postExtracted := if s.post ∧ st = .success then s.postExtracted ++ s.extracted else s.postExtracted }
  | .exited => none

inductive Op where
  /-- A file is written to or removed from the directory of the download. -/
  | appear (f : Bytes)
  | vanish (f : Bytes)
  /-- A thread locks the queue to report a file or the completion of the download. -/
  | lock (c : Call)
  /-- It locks the mutex of the volumes and reports. -/
  | call
  /-- A file is reported and the download has failed articles (DirectUnpack.cpp:458-462). -/
  | failedFile
  /-- DirectUnpack::NzbDeleted (DirectUnpack.cpp:499-506). -/
  | deleted
  /-- The entry leaves the queue. -/
  | removed
  /-- The user changes the directory of the entry. -/
  | relocate
  /-- PrePostProcessor::Stop (PrePostProcessor.cpp:170-176). -/
  | shutdown
  | thread
  /-- unrar prints a line, AddMessage will get the text. -/
  | says (text : Bytes)
  /-- unrar writes a file. -/
  | writes (f : Bytes)
  /-- unrar ends. -/
  | ends (code : Int)
deriving DecidableEq, Repr

/-- A file is reported after it was written. -/
def onDisk (s : S) (c : Call) : Bool :=
  match c with
  | .file g => decide (g ∈ s.disk) || s.relocated
  | .nzb => true

/-- One step; `none` if it is not possible. -/
def step (cmdOk : Bool) (s : S) (op : Op) : Option S :=
  if s.crash.isSome then none
  else
  match op with
  | .appear f => some { s with disk := s.disk ++ [f] }
  | .vanish f => some { s with disk := s.disk.filter (· ≠ f) }
  | .lock c =>
    if s.caller = none ∧ s.inQueue ∧ s.attached ∧ onDisk s c then some { s with caller := some c } else none
  | .call =>
    match s.caller with
    | none => none
    | some c =>
      match s.pc with
      | .give _ _ => none
      | _ =>
        match c with
        | .file g => some { fileDownloaded s g with caller := none }
        | .nzb => some { nzbDownloaded s with caller := none }
  | .failedFile => if s.caller = none ∧ s.inQueue ∧ s.attached then some { stop s with failedSeen := true } else none
  | .deleted => if s.caller = none ∧ s.inQueue ∧ s.attached then some (stop { s with attached := false, status := .failure }) else none
  | .removed => if s.caller = none ∧ s.inQueue ∧ !s.attached then some { s with inQueue := false } else none
  | .relocate => if s.caller = none ∧ s.inQueue then some { s with relocated := true } else none
  | .shutdown => if s.caller = none ∧ s.inQueue ∧ s.attached then some (stop s) else none
  | .thread => threadStep cmdOk s
  | .says text =>
    match s.pc with
    | .reading a => if s.terminated ∨ s.asking then none else some { s with pc := .line a text, asking := (asksFor text).isSome }
    | _ => none
  | .writes f => if s.unpacking ∧ !s.asking then some { s with unpacked := s.unpacked ++ [f] } else none
  | .ends code =>
    match s.pc with
    | .reading a =>
      let ok := decide (code = 0) && s.allOk && !s.terminated
      some { s with pc := if ok then .top else .leave, unpackOk := ok, unpacking := false, asking := false, ran := s.ran ++ [(a, ok)],
                    diedAsking := s.diedAsking || s.asking }
    | _ => none

/-- Steps in a row. -/
def steps (cmdOk : Bool) : S → List Op → Option S
  | s, [] => some s
  | s, o :: l =>
    match step cmdOk s o with
    | some s' => steps cmdOk s' l
    | none => none

/-! ### What post-processing does with it -/

/-- PrePostProcessor::PickNextJob (PrePostProcessor.cpp:611-613), the part about direct unpack. -/
def mayPick (s : S) : Bool := s.inQueue && s.post && !s.working && s.status != .running

/-- `m_hasNotUnpackedRarFiles` (Unpack.cpp:649-657). -/
def notUnpacked (disk extracted : List Bytes) : Bool := (disk.filter Files.isRar).any (fun f => !extracted.contains f)

/-- The files unpacked during the download are used, nothing is unpacked again (Unpack.cpp:104-127). -/
def usesUnpacked (disk extracted : List Bytes) (unpackDirExists : Bool) : Bool :=
  disk.any Files.isRar && !(notUnpacked disk extracted || !unpackDirExists)

end Verif.DirectUnpack
