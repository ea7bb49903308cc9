import Verif.ParRename
import Verif.Rpc
/-
Model of the renaming of files during the download: /repo/daemon/queue/DirectRenamer.cpp, with the places of
/repo/daemon/queue/QueueCoordinator.cpp which call it (637-646, 766-769, 859-885).

MD5 (`Par2::MD5Context`), the printing of hashes, the reader of par2-packets and the operating system are functions. All files of the
download lie in one directory (DestDir), paths are shorter than 1024 bytes and sizes of articles fit into `int`. The loader is not stopped.
The counters of the download are those of `Verif.Counters`.
-/
namespace Verif.DirectRename
open CStr FileName Files RarRename

/-- What is not modelled. `md5`: the printed hash of some bytes; `print`: how 16 bytes are printed; `load`: what LoadPacketsFromFile reads, `none` if it
fails, each source file with its name made valid and its hash, or `none` if it has no description; `ren`: the operating system permits the renaming. -/
structure Env where
  md5 : Bytes → Bytes
  print : Bytes → Bytes
  load : Bytes → Option (List (Option (Bytes × Bytes)))
  ren : Bytes → Bytes → Bool

/-- `Par2::packet_magic`. -/
def magic : Bytes := [80, 65, 82, 50, 0, 80, 75, 84]

/-- `RenameContentAnalyzer` (DirectRenamer.cpp:32-52). `fed`: what the MD5 context was given; `sig`: m_signature, 64 bytes. -/
structure Analyzer where
  fed : Bytes
  sig : Bytes
  size : Nat
  par : Bool
  setId : Bytes
deriving DecidableEq, Repr

/-- `RenameContentAnalyzer::Reset` (DirectRenamer.cpp:529-535). -/
def reset (a : Analyzer) : Analyzer := { a with fed := [], size := 0 }

/-- The signature after the `memcpy` (DirectRenamer.cpp:540-543). -/
def signature (a : Analyzer) (b : Bytes) : Bytes :=
  if a.size < 64 then a.sig.take a.size ++ (b.take (64 - a.size) ++ a.sig.drop (a.size + (b.take (64 - a.size)).length)) else a.sig

/-- `RenameContentAnalyzer::Append` (DirectRenamer.cpp:537-559). -/
def append (env : Env) (a : Analyzer) (b : Bytes) : Analyzer :=
  let s := signature a b
  let found := decide (64 ≤ a.size) && s.take 8 == magic
  { fed := a.fed ++ b.take (16384 - a.size)
    sig := s
    size := a.size + b.length
    par := found || a.par
    setId := if found then env.print ((s.drop 32).take 16) else a.setId }

/-- The content of an article piece by piece (ArticleDownloader.cpp:299-302, 484-489). -/
def analyse (env : Env) (a : Analyzer) (pieces : List Bytes) : Analyzer := pieces.foldl (append env) (reset a)

/-- A file in the queue (FileInfo). `output`: the base name of OutputFilename, if there is one. -/
structure File where
  id : Nat
  name : Bytes
  orig : Bytes
  par : Bool
  hash : Bytes
  setId : Bytes
  size : Int
  paused : Bool
  extra : Bool
  output : Option Bytes
deriving DecidableEq, Repr

/-- CompletedFile. -/
structure Done where
  id : Nat
  name : Bytes
  orig : Bytes
  par : Bool
  hash : Bytes
  setId : Bytes
deriving DecidableEq, Repr

/-- The download. `waiting`: WaitingPar, `loading`: LoadingPar, `finished`: the status of the direct renaming is greater than tsRunning. -/
structure Nzb where
  files : List File
  done : List Done
  waiting : Bool
  loading : Bool
  finished : Bool
deriving DecidableEq, Repr

/-- What the first article tells about a file (DirectRenamer.cpp:182-219), without the counters. -/
def learn (env : Env) (a : Analyzer) (articleSize : Int) (articles : Nat) (f : File) : File :=
  let f := if 16384 ≤ articleSize ∨ articles = 1 then { f with hash := env.md5 a.fed } else f
  let f := if f.par ≠ a.par then { f with par := a.par, paused := if !a.par then false else f.paused } else f
  if f.par then { f with setId := a.setId } else f

/-- A par2-file of the download (DirectRenamer.h:46-60). -/
structure Par where
  id : Nat
  name : Bytes
  setId : Bytes
  completed : Bool
deriving DecidableEq, Repr

/-- `DirectRenamer::CollectPars` (DirectRenamer.cpp:334-351). -/
def collect (n : Nzb) : List Par :=
  (n.files.filter (·.par)).map (fun f => ⟨f.id, f.name, f.setId, false⟩) ++ (n.done.filter (·.par)).map (fun f => ⟨f.id, f.name, f.setId, true⟩)

/-- `FileList::Find`. -/
def find (l : List File) (id : Nat) : Option File := l.find? (fun f => f.id == id)

/-- The order of `std::sort` (DirectRenamer.cpp:295-303). -/
def less (l : List File) (a b : Par) : Bool :=
  match find l a.id, find l b.id with
  | none, some _ => true
  | some f, some g => decide (f.size < g.size)
  | _, none => false

/-- The second loop of UnpausePars (DirectRenamer.cpp:314-331): the files which get priority. -/
def choose : (seen : List Bytes) → List Par → List Nat
  | _, [] => []
  | seen, p :: l => if seen.contains p.setId then choose seen l else p.id :: choose (seen ++ [p.setId]) l

/-- A file which gets priority (DirectRenamer.cpp:323-329). -/
def wanted (f : File) : File := { f with paused := false, extra := true }

/-- `DirectRenamer::UnpausePars` (DirectRenamer.cpp:287-332); `sorted` is what `std::sort` has made of the par2-files. -/
def unpause (sorted : List Par) (n : Nzb) : Nzb :=
  let chosen := choose ((sorted.filter (·.completed)).map (·.setId)) sorted
  { n with files := n.files.map (fun f => if chosen.contains f.id then wanted f else f) }

/-- The first articles are there (DirectRenamer.cpp:237-255). -/
def ready (n : Nzb) : Bool :=
  n.files.all (fun f => !(f.hash.isEmpty || (f.par && f.setId.isEmpty))) && n.done.all (fun f => !(f.hash.isEmpty || (f.par && f.setId.isEmpty)))

/-- `DirectRenamer::CheckState` (DirectRenamer.cpp:229-285): the download after it, and whether the loader was started. -/
def checkState (sort : List File → List Par → List Par) (n : Nzb) : Nzb × Bool :=
  if n.finished then (n, false)
  else if !ready n then (n, false)
  else
    let n := if n.waiting then n else { unpause (sort n.files (collect n)) n with waiting := true }
    if !n.loading && !n.files.any (·.extra) then ({ n with loading := true }, true) else (n, false)

/-- `completed && OutputFilename ? BaseFileName(OutputFilename) : Filename` (QueueCoordinator.cpp:867-868). -/
def completedName (f : File) : Bytes := f.output.getD f.name

/-- A file was downloaded: DeleteFileInfo (QueueCoordinator.cpp:863-887) with `completed`: the file is still in the list while the state is checked. -/
def fileDone (sort : List File → List Par → List Par) (n : Nzb) (f : File) : Nzb × Bool :=
  let r := checkState sort { n with done := n.done ++ [⟨f.id, completedName f, f.orig, f.par, f.hash, f.setId⟩] }
  ({ r.1 with files := r.1.files.filter (fun g => g.id != f.id) }, r.2)

/-- The names and hashes of one par2-file: up to a source file without description (DirectParLoader::LoadParFile, DirectRenamer.cpp:124-164). -/
def described : List (Option (Bytes × Bytes)) → List (Bytes × Bytes)
  | [] => []
  | none :: _ => []
  | some e :: l => e :: described l

/-- `DirectParLoader` (DirectRenamer.cpp:84-164): the par2-files which are completed. -/
def loadAll (env : Env) (d : Dir) (done : List Done) : List (Bytes × Bytes) :=
  (done.filter (·.par)).flatMap (fun f =>
    match get d f.name with
    | some (.file data) => described ((env.load data).getD [])
    | _ => [])

/-- `DirectRenamer::BuildNewRegularName` (DirectRenamer.cpp:438-461). -/
def regularName (old : Bytes) (hashes : List (Bytes × Bytes)) (hash : Bytes) : Option Bytes :=
  if hash.isEmpty then none
  else match hashes.find? (fun e => e.2 == hash) with
    | some e => if Rpc.eqNoCase old e.1 then none else some e.1
    | none => none

/-- The suffix which is used again (DirectRenamer.cpp:468-471): from the first `.vol`, if the extension is `.par2`. -/
def volSuffix : Bytes → Option Bytes
  | [] => none
  | c :: s =>
    if startsWith (lit ".vol") (c :: s) then
      match lastIdx 46 (c :: s) with
      | some p => if Rpc.eqNoCase ((c :: s).drop p) (lit ".par2") then some (c :: s) else none
      | none => none
    else volSuffix s

/-- The loop of BuildNewParName (DirectRenamer.cpp:477-482) from `vol`, when the name before is not free: the name and the next number. -/
def freeVol (d : Dir) (id : Bytes) : (fuel vol : Nat) → Bytes × Nat
  | 0, vol => (ParRename.parDest id vol, vol + 1)
  | f + 1, vol => if isFile (get d (ParRename.parDest id vol)) then freeVol d id f (vol + 1) else (ParRename.parDest id vol, vol + 1)

/-- `DirectRenamer::BuildNewParName` (DirectRenamer.cpp:463-485). More rounds than entries of the directory are not needed. -/
def parName (old : Bytes) (d : Dir) (id : Bytes) (vol : Nat) : Bytes × Nat :=
  match volSuffix old with
  | some s => if isFile (get d (id ++ s)) then freeVol d id d.length vol else (id ++ s, vol)
  | none => freeVol d id d.length vol

/-- `EndsWith(name, ".par2", false)` (DirectRenamer.cpp:496). -/
def endsPar (n : Bytes) : Bool := (lit ".par2").isSuffixOf (n.map WildMask.lower)

/-- `DirectRenamer::NeedRenamePars` (DirectRenamer.cpp:487-512). -/
def needPars (n : Nzb) : Bool :=
  (collect n).any (fun p => !endsPar p.name) ||
    (collect n).zipIdx.any (fun p => (collect n).zipIdx.any (fun q => p.2 != q.2 && p.1.setId == q.1.setId && !ParName.same false p.1.name q.1.name))

/-- `DirectRenamer::RenameCompletedFile` (DirectRenamer.cpp:514-526) with MoveFile in one directory. -/
def renameDisk (env : Env) (d : Dir) (old new : Bytes) : Option Dir :=
  match get d old with
  | none => none
  | some x => if env.ren old new && renameOk (get d new) x then some (put (del d old) new x) else none

/-- The state of the loops of RenameFiles. -/
structure Loop where
  dir : Dir
  vol : Nat
  count : Nat
deriving DecidableEq, Repr

/-- The new name of a file, and the next number (DirectRenamer.cpp:363-371, 405-413). -/
def newName (pars : Bool) (hashes : List (Bytes × Bytes)) (st : Loop) (par : Bool) (name setId hash : Bytes) : Option Bytes × Nat :=
  if par && pars then ((parName name st.dir setId st.vol).map some id)
  else if !par then (regularName name hashes hash, st.vol)
  else (none, st.vol)

/-- `EndsWith(OutputFilename, ".out.tmp", true)`. -/
def written (f : File) : Bool := match f.output with | some o => !(lit ".out.tmp").isSuffixOf o | none => false

/-- A file with a new name (DirectRenamer.cpp:381-387, 391-397). -/
def renamed (f : File) (new : Bytes) : File := { f with orig := if f.orig.isEmpty then f.name else f.orig, name := new }

/-- The body of the first loop of RenameFiles (DirectRenamer.cpp:361-400). -/
def stepFile (env : Env) (pars : Bool) (hashes : List (Bytes × Bytes)) (st : Loop) (f : File) : Loop × File :=
  let r := newName pars hashes st f.par f.name f.setId f.hash
  let st := { st with vol := r.2 }
  match r.1 with
  | none => (st, f)
  | some new =>
    if !written f then ({ st with count := st.count + 1 }, renamed f new)
    else match renameDisk env st.dir f.name new with
      | some d => ({ st with dir := d, count := st.count + 1 }, renamed f new)
      | none => (st, f)

/-- The body of the second loop of RenameFiles (DirectRenamer.cpp:403-424). -/
def stepDone (env : Env) (pars : Bool) (hashes : List (Bytes × Bytes)) (st : Loop) (f : Done) : Loop × Done :=
  let r := newName pars hashes st f.par f.name f.setId f.hash
  let st := { st with vol := r.2 }
  match r.1 with
  | none => (st, f)
  | some new =>
    match renameDisk env st.dir f.name new with
    | some d => ({ st with dir := d, count := st.count + 1 }, { f with orig := if f.orig.isEmpty then f.name else f.orig, name := new })
    | none => (st, f)

/-- A loop over a list which changes its elements. -/
def mapSt {σ α : Type} (g : σ → α → σ × α) : σ → List α → σ × List α
  | s, [] => (s, [])
  | s, a :: l => let r := g s a; let t := mapSt g r.1 l; (t.1, r.2 :: t.2)

/-- `DirectRenamer::RenameFiles` (DirectRenamer.cpp:353-436): the directory, the download and the number of renamed files. -/
def renameFiles (env : Env) (d : Dir) (n : Nzb) (hashes : List (Bytes × Bytes)) : Dir × Nzb × Nat :=
  let pars := needPars n
  let r := mapSt (stepFile env pars hashes) ⟨d, 1, 0⟩ n.files
  let t := mapSt (stepDone env pars hashes) r.1 n.done
  (t.1.dir, { n with files := r.2, done := t.2, finished := true }, t.1.count)

/-- `DirectParLoader::Run` (DirectRenamer.cpp:105-122), while nothing else happens in between. -/
def load (env : Env) (d : Dir) (n : Nzb) : Dir × Nzb × Nat := renameFiles env d n (loadAll env d n.done)

end Verif.DirectRename
