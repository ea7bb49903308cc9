import Verif.Files
/-
Model of changing the category or the name of an entry of the queue: /repo/daemon/queue/QueueCoordinator.cpp SetQueueEntryCategory
(1097-1114) and SetQueueEntryName (1116-1146), /repo/daemon/queue/DownloadInfo.cpp BuildDestDirName (231-241) and
/repo/daemon/nntp/ArticleWriter.cpp MoveCompletedFiles (694-757).

What is simplified: neither of the two directories is inside of the other one. Paths are shorter than 1024 bytes (`BString<1024>`).
Nobody else changes the directories meanwhile, and
an empty directory can be removed. What the operating system answers is a parameter.
-/
namespace Verif.MoveDone
open CStr FileName Files

/-- The options: InterDir, DestDir, the option DestDir of each category (empty if there is none) and AppendCategoryDir. -/
structure Cfg where
  interDir : Bytes
  destDir : Bytes
  catDir : Bytes → Bytes
  append : Bool

/-- An entry of the queue. `completed`: the names of the files which were downloaded. `pending`: for each other file, whether it
is being written. -/
structure Nzb where
  id : Nat
  isUrl : Bool
  name : Bytes
  filename : Bytes
  category : Bytes
  dir : Bytes
  post : Bool
  completed : List Bytes
  pending : List Bool
deriving DecidableEq, Repr

/-- The directories of the disk. -/
abbrev World := Bytes → Option Dir

/-- What the operating system answers: whether the new directory can be created, and to each move. -/
structure Os where
  created : Bool
  moved : Bytes → Answer

/-- NzbInfo::BuildDestDirName (DownloadInfo.cpp:231-241). -/
def destOf (cfg : Cfg) (n : Nzb) : Bytes :=
  if cfg.interDir = [] then finalDir cfg.destDir (cfg.catDir n.category) cfg.append n.category n.name
  else cfg.interDir ++ 47 :: n.name ++ lit ".#" ++ dec n.id

/-- The body of the loop of MoveCompletedFiles (ArticleWriter.cpp:712-728). A file which is not there cannot be moved. -/
def step (os : Os) (st : Dir × Dir) (c : Bytes) : Dir × Dir :=
  match get st.1 c with
  | none => st
  | some x => (moveFile (os.moved c) x c (uniqueName st.2 c) st.1 st.2).2

/-- The loop which looks for pending writes (ArticleWriter.cpp:735-751). -/
def pendingLoop : (pendingWrites : Bool) → List Bool → Bool
  | p, [] => p
  | p, b :: bs => if !p then p else pendingLoop b bs

def setDir (w : World) (p : Bytes) (d : Option Dir) : World := fun q => if q = p then d else w q

/-- ArticleWriter::MoveCompletedFiles (ArticleWriter.cpp:694-757): the result and the disk. -/
def moveCompleted (os : Os) (n : Nzb) (old : Bytes) (w : World) : Bool × World :=
  if n.completed = [] then (true, w)
  else if !os.created then (false, w)
  else
    let r := n.completed.foldl (step os) ((w old).getD [], (w n.dir).getD [])
    let gone := r.1.isEmpty && !pendingLoop false n.pending
    (true, setDir (setDir w n.dir (some r.2)) old (if gone then none else (w old).map (fun _ => r.1)))

/-- The new directory is set and the files are moved (QueueCoordinator.cpp:1105-1113, 1138-1145). -/
def relocate (cfg : Cfg) (os : Os) (old : Bytes) (n : Nzb) (w : World) : Bool × Nzb × World :=
  let m := { n with dir := destOf cfg n }
  if m.dir = old then (true, m, w)
  else ((moveCompleted os m old w).1, m, (moveCompleted os m old w).2)

/-- QueueCoordinator::SetQueueEntryCategory (QueueCoordinator.cpp:1097-1114). -/
def setCategory (cfg : Cfg) (os : Os) (category : Bytes) (n : Nzb) (w : World) : Bool × Nzb × World :=
  if n.post then (false, n, w) else relocate cfg os n.dir { n with category := category } w

/-- QueueCoordinator::SetQueueEntryName (QueueCoordinator.cpp:1116-1146). -/
def setName (cfg : Cfg) (os : Os) (name : Bytes) (n : Nzb) (w : World) : Bool × Nzb × World :=
  if n.post then (false, n, w)
  else if name = [] then (false, n, w)
  else
    let m := { n with name := niceName false name }
    if n.isUrl then (true, { m with filename := (m.name ++ lit ".nzb").take 1023 }, w)
    else relocate cfg os n.dir m w

end Verif.MoveDone
