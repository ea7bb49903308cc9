/-
Model of how a download moves from the queue to the history and back: the end of a file (QueueCoordinator::DeleteFileInfo), the parking
of the remaining files (HistoryCoordinator::AddToHistory) and the requests "retry failed articles", "download remaining files" and
"post-process again" (HistoryCoordinator::HistoryRetry), /repo/daemon/queue. Sizes and numbers are unbounded integers. Not modelled:
the server statistics of the files, names other than the name of the output file, log messages, the states of post-processing.
-/
namespace Verif.HistoryRetry

/-- ArticleInfo::EStatus, DownloadInfo.h:77-83. `aiRunning` is stored like `aiUndefined` (DiskState.cpp:1310-1313) and no article of a
file which ended or is parked is running. -/
inductive AStatus | undefined | finished | failed
deriving DecidableEq, Repr

/-- ArticleInfo, DownloadInfo.h:74-120: what the retry depends on or changes. -/
structure Article where
  size : Int
  status : AStatus
  offset : Nat
  segment : Nat
  crc : Nat
deriving DecidableEq, Repr

/-- A new ArticleInfo, DownloadInfo.h:105-120, with the size which LoadFileInfo sets. -/
def Article.new (size : Int) : Article := ⟨size, .undefined, 0, 0, 0⟩

/-- FileInfo::EPartialState, DownloadInfo.h:122-127; `psPartial` does not occur in the history. -/
inductive Part | none | completed
deriving DecidableEq, Repr

/-- FileInfo, DownloadInfo.h:199-250: counters and articles. -/
structure File where
  id : Nat
  name : String
  size : Int
  missed : Int
  remaining : Int
  success : Int
  failed : Int
  total : Int
  missedArticles : Int
  successArticles : Int
  failedArticles : Int
  completedArticles : Int
  par : Bool
  part : Part
  articles : List Article
deriving DecidableEq, Repr

/-- CompletedFile::EStatus, DownloadInfo.h:257-263. -/
inductive CStatus | none | success | partly | failure
deriving DecidableEq, Repr

/-- CompletedFile, DownloadInfo.h:254-289. -/
structure Completed where
  id : Nat
  name : String
  status : CStatus
deriving DecidableEq, Repr

/-- What the file `<id>` in the queue directory holds, DiskState.cpp:1095-1173. -/
structure Data where
  size : Int
  missed : Int
  total : Int
  missedArticles : Int
  par : Bool
  sizes : List Int
deriving DecidableEq, Repr

/-- Status, offset, size and crc of an article in the file `<id>c`. -/
structure Entry where
  status : AStatus
  offset : Nat
  segment : Nat
  crc : Nat
deriving DecidableEq, Repr

/-- What the file `<id>c` in the queue directory holds, DiskState.cpp:1191-1217. -/
structure State where
  successArticles : Int
  failedArticles : Int
  remaining : Int
  success : Int
  failed : Int
  par : Bool
  entries : List Entry
deriving DecidableEq, Repr

/-- The queue directory and the destination directory of the download. `out`: the sizes of the files in the destination directory. -/
structure Disk where
  data : Nat → Option Data
  state : Nat → Option State
  out : String → Option Nat

/-- The totals of NzbInfo for ended files, DownloadInfo.h:655-740. -/
structure Totals where
  success : Int
  failed : Int
  successArticles : Int
  failedArticles : Int
  parSuccess : Int
  parFailed : Int
deriving DecidableEq, Repr

/-- NzbInfo, DownloadInfo.h:655-740. -/
structure Nzb where
  files : List File
  completed : List Completed
  totals : Totals
  parked : Nat
deriving DecidableEq, Repr

/-- A function with one value replaced. -/
def set {α β : Type} [DecidableEq α] (m : α → β) (k : α) (v : β) : α → β := fun x => if x = k then v else m x

/-- DiskState::LoadFile with `fileSummary` and `articles`, DiskState.cpp:1078-1173, into a new FileInfo. -/
def loadFile (d : Disk) (i : Nat) (name : String) : Option File :=
  match d.data i with
  | .none => .none
  | some x => some
    { id := i, name := name, size := x.size, missed := x.missed, remaining := x.size - x.missed, success := 0, failed := 0,
      total := x.total, missedArticles := x.missedArticles, successArticles := 0, failedArticles := 0, completedArticles := 0,
      par := x.par, part := .none, articles := x.sizes.map Article.new }

/-- The loop over the articles in LoadFileState, DiskState.cpp:1279-1331, for `completed`. More entries than articles: `at` throws an
exception, here the loading fails. -/
def applyEntries : List Article → List Entry → Option (List Article)
  | l, [] => some l
  | [], _ :: _ => none
  | a :: l, e :: es =>
    match applyEntries l es with
    | none => none
    | some r => some ({ a with status := e.status, offset := e.offset, segment := e.segment, crc := e.crc } :: r)

/-- `completedArticles` in LoadFileState, DiskState.cpp:1326-1329, 1333. -/
def tried : List Entry → Int
  | [] => 0
  | e :: l => (if e.status = .undefined then 0 else 1) + tried l

/-- DiskState::LoadFileState with `completed`, DiskState.cpp:1219-1340. -/
def loadState (d : Disk) (f : File) : Option File :=
  match d.state f.id with
  | none => none
  | some s =>
    match applyEntries f.articles s.entries with
    | none => none
    | some l => some { f with successArticles := s.successArticles, failedArticles := s.failedArticles, remaining := s.remaining,
                              success := s.success, failed := s.failed, par := s.par, completedArticles := tried s.entries, articles := l }

/-- DiskState::SaveFileState with `completed`, DiskState.cpp:1175-1217. -/
def stateOf (f : File) : State :=
  { successArticles := f.successArticles, failedArticles := f.failedArticles, remaining := f.remaining, success := f.success,
    failed := f.failed, par := f.par, entries := f.articles.map fun a => ⟨a.status, a.offset, a.segment, a.crc⟩ }

/-- UpdateCompletedStats, DownloadInfo.cpp:693-714; also the sums in UpdateCurrentStats, DownloadInfo.cpp:668-690. -/
def Totals.add (t : Totals) (f : File) : Totals :=
  { success := t.success + f.success, failed := t.failed + f.failed,
    successArticles := t.successArticles + f.successArticles, failedArticles := t.failedArticles + f.failedArticles,
    parSuccess := if f.par then t.parSuccess + f.success else t.parSuccess,
    parFailed := if f.par then t.parFailed + f.failed else t.parFailed }

/-- The subtraction in ResetArticles, HistoryCoordinator.cpp:679-688. -/
def Totals.sub (t : Totals) (f : File) : Totals :=
  { success := t.success - f.success, failed := t.failed - f.failed,
    successArticles := t.successArticles - f.successArticles, failedArticles := t.failedArticles - f.failedArticles,
    parSuccess := if f.par then t.parSuccess - f.success else t.parSuccess,
    parFailed := if f.par then t.parFailed - f.failed else t.parFailed }

/-- UpdateCurrentStats, DownloadInfo.cpp:652-691: the totals of the whole download, as they are shown. -/
def Nzb.current (n : Nzb) : Totals := n.files.foldl Totals.add n.totals

/-- UpdateCurrentStats, DownloadInfo.cpp:655, 670: what remains to be downloaded. -/
def Nzb.remaining (n : Nzb) : Int := n.files.foldl (fun r f => r + f.remaining) 0

/-- HistoryCoordinator.cpp:669-675: the counters of a file of which all articles failed. -/
def markFailed (f : File) : File :=
  { f with failed := f.size - f.missed, failedArticles := f.total - f.missedArticles, remaining := 0,
           completedArticles := f.total - f.missedArticles }

/-- The condition in ResetArticles, HistoryCoordinator.cpp:692-694. -/
def mustReset (part : Part) (allFailed resetFailed : Bool) (a : Article) : Bool :=
  (a.status == .failed && (resetFailed || part == .none)) ||
  (a.status == .undefined && resetFailed && allFailed) ||
  (a.status == .finished && part == .none)

/-- The counters in ResetArticles, HistoryCoordinator.cpp:696-709. -/
def uncount (f : File) (a : Article) : File :=
  let f := { f with completedArticles := f.completedArticles - 1, remaining := f.remaining + a.size }
  match a.status with
  | .finished => { f with successArticles := f.successArticles - 1, success := f.success - a.size }
  | _ => { f with failedArticles := f.failedArticles - 1, failed := f.failed - a.size }

/-- An article in ResetArticles, HistoryCoordinator.cpp:711-714. -/
def resetArticle (part : Part) (allFailed resetFailed : Bool) (a : Article) : Article :=
  if mustReset part allFailed resetFailed a then { a with status := .undefined, crc := 0, offset := 0, segment := 0 } else a

/-- The loop in ResetArticles for the counters, HistoryCoordinator.cpp:690-716. -/
def uncountAll (part : Part) (allFailed resetFailed : Bool) : File → List Article → File
  | f, [] => f
  | f, a :: l => uncountAll part allFailed resetFailed (if mustReset part allFailed resetFailed a then uncount f a else f) l

/-- HistoryCoordinator::ResetArticles, HistoryCoordinator.cpp:665-717. -/
def resetArticles (t : Totals) (f : File) (allFailed resetFailed : Bool) : Totals × File :=
  let f := if allFailed then markFailed f else f
  let t := t.sub f
  let g := uncountAll f.part allFailed resetFailed f f.articles
  (t, { g with articles := f.articles.map (resetArticle f.part allFailed resetFailed) })

/-- The loading of a completed file and the decision whether it goes back to the queue, HistoryCoordinator.cpp:601-614. -/
def pick (resetFailed : Bool) (d : Disk) (c : Completed) : Option File :=
  if c.status ≠ .success ∧ (c.status ≠ .failure ∨ resetFailed = true) ∧ c.id > 0 then
    match loadFile d c.id c.name with
    | none => none
    | some f =>
      match c.status with
      | .partly =>
        match loadState d f with
        | none => none
        | some g => if resetFailed = true ∨ g.remaining > 0 then some g else none
      | _ => some f
  else none

/-- The removal of an output file which holds nothing, HistoryCoordinator.cpp:619-622. -/
def dropOut (d : Disk) (f : File) : Disk :=
  if f.successArticles = 0 ∨ d.out f.name = some 0 then { d with out := set d.out f.name none } else d

/-- The partial state, HistoryCoordinator.cpp:624-635. A new FileInfo has `psNone`, so it does not matter whether the download is only
processed again. -/
def partOf (d : Disk) (f : File) : Part :=
  if f.successArticles > 0 then (if (d.out f.name).isSome then .completed else .none) else f.part

/-- HistoryCoordinator.cpp:639-643: the stored states of the file. -/
def storeState (d : Disk) (f : File) : Disk :=
  match f.part with
  | .completed => { d with state := set d.state f.id (some (stateOf f)) }
  | .none => { d with state := set d.state f.id none }

/-- The body of the loop in HistoryRetry, HistoryCoordinator.cpp:614-649, for a file which goes back to the queue. -/
def unpark (resetFailed : Bool) (d : Disk) (t : Totals) (c : Completed) (f : File) : Disk × Totals × File :=
  let d := dropOut d f
  let f := { f with part := partOf d f }
  let r := resetArticles t f (c.status == .failure) resetFailed
  let d := storeState d r.2
  (d, r.1, { r.2 with articles := [] })

/-- The loop in HistoryRetry, HistoryCoordinator.cpp:597-653: the disk, the totals, the files for the queue, and the completed files
which remain. -/
def retryLoop (resetFailed : Bool) : Disk → Totals → List Completed → Disk × Totals × List File × List Completed
  | d, t, [] => (d, t, [], [])
  | d, t, c :: l =>
    match pick resetFailed d c with
    | some f =>
      let u := unpark resetFailed d t c f
      let r := retryLoop resetFailed u.1 u.2.1 l
      (r.1, r.2.1, u.2.2 :: r.2.2.1, r.2.2.2)
    | none =>
      let r := retryLoop resetFailed d t l
      (r.1, r.2.1, r.2.2.1, c :: r.2.2.2)

/-- HistoryCoordinator::HistoryRetry, HistoryCoordinator.cpp:572-663, for a download whose directory exists (otherwise nothing is
done). The request to pause par2-files at its end is not modelled. -/
def retry (resetFailed : Bool) (d : Disk) (n : Nzb) : Disk × Nzb :=
  let r := retryLoop resetFailed d n.totals n.completed
  (r.1, { files := n.files ++ r.2.2.1, completed := r.2.2.2, totals := r.2.1, parked := 0 })

/-- HistoryCoordinator::HistoryReturn, HistoryCoordinator.cpp:540-559, for a download; `none`: refused. -/
def giveBack (d : Disk) (n : Nzb) : Option (Disk × Nzb) :=
  if n.parked = 0 then none else some (retry false d n)

/-- LoadArticles (DiskState.cpp:1073-1076) and LoadPartialState (QueueCoordinator.cpp:969-986), with which GetNextArticle
(QueueCoordinator.cpp:573-577) loads the articles of a file of the queue. If the state cannot be loaded the file stays as it is. -/
def loadArticles (d : Disk) (f : File) : File :=
  match d.data f.id with
  | none => f
  | some x =>
    let g := { f with articles := x.sizes.map Article.new }
    match g.part with
    | .none => g
    | .completed => (loadState d g).getD g

/-- The status of an ended file, QueueCoordinator.cpp:842-846. -/
def statusOf (f : File) : CStatus :=
  if f.total = f.successArticles then .success
  else if f.total = f.missedArticles + f.failedArticles then .failure
  else if f.successArticles > 0 ∨ f.failedArticles > 0 then .partly
  else .none

/-- QueueCoordinator::DeleteFileInfo, QueueCoordinator.cpp:821-894, for a file which is completed, in server mode; `name`: the name of
its output file. The file is the first of the list. -/
def complete (d : Disk) (n : Nzb) (f : File) (rest : List File) (name : String) : Disk × Nzb :=
  let s := statusOf f
  let d := if s = .success then { d with data := set d.data f.id none } else d
  let d := if s = .partly then { d with state := set d.state f.id (some (stateOf f)) } else d
  (d, { n with files := rest, totals := n.totals.add f, completed := n.completed ++ [⟨f.id, name, s⟩] })

/-- The parking of files, HistoryCoordinator.cpp:129-136. -/
def parkFile (n : Nzb) (f : File) : Nzb :=
  { n with totals := n.totals.add f, completed := n.completed ++ [⟨f.id, f.name, .none⟩] }

/-- The number of parked files, HistoryCoordinator.cpp:165-176. -/
def countParked : List Completed → Nat
  | [] => 0
  | c :: l => (if c.status = .none ∨ (c.status = .partly ∧ l = []) then 1 else 0) + countParked l

/-- HistoryCoordinator::AddToHistory, HistoryCoordinator.cpp:121-190, for a download whose parked files are kept. -/
def addToHistory (n : Nzb) : Nzb :=
  let m := n.files.foldl parkFile n
  { m with parked := countParked m.completed, files := [] }

end Verif.HistoryRetry
