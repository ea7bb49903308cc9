/-
Model of the handling of duplicates, /repo/daemon/queue/DupeCoordinator.cpp.
-/
namespace Verif.Dupe

/-- EDupeMode, /repo/daemon/queue/DownloadInfo.h:350-355. -/
inductive Mode | score | all | force
deriving DecidableEq, Repr

/-- NzbInfo::EDeleteStatus, DownloadInfo.h:418-428. -/
inductive Del | none | manual | health | dupe | bad | good | copy | scan
deriving DecidableEq, Repr

/-- NzbInfo::EMarkStatus, DownloadInfo.h:430-436. -/
inductive Mark | none | bad | good | success
deriving DecidableEq, Repr

/-- DupInfo::EStatus, DownloadInfo.h:850-859. -/
inductive DupStatus | undefined | success | failed | deleted | dupe | bad | good
deriving DecidableEq, Repr

/-- NzbInfo as far as duplicates are concerned. `isUrl`: the kind is `nkUrl`; `full`, `filtered`: the content hashes, 0 if unknown;
`broken`: par-check, unpack, download of the url or (both skipped) the health failed, DownloadInfo.cpp:499-507; `healthy`: the health is
not below the critical health (with par2-files allowed for); `post`: in post-processing; `hint`: a dupe hint is set; `feed`: from a feed;
`source`: the nzb-file is still there and can be parsed (always for urls). -/
structure Item where
  id : Nat
  isUrl : Bool
  name : String
  key : String
  score : Int
  mode : Mode
  del : Del
  mark : Mark
  full : Nat
  filtered : Nat
  broken : Bool
  healthy : Bool
  post : Bool
  hint : Bool
  feed : Bool
  source : Bool
deriving DecidableEq, Repr

/-- DupInfo, DownloadInfo.h:847-890: a hidden history entry. -/
structure Hidden where
  name : String
  key : String
  score : Int
  mode : Mode
  status : DupStatus
  full : Nat
  filtered : Nat
deriving DecidableEq, Repr

/-- HistoryInfo, DownloadInfo.h:892-932: `item` for the kinds `hkNzb` and `hkUrl`, `hidden` for `hkDup`. -/
inductive Hist
  | item (i : Item)
  | hidden (d : Hidden)
deriving DecidableEq, Repr

/-- strcasecmp(a, b) == 0 for the letters of ASCII. -/
def sameText (a b : String) : Bool := a.toList.map Char.toLower == b.toList.map Char.toLower

/-- DupeCoordinator::SameNameOrKey, DupeCoordinator.cpp:30-36. -/
def sameNameOrKey (name1 key1 name2 key2 : String) : Bool :=
  let hasKeys := key1 != "" && key2 != ""
  (hasKeys && sameText key1 key2) || (!hasKeys && sameText name1 name2)

/-- NzbInfo::IsDupeSuccess, DownloadInfo.cpp:492-509. -/
def Item.isSuccess (i : Item) : Bool :=
  !(i.mark != .success && i.mark != .good && (i.del != .none || i.mark == .bad || i.broken))

/-- `sameContent`, DupeCoordinator.cpp:59-62, 156-159 and 168-171. -/
def sameContent (new : Item) (full filtered : Nat) : Bool :=
  (new.full > 0 && new.full == full) || (new.filtered > 0 && new.filtered == filtered)

/-- The first entry whose dupe key and score are taken over, DupeCoordinator.cpp:101-140. The name is compared with strcmp. -/
def takeFrom (name : String) : List (String × String × Int) → Option (String × Int)
  | [] => none
  | (n, k, s) :: l => if n == name && (k != "" || s != 0) then some (k, s) else takeFrom name l

/-- The entries of the history with their names, keys and scores, DupeCoordinator.cpp:117-139 (not those of kind `hkUrl`). -/
def histTexts : List Hist → List (String × String × Int)
  | [] => []
  | .item i :: l => if i.isUrl then histTexts l else (i.name, i.key, i.score) :: histTexts l
  | .hidden d :: l => (d.name, d.key, d.score) :: histTexts l

/-- One of the two searches, DupeCoordinator.cpp:101-114 and 115-140. -/
def assignStep (l : List (String × String × Int)) (new : Item) : Item :=
  if new.key == "" && new.score == 0 then
    match takeFrom new.name l with
    | some ks => { new with key := ks.1, score := ks.2 }
    | none => new
  else new

/-- DupeCoordinator.cpp:98-140. -/
def assignKey (queue : List Item) (hist : List Hist) (new : Item) : Item :=
  assignStep (histTexts hist) (assignStep (queue.map fun e => (e.name, e.key, e.score)) new)

/-- The flags `skip`, `good`, `sameContent` after the first loop over the history, DupeCoordinator.cpp:151-202. -/
def histScan (new : Item) : List Hist → Bool × Bool × Bool
  | [] => (false, false, false)
  | .item i :: l =>
    if !i.isUrl && sameContent new i.full i.filtered then (true, false, true)
    else if !i.isUrl && i.mode != .force && i.mark == .good && sameNameOrKey i.name i.key new.name new.key then (true, true, false)
    else histScan new l
  | .hidden d :: l =>
    if sameContent new d.full d.filtered then (true, false, true)
    else if d.mode != .force &&
        (d.status == .good || (new.mode == .score && d.status == .success && new.score ≤ d.score)) &&
        sameNameOrKey d.name d.key new.name new.key then (true, d.status == .good, false)
    else histScan new l

/-- The second loop over the history, DupeCoordinator.cpp:213-230. -/
def successInHistory (new : Item) (hist : List Hist) : Bool :=
  hist.any fun
    | .item i => i.mode != .force && sameNameOrKey i.name i.key new.name new.key && new.score ≤ i.score && i.isSuccess
    | .hidden _ => false

/-- The entry of the queue is compared with the new one, DupeCoordinator.cpp:270-276. -/
def competes (new e : Item) : Bool :=
  e.id != new.id && e.del == .none && (!e.isUrl || (e.isUrl && new.isUrl)) && e.mode != .force &&
    sameNameOrKey e.name e.key new.name new.key

/-- The loop over the queue, DupeCoordinator.cpp:264-306, with the iterator `it` (a position) and `index`. The call of EditEntry marks the
entry and removes it from the queue at once or, if articles are being downloaded, later; `gone` says which. The result: the queue and if the new
entry becomes a backup. The outer `none`: iterator beyond the end or more turns than there are entries (never, `scanQueue_eq`). -/
def scanQueue (gone : Item → Bool) (new : Item) : Nat → List Item → Nat → Int → Option (List Item × Bool)
  | 0, q, it, _ => if it = q.length then some (q, false) else none
  | fuel + 1, q, it, index =>
    if it = q.length then some (q, false)
    else match q[it]? with
      | none => none
      | some e =>
        if competes new e then
          if new.score ≤ e.score then some (q, true)
          else if !e.post then
            let q' := if gone e then q.eraseIdx it else q.set it { e with del := .dupe }
            let index := index + (if q.length = q'.length then 1 else 0)
            if index < 0 then none
            else scanQueue gone new fuel q' index.toNat (index - 1 + 1)
          else scanQueue gone new fuel q (it + 1) (index + 1)
        else scanQueue gone new fuel q (it + 1) (index + 1)

/-- DupeCoordinator::NzbFound, DupeCoordinator.cpp:52-308. The result: the queue and the new entry with its delete status (`none`: it is
added to the queue). -/
def nzbFound (gone : Item → Bool) (queue : List Item) (hist : List Hist) (new : Item) : Option (List Item × Item) :=
  if queue.any (fun e => e.id != new.id && sameContent new e.full e.filtered && !new.isUrl) then
    some (queue, { new with del := if new.feed then .manual else .copy })
  else
    let new := assignKey queue hist new
    let (skip, good, same) := histScan new hist
    if !same && new.hint then some (queue, new)
    else if !same && !good && new.mode == .score && successInHistory new hist then some (queue, { new with del := .dupe })
    else if skip then
      some (queue, { new with del := if new.feed && !new.hint then .manual else if same then .copy else .good })
    else if new.mode == .score then
      match scanQueue gone new queue.length queue 0 0 with
      | none => none
      | some (q, dupe) => some (q, if dupe then { new with del := .dupe } else new)
    else some (queue, new)

/-- A score is above another one, if there is another one: `!dupeFound || score > historyScore`, DupeCoordinator.cpp:341, 357, 385, 402-404. -/
def above (x : Int) : Option Int → Bool
  | none => true
  | some s => x > s

/-- The update of `historyScore` and `dupeFound`, DupeCoordinator.cpp:341-345 and 357-361. -/
def raise (best : Option Int) (x : Int) : Option Int := if above x best then some x else best

/-- The first loop of ReturnBestDupe, DupeCoordinator.cpp:332-371. `none`: there is a good duplicate, the function returns. Otherwise
`historyScore` if `dupeFound`. -/
def historyScore (name key : String) : List Hist → Option Int → Option (Option Int)
  | [], best => some best
  | .item i :: l, best =>
    if !i.isUrl && i.mode != .force && i.isSuccess && sameNameOrKey i.name i.key name key then
      if i.mark == .good then none
      else historyScore name key l (raise best i.score)
    else historyScore name key l best
  | .hidden d :: l, best =>
    if d.mode != .force && (d.status == .success || d.status == .good) && sameNameOrKey d.name d.key name key then
      if d.status == .good then none
      else historyScore name key l (raise best d.score)
    else historyScore name key l best

/-- The loop over the queue, DupeCoordinator.cpp:373-389: `queueScore` if `queueDupe`. `self`: the entry whose download failed. -/
def queueScore (self : Option Nat) (name key : String) : List Item → Option Int → Option Int
  | [], best => best
  | e :: l, best =>
    if some e.id != self && !e.isUrl && e.mode != .force && sameNameOrKey e.name e.key name key &&
        above e.score best then queueScore self name key l (some e.score)
    else queueScore self name key l best

/-- The second loop over the history, DupeCoordinator.cpp:391-410. The result is the position of `historyDupe`. -/
def bestBackup (name key : String) (hs qs : Option Int) : List Hist → Nat → Option (Nat × Int) → Option Nat
  | [], _, best => best.map Prod.fst
  | .item i :: l, pos, best =>
    if i.mode != .force && i.del == .dupe && i.healthy && i.mark != .bad &&
        above i.score hs &&
        above i.score qs &&
        above i.score (best.map Prod.snd) &&
        sameNameOrKey i.name i.key name key then bestBackup name key hs qs l (pos + 1) (some (pos, i.score))
    else bestBackup name key hs qs l (pos + 1) best
  | .hidden _ :: l, pos, best => bestBackup name key hs qs l (pos + 1) best

/-- The choice of ReturnBestDupe, DupeCoordinator.cpp:329-410: the position in the history. -/
def chooseBackup (self : Option Nat) (name key : String) (queue : List Item) (hist : List Hist) : Option Nat :=
  match historyScore name key hist none with
  | none => none
  | some hs => bestBackup name key hs (queueScore self name key queue none) hist 0 none

/-- ReturnBestDupe with HistoryCoordinator::Redownload, DupeCoordinator.cpp:412-418 and HistoryCoordinator.cpp:430-528 and 872-876: the entry comes to the
beginning of the queue with delete status and mark reset and the hint set. Without the nzb-file nothing happens but the hint. -/
def returnBest (self : Option Nat) (name key : String) (queue : List Item) (hist : List Hist) : List Item × List Hist :=
  match chooseBackup self name key queue hist with
  | none => (queue, hist)
  | some pos =>
    match hist[pos]? with
    | some (.item i) =>
      if i.source then ({ i with del := .none, mark := if i.isUrl then i.mark else .none, hint := true } :: queue, hist.eraseIdx pos)
      else (queue, hist.set pos (.item { i with hint := true }))
    | _ => (queue, hist)

/-- PrePostProcessor::NzbCompleted with DupeCoordinator::NzbCompleted, /repo/daemon/postprocess/PrePostProcessor.cpp:407-428 and
DupeCoordinator.cpp:315-323; option DupeCheck is active and history is kept. `wasAuto`: the hint before it was reset was `dhRedownloadAuto`. -/
def nzbCompleted (wasAuto : Bool) (queue : List Item) (hist : List Hist) (done : Item) : List Item × List Hist :=
  let queue := queue.filter (·.id != done.id)
  let done := { done with hint := false }
  let hist := .item done :: hist
  if done.mode != .force && (done.del == .none || done.del == .health || done.del == .bad || done.del == .scan ||
      (done.del == .copy && wasAuto)) && done.mode == .score && !done.isSuccess then
    returnBest (some done.id) done.name done.key queue hist
  else (queue, hist)

end Verif.Dupe
