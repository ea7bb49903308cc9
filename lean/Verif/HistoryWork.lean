import Verif.Dupe
/-
Model of the clean-up of the history, /repo/daemon/queue/HistoryCoordinator.cpp:39-84 and 194-230, and of the marking of entries,
/repo/daemon/queue/DupeCoordinator.cpp:420-507.
-/
namespace Verif.HistoryWork
open Verif.Dupe

/-- HistoryInfo with its time, DownloadInfo.h:892-932. -/
structure Entry where
  id : Nat
  time : Int
  what : Hist
deriving DecidableEq, Repr

/-- The status of the hidden entry, HistoryCoordinator.cpp:207-217. -/
def hiddenStatus (i : Item) : DupStatus :=
  if i.mark == .good then .good
  else if i.mark == .bad then .bad
  else if i.mark == .success then .success
  else if i.del == .dupe then .dupe
  else if i.del == .manual || i.del == .good || i.del == .copy then .deleted
  else if i.isSuccess then .success
  else .failed

/-- HistoryCoordinator::HistoryHide, HistoryCoordinator.cpp:192-224: the new entry. (Size and files on disk are not modelled.) -/
def hide (id : Nat) (time : Int) (i : Item) : Entry :=
  ⟨id, time, .hidden ⟨i.name, i.key, i.score, i.mode, hiddenStatus i, i.full, i.filtered⟩⟩

/-- What a loop does with an entry. -/
inductive Act (α : Type) | keep | replace (x : α) | erase

/-- A loop over the history from the end with the position `it` of the reverse iterator and `index`: HistoryCoordinator.cpp:45-77 and
DupeCoordinator.cpp:478-502. Replaced is the element `size - 1 - index`, erased the element `end - 1 - index`; then `it = rbegin + index`.
`none`: access beyond the list or more turns than there are entries (never, `reverse_loop`). -/
def revLoop {α : Type} (act : α → Act α) : Nat → List α → Nat → Nat → Option (List α)
  | 0, h, it, _ => if it = h.length then some h else none
  | fuel + 1, h, it, index =>
    if it = h.length then some h
    else if it > h.length then none
    else match h[h.length - 1 - it]? with
      | none => none
      | some e =>
        match act e with
        | .keep => revLoop act fuel h (it + 1) (index + 1)
        | .replace x =>
          if index < h.length then revLoop act fuel (h.set (h.length - 1 - index) x) (index + 1) (index + 1) else none
        | .erase =>
          if index < h.length then revLoop act fuel (h.eraseIdx (h.length - 1 - index)) index index else none

/-- The decision of HistoryCoordinator::ServiceWork, HistoryCoordinator.cpp:49-69. -/
def serviceAct (dupeCheck : Bool) (minTime : Int) (e : Entry) : Act Entry :=
  match e.what with
  | .hidden _ => .keep
  | .item i =>
    if e.time < minTime then
      if dupeCheck && !i.isUrl then .replace (hide e.id e.time i) else .erase
    else .keep

/-- `GetKeepHistory() * 60*60*24` (HistoryCoordinator.cpp:43): a product of type `int`; where it overflows, C++ does not define the result, and
the wrapped result of all usual machines is taken. -/
def keepSeconds (days : Int) : Int := (days * 60 * 60 * 24).bmod (2 ^ 32)

/-- HistoryCoordinator::ServiceWork, HistoryCoordinator.cpp:39-84. `keep`: the days of option KeepHistory. -/
def serviceWork (dupeCheck : Bool) (now keep : Int) (h : List Entry) : Option (List Entry) :=
  revLoop (serviceAct dupeCheck (now - keepSeconds keep)) h.length h 0 0

/-- The decision of DupeCoordinator::HistoryCleanup, DupeCoordinator.cpp:482-490. -/
def cleanupAct (markId : Nat) (name key : String) (e : Entry) : Act Entry :=
  match e.what with
  | .hidden _ => .keep
  | .item i =>
    if i.mode != .force && i.del == .dupe && e.id != markId && sameNameOrKey i.name i.key name key then .replace (hide e.id e.time i) else .keep

/-- DupeCoordinator::HistoryCleanup, DupeCoordinator.cpp:466-507. -/
def historyCleanup (markId : Nat) (name key : String) (h : List Entry) : Option (List Entry) :=
  revLoop (cleanupAct markId name key) h.length h 0 0

/-- The new mark, DupeCoordinator.cpp:425-442. `none`: urls cannot be marked. -/
def setMark (mark : Mark) (e : Entry) : Option Entry :=
  match e.what with
  | .item i => if i.isUrl then none else some { e with what := .item { i with mark := mark } }
  | .hidden d =>
    some { e with what := .hidden { d with status := match mark with | .good => .good | .success => .success | _ => .bad } }

/-- Name, dupe key and mode of an entry. -/
def titleOf : Hist → String × String × Mode
  | .item i => (i.name, i.key, i.mode)
  | .hidden d => (d.name, d.key, d.mode)

/-- The end of ReturnBestDupe with Redownload, DupeCoordinator.cpp:412-418 and HistoryCoordinator.cpp:430-528. (The hint which is set even without
the nzb-file is not modelled.) -/
def putBack (queue : List Item) (h : List Entry) : Option Nat → List Item × List Entry
  | none => (queue, h)
  | some p =>
    match h[p]? with
    | some ⟨_, _, .item i⟩ =>
      if i.source then ({ i with del := .none, mark := if i.isUrl then i.mark else .none, hint := true } :: queue, h.eraseIdx p)
      else (queue, h)
    | _ => (queue, h)

/-- DupeCoordinator::HistoryMark, DupeCoordinator.cpp:420-464, for the entry at `pos`, option DupeCheck active. The result: queue and history. -/
def historyMark (mark : Mark) (pos : Nat) (queue : List Item) (h : List Entry) : Option (List Item × List Entry) :=
  match h[pos]? with
  | none => none
  | some e =>
    match setMark mark e with
    | none => some (queue, h)
    | some e' =>
      let h := h.set pos e'
      let (name, key, mode) := titleOf e'.what
      if mode == .force then some (queue, h)
      else if mark == .good then (historyCleanup e.id name key h).map fun h => (queue, h)
      else if mark == .bad then
        some (putBack queue h (chooseBackup none name key queue (h.map Entry.what)))
      else some (queue, h)

end Verif.HistoryWork
