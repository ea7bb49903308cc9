/-
Model of the moves of queue entries, /repo/daemon/queue/QueueEditor.cpp. A queue (or the list of files of an entry) is the list of the
ids of its entries; in the program entries are identified by address or by id, which is the same for distinct ids.
-/
namespace Verif.QueueEdit

/-- MAX_ID, QueueEditor.cpp:34. -/
def maxId : Int := 1000000000

/-- `erase(begin() + entry)` and `insert(begin() + newEntry, moved)` of the same element, QueueEditor.cpp:288-290 and 256-258.
`none`: an iterator outside of the container, which is undefined. -/
def moveIdx (q : List Nat) (entry newEntry : Nat) : Option (List Nat) :=
  match q[entry]? with
  | none => none
  | some x =>
    let rest := q.take entry ++ q.drop (entry + 1)
    if newEntry ≤ rest.length then some (rest.take newEntry ++ x :: rest.drop newEntry) else none

/-- QueueEditor::MoveGroup (QueueEditor.cpp:262-292) and, for the files of an entry, QueueEditor::MoveEntry (230-260), which is the same
code. Integers are unbounded: `int` overflow for offsets near 2^31 is not modelled. -/
def moveGroup (q : List Nat) (x : Nat) (offset : Int) : Option (List Nat) :=
  let entry := q.idxOf x
  let size : Int := q.length
  let newEntry := (entry : Int) + offset
  let newEntry := if newEntry < 0 then 0 else newEntry
  let newEntry := if newEntry > size - 1 then size - 1 else newEntry
  if 0 ≤ newEntry ∧ newEntry ≤ size - 1 then moveIdx q entry newEntry.toNat else some q

/-- The `workOffset` of an entry, QueueEditor.cpp:496-519 and 552-575. -/
def workOffset (nrEntries offset lastDestPos index : Int) : Int :=
  let destPos := index + offset
  if lastDestPos = -1 then
    if destPos < 0 then -index
    else if destPos > nrEntries - 1 then nrEntries - 1 - index
    else offset
  else
    if offset < 0 ∧ destPos ≤ lastDestPos then lastDestPos - index + 1
    else if offset > 0 ∧ destPos ≥ lastDestPos then lastDestPos - index - 1
    else offset

/-- The loop over the entries, QueueEditor.cpp:490-523 and 546-579, over the given list of indexes. -/
def prepareLoop (q : List Nat) (sel : Nat → Bool) (offset : Int) : List Nat → Int → List (Nat × Int)
  | [], _ => []
  | index :: rest, lastDestPos =>
    match q[index]? with
    | none => []
    | some x =>
      if sel x then
        let w := workOffset q.length offset lastDestPos index
        (x, w) :: prepareLoop q sel offset rest (index + w)
      else prepareLoop q sel offset rest lastDestPos

/-- QueueEditor::PrepareList for moves of groups (QueueEditor.cpp:526-580) and, for each entry, moves of files (469-525), which differ
only for `offset = 0`, where the files are collected by the last branches and moved by 0. `sel`: the ids in the command. -/
def prepareList (q : List Nat) (sel : Nat → Bool) (offset : Int) : List (Nat × Int) :=
  let indexes := if offset ≤ 0 then List.range q.length else (List.range q.length).reverse
  prepareLoop q sel offset indexes (-1)

/-- The loop over the items in QueueEditor::InternEditList, QueueEditor.cpp:370-418. -/
def moveItems : List (Nat × Int) → List Nat → Option (List Nat)
  | [], q => some q
  | (x, w) :: rest, q => (moveGroup q x w).bind (moveItems rest)

/-- The commands eaGroupMoveOffset, eaFileMoveOffset with an offset other than 0; with `-maxId` and `maxId` the commands
MoveTop and MoveBottom, QueueEditor.cpp:459-466. -/
def moveOffset (q : List Nat) (sel : Nat → Bool) (offset : Int) : Option (List Nat) :=
  moveItems (prepareList q sel offset) q

def moveTop (q : List Nat) (sel : Nat → Bool) : Option (List Nat) := moveOffset q sel (-maxId)
def moveBottom (q : List Nat) (sel : Nat → Bool) : Option (List Nat) := moveOffset q sel maxId

/-- The loop of QueueEditor::AlignGroups, QueueEditor.cpp:1056-1086. `last`: `lastNum`, if `lastNzbInfo` is set. (After a move
`lastNzbInfo` is taken through a reference into the changed deque; it is only compared with null, so the model ignores this.)
The first argument bounds the number of turns. -/
def alignLoop (sel : Nat → Bool) : Nat → Nat → Option Nat → List Nat → Option (List Nat)
  | 0, _, _, q => some q
  | k + 1, num, last, q =>
    match q[num]? with
    | none => some q
    | some x =>
      if sel x then
        match last with
        | some lastNum =>
          if num - lastNum > 1 then (moveIdx q num (lastNum + 1)).bind (alignLoop sel k (num + 1) (some (lastNum + 1)))
          else alignLoop sel k (num + 1) (some num) q
        | none => alignLoop sel k (num + 1) (some num) q
      else alignLoop sel k (num + 1) last q

/-- QueueEditor::AlignGroups, QueueEditor.cpp:1050-1087. -/
def alignGroups (q : List Nat) (sel : Nat → Bool) : Option (List Nat) := alignLoop sel q.length 0 none q

/-- The search for another target, QueueEditor.cpp:1115-1131. -/
def nextTarget (sel : Nat → Bool) (target : Nat) : Bool → List Nat → Option Nat
  | _, [] => none
  | true, x :: q => if !sel x then some x else nextTarget sel target true q
  | false, x :: q => if target = x then nextTarget sel target true q else nextTarget sel target false q

/-- The loop which computes the offset, QueueEditor.cpp:1146-1169. The value of `k` is `itemList->size()`. -/
def targetOffset (target move : Nat) (before : Bool) (k : Int) : Bool → Int → Int → List Nat → Int
  | _, _, offset, [] => offset
  | progress, step, offset, x :: q =>
    if x = target ∨ x = move then
      if progress = false then
        let step := if x = target then -1 else 1
        let offset := (if before then 0 else 1) - (if step > 0 then k else 0)
        targetOffset target move before k true step (offset + step) q
      else offset
    else if progress then targetOffset target move before k progress step (offset + step) q
    else targetOffset target move before k progress step offset q

/-- QueueEditor::MoveGroupsTo, QueueEditor.cpp:1098-1174. The outer `none`: undefined behaviour. The inner one: the command fails. -/
def moveGroupsTo (q : List Nat) (sel : Nat → Bool) (before : Bool) (target : Nat) : Option (Option (List Nat)) :=
  match (prepareList q sel 0).head? with
  | none => some none
  | some (move, _) =>
    let k : Int := (prepareList q sel 0).length
    let next := if (prepareList q sel 0).any (fun i => i.1 == target) then nextTarget sel target false q else some target
    let before := if (prepareList q sel 0).any (fun i => i.1 == target) then true else before
    (alignGroups q sel).bind fun q' =>
      let offset := match next with
        | none => maxId
        | some t => targetOffset t move before k false 0 0 q'
      (moveOffset q' sel offset).map some

/-- QueueEditor::ReorderFiles, QueueEditor.cpp:1188-1201. -/
def reorderLoop : List Nat → Nat → List Nat → Option (List Nat)
  | [], _, q => some q
  | x :: items, insertPos, q =>
    if q.contains x then (moveIdx q (q.idxOf x) insertPos).bind (reorderLoop items (insertPos + 1))
    else reorderLoop items insertPos q

def reorderFiles (items q : List Nat) : Option (List Nat) := reorderLoop items 0 q

/-- GroupSorter::operator(), QueueEditor.cpp:142-198: entries which are not selected are equivalent to all others. `lt`: the comparison
by the criterion. If no entry is selected by the command all are (`sel` is true for all), QueueEditor.cpp:148-149. -/
def sorterLess (sel : Nat → Bool) (lt : Nat → Nat → Bool) (descending : Bool) (x y : Nat) : Bool :=
  sel x && sel y && (if descending then lt y x else lt x y)

/-- The results of merge sorts of a list: the list is cut anywhere, the parts are sorted and merged, where an element of the right part
is taken only if it is less. `std::stable_sort` (QueueEditor.cpp:126) is such a sort, insertion sort too. The standard leaves the result
undefined for `sorterLess`, which is no strict weak order; the model is about every implementation which merges. -/
inductive MergeSorted (less : Nat → Nat → Bool) : List Nat → List Nat → Prop
  | nil : MergeSorted less [] []
  | single (x : Nat) : MergeSorted less [x] [x]
  | merge {a b a' b' : List Nat} : MergeSorted less a a' → MergeSorted less b b' →
      MergeSorted less (a ++ b) (List.merge a' b' (fun x y => !less y x))

/-- QueueEditor::SortGroups with GroupSorter::Execute, QueueEditor.cpp:1043-1048 and 114-139. `auto`: no `+` or `-` in the command. -/
def SortGroups (q : List Nat) (sel : Nat → Bool) (lt : Nat → Nat → Bool) (auto descending : Bool) (r : List Nat) : Prop :=
  ∃ q' s, alignGroups q sel = some q' ∧ MergeSorted (sorterLess sel lt descending) q' s ∧
    if auto ∧ s = q' then MergeSorted (sorterLess sel lt (!descending)) s r else r = s

end Verif.QueueEdit
