import Verif.StateFile
/-
Properties C14 and C15 about the state files.
-/
namespace Verif.StateFile

/-! ### Specification -/

/-- Contents a reader may find after the events, if it would have found `c` before them: a completed save
leaves exactly its contents, a completed discard leaves nothing, an interrupted save leaves the old or the new
contents. -/
inductive Legal : Option Bytes → List Event → Option Bytes → Prop where
  | done (c) : Legal c [] c
  | save (c new es r) : Legal (some new) es r → Legal c (.save new :: es) r
  | discard (c es r) : Legal none es r → Legal c (.discard :: es) r
  | crashOld (c new k es r) : Legal c es r → Legal c (.crash new k :: es) r
  | crashNew (c new k es r) : Legal (some new) es r → Legal c (.crash new k :: es) r

/-- Histories in which (1) a save is interrupted only while there is a file from an earlier save
(`has`) and (2) a discard does not follow an interrupted save without a completed save between them
(`stale`). -/
def Safe : (has stale : Bool) → List Event → Prop
  | _, _, [] => True
  | _, _, .save _ :: es => Safe true false es
  | _, stale, .discard :: es => stale = false ∧ Safe false false es
  | has, _, .crash _ _ :: es => has = true ∧ Safe true true es

/-! ### Lemmas -/

theorem runOps_append (a b : List Micro) (s : Slot) :
    runOps (a ++ b) s = runOps b (runOps a s) := by
  simp [runOps, List.foldl_append]

theorem runOps_puts (new : Bytes) (s : Slot) (t : Bytes) (h : s.temp = some t) :
    runOps (new.map .put) s = { s with temp := some (t ++ new) } := by
  induction new generalizing s t with
  | nil => cases s; simp_all [runOps]
  | cons b rest ih =>
    have := ih (Micro.run (.put b) s) (t ++ [b]) (by simp [Micro.run, h])
    simp only [runOps, List.map_cons, List.foldl_cons] at this ⊢
    rw [this]
    simp [Micro.run]

theorem crash_zero (new : Bytes) (s : Slot) : runOps ((saveOps new).take 0) s = s := rfl

theorem crash_writing (new : Bytes) (s : Slot) (k : Nat) (h : k ≤ new.length) :
    runOps ((saveOps new).take (k + 1)) s = { s with temp := some (new.take k) } := by
  have e : (saveOps new).take (k + 1) = [.openTemp] ++ (new.take k).map .put := by
    rw [saveOps, List.take_succ_cons, List.take_append_of_le_length (by simpa using h)]
    simp [List.map_take]
  rw [e, runOps_append, runOps_puts _ _ [] (by simp [runOps, Micro.run])]
  simp [runOps, Micro.run]

theorem crash_deleted (new : Bytes) (s : Slot) :
    runOps ((saveOps new).take (new.length + 2)) s = ⟨none, some new⟩ := by
  have e : (saveOps new).take (new.length + 2) = (saveOps new).take (new.length + 1) ++ [.delDest] := by
    simp [saveOps, List.take_append, List.take_of_length_le]
  rw [e, runOps_append, crash_writing new s _ (Nat.le_refl _)]
  simp [runOps, Micro.run]

theorem save_complete (new : Bytes) (s : Slot) :
    runOps (saveOps new) s = ⟨some new, none⟩ := by
  have e : saveOps new = (saveOps new).take (new.length + 2) ++ [.rename] := by
    simp [saveOps, List.take_append, List.take_of_length_le]
  rw [e, runOps_append, crash_deleted]
  simp [runOps, Micro.run]

theorem discard_complete (s : Slot) : runOps discardOps s = { s with dest := none } := rfl

theorem length_saveOps (new : Bytes) : (saveOps new).length = new.length + 3 := by
  simp [saveOps]

theorem crash_done (new : Bytes) (s : Slot) (k : Nat) (h : new.length + 3 ≤ k) :
    runOps ((saveOps new).take k) s = ⟨some new, none⟩ := by
  rw [List.take_of_length_le (by rw [length_saveOps]; exact h), save_complete]

/-- The four possible states after a crash in a save. -/
theorem crash_cases (new : Bytes) (s : Slot) (k : Nat) :
    (k = 0 ∧ runOps ((saveOps new).take k) s = s) ∨
    (∃ j, k = j + 1 ∧ j ≤ new.length ∧
      runOps ((saveOps new).take k) s = { s with temp := some (new.take j) }) ∨
    (k = new.length + 2 ∧ runOps ((saveOps new).take k) s = ⟨none, some new⟩) ∨
    (new.length + 3 ≤ k ∧ runOps ((saveOps new).take k) s = ⟨some new, none⟩) := by
  by_cases h0 : k = 0
  · subst h0; exact Or.inl ⟨rfl, rfl⟩
  · by_cases h1 : k ≤ new.length + 1
    · refine Or.inr (Or.inl ⟨k - 1, by omega, by omega, ?_⟩)
      have := crash_writing new s (k - 1) (by omega)
      rwa [show k - 1 + 1 = k by omega] at this
    · by_cases h2 : k = new.length + 2
      · subst h2; exact Or.inr (Or.inr (Or.inl ⟨rfl, crash_deleted new s⟩))
      · exact Or.inr (Or.inr (Or.inr ⟨by omega, crash_done new s k (by omega)⟩))

theorem contents_dest (b : Bytes) (t : Option Bytes) : contents ⟨some b, t⟩ = some b := by
  simp [contents, fileExists, beginRead]

theorem contents_temp (t : Option Bytes) : contents ⟨none, t⟩ = t := by
  cases t <;> simp [contents, fileExists, beginRead, Micro.run]

theorem restart_dest (b : Bytes) (t : Option Bytes) : restart ⟨some b, t⟩ = ⟨some b, t⟩ := by
  simp [restart, fileExists, beginRead]

theorem restart_temp (b : Bytes) : restart ⟨none, some b⟩ = ⟨some b, none⟩ := by
  simp [restart, fileExists, beginRead, Micro.run]

/-! ### C14 -/

/-- C14, the part which holds: after any number of saves, discards and crashes at any point, a reader finds
contents that are legal: never a mixture, never a part, and never older data than the last completed save.
Missing from the full statement: the restriction `Safe` (see `first_save_not_atomic` and
`discarded_file_comes_back`). -/
theorem state_file_atomic_partial (es : List Event) (s : Slot)
    (h : Safe s.dest.isSome s.temp.isSome es) (hs : s.dest.isSome ∨ s.temp = none) :
    Legal (contents s) es (contents (runEvents es s)) := by
  suffices H : ∀ (es : List Event) (s : Slot) (has stale : Bool), Safe has stale es →
      (has = s.dest.isSome) → (stale = false → s.temp = none) → (s.dest.isSome ∨ s.temp = none) →
      Legal (contents s) es (contents (runEvents es s)) from
    H es s _ _ h rfl (by cases s.temp <;> simp) hs
  clear h hs s es
  intro es
  induction es with
  | nil => intro s _ _ _ _ _ _; exact Legal.done _
  | cons e es ih =>
    intro s has stale hsafe hhas hstale hs
    cases e with
    | save new =>
      refine Legal.save _ _ _ _ ?_
      have := ih ⟨some new, none⟩ true false hsafe rfl (fun _ => rfl) (Or.inl rfl)
      rw [contents_dest] at this
      simpa [runEvents, Event.run, save_complete] using this
    | discard =>
      obtain ⟨h1, h2⟩ := hsafe
      refine Legal.discard _ _ _ ?_
      have ht := hstale h1
      have := ih ⟨none, none⟩ false false h2 rfl (fun _ => rfl) (Or.inr rfl)
      rw [contents_temp] at this
      simpa [runEvents, Event.run, runOps, discardOps, Micro.run, ht] using this
    | crash new k =>
      obtain ⟨h1, h2⟩ := hsafe
      obtain ⟨d, t⟩ := s
      subst hhas
      cases d with
      | none => simp at h1
      | some old =>
        rw [contents_dest]
        have keep : ∀ t', restart (runOps ((saveOps new).take k) ⟨some old, t⟩) = ⟨some old, t'⟩ →
            Legal (some old) (.crash new k :: es)
              (contents (runEvents (.crash new k :: es) ⟨some old, t⟩)) := by
          intro t' e
          refine Legal.crashOld _ _ _ _ _ ?_
          have := ih ⟨some old, t'⟩ true true h2 rfl (by simp) (Or.inl rfl)
          rw [contents_dest] at this
          simpa [runEvents, Event.run, e] using this
        have repl : restart (runOps ((saveOps new).take k) ⟨some old, t⟩) = ⟨some new, none⟩ →
            Legal (some old) (.crash new k :: es)
              (contents (runEvents (.crash new k :: es) ⟨some old, t⟩)) := by
          intro e
          refine Legal.crashNew _ _ _ _ _ ?_
          have := ih ⟨some new, none⟩ true true h2 rfl (by simp) (Or.inl rfl)
          rw [contents_dest] at this
          simpa [runEvents, Event.run, e] using this
        rcases crash_cases new ⟨some old, t⟩ k with ⟨_, e⟩ | ⟨j, _, _, e⟩ | ⟨_, e⟩ | ⟨_, e⟩
        · exact keep t (by rw [e, restart_dest])
        · exact keep (some (new.take j)) (by rw [e]; exact restart_dest _ _)
        · exact repl (by rw [e, restart_temp])
        · exact repl (by rw [e, restart_dest])

example : Safe true false
    [.crash [4, 5, 6] 2, .crash [7, 8] 4, .save [9], .discard, .save [1], .crash [2] 3] := by
  simp [Safe]
example : contents (runEvents [.crash [4, 5, 6] 2] ⟨some [1], none⟩) = some [1] := by decide +kernel
example : contents (runEvents [.crash [4, 5, 6] 5] ⟨some [1], none⟩) = some [4, 5, 6] := by decide +kernel

/-- One save: whatever the crash point, the reader finds all of the old or all of the new contents, if there
is a file from an earlier save; the old only if the crash was before the deletion of the old file. -/
theorem interrupted_save (old new : Bytes) (t : Option Bytes) (k : Nat) :
    contents (runOps ((saveOps new).take k) ⟨some old, t⟩) =
      if k ≤ new.length + 1 then some old else some new := by
  rcases crash_cases new ⟨some old, t⟩ k with ⟨h, e⟩ | ⟨j, h, h', e⟩ | ⟨h, e⟩ | ⟨h, e⟩
  · rw [e, contents_dest, if_pos (by omega)]
  · rw [e, if_pos (by omega)]; exact contents_dest _ _
  · rw [e, contents_temp, if_neg (by omega)]
  · rw [e, contents_dest, if_neg (by omega)]

example : contents (runOps ((saveOps [4, 5]).take 4) ⟨some [1], some [9, 9]⟩) = some [4, 5] := by
  decide +kernel

/-- Violation of C14: the very first save is not atomic. A crash while the file is written for the first time
leaves a part of the new contents, and the next start takes this part for the saved state. -/
theorem first_save_not_atomic (new : Bytes) (k : Nat) (h : k ≤ new.length) :
    contents (runOps ((saveOps new).take (k + 1)) ⟨none, none⟩) = some (new.take k) := by
  rw [crash_writing new _ k h]; exact contents_temp _

example : contents (runOps ((saveOps [1, 2, 3]).take 3) ⟨none, none⟩) = some [1, 2] := by decide +kernel

/-- Violation of C14: a part of an interrupted save comes back after a later, completed discard. -/
theorem discarded_file_comes_back (old new : Bytes) (k : Nat) (h : k ≤ new.length) :
    contents (runEvents [.crash new (k + 1), .discard] ⟨some old, none⟩) = some (new.take k) ∧
    ¬ Legal (some old) [.crash new (k + 1), .discard] (some (new.take k)) := by
  constructor
  · simp only [runEvents, List.foldl_cons, List.foldl_nil, Event.run]
    rw [crash_writing new _ k h, restart_dest]
    simp [runOps, discardOps, Micro.run, contents_temp]
  · intro hl
    cases hl with
    | crashOld _ _ _ _ _ h1 => cases h1 with
      | discard _ _ _ h2 => cases h2
    | crashNew _ _ _ _ _ h1 => cases h1 with
      | discard _ _ _ h2 => cases h2

example : contents (runEvents [.crash [1, 2, 3] 3, .discard] ⟨some [7], none⟩) = some [1, 2] := by
  decide +kernel

/-! ### C15 -/

theorem runDisk_append (a b : List DiskOp) (d : Disk) :
    runDisk (a ++ b) d = runDisk b (runDisk a d) := by
  simp [runDisk, List.foldl_append]

theorem runDisk_q (ops : List Micro) (d : Disk) :
    runDisk (ops.map .q) d = { d with queue := runOps ops d.queue } := by
  induction ops generalizing d with
  | nil => rfl
  | cons o ops ih =>
    have := ih (DiskOp.run (.q o) d)
    simp only [runDisk, runOps, List.map_cons, List.foldl_cons] at this ⊢
    rw [this]; rfl

theorem runDisk_h (ops : List Micro) (d : Disk) :
    runDisk (ops.map .h) d = { d with history := runOps ops d.history } := by
  induction ops generalizing d with
  | nil => rfl
  | cons o ops ih =>
    have := ih (DiskOp.run (.h o) d)
    simp only [runDisk, runOps, List.map_cons, List.foldl_cons] at this ⊢
    rw [this]; rfl

theorem runDisk_p (ops : List Micro) (d : Disk) :
    runDisk (ops.map .p) d = { d with progress := runOps ops d.progress } := by
  induction ops generalizing d with
  | nil => rfl
  | cons o ops ih =>
    have := ih (DiskOp.run (.p o) d)
    simp only [runDisk, runOps, List.map_cons, List.foldl_cons] at this ⊢
    rw [this]; rfl

/-- The disk after a completed save of these (non-empty) lists. -/
def saved (F : Format) (queue history : List Item) : Disk :=
  ⟨⟨some (F.enc queue), none⟩, ⟨some (F.enc history), none⟩, ⟨none, none⟩⟩

theorem contents_none : contents ⟨none, none⟩ = none := rfl

theorem startUp_saved (F : Format) (queue history : List Item) :
    startUp F (saved F queue history) = ⟨queue, history, true⟩ := by
  simp [startUp, saved, downloadQueueExists, loadQueue, contents_dest, F.dec_enc, loadProgress,
    contents_none, loadHistory]

/-- A completed save followed by a start gives back queue and history. -/
theorem saved_queue_is_loaded (F : Format) (queue history : List Item)
    (hq : queue ≠ []) (hh : history ≠ []) (d : Disk) (hp : d.progress.temp = none) :
    startUp F (runDisk (saveQueueOps F queue history true) d) = ⟨queue, history, true⟩ := by
  have e : runDisk (saveQueueOps F queue history true) d = saved F queue history := by
    have hq' : queue.isEmpty = false := by cases queue <;> simp_all
    have hh' : history.isEmpty = false := by cases history <;> simp_all
    simp [saveQueueOps, runDisk_append, runDisk_q, runDisk_h, runDisk_p, storeOps, hq', hh',
      save_complete, discard_complete, hp, saved]
  rw [e, startUp_saved]

/-- What a start loads when the save of the new lists `q2`, `h2` is interrupted after `k` steps while the disk
holds `q1`, `h1` (all lists non-empty): the old or the new queue and the old or the new history, the new
history only together with the new queue, and always all of them. -/
theorem interrupted_queue_save (F : Format) (q1 h1 q2 h2 : List Item) (k : Nat)
    (hq2 : q2 ≠ []) (hh2 : h2 ≠ []) :
    startUp F (runDisk ((saveQueueOps F q2 h2 true).take k) (saved F q1 h1)) =
      ⟨if k ≤ (F.enc q2).length + 1 then q1 else q2,
       if k ≤ (F.enc q2).length + 3 + ((F.enc h2).length + 1) then h1 else h2, true⟩ := by
  have hq' : q2.isEmpty = false := by cases q2 <;> simp_all
  have hh' : h2.isEmpty = false := by cases h2 <;> simp_all
  have e : (saveQueueOps F q2 h2 true).take k =
      ((saveOps (F.enc q2)).take k).map .q ++
        (((saveOps (F.enc h2)).take (k - ((F.enc q2).length + 3))).map .h ++
          (discardOps.take (k - ((F.enc q2).length + 3) - ((F.enc h2).length + 3))).map .p) := by
    simp [saveQueueOps, storeOps, hq', hh', List.take_append, List.map_take, length_saveOps]
  rw [e, runDisk_append, runDisk_append, runDisk_q, runDisk_h, runDisk_p]
  have cq := interrupted_save (F.enc q1) (F.enc q2) none k
  have ch := interrupted_save (F.enc h1) (F.enc h2) none (k - ((F.enc q2).length + 3))
  have cp : runOps (discardOps.take (k - ((F.enc q2).length + 3) - ((F.enc h2).length + 3)))
      ⟨none, none⟩ = ⟨none, none⟩ := by
    rcases (k - ((F.enc q2).length + 3) - ((F.enc h2).length + 3)) with _ | n <;>
      simp [discardOps, runOps, Micro.run]
  have hex : downloadQueueExists
      ⟨runOps ((saveOps (F.enc q2)).take k) ⟨some (F.enc q1), none⟩,
       runOps ((saveOps (F.enc h2)).take (k - ((F.enc q2).length + 3))) ⟨some (F.enc h1), none⟩,
       ⟨none, none⟩⟩ = true := by
    by_cases hk : k ≤ (F.enc q2).length + 3
    · have : k - ((F.enc q2).length + 3) = 0 := by omega
      simp [downloadQueueExists, this, runOps]
    · rw [crash_done (F.enc q2) _ k (by omega)]
      simp [downloadQueueExists]
  have lim : (k - ((F.enc q2).length + 3) ≤ (F.enc h2).length + 1) ↔
      (k ≤ (F.enc q2).length + 3 + ((F.enc h2).length + 1)) := by omega
  simp only [saved, cp]
  simp only [startUp, hex, if_true, loadQueue, cq]
  by_cases c1 : k ≤ (F.enc q2).length + 1 <;>
    by_cases c2 : k ≤ (F.enc q2).length + 3 + ((F.enc h2).length + 1) <;>
    simp [c1, c2, loadProgress, contents_none, loadHistory, F.dec_enc, ch, lim]

/-- C15, the part which holds: items which are in the queue (the history) before and after the save are there
after a start, whatever the crash point. Missing: items which move from the queue to the history, see
`moved_item_lost`; disks without a history file, see `crash_can_lose_the_queue`. -/
theorem unmoved_items_survive_partial (F : Format) (q1 h1 q2 h2 : List Item) (k : Nat)
    (hq2 : q2 ≠ []) (hh2 : h2 ≠ []) (x : Item) :
    (x ∈ q1 → x ∈ q2 →
      x ∈ (startUp F (runDisk ((saveQueueOps F q2 h2 true).take k) (saved F q1 h1))).queue) ∧
    (x ∈ h1 → x ∈ h2 →
      x ∈ (startUp F (runDisk ((saveQueueOps F q2 h2 true).take k) (saved F q1 h1))).history) := by
  rw [interrupted_queue_save F q1 h1 q2 h2 k hq2 hh2]
  constructor <;> intro a b <;> dsimp only <;> (by_cases c : k ≤ (F.enc q2).length + 1) <;>
    (by_cases c' : k ≤ (F.enc q2).length + 3 + ((F.enc h2).length + 1)) <;> simp [c, c', a, b]

/-- C15, the part which holds for moved items: they survive when the crash is not between the deletion of the
old queue file and the deletion of the old history file. -/
theorem moved_item_survives_partial (F : Format) (q1 h1 q2 h2 : List Item) (k : Nat)
    (hq2 : q2 ≠ []) (hh2 : h2 ≠ []) (x : Item) (hx1 : x ∈ q1) (hx2 : x ∈ h2)
    (hk : k ≤ (F.enc q2).length + 1 ∨ (F.enc q2).length + 3 + ((F.enc h2).length + 1) < k) :
    x ∈ (startUp F (runDisk ((saveQueueOps F q2 h2 true).take k) (saved F q1 h1))).queue ∨
    x ∈ (startUp F (runDisk ((saveQueueOps F q2 h2 true).take k) (saved F q1 h1))).history := by
  rw [interrupted_queue_save F q1 h1 q2 h2 k hq2 hh2]
  rcases hk with hk | hk
  · left; simp [hk, hx1]
  · right; simp [Nat.not_le.mpr hk, hx2]

/-- Violation of C15: an item which moves from the queue to the history is in neither of them after a crash
anywhere between the deletion of the old queue file and the deletion of the old history file. -/
theorem moved_item_lost (F : Format) (q1 h1 q2 h2 : List Item) (k : Nat)
    (hq2 : q2 ≠ []) (hh2 : h2 ≠ []) (x : Item) (hxq : x ∉ q2) (hxh : x ∉ h1)
    (hk1 : (F.enc q2).length + 1 < k) (hk2 : k ≤ (F.enc q2).length + 3 + ((F.enc h2).length + 1)) :
    x ∉ (startUp F (runDisk ((saveQueueOps F q2 h2 true).take k) (saved F q1 h1))).queue ∧
    x ∉ (startUp F (runDisk ((saveQueueOps F q2 h2 true).take k) (saved F q1 h1))).history := by
  rw [interrupted_queue_save F q1 h1 q2 h2 k hq2 hh2]
  simp [Nat.not_le.mpr hk1, hk2, hxq, hxh]

/-- Violation of C14/C15: without a history file, a crash between the deletion of the old queue file and the
renaming of the new one makes the next start ignore the complete new file: the whole queue is gone
(`DownloadQueueExists` does not look for "queue.new"). -/
theorem crash_can_lose_the_queue (F : Format) (q1 q2 : List Item) (hq2 : q2 ≠ []) :
    let d := runDisk ((saveQueueOps F q2 [] false).take ((F.enc q2).length + 2))
      ⟨⟨some (F.enc q1), none⟩, ⟨none, none⟩, ⟨none, none⟩⟩
    startUp F d = ⟨[], [], true⟩ ∧ contents d.queue = some (F.enc q2) := by
  have hq' : q2.isEmpty = false := by cases q2 <;> simp_all
  have e : (saveQueueOps F q2 [] false).take ((F.enc q2).length + 2) =
      ((saveOps (F.enc q2)).take ((F.enc q2).length + 2)).map .q := by
    simp only [saveQueueOps, storeOps, hq', if_false, List.nil_append, Bool.false_eq_true]
    rw [List.take_append_of_le_length (by simp [length_saveOps]), List.map_take]
  simp only [e, runDisk_q, crash_deleted]
  simp [startUp, downloadQueueExists, contents_temp]

/-- Violation of C15: a crash after the queue file has been written and before the old progress file is deleted
makes the next start fail and lose the history, if the progress file names an item that left the queue. -/
theorem stale_progress_breaks_loading (F : Format) (q1 h1 q2 h2 : List Item) (x : Item)
    (hq2 : q2 ≠ []) (hh2 : h2 ≠ []) (hx : ∀ y ∈ q2, y.id ≠ x.id) :
    startUp F (runDisk ((saveQueueOps F q2 h2 true).take
        ((F.enc q2).length + 3 + ((F.enc h2).length + 3)))
      { saved F q1 h1 with progress := ⟨some (F.encP [x]), none⟩ }) = ⟨q2, [], false⟩ := by
  have hq' : q2.isEmpty = false := by cases q2 <;> simp_all
  have hh' : h2.isEmpty = false := by cases h2 <;> simp_all
  have e : (saveQueueOps F q2 h2 true).take ((F.enc q2).length + 3 + ((F.enc h2).length + 3)) =
      (saveOps (F.enc q2)).map .q ++ (saveOps (F.enc h2)).map .h := by
    simp [saveQueueOps, storeOps, hq', hh', List.take_append, length_saveOps, List.take_of_length_le]
  have hany : q2.any (·.id == x.id) = false := by
    simp only [List.any_eq_false, beq_iff_eq]; exact hx
  rw [e, runDisk_append, runDisk_q, runDisk_h]
  simp only [saved, save_complete]
  simp [startUp, downloadQueueExists, loadQueue, contents_dest, F.dec_enc, loadProgress, F.decP_encP,
    applyProgress, hany]

/-! ### Progress of single items -/

theorem applyProgress_known (cs q : List Item) (h : ∀ c ∈ cs, ∃ y ∈ q, y.id = c.id) (hd : (cs.map (·.id)).Nodup) :
    applyProgress (cs.map (fun x => (x.id, x))) q =
      (q.map (fun y => (cs.find? (·.id == y.id)).getD y), true) := by
  induction cs generalizing q with
  | nil => simp [applyProgress]
  | cons c cs ih =>
    have hany : q.any (·.id == c.id) = true := by
      obtain ⟨y, hy, e⟩ := h c (by simp)
      exact List.any_eq_true.2 ⟨y, hy, by simpa using e⟩
    simp only [List.map_cons, List.nodup_cons] at hd
    simp only [List.map_cons, applyProgress, hany, if_true]
    rw [ih]
    · rw [List.map_map]
      congr 1
      apply List.map_congr_left
      intro y _
      simp only [Function.comp]
      by_cases e : y.id = c.id
      · have hf : cs.find? (fun x => x.id == c.id) = none := by
          rw [List.find?_eq_none]
          intro x hx hxe
          exact hd.1 (List.mem_map.2 ⟨x, hx, by simpa using hxe⟩)
        simp [e, hf, List.find?_cons]
      · have e' : ¬ c.id = y.id := fun x => e x.symm
        simp [e, e', List.find?_cons]
    · intro x hx
      obtain ⟨y, hy, e⟩ := h x (by simp [hx])
      by_cases ey : y.id = c.id
      · exact ⟨c, List.mem_map.2 ⟨y, hy, by simp [ey]⟩, by rw [← e, ey]⟩
      · exact ⟨y, List.mem_map.2 ⟨y, hy, by simp [ey]⟩, e⟩
    · exact hd.2

/-- C52: when items of the queue changed after the last save of the whole queue and their progress was saved, a start loads
the changed data of these items, the old data of the others, in the same order, and the history. -/
theorem saved_progress_is_loaded (F : Format) (queue history changed : List Item) (d : Disk)
    (hd : d = saved F queue history ∨ ∃ old, d = { saved F queue history with progress := ⟨some (F.encP old), none⟩ })
    (hc : changed ≠ [] ∨ d = saved F queue history) (hq : ∀ c ∈ changed, ∃ y ∈ queue, y.id = c.id)
    (hn : (changed.map (·.id)).Nodup) :
    startUp F (runDisk (saveProgressOps F changed) d) =
      ⟨queue.map (fun y => (changed.find? (·.id == y.id)).getD y), history, true⟩ := by
  have hqs : d.queue = ⟨some (F.enc queue), none⟩ ∧ d.history = ⟨some (F.enc history), none⟩ ∧ d.progress.temp = none := by
    rcases hd with rfl | ⟨_, rfl⟩ <;> simp [saved]
  cases hce : changed.isEmpty with
  | true =>
    have he : changed = [] := by simpa using hce
    subst he
    have hd' : d = saved F queue history := by rcases hc with h | h; exact absurd rfl h; exact h
    subst hd'
    have e : runDisk (saveProgressOps F []) (saved F queue history) = saved F queue history := by
      simp [saveProgressOps, runDisk_p, discard_complete, saved]
    rw [e, startUp_saved]
    simp
  | false =>
    have e : runDisk (saveProgressOps F changed) d =
        ⟨⟨some (F.enc queue), none⟩, ⟨some (F.enc history), none⟩, ⟨some (F.encP changed), none⟩⟩ := by
      simp only [saveProgressOps, hce, runDisk_p, save_complete]
      obtain ⟨dq, dh, dp⟩ := d
      simp only at hqs
      simp [hqs.1, hqs.2.1, save_complete]
    rw [e]
    simp [startUp, downloadQueueExists, loadQueue, contents_dest, F.dec_enc, loadProgress, F.decP_encP,
      applyProgress_known changed queue hq hn, loadHistory]

/-- Violation of C52: the first save of progress after a save of the queue has no older progress file to fall back to. If
it is interrupted, the start reads the part which was written; if that cannot be read completely, the loading fails and the history
is not loaded. -/
theorem interrupted_progress_breaks_loading (F : Format) (queue history changed : List Item) (k : Nat) (hc : changed ≠ [])
    (hk : k ≤ (F.encP changed).length) (hbad : (F.decP ((F.encP changed).take k)).2 = false) :
    (startUp F (runDisk ((saveProgressOps F changed).take (k + 1)) (saved F queue history))).history = [] ∧
    (startUp F (runDisk ((saveProgressOps F changed).take (k + 1)) (saved F queue history))).ok = false := by
  have hce : changed.isEmpty = false := by cases changed <;> simp_all
  have e : (saveProgressOps F changed).take (k + 1) = ((saveOps (F.encP changed)).take (k + 1)).map .p := by
    simp [saveProgressOps, hce, List.map_take]
  have hs : runOps ((saveOps (F.encP changed)).take (k + 1)) ⟨none, none⟩ =
      ⟨none, some ((F.encP changed).take k)⟩ := by
    have ht : (saveOps (F.encP changed)).take (k + 1) = .openTemp :: ((F.encP changed).take k).map .put := by
      have h1 : k - (F.encP changed).length = 0 := by omega
      simp [saveOps, List.take_append, h1, List.map_take]
    rw [ht]
    have hput : ∀ (l acc : Bytes), runOps (l.map .put) ⟨none, some acc⟩ = ⟨none, some (acc ++ l)⟩ := by
      intro l
      induction l with
      | nil => intro acc; simp [runOps]
      | cons b l ih => intro acc; have := ih (acc ++ [b]); simp [runOps, Micro.run] at this ⊢; exact this
    have := hput ((F.encP changed).take k) []
    simpa [runOps, Micro.run] using this
  rw [e, runDisk_p]
  simp only [saved, hs]
  simp [startUp, downloadQueueExists, loadQueue, contents_dest, F.dec_enc, loadProgress, contents, fileExists, beginRead,
    Micro.run, hbad]

/-- A format: the theorems above are about at least this one. Every item is written as three bytes and more,
in unary, with a mark after each item. -/
def unary (l : List Item) : Bytes :=
  l.flatMap (fun x => List.replicate x.id 1 ++ [0] ++ List.replicate x.data 1 ++ [0])

def unread : (fuel : Nat) → Bytes → List Item × Bool
  | 0, _ => ([], true)
  | _ + 1, [] => ([], true)
  | n + 1, b =>
    let i := (b.takeWhile (· == 1)).length
    let b1 := (b.dropWhile (· == 1)).drop 1
    let d := (b1.takeWhile (· == 1)).length
    let r := unread n ((b1.dropWhile (· == 1)).drop 1)
    (⟨i, d⟩ :: r.1, r.2)

theorem takeWhile_ones (n : Nat) (r : Bytes) :
    (List.replicate n (1 : UInt8) ++ 0 :: r).takeWhile (· == 1) = List.replicate n 1 := by
  induction n with
  | zero => simp
  | succ n ih => simp [List.replicate_succ, ih]

theorem dropWhile_ones (n : Nat) (r : Bytes) :
    (List.replicate n (1 : UInt8) ++ 0 :: r).dropWhile (· == 1) = 0 :: r := by
  induction n with
  | zero => simp
  | succ n ih => simp [List.replicate_succ, ih]

theorem unread_unary (l : List Item) (n : Nat) (h : l.length ≤ n) : unread n (unary l) = (l, true) := by
  induction l generalizing n with
  | nil => cases n <;> rfl
  | cons x l ih =>
    cases n with
    | zero => simp at h
    | succ n =>
      have e : unary (x :: l) =
          List.replicate x.id 1 ++ 0 :: (List.replicate x.data 1 ++ 0 :: unary l) := by
        simp [unary]
      have hne : unary (x :: l) ≠ [] := by rw [e]; simp
      have ih' := ih n (by simpa using h)
      rw [unread]
      · rw [e, takeWhile_ones, dropWhile_ones]
        simp only [List.drop_succ_cons, List.drop_zero]
        rw [takeWhile_ones, dropWhile_ones]
        simp [ih']
      · exact hne

theorem length_unary (l : List Item) : l.length ≤ (unary l).length := by
  induction l with
  | nil => simp
  | cons x l ih => simp [unary] at ih ⊢; omega

def unaryFormat : Format where
  enc := unary
  dec b := unread b.length b
  encP l := unary l ++ [2]
  decP b := if b.getLast? = some 2 then ((unread b.length b.dropLast).1.map (fun x => (x.id, x)), true) else ([], false)
  dec_enc l := unread_unary l _ (length_unary l)
  decP_encP l := by simp [unread_unary l _ (Nat.le_succ_of_le (length_unary l))]

/-- Concrete case: item 2 is completed; the crash is after the queue file has been replaced. -/
example : startUp unaryFormat (runDisk ((saveQueueOps unaryFormat [⟨1, 0⟩] [⟨2, 1⟩, ⟨3, 0⟩] true).take 8)
    (saved unaryFormat [⟨1, 0⟩, ⟨2, 1⟩] [⟨3, 0⟩])) = ⟨[⟨1, 0⟩], [⟨3, 0⟩], true⟩ := by decide +kernel

example : (startUp unaryFormat (runDisk ((saveQueueOps unaryFormat [⟨1, 0⟩] [⟨2, 1⟩, ⟨3, 0⟩] true).take 4)
    (saved unaryFormat [⟨1, 0⟩, ⟨2, 1⟩] [⟨3, 0⟩]))).queue = [⟨1, 0⟩, ⟨2, 1⟩] := by decide +kernel

example : startUp unaryFormat (runDisk ((saveQueueOps unaryFormat [⟨1, 0⟩] [] false).take 5)
    ⟨⟨some (unary [⟨1, 0⟩, ⟨2, 1⟩]), none⟩, ⟨none, none⟩, ⟨none, none⟩⟩) = ⟨[], [], true⟩ := by
  decide +kernel

/-- Concrete case of C52: item 2 changed, an older progress file exists. -/
example : startUp unaryFormat (runDisk (saveProgressOps unaryFormat [⟨2, 5⟩])
    { saved unaryFormat [⟨1, 0⟩, ⟨2, 1⟩, ⟨4, 1⟩] [⟨3, 0⟩] with progress := ⟨some (unary [⟨1, 3⟩] ++ [2]), none⟩ }) =
    ⟨[⟨1, 0⟩, ⟨2, 5⟩, ⟨4, 1⟩], [⟨3, 0⟩], true⟩ := by decide +kernel

example : startUp unaryFormat (runDisk ((saveProgressOps unaryFormat [⟨2, 5⟩]).take 3)
    (saved unaryFormat [⟨1, 0⟩, ⟨2, 1⟩] [⟨3, 0⟩])) = ⟨[⟨1, 0⟩, ⟨2, 1⟩], [], false⟩ := by decide +kernel

end Verif.StateFile
