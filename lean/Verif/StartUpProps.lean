import Verif.StartUpText
/-
Property C126: after a restart the queue and the history are what was saved, with the infos and the progress of all files,
and the cleanup deletes what belongs to no entry and nothing else. Where this does not hold it is shown below.
-/
namespace Verif.StartUp
open Verif.Text Verif.Record Verif.FileState

/-! ### The history -/

/-- The history comes back: all entries, in their order, with their ids, kinds and times; hidden records as they were. -/
theorem history_kept (nice : Bytes → Bytes → Bytes) (servers : List (I32 × I32)) (h : List Entry) (b rest : Bytes)
    (hn : h.length < 2 ^ 31) (hv : ∀ e ∈ h, ValidEntry servers e) (hb : printLines (saveHistory h) = some b) :
    ∃ h', loadHistory nice servers (b ++ rest) = (h', .ok) ∧ h'.map Entry.id = h.map Entry.id ∧
      h'.map Entry.kind = h.map Entry.kind ∧ h'.map (·.time) = h.map (·.time) ∧
      (∀ (i : Nat) (e : Entry), h[i]? = some e → (∀ id u, e.what = .dup id u → h'[i]? = some e) ∧
        ∀ r : Rec, e.what = .item r → ∃ r' : Rec, h'[i]? = some ⟨e.time, .item r'⟩ ∧ r'.texts = r.texts ∧ r'.sizes = r.sizes ∧
          r'.lists = r.lists ∧ { r'.settings with post := none } = { r.settings with post := none }) := by
  refine ⟨h.map reloadedEntry, ?_, ?_, ?_, ?_, ?_⟩
  · rw [(printLines_some _ _ hb).2 rest]
    exact loadHistory_file nice servers h rest hn hv
  · rw [List.map_map]
    apply List.map_congr_left
    rintro ⟨t, w⟩ _
    cases w with
    | item r => simp only [Function.comp, reloadedEntry, Entry.id]; split <;> rfl
    | dup id u => rfl
  · rw [List.map_map]
    apply List.map_congr_left
    rintro ⟨t, w⟩ _
    cases w with
    | item r =>
      simp only [Function.comp, reloadedEntry, Entry.kind]
      by_cases hk : r.texts.kind = 0
      · simp only [hk, if_true, reloaded]
      · simp only [hk, if_false, reloaded]
    | dup id u => rfl
  · rw [List.map_map]
    apply List.map_congr_left
    rintro ⟨t, w⟩ _
    cases w <;> rfl
  · rintro i ⟨t, w⟩ hi
    constructor
    · rintro id u rfl
      rw [List.getElem?_map, hi]; rfl
    · rintro r rfl
      refine ⟨_, by rw [List.getElem?_map, hi]; rfl, ?_, ?_, ?_, ?_⟩ <;> (split <;> rfl)

/-- An entry of an unknown kind ends the program: the pointer stays null. -/
theorem unknown_kind_crashes (nice : Bytes → Bytes → Bytes) (servers : List (I32 × I32)) (id kind time : I32) (n : Nat)
    (rest : Bytes) (hk : kind ≠ 1 ∧ kind ≠ 2 ∧ kind ≠ 3) :
    loadEntries nice servers (n + 1) (showNums [(.i, id), (.i, kind), (.i, time)] ++ 10 :: rest) = ([], .crash) := by
  have h : scanLine [.i, .i, .i] (showNums [(.i, id), (.i, kind), (.i, time)] ++ 10 :: rest) =
      some ([id, kind, time], rest) := by
    have := scanLine_file [.i, .i, .i] [(.i, id), (.i, kind), (.i, time)] [] rest rfl (by simp)
    simpa [file_cons, file_nil] using this
  simp only [loadEntries, loadEntry, h, if_neg hk.1, if_neg hk.2.1, if_neg hk.2.2]

/-! ### Cleanup of the state directory -/

theorem get_mem (d : Dir) (n b : Bytes) (h : get d n = some b) : (n, b) ∈ d := by
  unfold get at h
  cases hf : d.find? (fun e => e.1 == n) with
  | none => rw [hf] at h; cases h
  | some e =>
    rw [hf] at h
    have h1 := List.find?_some hf
    have h2 := List.mem_of_find?_eq_some hf
    simp only [Option.map_some, Option.some.injEq] at h
    obtain ⟨a, b'⟩ := e
    simp only [beq_iff_eq] at h1
    subst h1 h
    exact h2

/-- A file of a download of the queue (waiting or completed) or a completed file of a download of the history has this id. -/
def FileInUse (q : List Item) (h : List Entry) (id : I32) : Prop :=
  (∃ i ∈ q, (∃ f ∈ i.files, f.ref.id = id) ∨ ∃ f ∈ i.record.lists.completed, f.id = id) ∨
  ∃ e ∈ h, ∃ r, e.what = .item r ∧ ∃ f ∈ r.lists.completed, f.id = id

/-- A download of the queue or of the history has this id. -/
def NzbInUse (q : List Item) (h : List Entry) (id : I32) : Prop :=
  (∃ i ∈ q, i.record.texts.id = id) ∨ ∃ e ∈ h, ∃ r, e.what = .item r ∧ r.texts.id = id

theorem fileIds_iff (q : List Item) (h : List Entry) (id : I32) : id ∈ fileIds q h ↔ FileInUse q h id := by
  unfold fileIds FileInUse
  simp only [List.mem_append, List.mem_flatMap, List.mem_map]
  refine or_congr Iff.rfl (exists_congr fun e => and_congr_right fun _ => ?_)
  cases hw : e.what with
  | item r => simp
  | dup i u => simp

theorem nzbIds_iff (q : List Item) (h : List Entry) (id : I32) : id ∈ nzbIds q h ↔ NzbInUse q h id := by
  unfold nzbIds NzbInUse
  simp only [List.mem_append, List.mem_flatMap, List.mem_map]
  refine or_congr Iff.rfl (exists_congr fun e => and_congr_right fun _ => ?_)
  cases hw : e.what with
  | item r => simp [eq_comm]
  | dup i u => simp

/-- The cleanup keeps the files of all entries of the queue and of the history: infos, progress and logs. -/
theorem cleanup_keeps (q : List Item) (h : List Entry) (d : Dir) (e : Bytes × Bytes) (he : e ∈ d)
    (hn : (∃ id, FileInUse q h id ∧ (e.1 = nameOf id ∨ ∃ k, e.1 = stateName id k)) ∨ (∃ id, NzbInUse q h id ∧ e.1 = logName id)) :
    e ∈ cleanup q h d := by
  simp only [← fileIds_iff, ← nzbIds_iff] at hn
  unfold cleanup
  rw [List.mem_filter]
  refine ⟨he, ?_⟩
  unfold orphan
  rcases hn with ⟨id, hid, hn⟩ | ⟨id, hid, hn⟩
  · have hc : (fileIds q h).contains id = true := by simpa using hid
    rcases hn with hn | ⟨k, hn⟩
    · rw [hn, fileId_name, logId_name]; simp [hid]
    · rw [hn, fileId_state, logId_state]; simp [hid]
  · rw [hn, fileId_log, logId_log]; simp [hid]

/-- It keeps the files of the program which do not belong to one entry, and all files whose names begin neither with a
number nor with "n" and a number. -/
theorem cleanup_keeps_others (q : List Item) (h : List Entry) (d : Dir) (e : Bytes × Bytes) (he : e ∈ d)
    (hn : scanNum .i e.1 = none ∧ ∀ r, e.1 = 110 :: r → scanNum .i r = none) : e ∈ cleanup q h d := by
  unfold cleanup
  rw [List.mem_filter]
  refine ⟨he, ?_⟩
  have h1 : fileIdOf e.1 = none := by unfold fileIdOf; rw [hn.1]
  have h2 : logIdOf e.1 = none := by
    unfold logIdOf
    split
    · rename_i r heq; rw [hn.2 r heq]; rfl
    · rfl
  unfold orphan
  rw [h1, h2]; rfl

example : ∀ n ∈ [nQueue, nHistory, nProgress, nFiles, nCache, nQueue ++ dotNew, [115, 116, 97, 116, 115],
    [102, 101, 101, 100, 115]], scanNum .i n = none ∧ ∀ r, n = 110 :: r → scanNum .i r = none := by
  intro n hn
  simp only [List.mem_cons, List.not_mem_nil, or_false] at hn
  rcases hn with h | h | h | h | h | h | h | h <;> subst h <;> exact ⟨by decide, fun r h => by cases h⟩

/-- It deletes the files of all other files and entries. -/
theorem cleanup_deletes (q : List Item) (h : List Entry) (d : Dir) (id : I32) (e : Bytes × Bytes)
    (hn : (¬ FileInUse q h id ∧ (e.1 = nameOf id ∨ ∃ k, e.1 = stateName id k)) ∨ (¬ NzbInUse q h id ∧ e.1 = logName id)) :
    e ∉ cleanup q h d := by
  simp only [← fileIds_iff, ← nzbIds_iff] at hn
  unfold cleanup
  rw [List.mem_filter]
  rintro ⟨_, hk⟩
  unfold orphan at hk
  rcases hn with ⟨hid, hn⟩ | ⟨hid, hn⟩
  · rcases hn with hn | ⟨k, hn⟩
    · rw [hn, fileId_name, logId_name] at hk; simp [hid] at hk
    · rw [hn, fileId_state, logId_state] at hk; simp [hid] at hk
  · rw [hn, fileId_log, logId_log] at hk; simp [hid] at hk

/-- Violation: it deletes files which were never files of the program: every name which begins with a number which is no id in
use and has no point in it, and every name which begins with such a number and the letter "s" or "c". -/
theorem foreign_deleted (q : List Item) (h : List Entry) (d : Dir) (id : I32) (tail : Bytes) (e : Bytes × Bytes)
    (hs : scanNum .i e.1 = some (id, tail)) (hid : ¬ FileInUse q h id)
    (hn : (46 : UInt8) ∉ e.1 ∨ ∃ c r, tail = c :: r ∧ (c = 115 ∨ c = 99)) : e ∉ cleanup q h d := by
  rw [← fileIds_iff] at hid
  unfold cleanup
  rw [List.mem_filter]
  rintro ⟨_, hk⟩
  have : fileIdOf e.1 = some id := by
    unfold fileIdOf
    rw [hs]
    rcases hn with hn | ⟨c, r, ht, hc⟩
    · have : e.1.contains 46 = false := by rw [Bool.eq_false_iff]; intro h; exact hn (by simpa using h)
      cases tail with
      | nil => simp only [this]; rfl
      | cons c r =>
        simp only [this]
        by_cases hc : c = 115 ∨ c = 99
        · rw [if_pos hc]
        · rw [if_neg hc]; rfl
    · subst ht; simp only; rw [if_pos hc]
  unfold orphan at hk
  rw [this] at hk
  simp [hid] at hk

/-- "2024-backup": deleted, if there is no file with the id 2024. -/
example (d : Dir) (b : Bytes) : ([50, 48, 50, 52, 45, 98, 97, 99, 107, 117, 112], b) ∉ cleanup [] [] d :=
  foreign_deleted [] [] d 2024 [45, 98, 97, 99, 107, 117, 112] _
    (show scanNum .i [50, 48, 50, 52, 45, 98, 97, 99, 107, 117, 112] = _ by decide) (by simp [FileInUse])
    (Or.inl (show (46 : UInt8) ∉ ([50, 48, 50, 52, 45, 98, 97, 99, 107, 117, 112] : Bytes) by decide))

/-! ### Temporary files -/

theorem digit_scans (c : UInt8) (r : Bytes) (h : 48 ≤ c ∧ c ≤ 57) : (scanNum .i (c :: r)).isSome = true := by
  have hc : ∃ d, d < 10 ∧ c = digitChar d := by
    refine ⟨c.toNat - 48, ?_, ?_⟩
    · have := (UInt8.le_iff_toNat_le).1 h.1
      have := (UInt8.le_iff_toNat_le).1 h.2
      simp at *; omega
    · have := (UInt8.le_iff_toNat_le).1 h.1
      apply UInt8.toNat_inj.1
      have h2 := (UInt8.le_iff_toNat_le).1 h.2
      simp at this h2
      rw [digitChar_toNat _ (by omega)]; omega
  obtain ⟨d, hd, e⟩ := hc
  have hp := digit_plain d hd
  have hv := digitVal_digitChar d hd
  rw [← e] at hp hv
  unfold scanNum
  rw [List.dropWhile_cons_of_neg (by rw [hp.1]; simp)]
  have hs : (scanNat .i (c :: r)).isSome = true := by
    unfold scanNat
    dsimp only
    split
    · split
      · split <;> rfl
      · split <;> rfl
      · rfl
    · rw [hv]; rfl
  split
  · rename_i heq; injection heq with heq _; exact absurd heq hp.2.1
  · rename_i heq; injection heq with heq _; exact absurd heq hp.2.2.1
  · rw [Option.isSome_map]; exact hs

/-- The name of the file of an article: "%i.%03i" (e.g. DiskState.cpp:1313), the number of the part with at least one digit. -/
def partName (id : I32) (c : UInt8) (r : Bytes) : Bytes := nameOf id ++ 46 :: c :: r

theorem contains_mem (t : Bytes) (x : UInt8) (hx : x ∈ t) (s : Bytes) (h : contains t s = true) : x ∈ s := by
  induction s with
  | nil =>
    unfold contains at h
    cases t with
    | nil => cases hx
    | cons a b => simp at h
  | cons a s ih =>
    unfold contains at h
    rw [Bool.or_eq_true] at h
    rcases h with h | h
    · obtain ⟨r, hr⟩ := List.isPrefixOf_iff_prefix.1 h
      rw [← hr]; exact List.mem_append_left _ hx
    · exact List.mem_cons_of_mem _ (ih h)

/-- The cleanup of the temporary directory keeps the articles of the files of the queue, and deletes those of others. -/
theorem temp_articles (q : List Item) (temp : Dir) (id : I32) (c : UInt8) (r b : Bytes)
    (hc : ∀ x ∈ c :: r, 48 ≤ x ∧ x ≤ 57) (he : (partName id c r, b) ∈ temp) :
    (partName id c r, b) ∈ cleanupTemp q temp ↔ ∃ i ∈ q, ∃ f ∈ i.files, f.ref.id = id := by
  have hs : scanNum .i (partName id c r) = some (id, 46 :: c :: r) := by
    apply scanNum_id
    · exact stops_cons _ _ (by decide)
    · intro r; constructor <;> intro e <;> injection e with e _ <;> revert e <;> decide
  have hp : partIdOf (partName id c r) = some id := by
    unfold partIdOf
    rw [hs]
    have := digit_scans c r (hc c (by simp))
    cases hh : scanNum .i (c :: r) with
    | none => rw [hh] at this; cases this
    | some x => simp only [hh]; rfl
  have hno : ∀ x, x ≠ 45 → x ≠ 46 → ¬ (48 ≤ x ∧ x ≤ 57) → x ∉ partName id c r := by
    intro x h1 h2 h3 hx
    unfold partName at hx
    rw [List.mem_append] at hx
    rcases hx with hx | hx
    · exact nameOf_not id x ⟨h1, h3⟩ hx
    · rcases List.mem_cons.1 hx with hx | hx
      · exact h2 hx
      · exact h3 (hc x hx)
  have h1 : contains [46, 116, 109, 112] (partName id c r) = false := by
    rw [Bool.eq_false_iff]; intro h
    exact hno 116 (by decide) (by decide) (by decide) (contains_mem _ 116 (by decide) _ h)
  have h2 : contains [46, 100, 101, 99] (partName id c r) = false := by
    rw [Bool.eq_false_iff]; intro h
    exact hno 100 (by decide) (by decide) (by decide) (contains_mem _ 100 (by decide) _ h)
  unfold cleanupTemp
  rw [List.mem_filter]
  unfold garbage
  rw [hp, h1, h2]
  simp only [he, true_and, Bool.false_or, Bool.not_not, List.any_eq_true, beq_iff_eq]

/-- Violation: whatever has ".tmp" or ".dec" anywhere in its name is deleted, and whatever begins with two numbers and a point
between them which are not of the queue, whoever wrote it. -/
theorem temp_foreign_deleted (q : List Item) (temp : Dir) (e : Bytes × Bytes)
    (h : (∃ a z, e.1 = a ++ [46, 116, 109, 112] ++ z ∨ e.1 = a ++ [46, 100, 101, 99] ++ z) ∨
      ∃ id, partIdOf e.1 = some id ∧ ∀ i ∈ q, ∀ f ∈ i.files, f.ref.id ≠ id) : e ∉ cleanupTemp q temp := by
  have hc : ∀ t a z : Bytes, contains t (a ++ t ++ z) = true := by
    intro t a z
    induction a with
    | nil =>
      cases hz : ([] ++ t ++ z) with
      | nil =>
        simp only [List.nil_append, List.append_eq_nil_iff] at hz
        rw [hz.1]; rfl
      | cons x y =>
        unfold contains
        rw [← hz, Bool.or_eq_true]
        left
        rw [List.isPrefixOf_iff_prefix]
        exact ⟨z, by simp⟩
    | cons x a ih =>
      simp only [List.cons_append]
      unfold contains
      rw [Bool.or_eq_true]
      right; exact ih
  unfold cleanupTemp
  rw [List.mem_filter]
  rintro ⟨_, hg⟩
  unfold garbage at hg
  rcases h with ⟨a, z, h | h⟩ | ⟨id, hp, hid⟩
  · rw [h, hc] at hg; simp at hg
  · have h2 := hc [46, 100, 101, 99] a z
    rw [← h] at h2
    rw [h2] at hg; simp at hg
  · rw [hp] at hg
    simp only [Bool.not_eq_true', Bool.or_eq_false_iff, Bool.not_eq_false', List.any_eq_true, beq_iff_eq] at hg
    obtain ⟨_, i, hi, f, hf, e⟩ := hg
    exact hid i hi f hf e

/-- "trip.december.jpg" and "1.2.iso" in the temporary directory are deleted. -/
example (temp : Dir) (b : Bytes) :
    ([116, 114, 105, 112, 46, 100, 101, 99, 101, 109, 98, 101, 114, 46, 106, 112, 103], b) ∉ cleanupTemp [] temp ∧
    ([49, 46, 50, 46, 105, 115, 111], b) ∉ cleanupTemp [] temp :=
  ⟨temp_foreign_deleted [] temp _ (Or.inl ⟨[116, 114, 105, 112], [101, 109, 98, 101, 114, 46, 106, 112, 103], Or.inr rfl⟩),
   temp_foreign_deleted [] temp _ (Or.inr ⟨1, show partIdOf [49, 46, 50, 46, 105, 115, 111] = _ by decide, by simp⟩)⟩

/-! ### Failures of loading -/

/-- Violation: if the file "queue" was written by a newer version, nothing is loaded, not even the history, and the program goes
on with an empty queue, which is saved over it at the next change. -/
theorem newer_version (c : Config) (d : Dir) (v : Nat) (b : Bytes) (hv : 62 < v) (hv2 : v < 2 ^ 31)
    (hq : get d nQueue = some (head v ++ 10 :: b)) : load c d = some ⟨[], [], d, false⟩ := by
  have h1 : has d nQueue = true := by unfold has; rw [hq]; rfl
  unfold load
  rw [if_pos (by unfold there; rw [h1]; rfl)]
  have h2 : recover d nQueue = d := by unfold recover; rw [h1]; rfl
  simp only [h2, hq, Option.getD_some, open_head 62 v hv2]
  rw [if_pos (by omega)]

/-- Violation: if the history cannot be read, the entries behind the damage are gone, and so are the infos and the progress of all
files of the queue: nothing of them is loaded. -/
theorem damaged_history (c : Config) (q : List Rec) (h : List Entry) (d : Dir) (ls : List Bytes) (es : List Entry)
    (hh : get d nHistory = some (content 62 ls))
    (he : loadHistory c.nice c.servers (file ls []) = (es, .error)) :
    loadSaved c 62 (q.map itemOf) h d = some ⟨q.map itemOf, h ++ es, d, false⟩ ∧
    ∀ i ∈ q.map itemOf, ∀ f ∈ i.files, f.info = none ∧ f.state = none := by
  constructor
  · have h1 : has d nHistory = true := by unfold has; rw [hh]; rfl
    have h2 : recover d nHistory = d := by unfold recover; rw [h1]; rfl
    unfold loadSaved
    rw [if_pos (by decide), if_pos (by unfold there; rw [h1]; rfl)]
    simp only [h2, hh, Option.getD_some]
    rw [open_content 62 62 (by decide) (by decide)]
    dsimp only
    rw [if_neg (by decide), if_pos (by decide), he]
  · intro i hi f hf
    obtain ⟨r, _, rfl⟩ := List.mem_map.1 hi
    obtain ⟨x, _, rfl⟩ := List.mem_map.1 hf
    exact ⟨rfl, rfl⟩

/-- Violation: a state file of one file which cannot be read ends the loading: the progress of all files which are listed
behind it is not loaded. -/
theorem cut_state (c : Config) (active : Bool) (n : Bytes) (ns : List Bytes) (q : List Item) (d : Dir) (id : I32) (k : Bool)
    (hn : n = stateName id k) (hk : k = true ∨ (c.continuePartial = true ∧ active = false))
    (hq : ∃ i ∈ q, ∃ f ∈ i.files, f.ref.id = id) (hl : loadProgressOf c d id k = none) :
    loadStates c active (n :: ns) q d = (q, d, false) := by
  have ha : q.any (fun i => i.files.any (fun f => f.ref.id == id)) = true := by
    simpa only [List.any_eq_true, beq_iff_eq] using hq
  subst hn
  unfold loadStates
  rw [scan_state]
  dsimp only
  cases k with
  | true => simp only [if_true, true_or, ha]; rw [show ((99 : UInt8) == 99) = true from rfl, hl]
  | false =>
    have h2 := hk.resolve_left (by decide)
    simp only [Bool.false_eq_true, if_false]
    rw [if_pos (Or.inr ⟨by trivial, h2.1, by rw [h2.2]; rfl⟩), if_pos ha, show ((115 : UInt8) == 99) = false from rfl, hl]

end Verif.StartUp
