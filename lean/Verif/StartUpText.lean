import Verif.StartUp
import Verif.FileStateProps
/-
Lemmas for C126: names and contents of the state files.
-/
namespace Verif.StartUp
open Verif.Text Verif.Record Verif.FileState

/-! ### Names -/

theorem scanNum_id (x : I32) (rest : Bytes) (hs : Stops rest) (hx : ∀ r, rest ≠ 120 :: r ∧ rest ≠ 88 :: r) :
    scanNum .i (nameOf x ++ rest) = some (x, rest) := by
  unfold nameOf showInt
  by_cases hn : x.toInt < 0
  · rw [if_pos hn]
    have h := scanNat_show .i x.toInt.natAbs rest hs hx
    unfold scanNum
    simp only [List.cons_append]
    rw [List.dropWhile_cons_of_neg (by decide)]
    simp only [h, Option.map_some]
    have : -(x.toInt.natAbs : Int) = x.toInt := by omega
    rw [this, BitVec.ofInt_toInt]
  · rw [if_neg hn]
    obtain ⟨d, ds, e, hd⟩ := show_first x.toInt.natAbs
    have hp := digit_plain d hd
    have h := scanNat_show .i x.toInt.natAbs rest hs hx
    unfold scanNum
    rw [e] at h ⊢
    simp only [List.cons_append] at h ⊢
    rw [List.dropWhile_cons_of_neg (by rw [hp.1]; simp)]
    have hv : BitVec.ofNat 32 x.toInt.natAbs = x := by
      rw [← BitVec.ofInt_natCast]
      have : (x.toInt.natAbs : Int) = x.toInt := by omega
      rw [this, BitVec.ofInt_toInt]
    split
    · rename_i heq; injection heq with heq _; exact absurd heq hp.2.1
    · rename_i heq; injection heq with heq _; exact absurd heq hp.2.2.1
    · rw [h]; simp [hv]

theorem stops_nil : Stops [] := fun _ _ h => by cases h

theorem stops_cons (c : UInt8) (r : Bytes) (h : digitVal 10 c = none) : Stops (c :: r) := by
  intro c' r' e; injection e with e _; subst e; exact h

/-- The characters of a number: digits and the sign. -/
theorem nameOf_chars (x : I32) : ∀ c ∈ nameOf x, c = 45 ∨ (48 ≤ c ∧ c ≤ 57) := by
  have hd : ∀ n, ∀ c ∈ showNat n, 48 ≤ c ∧ c ≤ 57 := by
    intro n c hc
    unfold showNat at hc
    rw [List.mem_map] at hc
    obtain ⟨d, hd, e⟩ := hc
    have h1 := digits_lt _ _ d hd
    have h2 := digitChar_toNat d h1
    subst e
    constructor <;> rw [UInt8.le_iff_toNat_le] <;> simp [h2] <;> omega
  intro c hc
  unfold nameOf showInt at hc
  split at hc
  · rcases List.mem_cons.1 hc with h | h
    · exact Or.inl h
    · exact Or.inr (hd _ c h)
  · exact Or.inr (hd _ c hc)

theorem nameOf_not (x : I32) (c : UInt8) (h : c ≠ 45 ∧ ¬ (48 ≤ c ∧ c ≤ 57)) : c ∉ nameOf x := by
  intro hc
  rcases nameOf_chars x c hc with e | e
  · exact h.1 e
  · exact h.2 e

theorem nameOf_ne_nil (x : I32) : nameOf x ≠ [] := by
  unfold nameOf showInt
  split
  · simp
  · obtain ⟨d, ds, e, _⟩ := show_first x.toInt.natAbs
    rw [e]; simp

theorem nameOf_first (x : I32) : ∃ c r, nameOf x = c :: r ∧ (c = 45 ∨ (48 ≤ c ∧ c ≤ 57)) := by
  cases h : nameOf x with
  | nil => exact absurd h (nameOf_ne_nil x)
  | cons c r => exact ⟨c, r, rfl, nameOf_chars x c (by rw [h]; simp)⟩

theorem scan_name (x : I32) : scanNum .i (nameOf x) = some (x, []) := by
  have := scanNum_id x [] stops_nil (fun r => ⟨by simp, by simp⟩)
  rwa [List.append_nil] at this

theorem scan_state (x : I32) (k : Bool) : scanNum .i (stateName x k) = some (x, [if k then 99 else 115]) := by
  unfold stateName
  apply scanNum_id
  · apply stops_cons; cases k <;> decide
  · intro r; cases k <;> constructor <;> intro e <;> injection e with e _ <;> revert e <;> decide

theorem scan_log (x : I32) : scanNum .i (logName x) = none := by
  unfold logName scanNum
  simp only [List.cons_append]
  rw [List.dropWhile_cons_of_neg (by decide)]
  rfl

theorem nameOf_inj {x y : I32} (h : nameOf x = nameOf y) : x = y := by
  have h1 := scan_name x
  rw [h, scan_name y] at h1
  injection h1 with h1; injection h1 with h1 _; exact h1.symm

theorem stateName_inj {x y : I32} {j k : Bool} (h : stateName x j = stateName y k) : x = y ∧ j = k := by
  have h1 := scan_state x j
  rw [h, scan_state y k] at h1
  injection h1 with h1; injection h1 with h1 h2
  refine ⟨h1.symm, ?_⟩
  revert h2; cases j <;> cases k <;> decide

theorem fileId_name (x : I32) : fileIdOf (nameOf x) = some x := by
  unfold fileIdOf
  rw [scan_name]
  have : (nameOf x).contains 46 = false := by
    rw [Bool.eq_false_iff]; intro h
    exact nameOf_not x 46 (by decide) (by simpa using h)
  dsimp only
  rw [this]; rfl

theorem fileId_state (x : I32) (k : Bool) : fileIdOf (stateName x k) = some x := by
  unfold fileIdOf
  rw [scan_state]
  cases k <;> simp

theorem fileId_log (x : I32) : fileIdOf (logName x) = none := by unfold fileIdOf; rw [scan_log]

theorem logId_log (x : I32) : logIdOf (logName x) = some x := by
  unfold logIdOf logName
  simp only [List.cons_append]
  rw [scanNum_id x [46, 108, 111, 103] (stops_cons _ _ (by decide))]
  · rfl
  · intro r; constructor <;> intro e <;> injection e with e _ <;> revert e <;> decide

theorem logId_of_first (c : UInt8) (r : Bytes) (h : c ≠ 110) : logIdOf (c :: r) = none := by
  unfold logIdOf
  split
  · rename_i heq; injection heq with heq _; exact absurd heq h
  · rfl

theorem first_not_n {c : UInt8} (h : c = 45 ∨ (48 ≤ c ∧ c ≤ 57)) : c ≠ 110 := by
  rintro rfl; revert h; decide

theorem logId_name (x : I32) : logIdOf (nameOf x) = none := by
  obtain ⟨c, r, e, hc⟩ := nameOf_first x
  rw [e]; exact logId_of_first c r (first_not_n hc)

theorem logId_state (x : I32) (k : Bool) : logIdOf (stateName x k) = none := by
  obtain ⟨c, r, e, hc⟩ := nameOf_first x
  unfold stateName
  rw [e]; exact logId_of_first c _ (first_not_n hc)

/-! ### Contents -/

theorem head_oneLine (v : Int) : OneLine (head v) := by
  unfold head OneLine
  rw [List.mem_append]
  rintro (h | h)
  · revert h; decide
  · unfold showInt at h
    split at h
    · rcases List.mem_cons.1 h with h | h
      · revert h; decide
      · exact (showNat_chars _ _ h).1 rfl
    · exact (showNat_chars _ _ h).1 rfl

theorem parse_head (v : Nat) (hv : v < 2 ^ 31) : parseVersion (head v) = v := by
  unfold parseVersion head
  have hp : signature.isPrefixOf (signature ++ showInt (v : Int)) = true := by
    rw [List.isPrefixOf_iff_prefix]; exact ⟨_, rfl⟩
  rw [if_pos hp, List.drop_left]
  have hs : showInt (v : Int) = showNat v := by
    unfold showInt; rw [if_neg (by omega)]; rfl
  rw [hs]
  have h := scanNum_plain .u v [] (Or.inl rfl)
  rw [List.append_nil] at h
  rw [h]
  simp only [Option.map_some, Option.getD_some]
  rw [BitVec.toInt_ofNat', Int.bmod_def]; omega

theorem head_length (v : Nat) (hv : v < 2 ^ 31) : (head v).length ≤ 41 := by
  unfold head showInt
  rw [if_neg (by omega), List.length_append]
  have h1 := length_showNat v (by omega)
  have h2 : signature.length = 30 := by decide
  simp only [Int.natAbs_natCast]
  omega

/-- Opening a file which was written with the version `v`. -/
theorem open_head (cur : Int) (v : Nat) (hv : v < 2 ^ 31) (rest : Bytes) :
    openRead cur (head v ++ 10 :: rest) = if (v : Int) > cur then none else some ((v : Int), rest) := by
  unfold openRead
  have hl := head_length v hv
  rw [readLine_line (head v) rest 128 (head_oneLine v) (by omega)]
  dsimp only [Option.getD_some]
  rw [parse_head v hv]

/-- The contents of a state file: the line with the version and the other lines. -/
def content (v : Nat) (ls : List Bytes) : Bytes := file (head v :: ls) []

theorem open_content (cur : Int) (v : Nat) (hv : v < 2 ^ 31) (h : (v : Int) ≤ cur) (ls : List Bytes) :
    openRead cur (content v ls) = some ((v : Int), file ls []) := by
  unfold content
  rw [file_cons, open_head cur v hv, if_neg (by omega)]

/-! ### Records of the history -/

/-- What a restart makes of a record of the queue: the stage of post-processing and the dupe mode are changed, see C16. -/
def reloaded (r : Rec) : Rec := { r with
  settings := { r.settings with post := postLoaded r.settings.post }
  dupe := { r.dupe with dupeMode := r.dupe.dupeHint, dupeHint := 0 } }

/-- What a restart makes of an entry of the history. -/
def reloadedEntry (e : Entry) : Entry := match e.what with
  | .item r => { e with what := .item (if r.texts.kind = 0 then
      { reloaded r with settings := { r.settings with post := none } } else reloaded r) }
  | .dup _ _ => e

/-- Entries which are considered: texts fit the buffers, times before 2038. -/
def ValidEntry (servers : List (I32 × I32)) (e : Entry) : Prop :=
  Time32 e.time ∧ match e.what with
    | .item r => ValidRec r ∧ SameServers servers r.lists.stats
    | .dup _ u => FitsShort u.name ∧ FitsShort u.key

theorem loadDup_file (u : Dup) (ls : List Bytes) (rest : Bytes) (hn : FitsShort u.name) (hk : FitsShort u.key) :
    loadDup (file (saveDup u ++ ls) rest) = some (u, file ls rest) := by
  simp only [loadDup, saveDup, halves, List.cons_append, List.nil_append]
  rw [scanLine_file [.i, .u, .u, .u, .u, .i, .i] _ _ _ rfl (by simp)]
  simp only [List.map_cons, List.map_nil, bind, Option.bind_some]
  rw [readLine_file _ _ _ _ hn.1 (fitsShort_le hn)]
  simp only [Option.bind_some]
  rw [readLine_file _ _ _ _ hk.1 (fitsShort_le hk)]
  simp only [Option.bind_some, join_split]

theorem loadEntry_file (nice : Bytes → Bytes → Bytes) (servers : List (I32 × I32)) (e : Entry) (ls : List Bytes)
    (rest : Bytes) (h : ValidEntry servers e) :
    loadEntry nice servers (file (saveEntry e ++ ls) rest) = some (some (reloadedEntry e, file ls rest)) := by
  obtain ⟨time, what⟩ := e
  obtain ⟨ht, hw⟩ := h
  unfold loadEntry saveEntry
  rw [List.cons_append, scanLine_file [.i, .i, .i] _ _ _ rfl (by simp)]
  simp only [List.map_cons, List.map_nil, time_roundtrip _ ht.1 ht.2]
  cases what with
  | item r =>
    simp only at hw
    have hl := loadRec_file nice servers r ls rest hw.1 hw.2
    by_cases hk : r.texts.kind = 0
    · simp only [Entry.kind, hk, if_true, hl, Option.map_some, reloadedEntry, reloaded]
    · have h2 : ¬ ((2 : I32) = 1) := by decide
      simp only [Entry.kind, hk, if_false, h2, if_true, hl, Option.map_some, reloadedEntry, reloaded]
  | dup id u =>
    simp only at hw
    have h1 : ¬ ((3 : I32) = 1) := by decide
    have h2 : ¬ ((3 : I32) = 2) := by decide
    simp only [Entry.kind, Entry.id, h1, h2, if_false, if_true, loadDup_file u ls rest hw.1 hw.2, Option.map_some,
      reloadedEntry]

theorem loadEntries_file (nice : Bytes → Bytes → Bytes) (servers : List (I32 × I32)) (h : List Entry)
    (rest : Bytes) (hv : ∀ e ∈ h, ValidEntry servers e) :
    loadEntries nice servers h.length (file (h.flatMap saveEntry) rest) = (h.map reloadedEntry, .ok) := by
  induction h with
  | nil => rfl
  | cons e h ih =>
    simp only [List.length_cons, loadEntries, List.flatMap_cons]
    rw [loadEntry_file nice servers e _ rest (hv e (by simp))]
    simp only
    rw [ih (fun x hx => hv x (by simp [hx]))]
    rfl

theorem ofNat_toNat (n : Nat) (h : n < 2 ^ 31) : (BitVec.ofNat 32 n).toInt = n := by
  rw [BitVec.toInt_ofNat', Int.bmod_def]; omega

theorem loadHistory_file (nice : Bytes → Bytes → Bytes) (servers : List (I32 × I32)) (h : List Entry)
    (rest : Bytes) (hn : h.length < 2 ^ 31) (hv : ∀ e ∈ h, ValidEntry servers e) :
    loadHistory nice servers (file (saveHistory h) rest) = (h.map reloadedEntry, .ok) := by
  unfold loadHistory saveHistory countLine
  rw [scanLine_file [.i] _ _ _ rfl (by simp)]
  simp only [List.map_cons, List.map_nil, ofNat_toNat _ hn, Int.toNat_natCast]
  exact loadEntries_file nice servers h rest hv

/-! ### Records of the queue -/

theorem loadItems_file (nice : Bytes → Bytes → Bytes) (servers : List (I32 × I32)) (q : List Rec)
    (rest : Bytes) (hv : ∀ r ∈ q, ValidRec r ∧ SameServers servers r.lists.stats) :
    loadItems nice servers q.length (file (q.flatMap saveLines) rest) = (q.map reloaded, true) := by
  induction q with
  | nil => rfl
  | cons r q ih =>
    have hr := hv r (by simp)
    simp only [List.length_cons, loadItems, List.flatMap_cons]
    rw [loadRec_file nice servers r _ rest hr.1 hr.2]
    simp only
    rw [ih (fun x hx => hv x (by simp [hx]))]
    rfl

theorem loadList_file (nice : Bytes → Bytes → Bytes) (servers : List (I32 × I32)) (q : List Rec)
    (rest : Bytes) (hn : q.length < 2 ^ 31) (hv : ∀ r ∈ q, ValidRec r ∧ SameServers servers r.lists.stats) :
    loadList nice servers (file (countLine q.length :: q.flatMap saveLines) rest) = (q.map reloaded, true) := by
  unfold loadList countLine
  rw [scanLine_file [.i] _ _ _ rfl (by simp)]
  simp only [List.map_cons, List.map_nil, ofNat_toNat _ hn, Int.toNat_natCast]
  exact loadItems_file nice servers q rest hv

/-! ### Infos of files -/

/-- The infos without the articles, which are loaded when they are needed. -/
def summary (f : Info) : Info × I64 := ({ f with articles := [] }, f.size - f.missedSize)

theorem loadSummary_file (f : Info) (ls : List Bytes) (rest : Bytes) (h : ValidInfo f) :
    loadSummary (file (saveSummary f ++ ls) rest) = some (summary f, file ls rest) := by
  simp only [loadSummary, saveSummary, List.cons_append, List.nil_append, halves]
  rw [readLine_file _ _ _ _ h.subject.1 (fitsShort_le h.subject)]
  simp only [bind, Option.bind_some]
  rw [readLine_file _ _ _ _ h.filename.1 (fitsShort_le h.filename)]
  simp only [Option.bind_some]
  rw [readLine_file _ _ _ _ h.origname.1 (fitsShort_le h.origname)]
  simp only [Option.bind_some]
  rw [scanLine_file [.i, .i] _ _ _ rfl (by simp)]
  simp only [List.map_cons, List.map_nil, Option.bind_some]
  rw [scanLine_file [.u, .u] _ _ _ rfl (by simp)]
  simp only [List.map_cons, List.map_nil, Option.bind_some]
  rw [scanLine_file [.u, .u] _ _ _ rfl (by simp)]
  simp only [List.map_cons, List.map_nil, Option.bind_some]
  rw [scanLine_file [.i] _ _ _ rfl (by simp)]
  simp only [List.map_cons, List.map_nil, Option.bind_some]
  rw [scanLine_file [.i, .i] _ _ _ rfl (by simp)]
  simp only [List.map_cons, List.map_nil, Option.bind_some]
  have hg := readList_file (readLine 1024) (fun g => [g]) id f.groups ls rest h.counts.1
    (fun g hg ls => readLine_file _ _ _ _ (h.groups g hg).1 (fitsShort_le (h.groups g hg)))
  have e : f.groups.flatMap (fun g => [g]) = f.groups := by
    rw [← map_eq_flatMap (fun g => g)]; simp
  rw [e] at hg
  rw [hg]
  simp only [Option.bind_some, List.map_id, join_split, toBool_ofBool, time_roundtrip _ h.time.1 h.time.2]
  rfl

theorem saveInfo_eq (f : Info) : saveInfo f = saveSummary f ++ (countLine f.articles.length :: f.articles.flatMap saveArticle) := by
  simp [saveInfo, saveSummary]

theorem loadFile_content (c : Config) (d : Dir) (id : I32) (f : Info) (h : ValidInfo f)
    (hg : get d (nameOf id) = some (content 6 (saveInfo f))) : loadFile c d id = some (summary f) := by
  unfold loadFile
  rw [hg]
  simp only [bind, Option.bind_some]
  rw [open_content 6 6 (by decide) (by decide)]
  simp only [Option.bind_some]
  rw [if_pos (by decide), saveInfo_eq, loadSummary_file f _ [] h]
  rfl

end Verif.StartUp
