import Verif.Record
import Verif.TextProps
/-
Property C16: the settings of a queue item survive saving and loading.
-/
namespace Verif.Record
open Verif.Text

/-! ### The file as a sequence of lines -/

/-- The bytes of the lines, followed by `rest`. -/
def file (ls : List Bytes) (rest : Bytes) : Bytes := ls.foldr (fun l acc => l ++ 10 :: acc) rest

theorem file_nil (rest : Bytes) : file [] rest = rest := rfl
theorem file_cons (l : Bytes) (ls : List Bytes) (rest : Bytes) : file (l :: ls) rest = l ++ 10 :: file ls rest := rfl
theorem file_append (a b : List Bytes) (rest : Bytes) : file (a ++ b) rest = file a (file b rest) := by
  simp [file, List.foldr_append]

theorem printLines_some (ls : List Bytes) (b : Bytes) (h : printLines ls = some b) :
    (∀ l ∈ ls, l.length < 1024) ∧ ∀ rest, b ++ rest = file ls rest := by
  induction ls generalizing b with
  | nil => simp [printLines] at h; subst h; simp [file]
  | cons l ls ih =>
    simp only [printLines, printLine] at h
    by_cases hl : l.length < 1024
    · cases hb : printLines ls with
      | none => simp [hl, hb] at h
      | some b' =>
        simp [hl, hb] at h
        obtain ⟨h1, h2⟩ := ih b' hb
        refine ⟨?_, ?_⟩
        · intro x hx
          rcases List.mem_cons.1 hx with e | e
          · subst e; exact hl
          · exact h1 x e
        · intro rest
          rw [file_cons, ← h2 rest, ← h]; simp
    · simp [hl] at h

theorem printLines_none (ls : List Bytes) (l : Bytes) (hl : l ∈ ls) (h : 1024 ≤ l.length) : printLines ls = none := by
  cases hb : printLines ls with
  | none => rfl
  | some b => have := (printLines_some ls b hb).1 l hl; omega

theorem printLines_ok (ls : List Bytes) (h : ∀ l ∈ ls, l.length < 1024) : ∃ b, printLines ls = some b := by
  induction ls with
  | nil => exact ⟨_, rfl⟩
  | cons l ls ih =>
    obtain ⟨b, hb⟩ := ih (fun x hx => h x (by simp [hx]))
    exact ⟨l ++ [10] ++ b, by simp [printLines, printLine, h l (by simp), hb]⟩

theorem readLine_file (l : Bytes) (ls : List Bytes) (rest : Bytes) (size : Nat) (h : OneLine l) (hn : l.length + 2 ≤ size) :
    readLine size (file (l :: ls) rest) = some (l, file ls rest) := readLine_line l _ size h hn

theorem scanLine_file (ks : List Conv) (xs : List (Conv × I32)) (ls : List Bytes) (rest : Bytes)
    (hk : xs.map (·.1) = ks) (h : xs.length ≤ 80) :
    scanLine ks (file (showNums xs :: ls) rest) = some (xs.map (·.2), file ls rest) :=
  scanLine_show ks xs _ hk h

/-! ### Specification: which records are considered -/

/-- A text of a record: no line break, and short enough for the line buffer. -/
def Fits (s : Bytes) : Prop := OneLine s ∧ s.length < 1024

/-- A text for which the reading buffer has 1024 bytes. -/
def FitsShort (s : Bytes) : Prop := OneLine s ∧ s.length ≤ 1022

/-- The time is before January 2038. -/
def Time32 (t : I64) : Prop := -2 ^ 31 ≤ t.toInt ∧ t.toInt < 2 ^ 31

structure ValidTexts (t : Texts) : Prop where
  url : Fits t.url
  filename : Fits t.filename
  destDir : Fits t.destDir
  finalDir : Fits t.finalDir
  queuedFilename : Fits t.queuedFilename
  name : Fits t.name
  named : t.name ≠ []
  category : Fits t.category

structure ValidSettings (kind : I32) (s : Settings) : Prop where
  minTime : Time32 s.minTime
  maxTime : Time32 s.maxTime
  /-- an item of kind URL is not loaded or waiting (these statuses are not restored by intention) -/
  urlStatus : kind = 0 ∨ s.urlStatus = 0 ∨ 3 ≤ s.urlStatus.toInt
  stage : ∀ p, s.post = some p → 0 ≤ p.stage.toInt ∧ p.stage.toInt < 100

structure ValidCompleted (c : Completed) : Prop where
  hash16k : Fits c.hash16k ∧ (44 : UInt8) ∉ c.hash16k
  parSetId : Fits c.parSetId ∧ (44 : UInt8) ∉ c.parSetId
  line : c.hash16k.length + c.parSetId.length < 900
  filename : FitsShort c.filename
  origname : FitsShort c.origname

structure ValidLists (l : Lists) : Prop where
  completed : ∀ c ∈ l.completed, ValidCompleted c
  /-- the rules of the parameter list: names differ, values are not empty -/
  parameters : ∀ p ∈ l.parameters, OneLine p.1 ∧ OneLine p.2 ∧ (61 : UInt8) ∉ p.1 ∧ p.2 ≠ [] ∧
    p.1.length + p.2.length + 1 < 1024
  distinct : l.parameters.Pairwise (fun p q => p.1.map lower ≠ q.1.map lower)
  scripts : ∀ s ∈ l.scripts, OneLine s.2 ∧ s.2.length < 1000
  servers : l.stats.Pairwise (fun s t => s.server ≠ t.server)
  counts : l.completed.length < 2 ^ 31 ∧ l.parameters.length < 2 ^ 31 ∧ l.scripts.length < 2 ^ 31 ∧
    l.stats.length < 2 ^ 31 ∧ l.files.length < 2 ^ 31

structure ValidRec (r : Rec) : Prop where
  texts : ValidTexts r.texts
  settings : ValidSettings r.texts.kind r.settings
  dupeKey : Fits r.dupe.dupeKey
  lists : ValidLists r.lists

/-- The configured servers are those for which the statistics were collected: same ids, all there. -/
def SameServers (servers : List (I32 × I32)) (l : List Stat) : Prop :=
  (∀ v ∈ servers, v.1 = v.2) ∧ ∀ s ∈ l, (s.server, s.server) ∈ servers

/-! ### Sections -/

theorem loadTexts_file (nice : Bytes → Bytes → Bytes) (t : Texts) (ls : List Bytes) (rest : Bytes) (h : ValidTexts t) :
    loadTexts nice (file (saveTexts t ++ ls) rest) = some (t, file ls rest) := by
  have hl : ∀ s, Fits s → s.length + 2 ≤ 10240 := fun s h => by have := h.2; omega
  have hn : t.name.length > 0 := List.length_pos_iff.2 h.named
  simp only [loadTexts, saveTexts, List.cons_append, List.nil_append]
  rw [scanLine_file [.i] [(.i, t.id)] _ _ rfl (by simp)]
  simp only [List.map_cons, List.map_nil, bind, Option.bind_some]
  rw [scanLine_file [.i] [(.i, t.kind)] _ _ rfl (by simp)]
  simp only [List.map_cons, List.map_nil, Option.bind_some]
  rw [readLine_file t.url _ _ _ h.url.1 (hl _ h.url)]
  simp only [Option.bind_some]
  rw [readLine_file t.filename _ _ _ h.filename.1 (hl _ h.filename)]
  simp only [Option.bind_some]
  rw [readLine_file t.destDir _ _ _ h.destDir.1 (hl _ h.destDir)]
  simp only [Option.bind_some]
  rw [readLine_file t.finalDir _ _ _ h.finalDir.1 (hl _ h.finalDir)]
  simp only [Option.bind_some]
  rw [readLine_file t.queuedFilename _ _ _ h.queuedFilename.1 (hl _ h.queuedFilename)]
  simp only [Option.bind_some]
  rw [readLine_file t.name _ _ _ h.name.1 (hl _ h.name)]
  simp only [Option.bind_some]
  rw [readLine_file t.category _ _ _ h.category.1 (hl _ h.category)]
  simp only [Option.bind_some, hn, if_true]

/-- What loading makes of the post-processing state: the stage is one too high. -/
def postLoaded : Option Post → Option Post
  | none => none
  | some p => some { p with stage := p.stage + 1 }

theorem postOf_saved (o : Option Post) (h : ∀ p, o = some p → 0 ≤ p.stage.toInt ∧ p.stage.toInt < 100) :
    postOf (stageToSave o) (flagToSave (·.forceParFull) o) (flagToSave (·.forceRepair) o) = postLoaded o := by
  cases o with
  | none => rfl
  | some p =>
    obtain ⟨h1, h2⟩ := h p rfl
    have : (p.stage + 1).toInt = p.stage.toInt + 1 := by
      rw [BitVec.toInt_add]
      have : (1 : I32).toInt = 1 := rfl
      rw [this, Int.bmod_def]
      omega
    simp only [postOf, stageToSave, flagToSave, postLoaded, toBool_ofBool, this]
    rw [if_pos (by omega)]

theorem urlStatusOf_saved (kind u : I32) (h : kind = 0 ∨ u = 0 ∨ 3 ≤ u.toInt) : urlStatusOf kind u = u := by
  unfold urlStatusOf
  rcases h with h | h | h
  · rw [if_pos (Or.inl h)]
  · subst h
    by_cases hk : kind = 0 <;> simp [hk]
  · rw [if_pos (Or.inr (Or.inl h))]

theorem loadSettings_file (kind : I32) (s : Settings) (ls : List Bytes) (rest : Bytes) (h : ValidSettings kind s) :
    loadSettings kind (file (saveSettings s ++ ls) rest) =
      some ({ s with post := postLoaded s.post }, file ls rest) := by
  simp only [loadSettings, saveSettings, List.cons_append, List.nil_append]
  rw [scanLine_file [.i, .i, .i, .i, .i] _ _ _ rfl (by simp)]
  simp only [List.map_cons, List.map_nil, bind, Option.bind_some]
  rw [scanLine_file [.i, .i, .i, .i, .i, .i, .i, .i, .i] _ _ _ rfl (by simp)]
  simp only [List.map_cons, List.map_nil, Option.bind_some]
  rw [scanLine_file [.i, .i, .i] _ _ _ rfl (by simp)]
  simp only [List.map_cons, List.map_nil, Option.bind_some]
  rw [scanLine_file [.i, .i, .i] _ _ _ rfl (by simp)]
  simp only [List.map_cons, List.map_nil, Option.bind_some]
  rw [scanLine_file [.i, .i] _ _ _ rfl (by simp)]
  simp only [List.map_cons, List.map_nil, Option.bind_some]
  rw [scanLine_file [.i, .i, .i, .i] _ _ _ rfl (by simp)]
  simp only [List.map_cons, List.map_nil, Option.bind_some, toBool_ofBool, urlStatusOf_saved _ _ h.urlStatus,
    time_roundtrip _ h.minTime.1 h.minTime.2, time_roundtrip _ h.maxTime.1 h.maxTime.2, postOf_saved _ h.stage]

theorem loadSizes_file (s : Sizes) (ls : List Bytes) (rest : Bytes) :
    loadSizes (file (saveSizes s ++ ls) rest) = some (s, file ls rest) := by
  simp only [loadSizes, saveSizes, List.cons_append, List.nil_append, halves]
  rw [scanLine_file [.u, .u] _ _ _ rfl (by simp)]
  simp only [List.map_cons, List.map_nil, bind, Option.bind_some]
  rw [scanLine_file [.u, .u, .u, .u, .u, .u] _ _ _ rfl (by simp)]
  simp only [List.map_cons, List.map_nil, Option.bind_some]
  rw [scanLine_file [.u, .u, .u, .u, .u, .u] _ _ _ rfl (by simp)]
  simp only [List.map_cons, List.map_nil, Option.bind_some]
  rw [scanLine_file [.i, .i, .i] _ _ _ rfl (by simp)]
  simp only [List.map_cons, List.map_nil, Option.bind_some, join_split]

theorem loadDupe_file (d : Dupe) (ls : List Bytes) (rest : Bytes) (h : Fits d.dupeKey) :
    loadDupe (file (saveDupe d ++ ls) rest) =
      some ({ d with dupeMode := d.dupeHint, dupeHint := 0 }, file ls rest) := by
  simp only [loadDupe, saveDupe, List.cons_append, List.nil_append, halves]
  rw [readLine_file _ _ _ _ h.1 (by have := h.2; omega)]
  simp only [bind, Option.bind_some]
  rw [scanLine_file [.i, .i, .i] _ _ _ rfl (by simp)]
  simp only [List.map_cons, List.map_nil, Option.bind_some]
  rw [scanLine_file [.u, .u, .i, .i, .i, .i, .i] _ _ _ rfl (by simp)]
  simp only [List.map_cons, List.map_nil, Option.bind_some, join_split]

/-! ### Lists -/

theorem readN_file {α β : Type} (one : Reader β) (save : α → List Bytes) (f : α → β) (xs : List α) (ls : List Bytes)
    (rest : Bytes)
    (h : ∀ x ∈ xs, ∀ ls, one (file (save x ++ ls) rest) = some (f x, file ls rest)) :
    readN one xs.length (file (xs.flatMap save ++ ls) rest) = some (xs.map f, file ls rest) := by
  induction xs with
  | nil => simp [readN]
  | cons x xs ih =>
    have h1 := h x (by simp) (xs.flatMap save ++ ls)
    have h2 := ih (fun y hy => h y (by simp [hy]))
    simp only [List.flatMap_cons, List.append_assoc, List.length_cons, readN] at *
    rw [h1]
    simp only [h2, Option.map_some, List.map_cons]

theorem readList_file {α β : Type} (one : Reader β) (save : α → List Bytes) (f : α → β) (xs : List α) (ls : List Bytes)
    (rest : Bytes) (hn : xs.length < 2 ^ 31)
    (h : ∀ x ∈ xs, ∀ ls, one (file (save x ++ ls) rest) = some (f x, file ls rest)) :
    readList one (file (countLine xs.length :: (xs.flatMap save ++ ls)) rest) = some (xs.map f, file ls rest) := by
  unfold readList countLine
  rw [scanLine_file [.i] _ _ _ rfl (by simp)]
  simp only [List.map_cons, List.map_nil]
  have : (BitVec.ofNat 32 xs.length).toInt.toNat = xs.length := by
    rw [BitVec.toInt_ofNat', Int.bmod_def]; omega
  rw [this]
  exact readN_file one save f xs ls rest h

theorem after_notMem (c : UInt8) (a b : Bytes) (h : c ∉ a) : after c (a ++ c :: b) = some b := by
  induction a with
  | nil => simp [after]
  | cons x a ih =>
    simp only [List.mem_cons, not_or] at h
    have : ¬ x = c := fun e => h.1 e.symm
    simp [after, this, ih h.2]

theorem after_none (c : UInt8) (a : Bytes) (h : c ∉ a) : after c a = none := by
  induction a with
  | nil => rfl
  | cons x a ih =>
    simp only [List.mem_cons, not_or] at h
    have : ¬ x = c := fun e => h.1 e.symm
    simp [after, this, ih h.2]

theorem upTo_notMem (c : UInt8) (a b : Bytes) (h : c ∉ a) : upTo c (a ++ c :: b) = a := by
  induction a with
  | nil => simp [upTo]
  | cons x a ih =>
    simp only [List.mem_cons, not_or] at h
    have : (x != c) = true := by simp only [bne_iff_ne]; exact fun e => h.1 e.symm
    have ih' := ih h.2
    unfold upTo at ih' ⊢
    simp only [List.cons_append, List.takeWhile_cons, this, if_true, ih']

theorem upTo_none (c : UInt8) (a : Bytes) (h : c ∉ a) : upTo c a = a := by
  induction a with
  | nil => rfl
  | cons x a ih =>
    simp only [List.mem_cons, not_or] at h
    have : (x != c) = true := by simp only [bne_iff_ne]; exact fun e => h.1 e.symm
    have ih' := ih h.2
    unfold upTo at ih' ⊢
    simp only [List.takeWhile_cons, this, if_true, ih']

theorem comma_notMem (k : Conv) (x : I32) : (44 : UInt8) ∉ showNum k x := fun h => (showNum_chars k x _ h).2 rfl

theorem oneLine_append {a b : Bytes} (ha : OneLine a) (hb : OneLine b) : OneLine (a ++ b) := by
  intro h; rcases List.mem_append.1 h with h | h
  · exact ha h
  · exact hb h

theorem oneLine_cons {c : UInt8} {b : Bytes} (hc : c ≠ 10) (hb : OneLine b) : OneLine (c :: b) := by
  intro h; rcases List.mem_cons.1 h with h | h
  · exact hc h.symm
  · exact hb h

theorem loadCompleted_file (c : Completed) (ls : List Bytes) (rest : Bytes) (h : ValidCompleted c) :
    loadCompleted (file (saveCompleted c ++ ls) rest) = some (c, file ls rest) := by
  have e : showNums [(.i, c.id), (.i, c.status), (.u, c.crc), (.i, ofBool c.parFile)] ++
      44 :: (c.hash16k ++ 44 :: c.parSetId) = showNum .i c.id ++ 44 :: (showNum .i c.status ++ 44 ::
        (showNum .u c.crc ++ 44 :: (showNum .i (ofBool c.parFile) ++ 44 :: (c.hash16k ++ 44 :: c.parSetId)))) := by
    simp [showNums]
  have hsc := scanNums_show [(.i, c.id), (.i, c.status), (.u, c.crc), (.i, ofBool c.parFile)]
    (44 :: (c.hash16k ++ 44 :: c.parSetId)) (Or.inr ⟨_, rfl⟩)
  have hlen := length_showNums [(.i, c.id), (.i, c.status), (.u, c.crc), (.i, ofBool c.parFile)]
  have hone : OneLine (showNums [(.i, c.id), (.i, c.status), (.u, c.crc), (.i, ofBool c.parFile)] ++
      44 :: (c.hash16k ++ 44 :: c.parSetId)) :=
    oneLine_append (showNums_oneLine _) (oneLine_cons (by decide) (oneLine_append h.hash16k.1.1
      (oneLine_cons (by decide) h.parSetId.1.1)))
  have hl := h.line
  simp only [loadCompleted, saveCompleted, List.cons_append, List.nil_append]
  rw [readLine_file _ _ _ _ hone (by simp at hlen ⊢; omega)]
  simp only [List.map_cons, List.map_nil] at hsc
  simp only [bind, Option.bind_some]
  rw [hsc]
  simp only [Option.bind_some]
  rw [e, after_notMem 44 _ _ (comma_notMem _ _)]
  simp only [Option.bind_some]
  rw [after_notMem 44 _ _ (comma_notMem _ _)]
  simp only [Option.bind_some]
  rw [after_notMem 44 _ _ (comma_notMem _ _)]
  simp only [Option.bind_some]
  rw [after_notMem 44 _ _ (comma_notMem _ _)]
  simp only [Option.bind_some, Option.map_some]
  rw [after_notMem 44 _ _ h.hash16k.2, upTo_notMem 44 _ _ h.hash16k.2]
  simp only [Option.map_some, Option.getD_some, upTo_none 44 _ h.parSetId.2]
  rw [readLine_file _ _ _ _ h.filename.1 (by have := h.filename.2; omega)]
  simp only [Option.bind_some]
  rw [readLine_file _ _ _ _ h.origname.1 (by have := h.origname.2; omega)]
  simp only [Option.bind_some, toBool_ofBool]

theorem loadParameter_file (p : Bytes × Bytes) (ls : List Bytes) (rest : Bytes)
    (h : OneLine p.1 ∧ OneLine p.2 ∧ (61 : UInt8) ∉ p.1 ∧ p.2 ≠ [] ∧ p.1.length + p.2.length + 1 < 1024) :
    loadParameter (file ([p.1 ++ 61 :: p.2] ++ ls) rest) = some (some p, file ls rest) := by
  simp only [loadParameter, List.cons_append, List.nil_append]
  rw [readLine_file _ _ _ _ (oneLine_append h.1 (oneLine_cons (by decide) h.2.1)) (by simp; omega)]
  simp only [bind, Option.bind_some]
  rw [after_notMem 61 _ _ h.2.2.1, upTo_notMem 61 _ _ h.2.2.1]
  rfl

theorem loadScript_file (s : I32 × Bytes) (ls : List Bytes) (rest : Bytes) (h : OneLine s.2 ∧ s.2.length < 1000) :
    loadScript (file ([showNums [(.i, s.1)] ++ 44 :: s.2] ++ ls) rest) = some (some s, file ls rest) := by
  have hlen := length_showNum .i s.1
  simp only [loadScript, List.cons_append, List.nil_append, showNums]
  rw [readLine_file _ _ _ _ (oneLine_append (fun h => (showNum_chars _ _ _ h).1 rfl)
    (oneLine_cons (by decide) h.1)) (by simp; omega)]
  simp only [bind, Option.bind_some]
  rw [after_notMem 44 _ _ (comma_notMem _ _), scanNum_show .i s.1 _ (Or.inr ⟨_, rfl⟩)]
  rfl

theorem addParameters (ps done : List (Bytes × Bytes)) (hv : ∀ p ∈ ps, p.2 ≠ [])
    (hd : (done ++ ps).Pairwise (fun p q => sameName p.1 q.1 = false)) :
    (ps.map some).foldl addParameter done = done ++ ps := by
  induction ps generalizing done with
  | nil => simp
  | cons p ps ih =>
    have hp : ∀ q ∈ done, sameName q.1 p.1 = false := by
      rw [List.pairwise_append] at hd
      intro q hq; exact hd.2.2 q hq p (by simp)
    have hany : done.any (fun q => sameName q.1 p.1) = false := by
      rw [List.any_eq_false]; intro q hq; simp [hp q hq]
    have hne : p.2.isEmpty = false := by have := hv p (by simp); cases h : p.2 <;> simp_all
    have step : addParameter done (some p) = done ++ [p] := by
      simp [addParameter, setParameter, hany, hne]
    simp only [List.map_cons, List.foldl_cons, step]
    rw [ih (done ++ [p]) (fun q hq => hv q (by simp [hq])) (by simpa using hd)]
    simp

theorem setStat_new (l : List Stat) (s : Stat) (h : ∀ t ∈ l, t.server ≠ s.server) : setStat l s = l ++ [s] := by
  have : l.any (·.server == s.server) = false := by
    rw [List.any_eq_false]; intro t ht; simpa using h t ht
  simp [setStat, this]

theorem modify_last {α : Type} (f : α → α) (l : List α) (x : α) : (l ++ [x]).modify l.length f = l ++ [f x] := by
  induction l with
  | nil => rfl
  | cons y l ih => simpa using ih

theorem setStat_last (l : List Stat) (s : Stat) (h : ∀ t ∈ l, t.server ≠ s.server) : setStat (l ++ [s]) s = l ++ [s] := by
  have hany : (l ++ [s]).any (·.server == s.server) = true := by simp
  have hidx : (l ++ [s]).findIdx (·.server == s.server) = l.length := by
    rw [List.findIdx_append, if_neg]
    · simp [List.findIdx_cons]
    · rw [Nat.not_lt, List.findIdx_eq_length.2 (fun t ht => by simpa using h t ht)]
      exact Nat.le_refl _
  simp only [setStat, hany, if_true, hidx]
  exact modify_last (fun _ => s) l s

theorem applyStat_same (servers : List (I32 × I32)) (hs : ∀ v ∈ servers, v.1 = v.2) (l : List Stat) (s : Stat)
    (hl : ∀ t ∈ l, t.server ≠ s.server) (hm : (s.server, s.server) ∈ servers) :
    applyStat servers l s = l ++ [s] := by
  suffices H : ∀ (servers : List (I32 × I32)) (acc : List Stat), (∀ v ∈ servers, v.1 = v.2) →
      ((acc = l ∧ (s.server, s.server) ∈ servers) ∨ acc = l ++ [s]) →
      servers.foldl (fun l v => if v.1 == s.server then setStat l { s with server := v.2 } else l) acc = l ++ [s] from
    H servers l hs (Or.inl ⟨rfl, hm⟩)
  clear hs hm servers
  intro servers
  induction servers with
  | nil =>
    intro acc _ h
    rcases h with h | h
    · simp at h
    · simpa using h
  | cons v servers ih =>
    intro acc hs h
    have hv := hs v (by simp)
    simp only [List.foldl_cons]
    by_cases e : v.1 = s.server
    · have : { s with server := v.2 } = s := by rw [← hv, e]
      rw [if_pos (by simpa using e), this]
      apply ih _ (fun w hw => hs w (by simp [hw]))
      right
      rcases h with h | h
      · rw [h.1, setStat_new l s hl]
      · rw [h, setStat_last l s hl]
    · rw [if_neg (by simpa using e)]
      apply ih _ (fun w hw => hs w (by simp [hw]))
      rcases h with h | h
      · left
        refine ⟨h.1, ?_⟩
        rcases List.mem_cons.1 h.2 with h2 | h2
        · rw [← h2] at e; exact absurd rfl e
        · exact h2
      · exact Or.inr h

theorem applyStats_same (servers : List (I32 × I32)) (l done : List Stat) (hs : SameServers servers l)
    (hd : (done ++ l).Pairwise (fun s t => s.server ≠ t.server)) :
    l.foldl (applyStat servers) done = done ++ l := by
  induction l generalizing done with
  | nil => simp
  | cons s l ih =>
    have hp : ∀ t ∈ done, t.server ≠ s.server := by
      rw [List.pairwise_append] at hd
      intro t ht; exact hd.2.2 t ht s (by simp)
    simp only [List.foldl_cons]
    rw [applyStat_same servers hs.1 done s hp (hs.2 s (by simp)),
      ih (done ++ [s]) ⟨hs.1, fun t ht => hs.2 t (by simp [ht])⟩ (by simpa using hd)]
    simp

theorem map_eq_flatMap {α β : Type} (f : α → β) (xs : List α) : xs.map f = xs.flatMap (fun x => [f x]) := by
  induction xs with
  | nil => rfl
  | cons x xs ih => simp [ih]

theorem loadStats_file (servers : List (I32 × I32)) (l : List Stat) (ls : List Bytes) (rest : Bytes)
    (hn : l.length < 2 ^ 31) (hs : SameServers servers l) (hd : l.Pairwise (fun s t => s.server ≠ t.server)) :
    loadStats servers (file (saveStats l ++ ls) rest) = some (l, file ls rest) := by
  have := readList_file loadStat (fun s => [showNums [(.i, s.server), (.i, s.success), (.i, s.failed)]]) id l ls rest hn
    (by
      intro s _ ls
      simp only [loadStat, List.cons_append, List.nil_append]
      rw [scanLine_file [.i, .i, .i] _ _ _ rfl (by simp)]
      rfl)
  unfold loadStats saveStats
  rw [map_eq_flatMap, List.cons_append, this]
  simp only [List.map_id, Option.map_some]
  rw [applyStats_same servers l [] hs (by simpa using hd)]
  simp

theorem loadLists_file (servers : List (I32 × I32)) (l : Lists) (ls : List Bytes) (rest : Bytes)
    (h : ValidLists l) (hs : SameServers servers l.stats) :
    loadLists servers (file (saveLists l ++ ls) rest) = some (l, file ls rest) := by
  obtain ⟨n1, n2, n3, n4, n5⟩ := h.counts
  simp only [loadLists, saveLists, List.append_assoc, List.cons_append]
  rw [readList_file loadCompleted saveCompleted id l.completed _ rest n1
    (fun c hc ls => loadCompleted_file c ls rest (h.completed c hc))]
  simp only [bind, Option.bind_some]
  rw [map_eq_flatMap (fun p : Bytes × Bytes => p.1 ++ 61 :: p.2)]
  rw [readList_file loadParameter _ some l.parameters _ rest n2
    (fun p hp ls => loadParameter_file p ls rest (h.parameters p hp))]
  simp only [Option.bind_some]
  rw [map_eq_flatMap (fun s : I32 × Bytes => showNums [(.i, s.1)] ++ 44 :: s.2)]
  rw [readList_file loadScript _ some l.scripts _ rest n3
    (fun p hp ls => loadScript_file p ls rest (h.scripts p hp))]
  simp only [Option.bind_some]
  rw [loadStats_file servers l.stats _ rest n4 hs h.servers]
  simp only [Option.bind_some]
  rw [map_eq_flatMap]
  rw [readList_file loadFileRef _ id l.files _ rest n5 (by
    intro f _ ls
    simp only [loadFileRef, List.cons_append, List.nil_append]
    rw [scanLine_file [.i, .i, .i] _ _ _ rfl (by simp)]
    simp [toBool_ofBool])]
  simp only [Option.bind_some, List.map_id]
  rw [addParameters l.parameters [] (fun p hp => (h.parameters p hp).2.2.2.1) (by simpa [sameName] using h.distinct)]
  simp

/-! ### C16 -/

theorem loadRec_file (nice : Bytes → Bytes → Bytes) (servers : List (I32 × I32)) (r : Rec) (ls : List Bytes) (rest : Bytes)
    (h : ValidRec r) (hs : SameServers servers r.lists.stats) :
    loadRec nice servers (file (saveLines r ++ ls) rest) = some ({ r with
      settings := { r.settings with post := postLoaded r.settings.post }
      dupe := { r.dupe with dupeMode := r.dupe.dupeHint, dupeHint := 0 } }, file ls rest) := by
  simp only [loadRec, saveLines, List.append_assoc]
  rw [loadTexts_file nice r.texts _ rest h.texts]
  simp only [bind, Option.bind_some]
  rw [loadSettings_file r.texts.kind r.settings _ rest h.settings]
  simp only [Option.bind_some]
  rw [loadSizes_file]
  simp only [Option.bind_some]
  rw [loadDupe_file _ _ _ h.dupeKey]
  simp only [Option.bind_some]
  rw [loadLists_file servers r.lists _ rest h.lists hs]
  rfl

/-- C16, the part which holds: saving any valid record and loading it gives the record back, except for the dupe
mode (replaced by the dupe hint), the dupe hint (lost) and the stage of the post-processing (one too high).
Missing: these fields, see `dupe_mode_lost`, `interrupted_move_is_not_resumed`; and texts of 1024 and more
characters, see `long_text_overflows`. -/
theorem record_roundtrip_partial (nice : Bytes → Bytes → Bytes) (servers : List (I32 × I32)) (r : Rec) (b rest : Bytes)
    (h : ValidRec r) (hs : SameServers servers r.lists.stats) (hb : saveRec r = some b) :
    ∃ r', loadRec nice servers (b ++ rest) = some (r', rest) ∧
      r'.texts = r.texts ∧ r'.sizes = r.sizes ∧ r'.lists = r.lists ∧
      { r'.settings with post := none } = { r.settings with post := none } ∧
      { r'.dupe with dupeMode := 0, dupeHint := 0 } = { r.dupe with dupeMode := 0, dupeHint := 0 } ∧
      (r.settings.post = none → r'.settings.post = none) ∧
      (r.dupe.dupeMode = 0 → r.dupe.dupeHint = 0 → r'.dupe = r.dupe) := by
  have := loadRec_file nice servers r [] rest h hs
  rw [List.append_nil, ← (printLines_some _ _ hb).2 rest, file_nil] at this
  refine ⟨_, this, rfl, rfl, rfl, rfl, rfl, ?_, ?_⟩
  · intro e; simp [e, postLoaded]
  · intro e1 e2
    obtain ⟨t, s, z, ⟨a1, a2, a3, a4, a5, a6, a7, a8, a9, a10⟩, l⟩ := r
    simp at e1 e2 ⊢
    simp [e1, e2]

theorem loadQueue_file (nice : Bytes → Bytes → Bytes) (servers : List (I32 × I32)) (rs : List Rec) (b rest : Bytes)
    (hn : rs.length < 2 ^ 31)
    (h : ∀ r ∈ rs, ValidRec r ∧ SameServers servers r.lists.stats) (hb : saveQueue rs = some b) :
    loadQueue nice servers (b ++ rest) = some (rs.map (fun r => { r with
      settings := { r.settings with post := postLoaded r.settings.post }
      dupe := { r.dupe with dupeMode := r.dupe.dupeHint, dupeHint := 0 } }), rest) := by
  have := readList_file (loadRec nice servers) saveLines _ rs [] rest hn
    (fun r hr ls => loadRec_file nice servers r ls rest (h r hr).1 (h r hr).2)
  rw [List.append_nil, ← (printLines_some _ _ hb).2 rest, file_nil] at this
  exact this

/-- The same for the whole queue: all items come back, in the same order. -/
theorem queue_roundtrip_partial (nice : Bytes → Bytes → Bytes) (servers : List (I32 × I32)) (rs : List Rec) (b rest : Bytes)
    (hn : rs.length < 2 ^ 31)
    (h : ∀ r ∈ rs, ValidRec r ∧ SameServers servers r.lists.stats ∧ r.settings.post = none ∧ r.dupe.dupeMode = 0 ∧
      r.dupe.dupeHint = 0) (hb : saveQueue rs = some b) :
    loadQueue nice servers (b ++ rest) = some (rs, rest) := by
  rw [loadQueue_file nice servers rs b rest hn (fun r hr => ⟨(h r hr).1, (h r hr).2.1⟩) hb]
  congr 2
  conv => rhs; rw [← List.map_id rs]
  apply List.map_congr_left
  intro r hr
  obtain ⟨_, _, e1, e2, e3⟩ := h r hr
  obtain ⟨t, s, z, d, l⟩ := r
  obtain ⟨_, _, _, _, _, _, _, _, _, _, _, _, _, _, _, _, _, _, _, _, _, _, _, _⟩ := s
  obtain ⟨a1, a2, a3, a4, a5, a6, a7, a8, a9, a10⟩ := d
  simp at e1 e2 e3
  simp [e1, e2, e3, postLoaded]

/-- Violation of C16: the dupe mode of an item is replaced by its dupe hint, and the hint is lost. -/
theorem dupe_mode_lost (nice : Bytes → Bytes → Bytes) (servers : List (I32 × I32)) (r : Rec) (b rest : Bytes)
    (h : ValidRec r) (hs : SameServers servers r.lists.stats) (hb : saveRec r = some b) :
    (loadRec nice servers (b ++ rest)).map (fun x => (x.1.dupe.dupeMode, x.1.dupe.dupeHint)) =
      some (r.dupe.dupeHint, 0) := by
  have := loadRec_file nice servers r [] rest h hs
  rw [List.append_nil, ← (printLines_some _ _ hb).2 rest, file_nil] at this
  rw [this]; rfl

/-- Violation of C16: a record with a text of 1024 or more characters, for instance a long URL, makes `PrintLine`
write beyond its buffer. -/
theorem long_text_overflows (r : Rec) (s : Bytes)
    (hs : s ∈ [r.texts.url, r.texts.filename, r.texts.destDir, r.texts.finalDir, r.texts.queuedFilename, r.texts.name,
      r.texts.category, r.dupe.dupeKey] ++ r.lists.parameters.map (fun p => p.1 ++ 61 :: p.2))
    (h : 1024 ≤ s.length) : saveRec r = none := by
  apply printLines_none _ s _ h
  simp only [List.mem_append, List.mem_cons, List.not_mem_nil, or_false, saveLines, saveTexts, saveDupe, saveLists] at hs ⊢
  rcases hs with (h | h | h | h | h | h | h | h) | h <;> simp [h]

/-- The intended effect of a restart: an item whose script was running is finished, another one starts its
post-processing again. -/
def restartStage (stage : I32) : I32 := if stage = 10 then 11 else 0

/-- Violation of C16: the stage is saved plus one and loaded without minus one. An item which was being moved to
its final directory when the program stopped is treated as finished after the restart, and an item whose script was
running starts its post-processing again. -/
theorem interrupted_move_is_not_resumed (nice : Bytes → Bytes → Bytes) (servers : List (I32 × I32)) (r : Rec)
    (b rest : Bytes) (p : Post) (h : ValidRec r) (hs : SameServers servers r.lists.stats) (hb : saveRec r = some b)
    (hp : r.settings.post = some p) :
    ∃ q, (loadRec nice servers (b ++ rest)).map (fun x => x.1.settings.post) = some (some q) ∧
      (p.stage = 9 → (sanitise true q).stage = 11 ∧ restartStage p.stage = 0) ∧
      (p.stage = 10 → (sanitise true q).stage = 0 ∧ restartStage p.stage = 11) := by
  have := loadRec_file nice servers r [] rest h hs
  rw [List.append_nil, ← (printLines_some _ _ hb).2 rest, file_nil] at this
  refine ⟨{ p with stage := p.stage + 1 }, ?_, ?_, ?_⟩
  · rw [this]; simp [hp, postLoaded]
  · intro e; simp [e, sanitise, restartStage]
  · intro e; simp [e, sanitise, restartStage]

/-- Times after January 2038 are not restored. -/
theorem time_after_2038 : intToTime (timeToInt 4294967296) = 0 := by decide +kernel

/-! ### A concrete record -/

def exRec : Rec where
  texts := ⟨7, 0, [], [97, 46, 110, 122, 98], [47, 97], [], [97], [97], [116, 118]⟩
  settings := {
    priority := 50, deletePaused := false, manyDupeFiles := true, feedId := 3, parStatus := 1, unpackStatus := 2,
    moveStatus := 0, parRenameStatus := 3, rarRenameStatus := 0, directRenameStatus := 1, deleteStatus := 0,
    markStatus := 2, urlStatus := 0, unpackCleanedUpDisk := false, healthPaused := true, addUrlPaused := false,
    fileCount := 12, parkedFileCount := 1, messageCount := 4, minTime := 1700000000, maxTime := 1700000100,
    parFull := true, extraParBlocks := BitVec.ofInt 32 (-5), post := some ⟨9, true, false⟩ }
  sizes := ⟨4000000000, 17, 10000000000, 5, 6, 7, 8, BitVec.ofInt 64 (-9), 100, 90, 1⟩
  dupe := ⟨[107], 2, 10, 1, 123456789012, 5, 6, 7, 8, 9⟩
  lists := {
    completed := [⟨3, 1, 4294967295, true, [97, 98], [], [102], []⟩, ⟨0, 2, 0, false, [], [99], [103], [104]⟩]
    parameters := [([42, 85], [121, 61, 49]), ([98], [10 + 44])]
    scripts := [(2, [115, 44, 46])]
    stats := [⟨1, 20, 3⟩, ⟨2, 0, 1⟩]
    files := [⟨8, true, false⟩, ⟨9, false, true⟩] }

instance (s : Bytes) : Decidable (OneLine s) := inferInstanceAs (Decidable (¬ _))
instance (s : Bytes) : Decidable (Fits s) := inferInstanceAs (Decidable (_ ∧ _))
instance (s : Bytes) : Decidable (FitsShort s) := inferInstanceAs (Decidable (_ ∧ _))

example : ValidRec exRec := by
  refine ⟨?_, ?_, by decide, ?_⟩
  · constructor <;> decide
  · refine ⟨⟨by decide, by decide⟩, ⟨by decide, by decide⟩, Or.inl rfl, ?_⟩
    intro p hp
    have : exRec.settings.post = some ⟨9, true, false⟩ := rfl
    rw [this] at hp; injection hp with hp; subst hp; decide
  · refine ⟨?_, by decide, by decide, by decide, by decide, by decide⟩
    intro c hc
    have : c = ⟨3, 1, 4294967295, true, [97, 98], [], [102], []⟩ ∨ c = ⟨0, 2, 0, false, [], [99], [103], [104]⟩ := by
      simpa [exRec] using hc
    rcases this with e | e <;> subst e <;> constructor <;> decide

example : SameServers [(1, 1), (2, 2), (3, 3)] exRec.lists.stats := by
  constructor <;> decide

example : ((saveRec exRec).bind (loadRec (fun a _ => a) [(1, 1), (2, 2)])).map (fun x => (x.1.texts = exRec.texts
    ∧ x.1.sizes = exRec.sizes ∧ x.1.lists = exRec.lists ∧ x.1.dupe.dupeMode = 1 ∧
    x.1.settings.post = some ⟨10, true, false⟩ : Bool)) = some true := by decide +kernel

end Verif.Record
