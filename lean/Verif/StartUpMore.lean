import Verif.StartUpProps
/-
Property C126, continued: the whole start.
-/
namespace Verif.StartUp
open Verif.Text Verif.Record Verif.FileState

/-! ### Specification: what was saved -/

/-- A file of the queue as it is saved: its infos and its progress (`true`: completed). -/
structure SavedFile where
  ref : FileRef
  info : Info
  state : Option (Bool × State)

structure SavedItem where
  record : Rec
  files : List SavedFile

/-- All files of the queue. -/
def allFiles (q : List SavedItem) : List SavedFile := q.flatMap (·.files)

/-- The state directory holds the queue `q` and the history `h`, all saved completely. -/
structure Stored (c : Config) (d : Dir) (q : List SavedItem) (h : List Entry) : Prop where
  queue : get d nQueue = if q = [] then none
    else some (content 62 (countLine (q.map (·.record)).length :: (q.map (·.record)).flatMap saveLines))
  history : get d nHistory = if h = [] then none else some (content 62 (saveHistory h))
  progress : get d nProgress = none
  complete : ∀ n ∈ [nQueue, nHistory, nProgress], get d (n ++ dotNew) = none
  infos : ∀ f ∈ allFiles q, get d (nameOf f.ref.id) = some (content 6 (saveInfo f.info))
  states : ∀ f ∈ allFiles q, ∀ k, get d (stateName f.ref.id k) =
    match f.state with
    | some (j, s) => if j = k then some (content 6 (saveState s)) else none
    | none => none
  /-- the shortcut which is written when the program ends is not there or is up to date -/
  files : get d nFiles = none ∨
    get d nFiles = some (content 6 (saveFiles ((allFiles q).map (fun f => (f.ref.id, f.info)))))
  refs : ∀ i ∈ q, i.record.lists.files = i.files.map (·.ref)
  distinct : ((allFiles q).map (·.ref.id)).Nodup
  counts : q.length < 2 ^ 31 ∧ h.length < 2 ^ 31 ∧ (allFiles q).length < 2 ^ 31
  records : ∀ i ∈ q, ValidRec i.record ∧ SameServers c.servers i.record.lists.stats
  entries : ∀ e ∈ h, ValidEntry c.servers e
  validInfos : ∀ f ∈ allFiles q, ValidInfo f.info
  validStates : ∀ f ∈ allFiles q, ∀ k s, f.state = some (k, s) → ValidState s ∧ SameServers c.servers s.stats

/-- A name which the program gives to the files of its state directory. -/
def Own (n : Bytes) : Prop :=
  (scanNum .i n = none ∧ ∀ r, n = 110 :: r → scanNum .i r = none) ∨
  ∃ id, n = nameOf id ∨ n = logName id ∨ ∃ k, n = stateName id k

/-- The progress which is there after the restart. -/
def stateAfter (c : Config) (active : Bool) (o : Option (Bool × State)) : Option (Bool × State × Nat) :=
  match o with
  | none => none
  | some (k, s) =>
    if k || (c.continuePartial && !active) then
      some (k, { s with parts := restored k s.parts.length 0 s.parts },
        ((restored k s.parts.length 0 s.parts).filter (fun p => p.status ≠ aiUndefined)).length)
    else none

def fileAfter (c : Config) (active : Bool) (f : SavedFile) : File :=
  ⟨f.ref, some (summary f.info), stateAfter c active f.state⟩

def itemAfter (c : Config) (active : Bool) (i : SavedItem) : Item :=
  ⟨reloaded i.record, i.files.map (fileAfter c active)⟩

/-! ### Infos -/

def start0 (i : SavedItem) : Item := ⟨reloaded i.record, i.files.map (fun f => ⟨f.ref, none, none⟩)⟩
def infoed (i : SavedItem) : Item := ⟨reloaded i.record, i.files.map (fun f => ⟨f.ref, some (summary f.info), none⟩)⟩

theorem itemOf_reloaded (i : SavedItem) (h : i.record.lists.files = i.files.map (·.ref)) :
    itemOf (reloaded i.record) = start0 i := by
  unfold itemOf start0
  have : (reloaded i.record).lists.files = i.files.map (·.ref) := h
  rw [this, List.map_map]; rfl

/-- The lines of the shortcut for some files. -/
def shortLines (fs : List SavedFile) : List Bytes :=
  (fs.map (fun f => (f.ref.id, f.info))).flatMap (fun f => showNums [(.i, f.1)] :: saveSummary f.2)

theorem readLine_of_scan (ks : List Conv) (b : Bytes) (x : List I32) (r : Bytes) (h : scanLine ks b = some (x, r)) :
    ∃ l, readLine 1024 b = some (l, r) ∧ scanNums ks l = some x := by
  unfold scanLine at h
  split at h
  · cases h
  · rename_i l r' hl
    cases hx : scanNums ks l with
    | none => rw [hx] at h; cases h
    | some y =>
      rw [hx] at h
      simp only [Option.map_some, Option.some.injEq, Prod.mk.injEq] at h
      exact ⟨l, by rw [hl, h.2], by rw [hx, h.1]⟩

/-- One file, from the shortcut. -/
theorem loadOne_short (c : Config) (d : Dir) (id : I32) (f : Info) (ls : List Bytes) (rest : Bytes) (hv : ValidInfo f) :
    loadOne c d id (some (6, file (showNums [(.i, id)] :: (saveSummary f ++ ls)) rest)) =
      (some (summary f), some (6, file ls rest)) := by
  have hs := scanLine_file [.i] [(.i, id)] (saveSummary f ++ ls) rest rfl (by simp)
  obtain ⟨l, hl, hx⟩ := readLine_of_scan _ _ _ _ hs
  unfold loadOne
  simp only [hl, Option.getD_some, hx, Option.map_some, List.map_cons, List.map_nil, List.headD_cons, if_true]
  rw [loadSummary_file f ls rest hv]

theorem loadFilesOf_saved (c : Config) (d : Dir) (fs : List SavedFile) (more : List Bytes)
    (hi : ∀ f ∈ fs, get d (nameOf f.ref.id) = some (content 6 (saveInfo f.info))) (hv : ∀ f ∈ fs, ValidInfo f.info) :
    loadFilesOf c d (fs.map (fun f => ⟨f.ref, none, none⟩)) none =
      (fs.map (fun f => ⟨f.ref, some (summary f.info), none⟩), none) ∧
    loadFilesOf c d (fs.map (fun f => ⟨f.ref, none, none⟩)) (some (6, file (shortLines fs ++ more) [])) =
      (fs.map (fun f => ⟨f.ref, some (summary f.info), none⟩), some (6, file more [])) := by
  induction fs with
  | nil => exact ⟨rfl, rfl⟩
  | cons f fs ih =>
    obtain ⟨h1, h2⟩ := ih (fun x hx => hi x (by simp [hx])) (fun x hx => hv x (by simp [hx]))
    constructor
    · simp only [List.map_cons, loadFilesOf, loadOne, loadFile_content c d _ _ (hv f (by simp)) (hi f (by simp)), h1]
    · have e : shortLines (f :: fs) ++ more =
          showNums [(.i, f.ref.id)] :: (saveSummary f.info ++ (shortLines fs ++ more)) := by
        simp [shortLines, List.append_assoc]
      simp only [List.map_cons, loadFilesOf, e, loadOne_short c d _ _ _ _ (hv f (by simp)), h2]

theorem loadInfosOf_saved (c : Config) (d : Dir) (q : List SavedItem)
    (hi : ∀ f ∈ allFiles q, get d (nameOf f.ref.id) = some (content 6 (saveInfo f.info)))
    (hv : ∀ f ∈ allFiles q, ValidInfo f.info) :
    loadInfosOf c d (q.map start0) none = q.map infoed ∧
    loadInfosOf c d (q.map start0) (some (6, file (shortLines (allFiles q)) [])) = q.map infoed := by
  induction q with
  | nil => exact ⟨rfl, rfl⟩
  | cons i q ih =>
    have hm : ∀ f, f ∈ allFiles (i :: q) ↔ f ∈ i.files ∨ f ∈ allFiles q := by
      intro f; simp [allFiles]
    obtain ⟨h1, h2⟩ := ih (fun x hx => hi x ((hm x).2 (Or.inr hx))) (fun x hx => hv x ((hm x).2 (Or.inr hx)))
    have hf := loadFilesOf_saved c d i.files (shortLines (allFiles q)) (fun x hx => hi x ((hm x).2 (Or.inl hx)))
      (fun x hx => hv x ((hm x).2 (Or.inl hx)))
    constructor
    · simp only [List.map_cons, loadInfosOf]
      have : (start0 i).files = i.files.map (fun f => ⟨f.ref, none, none⟩) := rfl
      rw [this, hf.1, h1]; rfl
    · have e : shortLines (allFiles (i :: q)) = shortLines i.files ++ shortLines (allFiles q) := by
        simp [shortLines, allFiles]
      simp only [List.map_cons, loadInfosOf]
      have : (start0 i).files = i.files.map (fun f => ⟨f.ref, none, none⟩) := rfl
      rw [this, e, hf.2, h2]; rfl

theorem fileCount_start0 (q : List SavedItem) : fileCount (q.map start0) = (allFiles q).length := by
  induction q with
  | nil => rfl
  | cons i q ih =>
    unfold fileCount at ih ⊢
    simp only [List.map_cons, List.sum_cons, ih, allFiles, List.flatMap_cons, List.length_append]
    simp [start0]

theorem openFiles_saved (d : Dir) (fs : List SavedFile) (hn : fs.length < 2 ^ 31)
    (h : get d nFiles = some (content 6 (saveFiles (fs.map (fun f => (f.ref.id, f.info)))))) :
    openFiles d fs.length = some (6, file (shortLines fs) []) := by
  unfold openFiles
  rw [h]
  simp only [bind, Option.bind_some]
  rw [open_content 6 6 (by decide) (by decide)]
  simp only [Option.bind_some]
  unfold saveFiles countLine
  rw [scanLine_file [.i] _ _ _ rfl (by simp)]
  simp only [List.map_cons, List.map_nil, List.length_map, ofNat_toNat _ hn, if_true]
  rfl

/-- All infos are loaded, and nothing is deleted by it. -/
theorem loadInfos_saved (c : Config) (d : Dir) (q : List SavedItem) (h : List Entry) (hs : Stored c d q h) :
    loadInfos c d (q.map start0) = (q.map infoed, d) := by
  obtain ⟨h1, h2⟩ := loadInfosOf_saved c d q hs.infos hs.validInfos
  unfold loadInfos
  by_cases hq : q = []
  · subst hq; rfl
  · rw [if_neg (by simpa using hq), fileCount_start0]
    rcases hs.files with hf | hf
    · have ho : openFiles d (allFiles q).length = none := by unfold openFiles; rw [hf]; rfl
      have hd : del d nFiles = d := by
        unfold del
        apply List.filter_eq_self.2
        intro e he
        simp only [bne_iff_ne, ne_eq]
        intro e1
        unfold get at hf
        rw [Option.map_eq_none_iff, List.find?_eq_none] at hf
        exact hf e he (by simp [e1])
      rw [ho, h1]
      unfold dropFiles
      rw [ho]
      simp only [Option.isSome_none, Bool.false_eq_true, if_false, hd]
    · rw [openFiles_saved d (allFiles q) hs.counts.2.2 hf, h2]
      unfold dropFiles
      rw [openFiles_saved d (allFiles q) hs.counts.2.2 hf]; rfl

/-! ### Progress -/

theorem setState_map (id : I32) (s : Bool × State × Nat) (fs : List File) (h : (fs.map (·.ref.id)).Nodup) :
    setState id s fs = fs.map (fun f => if f.ref.id = id then { f with state := some s } else f) := by
  induction fs with
  | nil => rfl
  | cons f fs ih =>
    rw [List.map_cons, List.nodup_cons] at h
    unfold setState
    by_cases hf : f.ref.id = id
    · rw [if_pos hf, List.map_cons, if_pos hf]
      congr 1
      conv => lhs; rw [← List.map_id fs]
      apply List.map_congr_left
      intro g hg
      rw [if_neg]; rfl
      intro e
      exact h.1 (by rw [hf, ← e]; exact List.mem_map.2 ⟨g, hg, rfl⟩)
    · rw [if_neg hf, List.map_cons, if_neg hf, ih h.2]

/-- Change the files of the queue. -/
def mapFiles (g : File → File) (q : List Item) : List Item := q.map (fun i => { i with files := i.files.map g })

def idsOf (q : List Item) : List I32 := q.flatMap (fun i => i.files.map (·.ref.id))

theorem setStates_map (id : I32) (s : Bool × State × Nat) (q : List Item) (h : (idsOf q).Nodup) :
    setStates id s q = mapFiles (fun f => if f.ref.id = id then { f with state := some s } else f) q := by
  induction q with
  | nil => rfl
  | cons i q ih =>
    have h' : (i.files.map (·.ref.id) ++ idsOf q).Nodup := by simpa [idsOf] using h
    rw [List.nodup_append] at h'
    have hsame : ∀ fs : List File, (∀ f ∈ fs, f.ref.id ≠ id) →
        fs.map (fun f => if f.ref.id = id then { f with state := some s } else f) = fs := by
      intro fs hfs
      conv => rhs; rw [← List.map_id fs]
      apply List.map_congr_left
      intro f hf; rw [if_neg (hfs f hf)]; rfl
    unfold setStates
    by_cases ha : i.files.any (fun f => f.ref.id == id) = true
    · rw [if_pos ha, setState_map id s i.files h'.1]
      unfold mapFiles
      rw [List.map_cons]
      congr 1
      conv => lhs; rw [← List.map_id q]
      apply List.map_congr_left
      intro j hj
      rw [hsame j.files]; rfl
      intro f hf e
      rw [List.any_eq_true] at ha
      obtain ⟨g, hg, hgid⟩ := ha
      simp only [beq_iff_eq] at hgid
      refine h'.2.2 id (List.mem_map.2 ⟨g, hg, hgid⟩) id ?_ rfl
      unfold idsOf
      rw [List.mem_flatMap]
      exact ⟨j, hj, List.mem_map.2 ⟨f, hf, e⟩⟩
    · rw [if_neg ha]
      unfold mapFiles
      rw [List.map_cons]
      congr 1
      · rw [hsame i.files]
        intro f hf e
        exact ha (List.any_eq_true.2 ⟨f, hf, by simp [e]⟩)
      · exact ih h'.2.1

theorem idsOf_mapFiles (g : File → File) (hg : ∀ f, (g f).ref = f.ref) (q : List Item) : idsOf (mapFiles g q) = idsOf q := by
  unfold idsOf mapFiles
  rw [List.flatMap_map]
  congr 1
  funext i
  simp only [List.map_map]
  apply List.map_congr_left
  intro f _
  simp [Function.comp, hg]

/-- The name is that of a progress which is loaded: the id and whether it is of a completed file. -/
def usable (c : Config) (active : Bool) (n : Bytes) : Option (I32 × Bool) :=
  match scanNum .i n with
  | some (id, x :: _) => if x = 99 ∨ (x = 115 ∧ c.continuePartial ∧ !active) then some (id, x == 99) else none
  | _ => none

/-- The name is that of a progress which is deleted. -/
def dropped (c : Config) (active : Bool) (n : Bytes) : Bool :=
  match scanNum .i n with
  | some (_, x :: _) => !decide (x = 99 ∨ (x = 115 ∧ c.continuePartial ∧ !active))
  | _ => false

/-- One name changes the progress of the file which it is of. -/
def apply1 (c : Config) (active : Bool) (P : I32 → Bool → State × Nat) (n : Bytes) (f : File) : File :=
  match usable c active n with
  | some (id, k) => if f.ref.id = id then { f with state := some (k, P id k) } else f
  | none => f

theorem apply1_ref (c : Config) (active : Bool) (P : I32 → Bool → State × Nat) (n : Bytes) (f : File) :
    (apply1 c active P n f).ref = f.ref := by
  unfold apply1
  split
  · split <;> rfl
  · rfl

theorem mapFiles_id (g : File → File) (q : List Item) (h : ∀ i ∈ q, ∀ f ∈ i.files, g f = f) : mapFiles g q = q := by
  unfold mapFiles
  conv => rhs; rw [← List.map_id q]
  apply List.map_congr_left
  intro i hi
  have : i.files.map g = i.files := by
    conv => rhs; rw [← List.map_id i.files]
    apply List.map_congr_left
    intro f hf; exact h i hi f hf
  rw [this]; rfl

theorem mapFiles_comp (g g' : File → File) (q : List Item) : mapFiles g (mapFiles g' q) = mapFiles (g ∘ g') q := by
  unfold mapFiles
  rw [List.map_map]
  apply List.map_congr_left
  intro i _
  simp only [Function.comp, List.map_map]

theorem get_del (d : Dir) (n m : Bytes) (h : m ≠ n) : get (del d n) m = get d m := by
  unfold get del
  congr 1
  induction d with
  | nil => rfl
  | cons e d ih =>
    by_cases he : e.1 = n
    · have h1 : (e.1 != n) = false := by simp [he]
      have h2 : (e.1 == m) = false := by
        rw [Bool.eq_false_iff]; intro h3
        exact h (by rw [← he]; exact (beq_iff_eq.1 h3).symm)
      rw [List.filter_cons, h1, List.find?_cons, h2]
      exact ih
    · have h1 : (e.1 != n) = true := by simp [he]
      rw [List.filter_cons, h1]
      simp only [if_true, List.find?_cons]
      rw [ih]

theorem loadProgressOf_del (c : Config) (d : Dir) (n : Bytes) (id : I32) (k : Bool) (h : stateName id k ≠ n) :
    loadProgressOf c (del d n) id k = loadProgressOf c d id k := by
  unfold loadProgressOf
  rw [get_del d n _ h]

/-- The loop over the names, if no progress which is needed is damaged. -/
theorem loadStates_spec (c : Config) (active : Bool) (P : I32 → Bool → State × Nat) (ns : List Bytes) (q : List Item) (d : Dir)
    (hq : (idsOf q).Nodup)
    (hP : ∀ n ∈ ns, ∀ id k, usable c active n = some (id, k) → id ∈ idsOf q → loadProgressOf c d id k = some (P id k)) :
    loadStates c active ns q d =
      (mapFiles (fun f => ns.foldl (fun f n => apply1 c active P n f) f) q,
       d.filter (fun e => !ns.any (fun n => dropped c active n && e.1 == n)), true) := by
  induction ns generalizing q d with
  | nil =>
    unfold loadStates
    have : mapFiles (fun f => ([] : List Bytes).foldl (fun f n => apply1 c active P n f) f) q = q :=
      mapFiles_id _ q (fun _ _ _ _ => rfl)
    rw [this]
    congr 2
    exact (List.filter_eq_self.2 (fun _ _ => rfl)).symm
  | cons n ns ih =>
    have hcomp : ∀ (g : File → File), (fun f => ns.foldl (fun f n => apply1 c active P n f) (g f)) =
        (fun f => ns.foldl (fun f n => apply1 c active P n f) f) ∘ g := fun g => rfl
    have hfold : (fun f => (n :: ns).foldl (fun f n => apply1 c active P n f) f) =
        (fun f => ns.foldl (fun f n => apply1 c active P n f) f) ∘ (apply1 c active P n) := rfl
    have hmem : ∀ id, q.any (fun i => i.files.any (fun f => f.ref.id == id)) = true ↔ id ∈ idsOf q := by
      intro id
      simp only [List.any_eq_true, beq_iff_eq, idsOf, List.mem_flatMap, List.mem_map]
    have hkeep : dropped c active n = false →
        d.filter (fun e => !(n :: ns).any (fun n => dropped c active n && e.1 == n)) =
        d.filter (fun e => !ns.any (fun n => dropped c active n && e.1 == n)) := by
      intro hd; simp only [List.any_cons, hd, Bool.false_and, Bool.false_or]
    have hnone : usable c active n = none → mapFiles (fun f => (n :: ns).foldl (fun f n => apply1 c active P n f) f) q =
        mapFiles (fun f => ns.foldl (fun f n => apply1 c active P n f) f) q := by
      intro hu
      rw [hfold, ← mapFiles_comp, mapFiles_id (apply1 c active P n) q]
      intro i _ f _
      unfold apply1; rw [hu]
    have hrest : ∀ m ∈ ns, ∀ id k, usable c active m = some (id, k) → id ∈ idsOf q → loadProgressOf c d id k = some (P id k) :=
      fun m hm => hP m (by simp [hm])
    unfold loadStates
    cases hs : scanNum .i n with
    | none =>
      have hu : usable c active n = none := by unfold usable; rw [hs]
      have hd : dropped c active n = false := by unfold dropped; rw [hs]
      simp only
      rw [ih q d hq hrest, hkeep hd, hnone hu]
    | some x =>
      obtain ⟨id, tail⟩ := x
      cases tail with
      | nil =>
        have hu : usable c active n = none := by unfold usable; rw [hs]
        have hd : dropped c active n = false := by unfold dropped; rw [hs]
        simp only
        rw [ih q d hq hrest, hkeep hd, hnone hu]
      | cons x tail =>
        simp only
        by_cases hx : x = 99 ∨ (x = 115 ∧ c.continuePartial ∧ !active)
        · have hu : usable c active n = some (id, x == 99) := by unfold usable; rw [hs]; simp only [if_pos hx]
          have hd : dropped c active n = false := by unfold dropped; rw [hs]; simp only [hx, decide_true, Bool.not_true]
          have hap : ∀ f, apply1 c active P n f = if f.ref.id = id then { f with state := some (x == 99, P id (x == 99)) } else f := by
            intro f; unfold apply1; rw [hu]
          rw [if_pos hx]
          by_cases ha : q.any (fun i => i.files.any (fun f => f.ref.id == id)) = true
          · rw [if_pos ha, hP n (by simp) id (x == 99) hu ((hmem id).1 ha)]
            simp only
            rw [setStates_map _ _ _ hq]
            have he : (fun f : File => if f.ref.id = id then { f with state := some (x == 99, P id (x == 99)) } else f) =
                apply1 c active P n := by funext f; rw [hap f]
            rw [he, ih _ d (by rw [idsOf_mapFiles _ (apply1_ref c active P n)]; exact hq)
              (by rw [idsOf_mapFiles _ (apply1_ref c active P n)]; exact hrest), hkeep hd, hfold, mapFiles_comp]
          · rw [if_neg ha, ih q d hq hrest, hkeep hd, hfold, ← mapFiles_comp, mapFiles_id (apply1 c active P n) q]
            intro i hi f hf
            rw [hap f, if_neg]
            intro e
            exact ha ((hmem id).2 (List.mem_flatMap.2 ⟨i, hi, List.mem_map.2 ⟨f, hf, e⟩⟩))
        · have hu : usable c active n = none := by unfold usable; rw [hs]; simp only [if_neg hx]
          have hd : dropped c active n = true := by unfold dropped; rw [hs]; simp only [decide_eq_false hx, Bool.not_false]
          rw [if_neg hx, hnone hu]
          rw [ih q (del d n) hq ?_]
          · congr 2
            unfold del
            rw [List.filter_filter]
            apply List.filter_congr
            intro e _
            simp only [List.any_cons, hd, Bool.true_and, Bool.not_or]
            rw [Bool.and_comm]; rfl
          · intro m hm id' k hu' hid
            rw [loadProgressOf_del, hrest m hm id' k hu' hid]
            intro e
            have h1 := scan_state id' k
            rw [e, hs] at h1
            injection h1 with h1; injection h1 with h1 h2
            injection h2 with h2 h3
            have husable : usable c active m = some (id', k) := hu'
            have hk : k = true ∨ (c.continuePartial = true ∧ active = false) := by
              unfold usable at husable
              split at husable
              · rename_i i2 y t hm2
                by_cases hy : y = 99 ∨ (y = 115 ∧ c.continuePartial ∧ !active)
                · rw [if_pos hy] at husable
                  injection husable with husable
                  injection husable with _ hk2
                  rcases hy with hy | hy
                  · left; rw [← hk2, hy]; rfl
                  · right; exact ⟨hy.2.1, by simpa using hy.2.2⟩
                · rw [if_neg hy] at husable; cases husable
              · cases husable
            apply hx
            cases k with
            | true => left; simpa using h2
            | false => right; exact ⟨by simpa using h2, (hk.resolve_left (by decide)).1, by simp [(hk.resolve_left (by decide)).2]⟩

theorem get_filter (p : Bytes → Bool) (d : Dir) (n : Bytes) :
    get (d.filter (fun e => p e.1)) n = if p n then get d n else none := by
  induction d with
  | nil => unfold get; simp
  | cons e d ih =>
    by_cases he : e.1 = n
    · by_cases hp : p n = true
      · rw [List.filter_cons, if_pos (by rw [he]; exact hp), if_pos hp]
        unfold get
        rw [List.find?_cons_of_pos (by simp [he]), List.find?_cons_of_pos (by simp [he])]
      · rw [List.filter_cons, if_neg (by rw [he]; exact hp), ih, if_neg hp, if_neg hp]
    · have h2 : get (e :: d) n = get d n := by
        unfold get
        rw [List.find?_cons_of_neg (by simpa using he)]
      rw [h2, ← ih, List.filter_cons]
      split
      · unfold get
        rw [List.find?_cons_of_neg (by simpa using he)]
      · rfl

theorem get_of_mem (d : Dir) (n : Bytes) (h : n ∈ d.map (·.1)) : ∃ b, get d n = some b := by
  cases hg : get d n with
  | some b => exact ⟨b, rfl⟩
  | none =>
    unfold get at hg
    rw [Option.map_eq_none_iff, List.find?_eq_none] at hg
    obtain ⟨e, he, hn⟩ := List.mem_map.1 h
    exact absurd (by simp [hn]) (hg e he)

theorem mem_of_get (d : Dir) (n b : Bytes) (h : get d n = some b) : n ∈ d.map (·.1) :=
  List.mem_map.2 ⟨(n, b), get_mem d n b h, rfl⟩

/-- Of the own names only those of the progress of a file are used as such. -/
theorem usable_own (c : Config) (active : Bool) (n : Bytes) (hn : Own n) (id : I32) (k : Bool)
    (h : usable c active n = some (id, k)) : n = stateName id k ∧ (k = true ∨ (c.continuePartial = true ∧ active = false)) := by
  unfold usable at h
  rcases hn with ⟨hn, _⟩ | ⟨x, hn | hn | ⟨j, hn⟩⟩
  · rw [hn] at h; cases h
  · rw [hn, scan_name] at h; cases h
  · rw [hn, scan_log] at h; cases h
  · subst hn
    rw [scan_state] at h
    dsimp only at h
    cases j with
    | true =>
      simp only [if_true, true_or] at h
      injection h with h; injection h with h1 h2
      have h2 : true = k := h2
      subst h1 h2
      exact ⟨rfl, Or.inl rfl⟩
    | false =>
      simp only [Bool.false_eq_true, if_false] at h
      split at h
      · rename_i hc
        injection h with h; injection h with h1 h2
        have h2 : false = k := h2
        subst h1 h2
        rcases hc with hc | hc
        · exact absurd hc (by decide)
        · exact ⟨rfl, Or.inr ⟨hc.2.1, by simpa using hc.2.2⟩⟩
      · cases h

theorem usable_state (c : Config) (active : Bool) (id : I32) (k : Bool)
    (h : k = true ∨ (c.continuePartial = true ∧ active = false)) : usable c active (stateName id k) = some (id, k) := by
  unfold usable
  rw [scan_state]
  dsimp only
  cases k with
  | true => rfl
  | false =>
    have h := h.resolve_left (by decide)
    rw [if_pos (Or.inr ⟨rfl, h.1, by rw [h.2]; rfl⟩)]; rfl

theorem fold_apply (c : Config) (active : Bool) (P : I32 → Bool → State × Nat) (k : Bool) (ns : List Bytes) (f : File)
    (h : ∀ n ∈ ns, ∀ j, usable c active n = some (f.ref.id, j) → j = k) :
    ns.foldl (fun f n => apply1 c active P n f) f =
      if ∃ n ∈ ns, usable c active n = some (f.ref.id, k) then { f with state := some (k, P f.ref.id k) } else f := by
  induction ns generalizing f with
  | nil => simp
  | cons n ns ih =>
    rw [List.foldl_cons]
    by_cases hu : usable c active n = some (f.ref.id, k)
    · have he : apply1 c active P n f = { f with state := some (k, P f.ref.id k) } := by
        unfold apply1; rw [hu]; simp
      rw [he, ih { f with state := some (k, P f.ref.id k) } (fun m hm => h m (by simp [hm]))]
      have hx : ∃ m ∈ n :: ns, usable c active m = some (f.ref.id, k) := ⟨n, List.mem_cons_self, hu⟩
      split <;> rfl
    · have he : apply1 c active P n f = f := by
        unfold apply1
        split
        · rename_i id j hj
          rw [if_neg]
          intro e
          subst e
          have := h n (by simp) j hj
          subst this
          exact hu hj
        · rfl
      rw [he, ih f (fun m hm => h m (by simp [hm]))]
      have : (∃ m ∈ n :: ns, usable c active m = some (f.ref.id, k)) ↔ ∃ m ∈ ns, usable c active m = some (f.ref.id, k) := by
        constructor
        · rintro ⟨m, hm, h2⟩
          rcases List.mem_cons.1 hm with rfl | hm
          · exact absurd h2 hu
          · exact ⟨m, hm, h2⟩
        · rintro ⟨m, hm, h2⟩; exact ⟨m, by simp [hm], h2⟩
      simp only [this]

theorem loadProgressOf_content (c : Config) (d : Dir) (id : I32) (k : Bool) (s : State)
    (h : get d (stateName id k) = some (content 6 (saveState s))) (hv : ValidState s) (hs : SameServers c.servers s.stats) :
    loadProgressOf c d id k = some ({ s with parts := restored k s.parts.length 0 s.parts },
      ((restored k s.parts.length 0 s.parts).filter (fun p => p.status ≠ aiUndefined)).length) := by
  unfold loadProgressOf
  rw [h]
  dsimp only
  rw [open_content 6 6 (by decide) (by decide)]
  dsimp only
  rw [if_pos (by decide), loadState_file c.servers none k s [] hv hs (by intro _ h; cases h)]

theorem mem_idsOf_infoed (q : List SavedItem) : idsOf (q.map infoed) = (allFiles q).map (·.ref.id) := by
  unfold idsOf allFiles
  rw [List.flatMap_map, List.map_flatMap]
  congr 1
  funext i
  unfold infoed
  simp [List.map_map, Function.comp]

/-- What is left in the directory: all except the leftovers and the progress which is not continued. -/
def kept (c : Config) (q : List SavedItem) (h : List Entry) (d : Dir) : Dir :=
  (cleanup (q.map infoed) (h.map reloadedEntry) d).filter (fun e => !dropped c (has d nCache) e.1)

theorem own_get {d : Dir} (h : ∀ e ∈ d, Own e.1) {n : Bytes} (hn : n ∈ d.map (·.1)) : Own n := by
  obtain ⟨e, he, rfl⟩ := List.mem_map.1 hn
  exact h e he

theorem loadAllStates_saved (c : Config) (d : Dir) (q : List SavedItem) (h : List Entry) (hs : Stored c d q h)
    (hown : ∀ e ∈ d, Own e.1) :
    loadAllStates c (q.map infoed) (cleanup (q.map infoed) (h.map reloadedEntry) d) =
      (q.map (itemAfter c (has d nCache)), kept c q h d, true) := by
  -- the directory after the cleanup
  have hsub : ∀ e ∈ cleanup (q.map infoed) (h.map reloadedEntry) d, e ∈ d := fun e he => (List.mem_filter.1 he).1
  have hget : ∀ n, (∀ e ∈ d, e.1 = n → e ∈ cleanup (q.map infoed) (h.map reloadedEntry) d) →
      get (cleanup (q.map infoed) (h.map reloadedEntry) d) n = get d n := by
    intro n hn
    unfold cleanup
    rw [get_filter (fun m => !orphan (fileIds (q.map infoed) (h.map reloadedEntry)) (nzbIds (q.map infoed) (h.map reloadedEntry)) m) d n]
    cases hg : get d n with
    | none => simp
    | some b =>
      have := hn (n, b) (get_mem d n b hg) rfl
      unfold cleanup at this
      rw [if_pos (List.mem_filter.1 this).2]
  have hcache : has (cleanup (q.map infoed) (h.map reloadedEntry) d) nCache = has d nCache := by
    unfold has
    rw [hget nCache]
    intro e he hn
    exact cleanup_keeps_others _ _ _ e he (by rw [hn]; exact ⟨by decide, fun r h => by cases h⟩)
  have hfile : ∀ f ∈ allFiles q, f.ref.id ∈ fileIds (q.map infoed) (h.map reloadedEntry) := by
    intro f hf
    unfold fileIds
    rw [List.mem_append]
    left
    obtain ⟨i, hi, hfi⟩ := List.mem_flatMap.1 hf
    rw [List.mem_flatMap]
    refine ⟨infoed i, List.mem_map.2 ⟨i, hi, rfl⟩, ?_⟩
    rw [List.mem_append]
    left
    unfold infoed
    simp only [List.map_map, List.mem_map]
    exact ⟨f, hfi, rfl⟩
  have hstate : ∀ f ∈ allFiles q, ∀ k, get (cleanup (q.map infoed) (h.map reloadedEntry) d) (stateName f.ref.id k) =
      get d (stateName f.ref.id k) := by
    intro f hf k
    apply hget
    intro e he hn
    exact cleanup_keeps _ _ _ e he (Or.inl ⟨f.ref.id, (fileIds_iff _ _ _).1 (hfile f hf), Or.inr ⟨k, hn⟩⟩)
  have hown' : ∀ n ∈ (cleanup (q.map infoed) (h.map reloadedEntry) d).map (·.1), Own n := by
    intro n hn
    obtain ⟨e, he, rfl⟩ := List.mem_map.1 hn
    exact hown e (hsub e he)
  generalize hd' : cleanup (q.map infoed) (h.map reloadedEntry) d = d' at *
  let P : I32 → Bool → State × Nat := fun id k =>
    (loadProgressOf c d' id k).getD (⟨0, 0, 0, 0, 0, [], [], [], false, [], []⟩, 0)
  -- a progress in use is that which was saved
  have hprog : ∀ n ∈ d'.map (·.1), ∀ f ∈ allFiles q, ∀ k, usable c (has d nCache) n = some (f.ref.id, k) →
      ∃ s, f.state = some (k, s) ∧ loadProgressOf c d' f.ref.id k =
        some ({ s with parts := restored k s.parts.length 0 s.parts },
          ((restored k s.parts.length 0 s.parts).filter (fun p => p.status ≠ aiUndefined)).length) := by
    intro n hn f hf k hu
    have h1 := (usable_own c _ n (hown' n hn) _ _ hu).1
    obtain ⟨b, hb⟩ := get_of_mem d' n hn
    have h2 := hs.states f hf k
    rw [← hstate f hf k, ← h1, hb] at h2
    cases hst : f.state with
    | none => rw [hst] at h2; cases h2
    | some x =>
      obtain ⟨j, s⟩ := x
      rw [hst] at h2
      dsimp only at h2
      by_cases hjk : j = k
      · subst hjk
        rw [if_pos rfl] at h2
        refine ⟨s, rfl, ?_⟩
        have hv := hs.validStates f hf j s hst
        exact loadProgressOf_content c d' f.ref.id j s (by rw [← h1, hb, h2]) hv.1 hv.2
      · rw [if_neg hjk] at h2; cases h2
  have hfind : ∀ id, id ∈ idsOf (q.map infoed) → ∃ f ∈ allFiles q, f.ref.id = id := by
    intro id hid
    rw [mem_idsOf_infoed] at hid
    exact List.mem_map.1 hid
  unfold loadAllStates
  rw [hcache, loadStates_spec c (has d nCache) P (d'.map (·.1)) (q.map infoed) d' (by rw [mem_idsOf_infoed]; exact hs.distinct)]
  · have hdir : d'.filter (fun e => !(d'.map (·.1)).any (fun n => dropped c (has d nCache) n && e.1 == n)) = kept c q h d := by
      unfold kept
      rw [hd']
      apply List.filter_congr
      intro e he
      congr 1
      rw [Bool.eq_iff_iff, List.any_eq_true]
      constructor
      · rintro ⟨n, _, hn2⟩
        rw [Bool.and_eq_true, beq_iff_eq] at hn2
        rw [hn2.2]; exact hn2.1
      · intro hdr
        exact ⟨e.1, List.mem_map.2 ⟨e, he, rfl⟩, by rw [hdr]; simp⟩
    have hq : mapFiles (fun f => (d'.map (·.1)).foldl (fun f n => apply1 c (has d nCache) P n f) f) (q.map infoed) =
        q.map (itemAfter c (has d nCache)) := by
      unfold mapFiles
      rw [List.map_map]
      apply List.map_congr_left
      intro i hi
      simp only [Function.comp, infoed, itemAfter, Item.mk.injEq, true_and, List.map_map]
      apply List.map_congr_left
      intro f hf
      have hfa : f ∈ allFiles q := List.mem_flatMap.2 ⟨i, hi, hf⟩
      simp only [Function.comp, fileAfter]
      cases hst : f.state with
      | none =>
        rw [fold_apply c _ P true]
        · rw [if_neg]
          · rfl
          · rintro ⟨n, hn, hu⟩
            obtain ⟨s, hs1, _⟩ := hprog n hn f hfa true hu
            rw [hst] at hs1; cases hs1
        · intro n hn j hu
          obtain ⟨s, hs1, _⟩ := hprog n hn f hfa j hu
          rw [hst] at hs1; cases hs1
      | some x =>
        obtain ⟨j, s⟩ := x
        rw [fold_apply c _ P j]
        · by_cases hj : (j || (c.continuePartial && !has d nCache)) = true
          · have hj2 : j = true ∨ (c.continuePartial = true ∧ has d nCache = false) := by
              simpa [Bool.or_eq_true, Bool.and_eq_true] using hj
            have hin : stateName f.ref.id j ∈ d'.map (·.1) := by
              apply mem_of_get d' _ (content 6 (saveState s))
              rw [hstate f hfa j, hs.states f hfa j, hst]
              simp
            have hu := usable_state c (has d nCache) f.ref.id j hj2
            rw [if_pos ⟨stateName f.ref.id j, hin, hu⟩]
            obtain ⟨s', hs1, hs2⟩ := hprog _ hin f hfa j hu
            rw [hst] at hs1
            cases hs1
            unfold stateAfter
            dsimp only
            rw [if_pos hj]
            simp only [P, hs2, Option.getD_some]
          · rw [if_neg]
            · unfold stateAfter
              dsimp only
              rw [if_neg hj]
            · rintro ⟨n, hn, hu⟩
              have h2 := (usable_own c _ n (hown' n hn) _ _ hu).2
              apply hj
              rcases h2 with h2 | h2
              · rw [h2]; rfl
              · rw [h2.1, h2.2]; simp
        · intro n hn k hu
          obtain ⟨s', hs1, _⟩ := hprog n hn f hfa k hu
          rw [hst] at hs1; cases hs1; rfl
    rw [hdir, hq]
  · intro n hn id k hu hid
    obtain ⟨f, hf, rfl⟩ := hfind id hid
    obtain ⟨s, _, h2⟩ := hprog n hn f hf k hu
    simp only [P, h2, Option.getD_some]

theorem there_none (d : Dir) (n : Bytes) (h1 : get d n = none) (h2 : get d (n ++ dotNew) = none) : there d n = false := by
  unfold there has; rw [h1, h2]; rfl

theorem recover_some (d : Dir) (n b : Bytes) (h : get d n = some b) : there d n = true ∧ recover d n = d := by
  have h1 : has d n = true := by unfold has; rw [h]; rfl
  exact ⟨by unfold there; rw [h1]; rfl, by unfold recover; rw [h1]; rfl⟩

/-- What was saved completely comes back: all records of the queue and all entries of the history, in the same order; for every
file of the queue its infos, and its progress if the file was completed, or if it was not, but the article cache was not in use
when the program ended and continuing of partial files is enabled. -/
theorem restart (c : Config) (d : Dir) (q : List SavedItem) (h : List Entry) (hs : Stored c d q h) (hown : ∀ e ∈ d, Own e.1) :
    load c d = some ⟨q.map (itemAfter c (has d nCache)), h.map reloadedEntry, kept c q h d, true⟩ := by
  have hrest : loadRest c (q.map start0) (h.map reloadedEntry) d =
      ⟨q.map (itemAfter c (has d nCache)), h.map reloadedEntry, kept c q h d, true⟩ := by
    unfold loadRest
    simp only [loadInfos_saved c d q h hs, loadAllStates_saved c d q h hs hown]
  have hsaved : ∀ v, v = 0 ∨ v ≥ 57 → loadSaved c v (q.map start0) [] d =
      some ⟨q.map (itemAfter c (has d nCache)), h.map reloadedEntry, kept c q h d, true⟩ := by
    intro v hv
    unfold loadSaved
    rw [if_pos hv]
    have hh := hs.history
    by_cases hhe : h = []
    · rw [if_pos hhe] at hh
      rw [there_none d nHistory hh (hs.complete _ (by simp))]
      simp only [Bool.false_eq_true, if_false]
      rw [← hrest]; subst hhe; rfl
    · rw [if_neg hhe] at hh
      obtain ⟨h1, h2⟩ := recover_some d nHistory _ hh
      rw [if_pos h1]
      simp only [h2, hh, Option.getD_some]
      rw [open_content 62 62 (by decide) (by decide)]
      dsimp only
      rw [if_neg (by decide), if_pos (by decide), loadHistory_file c.nice c.servers h [] hs.counts.2.1 hs.entries]
      simp only [List.nil_append, hrest]
  have hprogress : ∀ v, v = 0 ∨ v ≥ 57 → loadProgress c v ((q.map (·.record)).map reloaded) [] d =
      some ⟨q.map (itemAfter c (has d nCache)), h.map reloadedEntry, kept c q h d, true⟩ := by
    intro v hv
    unfold loadProgress
    rw [there_none d nProgress hs.progress (hs.complete _ (by simp))]
    simp only [Bool.false_eq_true, if_false]
    rw [← hsaved v hv]
    congr 1
    rw [List.map_map, List.map_map]
    apply List.map_congr_left
    intro i hi
    exact itemOf_reloaded i (hs.refs i hi)
  unfold load
  have hqf := hs.queue
  by_cases hq : q = []
  · rw [if_pos hq] at hqf
    rw [there_none d nQueue hqf (hs.complete _ (by simp))]
    simp only [Bool.false_eq_true, if_false]
    rw [← hprogress 0 (Or.inl rfl)]; subst hq; rfl
  · rw [if_neg hq] at hqf
    obtain ⟨h1, h2⟩ := recover_some d nQueue _ hqf
    rw [if_pos h1]
    simp only [h2, hqf, Option.getD_some]
    rw [open_content 62 62 (by decide) (by decide)]
    dsimp only
    rw [if_neg (by decide), if_pos (by decide), loadList_file c.nice c.servers (q.map (·.record)) []
      (by rw [List.length_map]; exact hs.counts.1)
      (by intro r hr; obtain ⟨i, hi, rfl⟩ := List.mem_map.1 hr; exact hs.records i hi)]
    exact hprogress 62 (Or.inr (by decide))

/-! ### What is left in the directory -/

theorem kept_get (c : Config) (q : List SavedItem) (h : List Entry) (d : Dir) (n : Bytes) :
    get (kept c q h d) n = if !orphan (fileIds (q.map infoed) (h.map reloadedEntry)) (nzbIds (q.map infoed) (h.map reloadedEntry)) n &&
      !dropped c (has d nCache) n then get d n else none := by
  unfold kept cleanup
  rw [get_filter (fun m => !dropped c (has d nCache) m)]
  rw [get_filter (fun m => !orphan (fileIds (q.map infoed) (h.map reloadedEntry)) (nzbIds (q.map infoed) (h.map reloadedEntry)) m)]
  cases orphan (fileIds (q.map infoed) (h.map reloadedEntry)) (nzbIds (q.map infoed) (h.map reloadedEntry)) n <;>
    cases dropped c (has d nCache) n <;> rfl

theorem mem_fileIds (q : List SavedItem) (h : List Entry) (f : SavedFile) (hf : f ∈ allFiles q) :
    f.ref.id ∈ fileIds (q.map infoed) (h.map reloadedEntry) := by
  unfold fileIds
  rw [List.mem_append]
  left
  obtain ⟨i, hi, hfi⟩ := List.mem_flatMap.1 hf
  rw [List.mem_flatMap]
  refine ⟨infoed i, List.mem_map.2 ⟨i, hi, rfl⟩, ?_⟩
  rw [List.mem_append]
  left
  unfold infoed
  simp only [List.map_map, List.mem_map]
  exact ⟨f, hfi, rfl⟩

/-- The files which belong to no entry stay. -/
theorem kept_fixed (c : Config) (q : List SavedItem) (h : List Entry) (d : Dir) (n : Bytes)
    (hn : scanNum .i n = none ∧ ∀ r, n = 110 :: r → scanNum .i r = none) : get (kept c q h d) n = get d n := by
  have h1 : fileIdOf n = none := by unfold fileIdOf; rw [hn.1]
  have h2 : logIdOf n = none := by
    unfold logIdOf
    split
    · rename_i r; rw [hn.2 _ rfl]; rfl
    · rfl
  rw [kept_get, if_pos]
  unfold orphan dropped
  rw [h1, h2, hn.1]; rfl

/-- The infos of the files of the queue stay, and their progress if it is continued. -/
theorem kept_files (c : Config) (q : List SavedItem) (h : List Entry) (d : Dir) (f : SavedFile) (hf : f ∈ allFiles q) :
    get (kept c q h d) (nameOf f.ref.id) = get d (nameOf f.ref.id) ∧
    ∀ k, get (kept c q h d) (stateName f.ref.id k) =
      if k || (c.continuePartial && !has d nCache) then get d (stateName f.ref.id k) else none := by
  have hid : (fileIds (q.map infoed) (h.map reloadedEntry)).contains f.ref.id = true := by simpa using mem_fileIds q h f hf
  constructor
  · rw [kept_get, if_pos]
    unfold orphan dropped
    rw [fileId_name, logId_name, scan_name]
    simp [mem_fileIds q h f hf]
  · intro k
    rw [kept_get]
    have h1 : orphan (fileIds (q.map infoed) (h.map reloadedEntry)) (nzbIds (q.map infoed) (h.map reloadedEntry))
        (stateName f.ref.id k) = false := by
      unfold orphan
      rw [fileId_state, logId_state]
      simp [mem_fileIds q h f hf]
    have h2 : dropped c (has d nCache) (stateName f.ref.id k) = !(k || (c.continuePartial && !has d nCache)) := by
      unfold dropped
      rw [scan_state]
      cases k with
      | true => rfl
      | false => cases c.continuePartial <;> cases has d nCache <;> rfl
    rw [h1, h2]
    simp

/-- The progress which is continued. -/
def continued (c : Config) (active : Bool) (f : SavedFile) : SavedFile :=
  { f with state := f.state.filter (fun s => s.1 || (c.continuePartial && !active)) }

def continuedItem (c : Config) (active : Bool) (i : SavedItem) : SavedItem := { i with files := i.files.map (continued c active) }

theorem allFiles_continued (c : Config) (active : Bool) (q : List SavedItem) :
    allFiles (q.map (continuedItem c active)) = (allFiles q).map (continued c active) := by
  unfold allFiles
  rw [List.flatMap_map, List.map_flatMap]; rfl

theorem infoed_continued (c : Config) (active : Bool) (q : List SavedItem) :
    (q.map (continuedItem c active)).map infoed = q.map infoed := by
  rw [List.map_map]
  apply List.map_congr_left
  intro i _
  simp only [Function.comp, infoed, continuedItem, List.map_map]
  congr 1

theorem after_continued (c : Config) (active : Bool) (q : List SavedItem) :
    (q.map (continuedItem c active)).map (itemAfter c active) = q.map (itemAfter c active) := by
  rw [List.map_map]
  apply List.map_congr_left
  intro i _
  simp only [Function.comp, itemAfter, continuedItem, List.map_map, Item.mk.injEq, true_and]
  apply List.map_congr_left
  intro f _
  simp only [Function.comp, fileAfter, continued, File.mk.injEq, true_and]
  cases f.state with
  | none => rfl
  | some x =>
    obtain ⟨k, s⟩ := x
    by_cases hk : (k || (c.continuePartial && !active)) = true
    · simp [Option.filter, hk]
    · simp [Option.filter, hk, stateAfter]

/-- The start itself loses nothing more: after it the directory holds what was loaded, and another start (say, after a crash
before anything was saved) loads the same again and deletes nothing. -/
theorem restart_again (c : Config) (d : Dir) (q : List SavedItem) (h : List Entry) (hs : Stored c d q h) (hown : ∀ e ∈ d, Own e.1)
    (l : Loaded) (hl : load c d = some l) : l.ok = true ∧ load c l.dir = some l := by
  rw [restart c d q h hs hown] at hl
  cases hl
  refine ⟨rfl, ?_⟩
  have fixed : ∀ n : Bytes, (scanNum .i n = none ∧ ∀ r, n = 110 :: r → scanNum .i r = none) →
    get (kept c q h d) n = get d n := kept_fixed c q h d
  have hcache : has (kept c q h d) nCache = has d nCache := by
    unfold has
    rw [fixed nCache ⟨by decide, fun r h => by cases h⟩]
  have hs2 : Stored c (kept c q h d) (q.map (continuedItem c (has d nCache))) h := {
    queue := by
      rw [fixed nQueue ⟨by decide, fun r h => by cases h⟩, hs.queue]
      simp only [List.map_eq_nil_iff, List.map_map]
      rfl
    history := by rw [fixed nHistory ⟨by decide, fun r h => by cases h⟩, hs.history]
    progress := by rw [fixed nProgress ⟨by decide, fun r h => by cases h⟩, hs.progress]
    complete := by
      intro n hn
      rw [fixed]
      · exact hs.complete n hn
      · simp only [List.mem_cons, List.not_mem_nil, or_false] at hn
        rcases hn with h | h | h <;> subst h <;> exact ⟨by decide, fun r h => by cases h⟩
    infos := by
      intro f hf
      rw [allFiles_continued] at hf
      obtain ⟨g, hg, rfl⟩ := List.mem_map.1 hf
      exact (kept_files c q h d g hg).1.trans (hs.infos g hg)
    states := by
      intro f hf k
      rw [allFiles_continued] at hf
      obtain ⟨g, hg, rfl⟩ := List.mem_map.1 hf
      have h1 := (kept_files c q h d g hg).2 k
      rw [hs.states g hg k] at h1
      have h0 : (continued c (has d nCache) g).ref = g.ref := rfl
      rw [h0, h1]
      unfold continued
      dsimp only
      cases g.state with
      | none => simp
      | some x =>
        obtain ⟨j, s⟩ := x
        by_cases hjk : j = k
        · subst hjk
          by_cases hk : (j || (c.continuePartial && !has d nCache)) = true
          · simp [Option.filter, hk]
          · simp [Option.filter, hk]
        · by_cases hk : (j || (c.continuePartial && !has d nCache)) = true
          · simp [Option.filter, hk, hjk]
          · simp [Option.filter, hk, hjk]
    files := by
      rw [fixed nFiles ⟨by decide, fun r h => by cases h⟩, allFiles_continued, List.map_map]
      exact hs.files
    refs := by
      intro i hi
      obtain ⟨j, hj, rfl⟩ := List.mem_map.1 hi
      simp only [continuedItem, List.map_map]
      exact hs.refs j hj
    distinct := by rw [allFiles_continued, List.map_map]; exact hs.distinct
    counts := by rw [allFiles_continued, List.length_map, List.length_map]; exact hs.counts
    records := by
      intro i hi
      obtain ⟨j, hj, rfl⟩ := List.mem_map.1 hi
      exact hs.records j hj
    entries := hs.entries
    validInfos := by
      intro f hf
      rw [allFiles_continued] at hf
      obtain ⟨g, hg, rfl⟩ := List.mem_map.1 hf
      exact hs.validInfos g hg
    validStates := by
      intro f hf k s hst
      rw [allFiles_continued] at hf
      obtain ⟨g, hg, rfl⟩ := List.mem_map.1 hf
      refine hs.validStates g hg k s ?_
      simp only [continued] at hst
      exact (Option.filter_eq_some_iff.1 hst).1 }
  rw [restart c _ _ h hs2 (fun e he => hown e (List.mem_filter.1 (List.mem_filter.1 he).1).1), hcache, after_continued]
  congr 2
  have h0 : ∀ q' d', kept c q' h d' =
    (cleanup (q'.map infoed) (h.map reloadedEntry) d').filter (fun e => !dropped c (has d' nCache) e.1) := fun _ _ => rfl
  rw [h0 (q.map (continuedItem c (has d nCache))), infoed_continued, hcache]
  have h1 : cleanup (q.map infoed) (h.map reloadedEntry) (kept c q h d) = kept c q h d := by
    unfold cleanup
    apply List.filter_eq_self.2
    intro e he
    unfold kept cleanup at he
    exact (List.mem_filter.1 (List.mem_filter.1 he).1).2
  rw [h1]
  apply List.filter_eq_self.2
  intro e he
  exact (List.mem_filter.1 he).2

/-! ### An interrupted save -/

/-- If the last save ended between the deletion of the old file and the renaming of the new one, then the new one is loaded. -/
theorem interrupted_save (d : Dir) (n b : Bytes) (h1 : get d n = none) (h2 : get d (n ++ dotNew) = some b) :
    there d n = true ∧ get (recover d n) n = some b := by
  have h3 : has d n = false := by unfold has; rw [h1]; rfl
  have h4 : has d (n ++ dotNew) = true := by unfold has; rw [h2]; rfl
  refine ⟨by unfold there; rw [h3, h4]; rfl, ?_⟩
  unfold recover
  rw [h3, h4]
  simp only [Bool.not_false, Bool.and_self, if_true]
  unfold move get at *
  rw [Option.map_eq_none_iff, List.find?_eq_none] at h1
  induction d with
  | nil => cases h2
  | cons e d ih =>
    rw [List.map_cons]
    by_cases he : e.1 = n ++ dotNew
    · rw [if_pos (by simpa using he), List.find?_cons_of_pos (by simp)]
      rw [List.find?_cons_of_pos (by simpa using he)] at h2
      exact h2
    · rw [if_neg (by simpa using he), List.find?_cons_of_neg (by simpa using h1 e (by simp))]
      rw [List.find?_cons_of_neg (by simpa using he)] at h2
      refine ih (fun x hx => h1 x (by simp [hx])) h2 ?_ ?_
      · unfold has get
        rw [List.find?_eq_none.2 (fun x hx => h1 x (by simp [hx]))]; rfl
      · unfold has get; rw [h2]; rfl

/-! ### Violations -/

/-- Violation: a file of the queue whose infos cannot be read is silently taken out of the queue; the start counts as successful. -/
theorem unreadable_dropped (c : Config) (d : Dir) (f : File) (fs : List File) (h : loadFile c d f.ref.id = none) :
    (loadFilesOf c d (f :: fs) none).1 = (loadFilesOf c d fs none).1 := by
  simp only [loadFilesOf, loadOne, h]

/-- Violation: the shortcut is written only when the program ends, and it is not deleted when it gets out of date. After a
crash its infos replace the newer ones of the files, if the count of files and the first id are still the same. -/
theorem stale_files (c : Config) (d : Dir) (r : Rec) (ref : FileRef) (old new : Info) (hold : ValidInfo old) (hnew : ValidInfo new)
    (hr : r.lists.files = [ref])
    (hf : get d nFiles = some (content 6 (saveFiles [(ref.id, old)])))
    (hn : get d (nameOf ref.id) = some (content 6 (saveInfo new))) :
    loadInfos c d [itemOf r] = ([⟨r, [⟨ref, some (summary old), none⟩]⟩], d) ∧
    loadInfos c (del d nFiles) [itemOf r] = ([⟨r, [⟨ref, some (summary new), none⟩]⟩], del d nFiles) := by
  have hi : itemOf r = ⟨r, [⟨ref, none, none⟩]⟩ := by unfold itemOf; rw [hr]; rfl
  have hne : nameOf ref.id ≠ nFiles := by
    intro e
    obtain ⟨x, t, hx, hx2⟩ := nameOf_first ref.id
    rw [hx] at e
    injection e with e1 e2
    subst e1
    exact absurd hx2 (by decide)
  constructor
  · have ho : openFiles d 1 = some (6, file (showNums [(.i, ref.id)] :: (saveSummary old ++ [])) []) := by
      unfold openFiles
      rw [hf]
      simp only [bind, Option.bind_some]
      rw [open_content 6 6 (by decide) (by decide)]
      simp only [Option.bind_some]
      unfold saveFiles countLine
      rw [scanLine_file [.i] _ _ _ rfl (by simp)]
      simp
    rw [hi]
    unfold loadInfos
    rw [if_neg (by simp)]
    have hc : fileCount [(⟨r, [⟨ref, none, none⟩]⟩ : Item)] = 1 := rfl
    rw [hc]
    unfold dropFiles
    rw [ho]
    simp only [loadInfosOf, loadFilesOf, loadOne_short c d ref.id old [] [] hold, Option.isSome_some, if_true]
  · have hg : get (del d nFiles) nFiles = none := by
      unfold del
      rw [get_filter (fun m => m != nFiles)]
      simp
    have ho : openFiles (del d nFiles) 1 = none := by unfold openFiles; rw [hg]; rfl
    have hdd : del (del d nFiles) nFiles = del d nFiles := by
      unfold del; rw [List.filter_filter]; simp
    rw [hi]
    unfold loadInfos
    rw [if_neg (by simp)]
    have hc : fileCount [(⟨r, [⟨ref, none, none⟩]⟩ : Item)] = 1 := rfl
    rw [hc]
    unfold dropFiles
    rw [ho]
    simp only [loadInfosOf, loadFilesOf, loadOne, loadFile_content c (del d nFiles) ref.id new hnew (by rw [get_del d _ _ hne]; exact hn),
      Option.isSome_none, Bool.false_eq_true, if_false, hdd]

/-- Violation: the loading of the progress deletes every file whose name begins with a number behind which is another letter than
"c" or "s", also if there is a point in the name. -/
theorem foreign_deleted_too (c : Config) (active : Bool) (q : List Item) (d : Dir) (n : Bytes) (id : I32) (x : UInt8) (r : Bytes)
    (hs : scanNum .i n = some (id, x :: r)) (hx : x ≠ 99 ∧ x ≠ 115) (ns : List Bytes) :
    loadStates c active (n :: ns) q d = loadStates c active ns q (del d n) := by
  conv => lhs; unfold loadStates
  rw [hs]
  dsimp only
  rw [if_neg]
  rintro (h | h)
  · exact hx.1 h
  · exact hx.2 h.1

/-! ### A concrete directory -/

def exQueue : List SavedItem :=
  [⟨exRec, [⟨⟨8, true, false⟩, exInfo, some (false, exState)⟩, ⟨⟨9, false, true⟩, exInfo, none⟩]⟩]

def exHistory : List Entry := [⟨1700000000, .item exRec⟩]

/-- With a leftover of a file 77 and a log of an entry 7. -/
def exDir : Dir :=
  [(nQueue, content 62 (countLine 1 :: saveLines exRec)), (nHistory, content 62 (saveHistory exHistory)),
   (nameOf 8, content 6 (saveInfo exInfo)), (stateName 8 false, content 6 (saveState exState)),
   (nameOf 9, content 6 (saveInfo exInfo)), (nameOf 77, content 6 (saveInfo exInfo)), (logName 7, [])]

def exConfig (p : Bool) : Config where
  nice := fun a _ => a
  servers := [(1, 1), (2, 2)]
  continuePartial := p
  oldQueue := fun _ _ => ([], [], .error)
  oldHistory := fun _ _ => ([], .error)
  oldInfo := fun _ _ => none
  oldState := fun _ _ _ => .error
  progress := fun _ _ q => (q, true)
  afterError := fun _ => []

theorem exRec_valid : ValidRec exRec := by
  refine ⟨?_, ?_, by decide, ?_⟩
  · constructor <;> decide
  · refine ⟨⟨by decide, by decide⟩, ⟨by decide, by decide⟩, Or.inl rfl, ?_⟩
    intro p hp
    have : exRec.settings.post = some ⟨9, true, false⟩ := rfl
    rw [this] at hp; injection hp with hp; subst hp; decide
  · refine ⟨?_, by decide, by decide, by decide, by decide, by decide⟩
    intro c hc
    have : c = ⟨3, 1, 4294967295, true, [97, 98], [], [102], []⟩ ∨ c = ⟨0, 2, 0, false, [], [99], [103], [104]⟩ := by
      simpa [exRec] using hc
    rcases this with e | e <;> subst e <;> constructor <;> decide

theorem exStored (p : Bool) : Stored (exConfig p) exDir exQueue exHistory where
  queue := by decide +kernel
  history := by decide +kernel
  progress := by decide +kernel
  complete := by decide +kernel
  infos := by
    intro f hf
    simp only [allFiles, exQueue, List.flatMap_cons, List.flatMap_nil, List.append_nil, List.mem_cons, List.not_mem_nil, or_false] at hf
    rcases hf with rfl | rfl <;> decide +kernel
  states := by
    intro f hf k
    simp only [allFiles, exQueue, List.flatMap_cons, List.flatMap_nil, List.append_nil, List.mem_cons, List.not_mem_nil, or_false] at hf
    rcases hf with rfl | rfl <;> cases k <;> decide +kernel
  files := Or.inl (by decide +kernel)
  refs := by
    intro i hi
    simp only [exQueue, List.mem_cons, List.not_mem_nil, or_false] at hi
    subst hi; rfl
  distinct := by decide +kernel
  counts := by decide +kernel
  records := by
    intro i hi
    simp only [exQueue, List.mem_cons, List.not_mem_nil, or_false] at hi
    subst hi
    exact ⟨exRec_valid, by constructor <;> decide +revert⟩
  entries := by
    intro e he
    simp only [exHistory, List.mem_cons, List.not_mem_nil, or_false] at he
    subst he
    exact ⟨⟨by decide, by decide⟩, exRec_valid, by constructor <;> decide +revert⟩
  validInfos := by
    intro f hf
    simp only [allFiles, exQueue, List.flatMap_cons, List.flatMap_nil, List.append_nil, List.mem_cons, List.not_mem_nil, or_false] at hf
    rcases hf with rfl | rfl <;> constructor <;> first | decide | exact ⟨by decide, by decide⟩
  validStates := by
    intro f hf k s hst
    simp only [allFiles, exQueue, List.flatMap_cons, List.flatMap_nil, List.append_nil, List.mem_cons, List.not_mem_nil, or_false] at hf
    rcases hf with rfl | rfl
    · cases hst; exact ⟨by constructor <;> decide, by constructor <;> decide +revert⟩
    · cases hst

theorem exOwn : ∀ e ∈ exDir, Own e.1 := by
  intro e he
  simp only [exDir, List.mem_cons, List.not_mem_nil, or_false] at he
  rcases he with h | h | h | h | h | h | h <;> subst h
  · exact Or.inl ⟨by decide, fun r h => by cases h⟩
  · exact Or.inl ⟨by decide, fun r h => by cases h⟩
  · exact Or.inr ⟨8, Or.inl rfl⟩
  · exact Or.inr ⟨8, Or.inr (Or.inr ⟨false, rfl⟩)⟩
  · exact Or.inr ⟨9, Or.inl rfl⟩
  · exact Or.inr ⟨77, Or.inl rfl⟩
  · exact Or.inr ⟨7, Or.inr (Or.inl rfl)⟩

/-- The progress comes back if it is to be continued; the leftover goes. -/
example : (load (exConfig true) exDir).map (fun l => (l.queue.map (fun i => i.files.map (fun f => (f.info.isSome, f.state.isSome))),
    l.history.length, l.dir.map (·.1), l.ok)) =
    some ([[(true, true), (true, false)]], 1, [nQueue, nHistory, nameOf 8, stateName 8 false, nameOf 9, logName 7], true) := by
  rw [restart _ _ _ _ (exStored true) exOwn]; decide +kernel

example : (load (exConfig false) exDir).map (fun l => (l.queue.map (fun i => i.files.map (fun f => (f.info.isSome, f.state.isSome))),
    l.history.length, l.dir.map (·.1), l.ok)) =
    some ([[(true, false), (true, false)]], 1, [nQueue, nHistory, nameOf 8, nameOf 9, logName 7], true) := by
  rw [restart _ _ _ _ (exStored false) exOwn]; decide +kernel

/-- "2024.backup". -/
example (c : Config) (q : List Item) (d : Dir) (ns : List Bytes) :
    loadStates c false ([50, 48, 50, 52, 46, 98, 97, 99, 107, 117, 112] :: ns) q d =
      loadStates c false ns q (del d [50, 48, 50, 52, 46, 98, 97, 99, 107, 117, 112]) :=
  foreign_deleted_too c false q d _ 2024 46 [98, 97, 99, 107, 117, 112] (by decide) (by decide) ns

end Verif.StartUp
