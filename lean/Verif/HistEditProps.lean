import Verif.HistEdit
import Verif.FileNameProps
import Verif.DecoderLemmas

/-
Commands for history entries change the named entries only, and what is deleted on disk is known (C125).
-/
namespace Verif.HistEdit
open CStr DelTree

/-! ### Which entries are changed -/

theorem filter_set {α : Type} (p : α → Bool) : ∀ (l : List α) (i : Nat) (x : α), (∀ y, l[i]? = some y → p y = false) → p x = false →
    (l.set i x).filter p = l.filter p
  | [], _, _, _, _ => rfl
  | a :: l, 0, x, h, hx => by
    have ha := h a (by simp)
    simp [ha, hx]
  | a :: l, i + 1, x, h, hx => by
    simp only [List.set_cons_succ, List.filter_cons]
    rw [filter_set p l i x (fun y hy => h y (by simpa using hy)) hx]

theorem filter_erase {α : Type} (p : α → Bool) : ∀ (l : List α) (i : Nat), (∀ y, l[i]? = some y → p y = false) →
    (l.eraseIdx i).filter p = l.filter p
  | [], _, _ => rfl
  | a :: l, 0, h => by
    have ha := h a (by simp)
    simp [ha]
  | a :: l, i + 1, h => by
    simp only [List.eraseIdx_cons_succ, List.filter_cons]
    rw [filter_erase p l i (fun y hy => h y (by simpa using hy))]

theorem set_ids (e : Entry) (t : Bytes) (p : Param) :
    (setParameter t e).2.id = e.id ∧ (setCategory t e).2.id = e.id ∧ (setName t e).2.id = e.id ∧ (setDupe p t e).id = e.id := by
  refine ⟨?_, ?_, ?_, ?_⟩
  · unfold setParameter
    split
    · rfl
    · split <;> rfl
  · unfold setCategory
    split <;> rfl
  · unfold setName
    split
    · rfl
    · split <;> rfl
  · unfold setDupe
    split <;> first | rfl | (split <;> first | rfl | (split <;> rfl))

/-- What an action does with the history: the entry is replaced by one with the same id, or removed, or nothing. -/
theorem act_hist (c : Config) (cmd : Cmd) (i : Nat) (e : Entry) (s : State) (he : s.hist[i]? = some e) :
    (∃ x, x.id = e.id ∧ (act c cmd i e s).hist = s.hist.set i x) ∨ (act c cmd i e s).hist = s.hist.eraseIdx i := by
  have hsame : s.hist = s.hist.set i e := by
    apply List.ext_getElem?
    intro k
    rw [List.getElem?_set]
    split
    · rename_i q
      subst q
      split
      · exact he
      · rename_i q
        rw [List.getElem?_eq_none (by omega)] at he
        cases he
    · rfl
  have hid := set_ids e
  cases cmd with
  | delete f =>
    unfold act historyDelete
    dsimp only
    split
    · split
      · exact .inr rfl
      · exact .inl ⟨e, rfl, hsame⟩
    · rename_i j _
      split
      · exact .inr rfl
      · exact .inl ⟨hide e j, rfl, rfl⟩
  | redownload =>
    unfold act historyRedownload
    dsimp only
    split
    · exact .inl ⟨e, rfl, hsame⟩
    · split
      · exact .inr rfl
      · split
        · exact .inl ⟨e, rfl, hsame⟩
        · split
          · exact .inl ⟨e, rfl, hsame⟩
          · exact .inr rfl
  | setParameter t => exact .inl ⟨_, (hid t .key).1, rfl⟩
  | setCategory t => exact .inl ⟨_, (hid t .key).2.1, rfl⟩
  | setName t => exact .inl ⟨_, (hid t .key).2.2.1, rfl⟩
  | setDupe p t => exact .inl ⟨_, (hid t p).2.2.2, rfl⟩

theorem find_entry {s : State} {id i : Nat} {e : Entry} (hi : s.hist.findIdx? (fun e => e.id == id) = some i) (he : s.hist[i]? = some e) : e.id = id := by
  have := (List.findIdx?_eq_some_iff_getElem.1 hi)
  obtain ⟨h, h1, _⟩ := this
  rw [List.getElem?_eq_getElem h] at he
  cases he
  simpa using h1

theorem act_queue (c : Config) (cmd : Cmd) (i : Nat) (e : Entry) (s : State) :
    (act c cmd i e s).queue = s.queue ∨ ∃ j, (act c cmd i e s).queue = (e.id, j) :: s.queue := by
  cases cmd with
  | delete f =>
    unfold act historyDelete
    dsimp only
    split
    · split <;> exact .inl rfl
    · split <;> exact .inl rfl
  | redownload =>
    unfold act historyRedownload
    dsimp only
    split
    · exact .inl rfl
    · split
      · exact .inr ⟨_, rfl⟩
      · split
        · exact .inl rfl
        · split
          · exact .inl rfl
          · exact .inr ⟨_, rfl⟩
  | setParameter t => exact .inl rfl
  | setCategory t => exact .inl rfl
  | setName t => exact .inl rfl
  | setDupe p t => exact .inl rfl

theorem loop_others (c : Config) (cmd : Cmd) : ∀ (ids : List Nat) (s : State) (ok : Bool),
    ((editLoop c cmd ids s ok).1.hist.filter (fun e => !ids.contains e.id) = s.hist.filter (fun e => !ids.contains e.id)) ∧
    ∃ new, (editLoop c cmd ids s ok).1.queue = new ++ s.queue ∧ ∀ q ∈ new, q.1 ∈ ids ∧ ∃ e ∈ s.hist, e.id = q.1
  | [], s, ok => ⟨rfl, [], rfl, by simp⟩
  | id :: ids, s, ok => by
    have strengthen : ∀ (a b : List Entry), a.filter (fun e => !ids.contains e.id) = b.filter (fun e => !ids.contains e.id) →
        a.filter (fun e => !(id :: ids).contains e.id) = b.filter (fun e => !(id :: ids).contains e.id) := by
      intro a b h
      have hf : ∀ l : List Entry, l.filter (fun e => !(id :: ids).contains e.id) = (l.filter (fun e => !ids.contains e.id)).filter (fun e => e.id != id) := by
        intro l
        rw [List.filter_filter]
        apply List.filter_congr
        intro e _
        rw [List.contains_cons]
        cases h1 : (e.id == id) <;> simp [h1, bne]
      rw [hf, hf, h]
    unfold editLoop
    split
    · obtain ⟨h1, new, h2, h3⟩ := loop_others c cmd ids s ok
      exact ⟨strengthen _ _ h1, new, h2, fun q hq => ⟨List.mem_cons_of_mem _ (h3 q hq).1, (h3 q hq).2⟩⟩
    · rename_i i hi
      split
      · obtain ⟨h1, new, h2, h3⟩ := loop_others c cmd ids s ok
        exact ⟨strengthen _ _ h1, new, h2, fun q hq => ⟨List.mem_cons_of_mem _ (h3 q hq).1, (h3 q hq).2⟩⟩
      · rename_i e he
        have hid := find_entry hi he
        obtain ⟨h1, new, h2, h3⟩ := loop_others c cmd ids (act c cmd i e s) (resultOf cmd e)
        have hmem : e ∈ s.hist := List.mem_of_getElem? he
        have hsub : ∀ x ∈ (act c cmd i e s).hist, ∃ y ∈ s.hist, y.id = x.id := by
          intro x hx
          rcases act_hist c cmd i e s he with ⟨y, hy, q⟩ | q
          · rw [q] at hx
            rcases List.mem_or_eq_of_mem_set hx with z | z
            · exact ⟨x, z, rfl⟩
            · exact ⟨e, hmem, by rw [z, hy]⟩
          · rw [q] at hx
            exact ⟨x, List.mem_of_mem_eraseIdx hx, rfl⟩
        refine ⟨?_, ?_⟩
        · rw [strengthen _ _ h1]
          have hp : ∀ y, s.hist[i]? = some y → (!(id :: ids).contains y.id) = false := by
            intro y hy
            rw [he] at hy
            cases hy
            simp [hid]
          rcases act_hist c cmd i e s he with ⟨x, hx, q⟩ | q
          · rw [q]
            exact filter_set _ _ _ _ hp (by simp [hx, hid])
          · rw [q]
            exact filter_erase _ _ _ hp
        · rcases act_queue c cmd i e s with q | ⟨j, q⟩
          · rw [q] at h2
            refine ⟨new, h2, fun x hx => ⟨List.mem_cons_of_mem _ (h3 x hx).1, ?_⟩⟩
            obtain ⟨y, hy, e1⟩ := (h3 x hx).2
            obtain ⟨z, hz, e2⟩ := hsub y hy
            exact ⟨z, hz, e2.trans e1⟩
          · rw [q] at h2
            refine ⟨new ++ [(e.id, j)], by simpa using h2, fun x hx => ?_⟩
            rcases List.mem_append.1 hx with hx | hx
            · refine ⟨List.mem_cons_of_mem _ (h3 x hx).1, ?_⟩
              obtain ⟨y, hy, e1⟩ := (h3 x hx).2
              obtain ⟨z, hz, e2⟩ := hsub y hy
              exact ⟨z, hz, e2.trans e1⟩
            · rw [List.mem_singleton] at hx
              subst hx
              exact ⟨by simp [hid], e, hmem, rfl⟩

/-- Entries which are not named stay as they are and in their order, and nothing comes to the queue but named entries, before what is there. -/
theorem others_untouched (c : Config) (cmd : Cmd) (ids : List Nat) (s : State) :
    ((editList c cmd ids s).1.hist.filter (fun e => !ids.contains e.id) = s.hist.filter (fun e => !ids.contains e.id)) ∧
    ∃ new, (editList c cmd ids s).1.queue = new ++ s.queue ∧ ∀ q ∈ new, q.1 ∈ ids ∧ ∃ e ∈ s.hist, e.id = q.1 := by
  have := loop_others c cmd ids s false
  unfold editList
  dsimp only
  split <;> exact this

/-! ### The result -/

/-- No id of the list is known. -/
theorem loop_none (c : Config) (cmd : Cmd) : ∀ (ids : List Nat) (s : State) (ok : Bool), (∀ id ∈ ids, ∀ e ∈ s.hist, e.id ≠ id) →
    editLoop c cmd ids s ok = (s, ok)
  | [], _, _, _ => rfl
  | id :: ids, s, ok, h => by
    unfold editLoop
    have : s.hist.findIdx? (fun e => e.id == id) = none := by
      rw [List.findIdx?_eq_none_iff]
      intro e he
      simpa using h id (by simp) e he
    rw [this]
    exact loop_none c cmd ids s ok (fun i hi => h i (by simp [hi]))

/-- Commands whose result is never false for a found entry. -/
theorem loop_true (c : Config) (cmd : Cmd) (hr : ∀ e, resultOf cmd e = true) : ∀ (ids : List Nat) (s : State) (ok : Bool),
    (editLoop c cmd ids s ok).2 = true ↔ ok = true ∨ ∃ id ∈ ids, ∃ e ∈ s.hist, e.id = id
  | [], _, ok => by simp [editLoop]
  | id :: ids, s, ok => by
    unfold editLoop
    cases hi : s.hist.findIdx? (fun e => e.id == id) with
    | none =>
      dsimp only
      rw [loop_true c cmd hr ids s ok]
      rw [List.findIdx?_eq_none_iff] at hi
      constructor
      · rintro (q | ⟨x, hx, e, he⟩)
        · exact .inl q
        · exact .inr ⟨x, by simp [hx], e, he⟩
      · rintro (q | ⟨x, hx, e, he, q⟩)
        · exact .inl q
        · rcases List.mem_cons.1 hx with z | z
          · have := hi e he
            simp [q, z] at this
          · exact .inr ⟨x, z, e, he, q⟩
    | some i =>
      obtain ⟨hlt, hp, _⟩ := List.findIdx?_eq_some_iff_getElem.1 hi
      dsimp only
      rw [List.getElem?_eq_getElem hlt]
      dsimp only
      rw [loop_true c cmd hr ids _ _, hr]
      simp only [true_or, true_iff]
      exact .inr ⟨id, by simp, s.hist[i], List.getElem_mem hlt, by simpa using hp⟩

/-- Deleting, downloading again and changing of duplicate parameters: `true` if and only if one of the ids is known. -/
theorem result_found (c : Config) (cmd : Cmd) (ids : List Nat) (s : State)
    (hc : (∃ f, cmd = .delete f) ∨ cmd = .redownload ∨ ∃ p t, cmd = .setDupe p t) :
    (editList c cmd ids s).2 = true ↔ ∃ id ∈ ids, ∃ e ∈ s.hist, e.id = id := by
  have hr : ∀ e, resultOf cmd e = true := by
    intro e
    rcases hc with ⟨f, rfl⟩ | rfl | ⟨p, t, rfl⟩ <;> rfl
  unfold editList
  rw [loop_true c cmd hr]
  simp

theorem loop_append (c : Config) (cmd : Cmd) : ∀ (a b : List Nat) (s : State) (ok : Bool),
    editLoop c cmd (a ++ b) s ok = editLoop c cmd b (editLoop c cmd a s ok).1 (editLoop c cmd a s ok).2
  | [], b, s, ok => rfl
  | id :: a, b, s, ok => by
    have hcons : ∀ x, editLoop c cmd (id :: x) s ok =
        match s.hist.findIdx? (fun e => e.id == id) with
        | none => editLoop c cmd x s ok
        | some i =>
          match s.hist[i]? with
          | none => editLoop c cmd x s ok
          | some e => editLoop c cmd x (act c cmd i e s) (resultOf cmd e) := fun x => by
      conv => lhs; unfold editLoop
      rfl
    rw [List.cons_append, hcons, hcons]
    split
    · exact loop_append c cmd a b s ok
    · split
      · exact loop_append c cmd a b s ok
      · exact loop_append c cmd a b _ _

/-- For names, categories and parameters only the last found entry counts. -/
theorem result_last (c : Config) (cmd : Cmd) (ids : List Nat) (id i : Nat) (s : State) (e : Entry)
    (hi : (editLoop c cmd ids s false).1.hist.findIdx? (fun e => e.id == id) = some i) (he : (editLoop c cmd ids s false).1.hist[i]? = some e) :
    (editList c cmd (ids ++ [id]) s).2 = resultOf cmd e := by
  unfold editList
  rw [loop_append]
  dsimp only
  conv => lhs; unfold editLoop
  rw [hi]
  dsimp only
  rw [he]
  rfl

/-- The disk is not changed by changes of texts, and the queue neither. -/
theorem texts_only (c : Config) (cmd : Cmd) (ids : List Nat) (s : State) (hc : ∀ f, cmd ≠ .delete f) (hr : cmd ≠ .redownload) :
    (editList c cmd ids s).1.fs = s.fs ∧ (editList c cmd ids s).1.queue = s.queue := by
  have key : ∀ (ids : List Nat) (s : State) (ok : Bool), (editLoop c cmd ids s ok).1.fs = s.fs ∧ (editLoop c cmd ids s ok).1.queue = s.queue := by
    intro ids
    induction ids with
    | nil => intro s ok; exact ⟨rfl, rfl⟩
    | cons id ids ih =>
      intro s ok
      unfold editLoop
      split
      · exact ih s ok
      · rename_i i _
        split
        · exact ih s ok
        · rename_i e _
          have h1 : (act c cmd i e s).fs = s.fs ∧ (act c cmd i e s).queue = s.queue := by
            cases cmd with
            | delete f => exact absurd rfl (hc f)
            | redownload => exact absurd rfl hr
            | _ => exact ⟨rfl, rfl⟩
          rw [← h1.1, ← h1.2]
          exact ih _ _
  unfold editList
  dsimp only
  split <;> exact key ids s false

/-! ### What is deleted on disk -/

/-- Each path is there once. -/
structure Once (fs : Fs) : Prop where
  nodup : (fs.map (·.1)).Nodup
  root : ∀ e ∈ fs, e.1 ≠ []

theorem once_filter {fs : Fs} (h : Once fs) (p : Path × Kind → Bool) : Once (fs.filter p) :=
  ⟨h.nodup.sublist ((List.filter_sublist).map _), fun e he => h.root e (List.mem_filter.1 he).1⟩

theorem kind_of_mem {fs : Fs} (hw : Once fs) {p : Path} {k : Kind} (h : (p, k) ∈ fs) : kindOf fs p = some k := by
  have hp : p ≠ [] := hw.root _ h
  have hn := hw.nodup
  clear hw
  unfold kindOf
  rw [if_neg hp]
  induction fs with
  | nil => simp at h
  | cons e fs ih =>
    rw [List.map_cons, List.nodup_cons] at hn
    rw [List.find?_cons]
    rcases List.mem_cons.1 h with q | q
    · rw [← q]; simp
    · have : (e.1 == p) = false := by
        rw [beq_eq_false_iff_ne]
        intro r
        exact hn.1 (r ▸ List.mem_map.2 ⟨_, q, rfl⟩)
      rw [this]
      exact ih q hn.2

theorem mem_of_kind {fs : Fs} {p : Path} {k : Kind} (hp : p ≠ []) (h : kindOf fs p = some k) : (p, k) ∈ fs := by
  unfold kindOf at h
  rw [if_neg hp] at h
  cases hf : fs.find? (fun e => e.1 == p) with
  | none => rw [hf] at h; cases h
  | some e =>
    rw [hf] at h
    have h1 := List.mem_of_find?_eq_some hf
    have h2 := List.find?_some hf
    simp only [beq_iff_eq] at h2
    simp only [Option.map_some, Option.some.injEq] at h
    subst h2 h
    exact h1

/-- The nzb-files of a job. -/
def isSource (c : Config) (j : Job) (e : Path × Kind) : Bool := c.nzbCleanup && e.2 == .file && (names j.queued).any (fun n => place n == e.1)

theorem unlink_file {fs : Fs} (h : Once fs) (n : Bytes) :
    (if fileExists fs n then unlink fs (place n) else fs) = fs.filter (fun e => !(e.2 == .file && place n == e.1)) := by
  unfold fileExists
  by_cases hk : kindOf fs (place n) = some .file
  · rw [if_pos (by simp [hk])]
    unfold unlink
    apply List.filter_congr
    rintro ⟨q, k⟩ he
    by_cases hq : place n = q
    · subst hq
      rw [kind_of_mem h he] at hk
      cases hk
      simp
    · have : (q != place n) = true := by simpa using fun z : q = place n => hq z.symm
      have h2 : (place n == q) = false := by simpa using hq
      simp [this, h2]
  · rw [if_neg (by simpa using hk)]
    symm
    rw [List.filter_eq_self]
    rintro ⟨q, k⟩ he
    cases hb : (k == Kind.file && place n == q)
    · rfl
    · exfalso
      simp only [Bool.and_eq_true, beq_iff_eq] at hb
      obtain ⟨rfl, hb⟩ := hb
      subst hb
      exact hk (kind_of_mem h he)

theorem source_filter (c : Config) (j : Job) {fs : Fs} (h : Once fs) : deleteDiskFiles c j fs = fs.filter (fun e => !isSource c j e) := by
  unfold deleteDiskFiles
  cases hc : c.nzbCleanup
  · have : ∀ e, isSource c j e = false := fun e => by simp [isSource, hc]
    simp only [Bool.not_false, if_true, this]
    exact (List.filter_eq_self.2 (fun _ _ => rfl)).symm
  · simp only [Bool.not_true, Bool.false_eq_true, if_false]
    have key : ∀ (ns : List Bytes) (fs : Fs), Once fs →
        ns.foldl (fun fs n => if fileExists fs n then unlink fs (place n) else fs) fs =
        fs.filter (fun e => !(e.2 == .file && ns.any (fun n => place n == e.1))) := by
      intro ns
      induction ns with
      | nil =>
        intro fs _
        simp only [List.foldl_nil, List.any_nil, Bool.and_false, Bool.not_false]
        exact (List.filter_eq_self.2 (fun _ _ => rfl)).symm
      | cons n ns ih =>
        intro fs h
        rw [List.foldl_cons, unlink_file h n, ih _ (once_filter h _), List.filter_filter]
        apply List.filter_congr
        rintro ⟨q, k⟩ _
        rw [List.any_cons]
        cases hk : (k == Kind.file) <;> cases h1 : (place n == q) <;> simp
    rw [key _ fs h]
    apply List.filter_congr
    intro e _
    simp [isSource, hc]

theorem dir_after_source (c : Config) (j : Job) {fs : Fs} (h : Once fs) (b : Bytes) : dirExists (deleteDiskFiles c j fs) b = dirExists fs b := by
  rw [source_filter c j h]
  unfold dirExists
  by_cases hp : place b = []
  · simp [kindOf, hp]
  · rw [Bool.eq_iff_iff, beq_iff_eq, beq_iff_eq]
    constructor
    · intro q
      exact kind_of_mem h (List.mem_filter.1 (mem_of_kind hp q)).1
    · intro q
      apply kind_of_mem (once_filter h _)
      exact List.mem_filter.2 ⟨mem_of_kind hp q, by simp [isSource]⟩

/-- The spec of what a failed job is: deleted, or par-check or unpack failed, or the password was wrong. -/
def Failed (j : Job) : Prop := j.del ≠ .none ∨ j.par = .failure ∨ j.unpack = .failure ∨ j.unpack = .password

theorem failed_iff (j : Job) : failed j = true ↔ Failed j := by
  unfold failed Failed
  simp [or_assoc]

/-- In the directory of this name, or it itself (which stays if its name ends with `.` or `..`). -/
def Under (b : Bytes) (p : Path) : Prop := place b <+: p ∧ ¬ (p = place b ∧ dotted b = true)

theorem mem_deleteDir (fs : Fs) (b : Bytes) (e : Path × Kind) : e ∈ deleteDir fs b ↔ e ∈ fs ∧ ¬ Under b e.1 := by
  unfold deleteDir Under
  rw [List.mem_filter, ← List.isPrefixOf_iff_prefix]
  simp only [Bool.or_eq_true, Bool.not_eq_true', Bool.and_eq_true, beq_iff_eq]
  cases h : (place b).isPrefixOf e.1 <;> simp

theorem mem_deleteFiles (c : Config) (e : Entry) (j : Job) (hj : e.what = .job j) (hu : j.isUrl = false) {fs : Fs} (h : Once fs) (f : Path × Kind) :
    f ∈ deleteFiles c e fs ↔ f ∈ fs ∧ isSource c j f = false ∧ ¬ (Failed j ∧ dirExists fs j.dir = true ∧ Under j.dir f.1) := by
  unfold deleteFiles
  rw [hj]
  dsimp only
  rw [hu]
  simp only [Bool.false_eq_true, if_false]
  rw [dir_after_source c j h]
  have hm : f ∈ deleteDiskFiles c j fs ↔ f ∈ fs ∧ isSource c j f = false := by
    rw [source_filter c j h, List.mem_filter]
    simp
  by_cases hc : Failed j ∧ dirExists fs j.dir = true
  · rw [if_pos (by simp [failed_iff, hc]), mem_deleteDir, hm]
    constructor
    · rintro ⟨⟨h1, h2⟩, h3⟩
      exact ⟨h1, h2, fun q => h3 q.2.2⟩
    · rintro ⟨h1, h2, h3⟩
      exact ⟨⟨h1, h2⟩, fun q => h3 ⟨hc.1, hc.2, q⟩⟩
  · rw [if_neg (by simpa [failed_iff] using hc), hm]
    constructor
    · rintro ⟨h1, h2⟩
      exact ⟨h1, h2, fun q => hc ⟨q.1, q.2.1⟩⟩
    · rintro ⟨h1, h2, _⟩
      exact ⟨h1, h2⟩

/-- The entry which a command for this id finds. -/
def Found (s : State) (id i : Nat) (e : Entry) : Prop := s.hist.findIdx? (fun e => e.id == id) = some i ∧ s.hist[i]? = some e

theorem edit_one (c : Config) (cmd : Cmd) (id i : Nat) (e : Entry) (s : State) (h : Found s id i e) :
    editList c cmd [id] s = (if resultOf cmd e then { act c cmd i e s with saved := true } else act c cmd i e s, resultOf cmd e) := by
  unfold editList editLoop
  rw [h.1]
  dsimp only
  rw [h.2]
  rfl

/-- Deleting a download from the history: from the disk go its nzb-files (with option NzbCleanupDisk) and, if it failed or was deleted, its
directory with all that is in it, and nothing else; the entry goes or is replaced by a hidden record with its name, dupe key, score and mode. -/
theorem delete_download (c : Config) (final : Bool) (id i : Nat) (e : Entry) (j : Job) (s : State) (h : Found s id i e) (hj : e.what = .job j)
    (hu : j.isUrl = false) (hw : Once s.fs) :
    (∀ f, f ∈ (editList c (.delete final) [id] s).1.fs ↔
      f ∈ s.fs ∧ isSource c j f = false ∧ ¬ (Failed j ∧ dirExists s.fs j.dir = true ∧ Under j.dir f.1)) ∧
    (editList c (.delete final) [id] s).1.queue = s.queue ∧
    (editList c (.delete final) [id] s).1.hist =
      (if final = true ∨ c.dupeCheck = false then s.hist.eraseIdx i
       else s.hist.set i ⟨e.id, e.time, .dup ⟨j.name, j.key, j.score, j.mode, hiddenStatus j⟩⟩) ∧
    (editList c (.delete final) [id] s).2 = true := by
  rw [edit_one c _ id i e s h]
  simp only [resultOf, if_true, act, historyDelete, hj]
  have hm := mem_deleteFiles c e j hj hu hw
  by_cases hf : final = true ∨ c.dupeCheck = false
  · rw [if_pos (by rcases hf with q | q <;> simp [q]), if_pos hf]
    exact ⟨hm, by trivial, by trivial, by trivial⟩
  · rw [if_neg (by simp only [not_or] at hf; simp [hf.1, hf.2, hu]), if_neg hf]
    refine ⟨?_, by trivial, by simp [hide], by trivial⟩
    intro f
    dsimp only
    have ho : Once (deleteFiles c e s.fs) := by
      unfold deleteFiles
      rw [hj]
      dsimp only
      rw [hu, source_filter c j hw]
      simp only [Bool.false_eq_true, if_false]
      split
      · exact once_filter (once_filter hw _) _
      · exact once_filter hw _
    rw [source_filter c j ho, List.mem_filter, hm f]
    simp only [Bool.not_eq_true']
    constructor
    · exact fun q => q.1
    · exact fun q => ⟨q, q.2.1⟩

/-- What the hidden record remembers: the mark, if there is one; else that it was a duplicate or deleted by hand (or as an unneeded copy);
else success or failure. -/
theorem hidden_status (j : Job) :
    (j.mark = .good → hiddenStatus j = .good) ∧ (j.mark = .bad → hiddenStatus j = .bad) ∧ (j.mark = .success → hiddenStatus j = .success) ∧
    (j.mark = .none → (j.del = .dupe → hiddenStatus j = .dupe) ∧
      (j.del = .manual ∨ j.del = .good ∨ j.del = .copy → hiddenStatus j = .deleted) ∧
      (j.del = .none ∨ j.del = .health ∨ j.del = .bad ∨ j.del = .scan → hiddenStatus j = if j.success then .success else .failed)) := by
  unfold hiddenStatus
  refine ⟨fun h => by simp [h], fun h => by simp [h], fun h => by simp [h], fun h => ⟨fun d => by simp [h, d], fun d => ?_, fun d => ?_⟩⟩
  · rcases d with d | d | d <;> simp [h, d]
  · rcases d with d | d | d | d <;> simp [h, d]

/-- Deleting the entry of a download which succeeded deletes nothing but its nzb-files. -/
theorem delete_keeps_success (c : Config) (final : Bool) (id i : Nat) (e : Entry) (j : Job) (s : State) (h : Found s id i e) (hj : e.what = .job j)
    (hu : j.isUrl = false) (hw : Once s.fs) (hs : ¬ Failed j) (f : Path × Kind) (hf : f ∈ s.fs)
    (hn : c.nzbCleanup = true → f.2 = .file → ∀ n ∈ names j.queued, place n ≠ f.1) :
    f ∈ (editList c (.delete final) [id] s).1.fs := by
  rw [(delete_download c final id i e j s h hj hu hw).1]
  refine ⟨hf, ?_, fun q => hs q.1⟩
  cases hq : isSource c j f
  · rfl
  · exfalso
    unfold isSource at hq
    simp only [Bool.and_eq_true, beq_iff_eq, List.any_eq_true] at hq
    obtain ⟨⟨h1, h2⟩, n, h3, h4⟩ := hq
    exact hn h1 h2 n h3 h4

/-- For urls and hidden records nothing is deleted on disk. -/
theorem delete_other (c : Config) (final : Bool) (id i : Nat) (e : Entry) (s : State) (h : Found s id i e)
    (hj : ∀ j, e.what = .job j → j.isUrl = true) : (editList c (.delete final) [id] s).1.fs = s.fs := by
  rw [edit_one c _ id i e s h]
  simp only [resultOf, if_true, act, historyDelete]
  have hd : deleteFiles c e s.fs = s.fs := by
    unfold deleteFiles
    split
    · rfl
    · rename_i j hw
      rw [if_pos (hj j hw)]
  rw [hd]
  split
  · split <;> rfl
  · rename_i j hw
    rw [if_pos (by simp [hj j hw])]

/-- A hidden record is not removed by the command "delete" (with option DupeCheck), but success is reported. -/
theorem delete_hidden_nothing (c : Config) (id i : Nat) (e : Entry) (d : Dup) (s : State) (h : Found s id i e) (hj : e.what = .dup d)
    (hc : c.dupeCheck = true) : editList c (.delete false) [id] s = ({ s with saved := true }, true) := by
  rw [edit_one c _ id i e s h]
  simp [resultOf, act, historyDelete, hj, hc, deleteFiles]

/-! ### Directories of downloads -/

/-- With option InterDir directories of different downloads differ. -/
theorem inter_dirs_differ (c : Config) (id id' : Nat) (j j' : Job) (h : c.interDir ≠ []) (e : destOf c id j = destOf c id' j') :
    j.name = j'.name ∧ id = id' := by
  unfold destOf at e
  rw [if_neg h, if_neg h] at e
  have hs : lit ".#" = [46, 35] := rfl
  rw [hs] at e
  have h35 : ∀ n, (35 : UInt8) ∉ dec n := fun n => Decoder.dec_not_mem (by decide) n
  have e2 : j.name ++ [46, 35] ++ dec id = j'.name ++ [46, 35] ++ dec id' := by
    have := List.append_cancel_left (as := c.interDir ++ [47]) (bs := j.name ++ [46, 35] ++ dec id) (cs := j'.name ++ [46, 35] ++ dec id') (by simpa using e)
    exact this
  have hr := congrArg List.reverse e2
  simp only [List.reverse_append, List.reverse_cons, List.reverse_nil, List.nil_append, List.cons_append] at hr
  have ht : ∀ (n : Nat) (l : Bytes), ((dec n).reverse ++ 35 :: l).takeWhile (fun b => b != 35) = (dec n).reverse := by
    intro n l
    rw [List.takeWhile_append_of_pos]
    · simp
    · intro b hb
      have : b ≠ 35 := fun q => h35 n (q ▸ List.mem_reverse.1 hb)
      simpa using this
  have h1 := congrArg (List.takeWhile (fun b => b != (35 : UInt8))) hr
  rw [ht, ht, List.reverse_inj] at h1
  refine ⟨?_, FileName.dec_inj h1⟩
  rw [h1] at e2
  simpa using e2

/-- Without it downloads with the same name and category share one. -/
theorem same_name_same_dir (c : Config) (id id' : Nat) (j j' : Job) (h : c.interDir = []) (hn : j.name = j'.name) (hc : j.category = j'.category) :
    destOf c id j = destOf c id' j' := by
  unfold destOf
  rw [if_pos h, if_pos h, hn, hc]

/-- So deleting the record of a duplicate (never downloaded) deletes all files of the download with the same directory. -/
theorem duplicate_deletes_files (c : Config) (final : Bool) (id i : Nat) (e : Entry) (j good : Job) (s : State) (h : Found s id i e)
    (hj : e.what = .job j) (hu : j.isUrl = false) (hw : Once s.fs) (hd : j.del = .dupe ∨ j.del = .copy ∨ j.del = .good)
    (hsame : j.dir = good.dir) (hex : dirExists s.fs good.dir = true) (f : Path × Kind) (hin : Under good.dir f.1) :
    f ∉ (editList c (.delete final) [id] s).1.fs := by
  rw [(delete_download c final id i e j s h hj hu hw).1]
  rintro ⟨_, _, q⟩
  refine q ⟨.inl ?_, hsame ▸ hex, hsame ▸ hin⟩
  rcases hd with d | d | d <;> rw [d] <;> decide

/-! ### Downloading again -/

/-- The nzb-file is there and can be parsed. -/
def Available (c : Config) (s : State) (j : Job) : Prop := fileExists s.fs j.queued = true ∧ (c.parse j.queued).isSome = true

/-- HistoryCoordinator.cpp:483-491: after the first of the two deletions. -/
def firstClear (fs : Fs) (j : Job) : Fs := if dirExists fs j.dir then deleteDir fs j.dir else fs

/-- A download goes back to the begin of the queue, with all statuses reset; from the disk goes its directory and the one it gets now. -/
theorem again_download (c : Config) (id i : Nat) (e : Entry) (j : Job) (s : State) (h : Found s id i e) (hj : e.what = .job j)
    (hu : j.isUrl = false) (ha : Available c s j) :
    let r := (editList c .redownload [id] s).1
    (∃ q, r.queue = (id, q) :: s.queue ∧ q.name = j.name ∧ q.category = j.category ∧ q.params = j.params ∧ q.queued = j.queued ∧
      q.dir = destOf c id j ∧ ¬ Failed q ∧ q.mark = .none) ∧
    r.hist = s.hist.eraseIdx i ∧ (∀ f ∈ r.fs, f ∈ s.fs) ∧
    (∀ f ∈ s.fs, f ∉ r.fs → (dirExists s.fs j.dir = true ∧ Under j.dir f.1) ∨ Under (destOf c id j) f.1) ∧
    (dirExists s.fs j.dir = true → ∀ f ∈ r.fs, ¬ Under j.dir f.1) ∧
    (dirExists r.fs (destOf c id j) = true → ∀ f ∈ r.fs, ¬ Under (destOf c id j) f.1) := by
  have hid : e.id = id := find_entry h.1 h.2
  rw [edit_one c _ id i e s h]
  have hpn : (c.parse j.queued).isNone = false := by
    have := ha.2
    cases hq : c.parse j.queued with
    | none => rw [hq] at this; cases this
    | some _ => rfl
  simp only [resultOf, if_true, act, historyRedownload, hj, hu, Bool.false_eq_true, if_false, ha.1, Bool.not_true, hpn, hid]
  have hmid : ∀ f, f ∈ firstClear s.fs j ↔ f ∈ s.fs ∧ (dirExists s.fs j.dir = true → ¬ Under j.dir f.1) := by
    intro f
    unfold firstClear
    split
    · rename_i q
      rw [mem_deleteDir]
      simp [q]
    · rename_i q
      simp [q]
  have hclear : clearDirs c id j s.fs =
      if dirExists (firstClear s.fs j) (destOf c id j) then deleteDir (firstClear s.fs j) (destOf c id j) else firstClear s.fs j := rfl
  have hall : ∀ f, f ∈ clearDirs c id j s.fs ↔ f ∈ firstClear s.fs j ∧ (dirExists (firstClear s.fs j) (destOf c id j) = true → ¬ Under (destOf c id j) f.1) := by
    intro f
    rw [hclear]
    split
    · rename_i q
      rw [mem_deleteDir]
      simp [q]
    · rename_i q
      simp [q]
  refine ⟨⟨_, rfl, by trivial, by trivial, by trivial, by trivial, by trivial, by simp [Failed, fresh], by trivial⟩, by trivial, ?_, ?_, ?_, ?_⟩
  · intro f hf
    exact ((hmid f).1 ((hall f).1 hf).1).1
  · intro f hf hn
    apply Classical.byContradiction
    intro hne
    simp only [not_or, not_and] at hne
    exact hn ((hall f).2 ⟨(hmid f).2 ⟨hf, hne.1⟩, fun _ => hne.2⟩)
  · intro hd f hf
    exact ((hmid f).1 ((hall f).1 hf).1).2 hd
  · intro hd f hf
    rw [hclear] at hd
    split at hd
    · rename_i q
      exact ((hall f).1 hf).2 q
    · rename_i q
      exact absurd hd q

/-- If the nzb-file is not there or is damaged then nothing is changed (but success is reported). -/
theorem again_refused (c : Config) (id i : Nat) (e : Entry) (j : Job) (s : State) (h : Found s id i e) (hj : e.what = .job j)
    (hu : j.isUrl = false) (ha : ¬ Available c s j) : editList c .redownload [id] s = ({ s with saved := true }, true) := by
  rw [edit_one c _ id i e s h]
  simp only [resultOf, if_true, act, historyRedownload, hj, hu, Bool.false_eq_true, if_false]
  by_cases h1 : fileExists s.fs j.queued = true
  · have h2 : (c.parse j.queued).isNone = true := by
      cases hq : c.parse j.queued with
      | none => rfl
      | some _ => exact absurd ⟨h1, by simp [hq]⟩ ha
    simp [h1, h2]
  · simp [h1]

/-! ### Names -/

/-- The name of an entry is not checked: it can be a path. Then all in the directory to which it leads is deleted by "download again". -/
theorem name_is_a_path (c : Config) (id i : Nat) (e : Entry) (j : Job) (s : State) (name : Bytes) (h : Found s id i e) (hj : e.what = .job j)
    (hu : j.isUrl = false) (ha : Available c s j) (hn : name ≠ []) (hi : c.interDir = []) (hc : j.category = [])
    (hd : dirExists (if dirExists s.fs j.dir then deleteDir s.fs j.dir else s.fs) (c.destDir ++ 47 :: name) = true) (f : Path × Kind)
    (hf : Under (c.destDir ++ 47 :: name) f.1) :
    (editList c (.setName name) [id] s).2 = true ∧
    f ∉ (editList c .redownload [id] (editList c (.setName name) [id] s).1).1.fs := by
  have hid : e.id = id := find_entry h.1 h.2
  have hlt : i < s.hist.length := by
    apply Classical.byContradiction
    intro q
    have := h.2
    rw [List.getElem?_eq_none (by omega)] at this
    cases this
  have hset : (setName name e) = (true, { e with what := .job { j with name := name } }) := by
    unfold setName
    rw [if_neg hn, hj]
  have hres : resultOf (.setName name) e = true := by simp [resultOf, hset]
  rw [edit_one c _ id i e s h, hres]
  refine ⟨rfl, ?_⟩
  simp only [if_true, act, hset]
  have hfound : Found { s with hist := s.hist.set i { e with what := .job { j with name := name } }, saved := true } id i
      { e with what := .job { j with name := name } } := by
    constructor
    · dsimp only
      rw [List.findIdx?_eq_some_iff_getElem]
      obtain ⟨h1, h2, h3⟩ := List.findIdx?_eq_some_iff_getElem.1 h.1
      refine ⟨by simpa using h1, ?_, ?_⟩
      · simp [hid]
      · intro k hk
        have := h3 k hk
        rw [List.getElem_set]
        rw [if_neg (by omega)]
        exact this
    · dsimp only
      rw [List.getElem?_set_self hlt]
  rw [edit_one c _ id i _ _ hfound]
  have hpn : (c.parse j.queued).isNone = false := by
    have := ha.2
    cases hq : c.parse j.queued with
    | none => rw [hq] at this; cases this
    | some _ => rfl
  simp only [resultOf, if_true, act, historyRedownload, hu, Bool.false_eq_true, if_false, ha.1, Bool.not_true, hpn]
  have hdest : destOf c e.id { j with name := name } = c.destDir ++ 47 :: name := by
    unfold destOf
    rw [if_pos hi]
    simp [FileName.finalDir, hc]
  unfold clearDirs
  dsimp only
  rw [hu] at hdest
  rw [hdest, if_pos hd, mem_deleteDir]
  exact fun q => q.2 hf

theorem parts_snoc (b n : Bytes) (hn : n ≠ []) (h : (47 : UInt8) ∉ n) : parts (b ++ 47 :: n) = parts b ++ [n] := by
  have hfold : ∀ (n : Bytes), (47 : UInt8) ∉ n → n.foldr (fun c (r : Name × Path) => if c = 47 then ([], if r.1 = [] then r.2 else r.1 :: r.2) else (c :: r.1, r.2))
      ([], []) = (n, []) := by
    intro n
    induction n with
    | nil => intro _; rfl
    | cons c n ih =>
      intro h
      have hc : c ≠ 47 := fun q => h (by simp [q])
      rw [List.foldr_cons, ih (fun q => h (by simp [q])), if_neg hc]
  have hgen : ∀ (b : Bytes), b.foldr (fun c (r : Name × Path) => if c = 47 then ([], if r.1 = [] then r.2 else r.1 :: r.2) else (c :: r.1, r.2)) ([], [n]) =
      ((b.foldr (fun c (r : Name × Path) => if c = 47 then ([], if r.1 = [] then r.2 else r.1 :: r.2) else (c :: r.1, r.2)) ([], [])).1,
       (b.foldr (fun c (r : Name × Path) => if c = 47 then ([], if r.1 = [] then r.2 else r.1 :: r.2) else (c :: r.1, r.2)) ([], [])).2 ++ [n]) := by
    intro b
    induction b with
    | nil => rfl
    | cons c b ih =>
      rw [List.foldr_cons, List.foldr_cons, ih]
      by_cases hc : c = 47
      · simp only [if_pos hc]
        split <;> simp
      · simp only [if_neg hc]
  unfold parts
  rw [List.foldr_append, List.foldr_cons, hfold n h, if_pos rfl]
  dsimp only
  rw [if_neg hn, hgen b]
  dsimp only
  split <;> simp

theorem resolve_append (p q : Path) : ∀ up, resolve up (p ++ q) = resolve (resolve up p).reverse q := by
  induction p with
  | nil => intro up; simp [resolve]
  | cons n p ih =>
    intro up
    have hc : ∀ r, resolve up (n :: r) = if n = [46] then resolve up r else if n = [46, 46] then resolve up.tail r else resolve (n :: up) r := fun _ => rfl
    rw [List.cons_append, hc, hc]
    split
    · exact ih up
    · split
      · exact ih up.tail
      · exact ih (n :: up)

/-- The name `.` leads to the directory of all downloads, `..` to the one above. -/
theorem dot_names (b : Bytes) : place (b ++ 47 :: [46]) = place b ∧ place (b ++ 47 :: [46, 46]) = (place b).dropLast := by
  unfold place
  rw [parts_snoc b [46] (by simp) (by decide), parts_snoc b [46, 46] (by simp) (by decide), resolve_append, resolve_append]
  constructor
  · simp [resolve]
  · simp [resolve, List.tail_reverse]

/-- So renaming an entry to `.` and downloading it again deletes all downloads. -/
theorem dot_deletes_all (c : Config) (id i : Nat) (e : Entry) (j : Job) (s : State) (h : Found s id i e) (hj : e.what = .job j)
    (hu : j.isUrl = false) (ha : Available c s j) (hi : c.interDir = []) (hc : j.category = []) (hw : Once s.fs) (hd : dirExists s.fs c.destDir = true)
    (hr : ¬ place j.dir <+: place c.destDir) (hroot : place c.destDir ≠ []) (f : Path × Kind) (hf : place c.destDir <+: f.1) (hne : f.1 ≠ place c.destDir) :
    (editList c (.setName (lit ".")) [id] s).2 = true ∧
    f ∉ (editList c .redownload [id] (editList c (.setName (lit ".")) [id] s).1).1.fs := by
  have hdot : lit "." = [46] := rfl
  rw [hdot]
  apply name_is_a_path c id i e j s [46] h hj hu ha (by simp) hi hc
  · unfold dirExists at hd ⊢
    rw [(dot_names c.destDir).1]
    rw [beq_iff_eq] at hd ⊢
    split
    · apply kind_of_mem
      · unfold deleteDir
        exact once_filter hw _
      · rw [mem_deleteDir]
        exact ⟨mem_of_kind hroot hd, fun q => hr q.1⟩
    · exact hd
  · unfold Under
    rw [(dot_names c.destDir).1]
    exact ⟨hf, fun q => hne q.1⟩

/-- What the commands for texts change in the entry: the one field. Words are not case-sensitive; the backup flag is for duplicates and
manually deleted downloads only. -/
theorem texts_set (c : Config) (id i : Nat) (e : Entry) (j : Job) (s : State) (t : Bytes) (h : Found s id i e) (hj : e.what = .job j) :
    (t ≠ [] → (editList c (.setName t) [id] s).1.hist = s.hist.set i { e with what := .job { j with name := t } }) ∧
    (editList c (.setCategory t) [id] s).1.hist = s.hist.set i { e with what := .job { j with category := t } } ∧
    (∀ n v, (61 : UInt8) ∉ n → t = n ++ 61 :: v →
      (editList c (.setParameter t) [id] s).1.hist = s.hist.set i { e with what := .job { j with params := Record.setParameter j.params n v } }) ∧
    (editList c (.setDupe .key t) [id] s).1.hist = s.hist.set i { e with what := .job { j with key := t } } ∧
    (t.map WildMask.lower = lit "score" → (editList c (.setDupe .mode t) [id] s).1.hist = s.hist.set i { e with what := .job { j with mode := .score } }) ∧
    (t.map WildMask.lower = lit "all" → (editList c (.setDupe .mode t) [id] s).1.hist = s.hist.set i { e with what := .job { j with mode := .all } }) ∧
    (t.map WildMask.lower = lit "force" → (editList c (.setDupe .mode t) [id] s).1.hist = s.hist.set i { e with what := .job { j with mode := .force } }) ∧
    (j.isUrl = false → j.del = .dupe ∨ j.del = .manual → (editList c (.setDupe .backup t) [id] s).1.hist =
      s.hist.set i { e with what := .job { j with del := if t.map WildMask.lower = lit "yes" ∨ t.map WildMask.lower = lit "true" ∨ t = lit "1" then .dupe else .manual } }) := by
  have hs : ((lit "SCORE").map WildMask.lower) = lit "score" := by decide +kernel
  have ha : ((lit "ALL").map WildMask.lower) = lit "all" := by decide +kernel
  have hf : ((lit "FORCE").map WildMask.lower) = lit "force" := by decide +kernel
  have hy : ((lit "YES").map WildMask.lower) = lit "yes" := by decide +kernel
  have ht : ((lit "TRUE").map WildMask.lower) = lit "true" := by decide +kernel
  have hall : (lit "all" == lit "score") = false := by decide +kernel
  have hf1 : (lit "force" == lit "score") = false := by decide +kernel
  have hf2 : (lit "force" == lit "all") = false := by decide +kernel
  have h1 : Rpc.eqNoCase t (lit "1") = (t == lit "1") := by
    have : (lit "1").map WildMask.lower = lit "1" := by decide +kernel
    unfold Rpc.eqNoCase
    rw [this, Bool.eq_iff_iff, beq_iff_eq, beq_iff_eq]
    constructor
    · intro q
      have e1 : lit "1" = [49] := rfl
      rw [e1] at q ⊢
      have hlow : ∀ b : UInt8, WildMask.lower b = 49 → b = 49 := by
        intro b hb
        unfold WildMask.lower at hb
        split at hb
        · rename_i hr
          exfalso
          have := congrArg UInt8.toNat hb
          rw [UInt8.toNat_ofNat'] at this
          have hz : UInt8.toNat 49 = 49 := rfl
          omega
        · exact hb
      rw [List.map_eq_cons_iff] at q
      obtain ⟨b, r, rfl, hb, hr⟩ := q
      rw [List.map_eq_nil_iff] at hr
      rw [hr, hlow b hb]
    · intro q
      rw [q, this]
  have found := fun cmd => edit_one c cmd id i e s h
  refine ⟨?_, ?_, ?_, ?_, ?_, ?_, ?_, ?_⟩
  · intro hn
    rw [found]
    simp [resultOf, act, setName, hn, hj]
  · rw [found]
    simp [resultOf, act, setCategory, hj]
  · intro n v hn he
    have hidx : t.idxOf? 61 = some n.length := by
      rw [he, List.idxOf?_eq_some_iff]
      refine ⟨by simp, by simp, ?_⟩
      intro k hk q
      apply hn
      rw [List.getElem_append_left hk] at q
      rw [← q]
      exact List.getElem_mem hk
    rw [found]
    simp only [resultOf, act, setParameter, hj, hidx, if_true]
    rw [he]
    simp
  · rw [found]
    simp [resultOf, act, setDupe, hj]
  · intro hm
    rw [found]
    simp [resultOf, act, setDupe, hj, modeOf, Rpc.eqNoCase, hs, hm]
  · intro hm
    rw [found]
    simp [resultOf, act, setDupe, hj, modeOf, Rpc.eqNoCase, hs, ha, hm, hall]
  · intro hm
    rw [found]
    simp [resultOf, act, setDupe, hj, modeOf, Rpc.eqNoCase, hs, ha, hf, hm, hf1, hf2]
  · intro hu hd
    have hd' : (j.del != .dupe && j.del != .manual) = false := by
      rcases hd with q | q <;> rw [q] <;> rfl
    rw [found]
    simp only [resultOf, if_true, act, setDupe, hj, hu, Bool.false_eq_true, if_false, hd']
    congr 4
    have : isYes t = true ↔ t.map WildMask.lower = lit "yes" ∨ t.map WildMask.lower = lit "true" ∨ t = lit "1" := by
      unfold isYes
      rw [h1]
      simp [Rpc.eqNoCase, hy, ht, or_assoc]
    simp only [this]

/-- The backup flag of anything else stays: of addresses, of downloads which were not deleted or for other reasons, of hidden records. -/
theorem backup_only (c : Config) (id i : Nat) (e : Entry) (s : State) (t : Bytes) (h : Found s id i e)
    (hn : ∀ j, e.what = .job j → j.isUrl = true ∨ (j.del ≠ .dupe ∧ j.del ≠ .manual)) :
    (editList c (.setDupe .backup t) [id] s).1.hist = s.hist := by
  rw [edit_one c _ id i e s h]
  have he : setDupe .backup t e = e := by
    unfold setDupe
    cases hw : e.what with
    | dup d => rfl
    | job j =>
      dsimp only
      rcases hn j hw with q | ⟨q1, q2⟩
      · rw [if_pos q]
      · by_cases hu : j.isUrl = true
        · rw [if_pos hu]
        · rw [if_neg hu, if_pos (by simp [q1, q2])]
  have hset : s.hist.set i e = s.hist := by
    have := h.2
    obtain ⟨hi, hg⟩ := List.getElem?_eq_some_iff.1 this
    rw [← hg, List.set_getElem_self]
  cases hr : resultOf (.setDupe .backup t) e <;> simp [act, he, hset]

example : atoi (lit "-5") = -5 ∧ atoi (lit "50x") = 50 := by decide +kernel

/-! ### Findings on results, and examples -/

/-- A parameter without `=` is not set, but success is reported. -/
theorem bad_parameter (c : Config) (id i : Nat) (e : Entry) (j : Job) (s : State) (t : Bytes) (h : Found s id i e) (hj : e.what = .job j)
    (ht : (61 : UInt8) ∉ t) : (editList c (.setParameter t) [id] s).2 = true ∧ resultOf (.setParameter t) e = true ∧ (setParameter t e).2 = e := by
  have h0 : t.idxOf? 61 = none := by rw [List.idxOf?_eq_none_iff]; exact ht
  rw [edit_one c _ id i e s h]
  simp [resultOf, setParameter, hj, h0]

/-- Of a merged download (its nzb-files with `|` between them) all nzb-files are there, but it can't be downloaded again. -/
def demoJob : Job :=
  { isUrl := false, name := lit "a", category := [], dir := lit "/d/a", queued := lit "/n/a|/n/b", del := .none, mark := .none, par := .success,
    unpack := .success, success := true, key := [], score := 0, mode := .score, params := [] }

def demoConfig : Config :=
  { interDir := [], destDir := lit "/d", catDir := fun _ => [], append := true, dupeCheck := true, nzbCleanup := true, parse := fun _ => some 1 }

def demoDisk : Fs :=
  [([lit "d"], .dir), ([lit "d", lit "a"], .dir), ([lit "d", lit "a", lit "film"], .file), ([lit "d", lit "b"], .dir),
   ([lit "d", lit "b", lit "book"], .file), ([lit "n"], .dir), ([lit "n", lit "a"], .file), ([lit "n", lit "b"], .file)]

def demoBackup : Job := { demoJob with queued := lit "/n/b", del := .dupe, par := .none, unpack := .none, success := false }

/-- A good download, a duplicate of it which was not downloaded, and a hidden record. -/
def demoState : State :=
  { queue := [], hist := [⟨1, 0, .job demoJob⟩, ⟨2, 0, .job demoBackup⟩, ⟨3, 0, .dup ⟨lit "x", [], 0, .score, .success⟩⟩], fs := demoDisk, saved := false }

theorem demo_once : Once demoDisk := ⟨by decide +kernel, by decide +kernel⟩

theorem demo_found : Found demoState 1 0 ⟨1, 0, .job demoJob⟩ ∧ Found demoState 2 1 ⟨2, 0, .job demoBackup⟩ :=
  ⟨⟨by decide +kernel, by decide +kernel⟩, ⟨by decide +kernel, by decide +kernel⟩⟩

example : destOf demoConfig 1 demoJob = demoJob.dir ∧ destOf demoConfig 2 demoBackup = demoBackup.dir ∧ ¬ Failed demoJob := by unfold Failed; decide +kernel

/-- The record of the duplicate is deleted, and with it the film. -/
theorem film_lost : (editList demoConfig (.delete true) [2] demoState).1.fs =
    [([lit "d"], .dir), ([lit "d", lit "b"], .dir), ([lit "d", lit "b", lit "book"], .file), ([lit "n"], .dir), ([lit "n", lit "a"], .file)] := by
  decide +kernel

/-- The record of the good download is deleted: only the nzb-files go. -/
example : (editList demoConfig (.delete true) [1] demoState).1.fs = demoDisk.take 6 := by decide +kernel

theorem merged_refused : (∀ n ∈ names demoJob.queued, fileExists demoState.fs n = true) ∧ ¬ Available demoConfig demoState demoJob ∧
    editList demoConfig .redownload [1] demoState = ({ demoState with saved := true }, true) := by
  have h : ¬ Available demoConfig demoState demoJob := by unfold Available; decide +kernel
  exact ⟨by decide +kernel, h, again_refused demoConfig 1 0 _ demoJob demoState demo_found.1 rfl rfl h⟩

example : Available demoConfig demoState demoBackup := by unfold Available; decide +kernel

/-- Renamed to `.` and downloaded again: all downloads are gone. -/
theorem dot_witness :
    (editList demoConfig .redownload [2] (editList demoConfig (.setName (lit ".")) [2] demoState).1).1.fs =
    [([lit "d"], .dir), ([lit "n"], .dir), ([lit "n", lit "a"], .file), ([lit "n", lit "b"], .file)] := by
  decide +kernel

example : dirExists demoState.fs demoConfig.destDir = true ∧ ¬ place demoBackup.dir <+: place demoConfig.destDir ∧ place demoConfig.destDir ≠ [] := by
  decide +kernel

/-- The category of two entries: of the download it is changed, of the record it can't be. The result is that of the last one; `false` also
means that the change is not saved. -/
theorem change_not_saved :
    let r := editList demoConfig (.setCategory (lit "tv")) [1, 3] demoState
    r.2 = false ∧ r.1.saved = false ∧ r.1.hist[0]? = some ⟨1, 0, .job { demoJob with category := lit "tv" }⟩ ∧
    (editList demoConfig (.setCategory (lit "tv")) [3, 1] demoState).2 = true := by
  decide +kernel

end Verif.HistEdit
